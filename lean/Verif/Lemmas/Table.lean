import Verif.Model.Blocks
import Verif.Spec.Tree

/-!
# Facts about building and reading tables
-/

namespace Vw

namespace Table

theorem lookupCell_filter {m : List (CellPos × Located Cell)} {p q : CellPos} (h : q ≠ p) :
    lookupCell (m.filter (fun x => x.1 ≠ p)) q = lookupCell m q := by
  induction m with
  | nil => rfl
  | cons e m ih =>
    obtain ⟨k, v⟩ := e
    by_cases hk : k = p
    · subst hk
      have : ¬ k = q := fun e => h e.symm
      simp only [ne_eq, not_true_eq_false, decide_false, Bool.false_eq_true, not_false_eq_true,
        List.filter_cons_of_neg, lookupCell, if_neg this]
      simpa using ih
    · simp only [ne_eq, hk, not_false_eq_true, decide_true, List.filter_cons_of_pos, lookupCell]
      split
      · rfl
      · simpa using ih

/-- Inserting a cell. -/
abbrev ins (m : List (CellPos × Located Cell)) (e : CellPos × Located Cell) :
    List (CellPos × Located Cell) := e :: m.filter (fun x => x.1 ≠ e.1)

theorem lookup_ins (m : List (CellPos × Located Cell)) (e : CellPos × Located Cell) (q : CellPos) :
    lookupCell (ins m e) q = if e.1 = q then some e.2 else lookupCell m q := by
  obtain ⟨k, v⟩ := e
  simp only [lookupCell]
  split
  · rfl
  · rename_i h
    exact lookupCell_filter (fun e => h e.symm)

theorem lookup_fold_none {cells m : List (CellPos × Located Cell)} {q : CellPos}
    (h : ∀ v, (q, v) ∉ cells) : lookupCell (cells.foldl ins m) q = lookupCell m q := by
  induction cells generalizing m with
  | nil => rfl
  | cons e cells ih =>
    rw [List.foldl_cons, ih (fun v hv => h v (by simp [hv])), lookup_ins, if_neg]
    intro he
    apply h e.2
    rw [← he]
    simp

theorem lookup_fold_some {cells m : List (CellPos × Located Cell)} {q : CellPos} {v : Located Cell}
    (hu : ∀ v', (q, v') ∈ cells → v' = v) (h : (q, v) ∈ cells ∨ lookupCell m q = some v) :
    lookupCell (cells.foldl ins m) q = some v := by
  induction cells generalizing m with
  | nil => simpa using h
  | cons e cells ih =>
    rw [List.foldl_cons]
    refine ih (fun v' hv' => hu v' (by simp [hv'])) ?_
    rw [lookup_ins]
    by_cases he : e.1 = q
    · right
      rw [if_pos he, hu e.2 (by rw [← he]; simp)]
    · rw [if_neg he]
      rcases h with h | h
      · rcases List.mem_cons.1 h with h | h
        · exact absurd (by rw [← h]) he
        · exact .inl h
      · exact .inr h

theorem mem_rowCells {i col : Nat} {cs : List (Located Cell)} {p : CellPos} {v : Located Cell} :
    (p, v) ∈ rowCells i col cs ↔ p.row = i ∧ ∃ c, p.col = col + c ∧ cs[c]? = some v := by
  induction cs generalizing col with
  | nil => simp [rowCells]
  | cons x cs ih =>
    simp only [rowCells, List.mem_cons, Prod.mk.injEq, ih]
    constructor
    · rintro (⟨rfl, rfl⟩ | ⟨h1, c, h2, h3⟩)
      · exact ⟨rfl, 0, rfl, rfl⟩
      · exact ⟨h1, c + 1, by omega, by simpa using h3⟩
    · rintro ⟨h1, c, h2, h3⟩
      cases c with
      | zero =>
        left
        refine ⟨?_, by simpa using h3.symm⟩
        cases p
        simp_all
      | succ c => exact .inr ⟨h1, c, by omega, by simpa using h3⟩

theorem mem_tableCells {i : Nat} {rows : List (List (Located Cell))} {p : CellPos}
    {v : Located Cell} :
    (p, v) ∈ tableCells i rows ↔ ∃ r row, p.row = i + r ∧ rows[r]? = some row ∧
      row[p.col]? = some v := by
  induction rows generalizing i with
  | nil => simp [tableCells]
  | cons x rows ih =>
    simp only [tableCells, List.mem_append, mem_rowCells, ih]
    constructor
    · rintro (⟨h1, c, h2, h3⟩ | ⟨r, row, h1, h2, h3⟩)
      · have : p.col = c := by omega
        subst this
        exact ⟨0, x, by omega, rfl, h3⟩
      · exact ⟨r + 1, row, by omega, by simpa using h2, h3⟩
    · rintro ⟨r, row, h1, h2, h3⟩
      cases r with
      | zero =>
        left
        have : x = row := by simpa using h2
        subst this
        exact ⟨by omega, p.col, by omega, h3⟩
      | succ r => exact .inr ⟨r, row, by omega, by simpa using h2, h3⟩

theorem getCell_new (rows : List (List (Located Cell))) (centered : Bool) (r c : Nat) :
    (Table.new (tableCells 0 rows) centered).getCell r c = (rows[r]?).bind (·[c]?) := by
  show lookupCell (collect (tableCells 0 rows)) ⟨r, c⟩ = _
  have e : collect (tableCells 0 rows) = (tableCells 0 rows).foldl ins [] := rfl
  rw [e]
  cases hv : (rows[r]?).bind (·[c]?) with
  | none =>
    rw [lookup_fold_none]
    · rfl
    · intro v hm
      obtain ⟨r', row, h1, h2, h3⟩ := mem_tableCells.1 hm
      have : r = r' := by simp only at h1; omega
      subst this
      rw [h2] at hv
      simp only [Option.bind_some] at hv
      rw [hv] at h3
      cases h3
  | some v =>
    obtain ⟨row, hr, hc⟩ := Option.bind_eq_some_iff.1 hv
    refine lookup_fold_some ?_ (.inl (mem_tableCells.2 ⟨r, row, by simp, hr, hc⟩))
    intro v' hm
    obtain ⟨r', row', h1, h2, h3⟩ := mem_tableCells.1 hm
    have : r = r' := by simp only at h1; omega
    subst this
    rw [hr] at h2
    cases h2
    rw [hc] at h3
    exact (Option.some.inj h3).symm

/-! ## Counts -/

theorem mem_filter_ins {m : List (CellPos × Located Cell)} {e x : CellPos × Located Cell} :
    x.1 ∈ (ins m e).map (·.1) ↔ x.1 = e.1 ∨ x.1 ∈ m.map (·.1) := by
  simp only [ins, List.map_cons, List.mem_cons, List.mem_map, List.mem_filter, ne_eq,
    decide_not, Bool.not_eq_eq_eq_not, Bool.not_true, decide_eq_false_iff_not]
  constructor
  · rintro (h | ⟨a, ⟨h1, _⟩, h2⟩)
    · exact .inl h
    · exact .inr ⟨a, h1, h2⟩
  · rintro (h | ⟨a, h1, h2⟩)
    · exact .inl h
    · by_cases hx : a.1 = e.1
      · exact .inl (h2 ▸ hx)
      · exact .inr ⟨a, ⟨h1, hx⟩, h2⟩

theorem keys_ins {m : List (CellPos × Located Cell)} {e : CellPos × Located Cell} {p : CellPos} :
    p ∈ (ins m e).map (·.1) ↔ p = e.1 ∨ p ∈ m.map (·.1) :=
  mem_filter_ins (x := (p, e.2))

theorem keys_fold {cells m : List (CellPos × Located Cell)} {p : CellPos} :
    p ∈ (cells.foldl ins m).map (·.1) ↔ p ∈ cells.map (·.1) ∨ p ∈ m.map (·.1) := by
  induction cells generalizing m with
  | nil => simp
  | cons e cells ih =>
    rw [List.foldl_cons, ih, keys_ins]
    simp only [List.map_cons, List.mem_cons]
    constructor
    · rintro (h | h | h)
      · exact .inl (.inr h)
      · exact .inl (.inl h)
      · exact .inr h
    · rintro ((h | h) | h)
      · exact .inr (.inl h)
      · exact .inl h
      · exact .inr (.inr h)

theorem mem_keys {cells : List (CellPos × Located Cell)} {p : CellPos} :
    p ∈ (collect cells).map (·.1) ↔ p ∈ cells.map (·.1) := by
  show p ∈ (cells.foldl ins []).map (·.1) ↔ _
  rw [keys_fold]; simp

theorem foldl_max_le {α} (f : α → Nat) (l : List α) (acc b : Nat) :
    l.foldl (fun acc p => max acc (f p)) acc ≤ b ↔ acc ≤ b ∧ ∀ p ∈ l, f p ≤ b := by
  induction l generalizing acc with
  | nil => simp
  | cons x l ih =>
    rw [List.foldl_cons, ih]
    simp only [List.mem_cons, forall_eq_or_imp, Nat.max_le, and_assoc]

theorem mem_keys_tableCells {rows : List (List (Located Cell))} {p : CellPos} :
    p ∈ (collect (tableCells 0 rows)).map (·.1) ↔
      ∃ row, rows[p.row]? = some row ∧ p.col < row.length := by
  rw [mem_keys, List.mem_map]
  constructor
  · rintro ⟨⟨q, v⟩, hm, rfl⟩
    obtain ⟨r, row, h1, h2, h3⟩ := mem_tableCells.1 hm
    simp only [Nat.zero_add] at h1
    subst h1
    exact ⟨row, h2, (List.getElem?_eq_some_iff.1 h3).1⟩
  · rintro ⟨row, h1, h2⟩
    exact ⟨(p, row[p.col]), mem_tableCells.2 ⟨p.row, row, by simp, h1, by simp [h2]⟩, rfl⟩

theorem rowCnt_new {rows : List (List (Located Cell))} (hne : ∀ row ∈ rows, row ≠ [])
    (centered : Bool) : (Table.new (tableCells 0 rows) centered).rowCnt = rows.length := by
  show ((collect (tableCells 0 rows)).map (·.1)).foldl (fun acc p => max acc (p.row + 1)) 0 = _
  apply Nat.le_antisymm
  · rw [foldl_max_le]
    refine ⟨Nat.zero_le _, ?_⟩
    intro p hp
    obtain ⟨row, h1, _⟩ := mem_keys_tableCells.1 hp
    have := (List.getElem?_eq_some_iff.1 h1).1
    omega
  · cases hl : rows.length with
    | zero => omega
    | succ n =>
      have h1 : rows[n]? = some rows[n] := by simp [hl]
      have h2 := List.length_pos_iff.2 (hne _ (List.mem_of_getElem? h1))
      have hm := mem_keys_tableCells (rows := rows) (p := ⟨n, 0⟩) |>.2 ⟨_, h1, h2⟩
      exact ((foldl_max_le (fun p : CellPos => p.row + 1) _ 0 _).1 (Nat.le_refl _)).2 _ hm

theorem colCnt_new_le {rows : List (List (Located Cell))} (centered : Bool) (b : Nat) :
    (Table.new (tableCells 0 rows) centered).colCnt ≤ b ↔ ∀ row ∈ rows, row.length ≤ b := by
  show ((collect (tableCells 0 rows)).map (·.1)).foldl (fun acc p => max acc (p.col + 1)) 0 ≤ b ↔ _
  rw [foldl_max_le]
  simp only [Nat.zero_le, true_and]
  constructor
  · intro h row hr
    obtain ⟨r, hr⟩ := List.getElem?_of_mem hr
    cases hl : row.length with
    | zero => omega
    | succ n => exact h ⟨r, n⟩ (mem_keys_tableCells.2 ⟨row, hr, by simp [hl]⟩)
  · intro h p hp
    obtain ⟨row, h1, h2⟩ := mem_keys_tableCells.1 hp
    have := h row (List.mem_of_getElem? h1)
    omega

theorem filterMap_range {α} (l : List α) (n : Nat) (h : l.length ≤ n) :
    (List.range n).filterMap (fun i => l[i]?) = l := by
  induction n generalizing l with
  | zero => cases l with
    | nil => rfl
    | cons x l => simp at h
  | succ n ih =>
    cases l with
    | nil => simp
    | cons x l =>
      rw [List.range_succ_eq_map]
      simp only [List.filterMap_cons, List.getElem?_cons_zero, List.filterMap_map,
        List.cons.injEq, true_and]
      simpa [Function.comp_def] using ih l (by simpa using h)

theorem flatMap_range {α} (f : Nat → List α) (rows : List (List α))
    (h : ∀ r row, rows[r]? = some row → f r = row) :
    (List.range rows.length).flatMap f = rows.flatten := by
  induction rows generalizing f with
  | nil => rfl
  | cons x rows ih =>
    rw [List.length_cons, List.range_succ_eq_map]
    simp only [List.flatMap_cons, List.flatten_cons, List.flatMap_map]
    rw [h 0 x rfl, ih (fun i => f (i + 1)) (fun r row hr => h (r + 1) row (by simpa using hr))]

/-- The cells of a parsed table in row-major order are the cells in source
order. -/
theorem allCells_new {rows : List (List (Located Cell))} (hne : ∀ row ∈ rows, row ≠ [])
    (c c' : Bool) :
    Table.allCells { Table.new (tableCells 0 rows) c with centered := c' } = rows.flatten := by
  have e : Table.allCells { Table.new (tableCells 0 rows) c with centered := c' }
      = Table.allCells (Table.new (tableCells 0 rows) c) := rfl
  rw [e]
  unfold Table.allCells
  rw [rowCnt_new hne]
  refine flatMap_range _ rows ?_
  intro r row hr
  have : ∀ i, (Table.new (tableCells 0 rows) c).getCell r i = row[i]? := by
    intro i; rw [getCell_new, hr]; rfl
  simp only [this]
  exact filterMap_range row _ ((colCnt_new_le c _).1 (Nat.le_refl _) row (List.mem_of_getElem? hr))

end Table
end Vw
