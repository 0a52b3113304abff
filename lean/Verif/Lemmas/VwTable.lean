import Verif.Lemmas.VwBlocks
import Verif.Lemmas.TableIter

/-!
# Writing tables
-/

namespace Vw

open Table

theorem leading_length {α} (l : List (Option α)) : (leading l).length ≤ l.length := by
  induction l with
  | nil => simp [leading]
  | cons x l ih =>
    cases x with
    | none => simp [leading]
    | some x => simp only [leading, List.length_cons]; omega

theorem posRows_length (C r n : Nat) : (posRows C r n).length = n * C := by
  induction n generalizing r with
  | zero => simp [posRows]
  | succ n ih =>
    have := ih (r + 1)
    unfold posRows at this ⊢
    rw [List.range'_succ, List.flatMap_cons, List.length_append, this, Nat.succ_mul]
    simp; omega

theorem fixedOf_eq {L : OutLib} {cfg : VwCfg} {t : Table} (ht : t.Built) :
    fixedOf L cfg t = t.listed.filterMap fun e =>
      (cellStr L cfg e.2.inner).map fun s => (e.1, padCell cfg s) := by
  unfold fixedOf fixedCells
  rw [ht.cells_pos.drain]
  · simp only [cellText_eq]
  · unfold listed
    have h1 := leading_length ((posRows t.colCnt 0 t.rowCnt).map fun p =>
      (t.getCell p.row p.col).map fun x => (p, x))
    rw [List.length_map, posRows_length] at h1
    exact Nat.lt_succ_of_le h1

theorem mem_fixed {L : OutLib} {cfg : VwCfg} {t : Table} (ht : t.Built) {p : CellPos} {s : Str} :
    (p, s) ∈ fixedOf L cfg t ↔ ∃ x u, t.Reached p x ∧ cellStr L cfg x.inner = some u ∧
      s = padCell cfg u := by
  rw [fixedOf_eq ht, List.mem_filterMap]
  constructor
  · rintro ⟨⟨q, x⟩, h1, h2⟩
    simp only [Option.map_eq_some_iff, Prod.mk.injEq] at h2
    obtain ⟨u, h2, rfl, rfl⟩ := h2
    exact ⟨x, u, (mem_listed ht).1 h1, h2, rfl⟩
  · rintro ⟨x, u, h1, h2, rfl⟩
    exact ⟨(p, x), (mem_listed ht).2 h1, by simp [h2]⟩

theorem fixed_keys {L : OutLib} {cfg : VwCfg} {t : Table} (ht : t.Built) :
    ((fixedOf L cfg t).map (·.1)).Pairwise CellPos.Before := by
  rw [fixedOf_eq ht, List.map_filterMap]
  have h := listed_sorted t
  have e : (t.listed.filterMap fun e => Option.map (·.1)
      ((cellStr L cfg e.2.inner).map fun s => (e.1, padCell cfg s))).Sublist (t.listed.map (·.1)) := by
    generalize t.listed = l
    induction l with
    | nil => simp
    | cons e l ih =>
      rw [List.filterMap_cons, List.map_cons]
      cases cellStr L cfg e.2.inner with
      | none => exact ih.trans (List.sublist_cons_self _ _)
      | some u => exact ih.cons_cons _
  exact h.sublist e

theorem lookupFixed_mem {fx : List (CellPos × Str)} {p : CellPos} {s : Str}
    (h : lookupFixed fx p = some s) : (p, s) ∈ fx := by
  induction fx with
  | nil => cases h
  | cons e fx ih =>
    obtain ⟨k, v⟩ := e
    simp only [lookupFixed] at h
    split at h
    · next hk => cases h; subst hk; simp
    · exact List.mem_cons_of_mem _ (ih h)

theorem lookupFixed_of_mem {fx : List (CellPos × Str)} (hn : (fx.map (·.1)).Pairwise CellPos.Before)
    {p : CellPos} {s : Str} (h : (p, s) ∈ fx) : lookupFixed fx p = some s := by
  induction fx with
  | nil => cases h
  | cons e fx ih =>
    obtain ⟨k, v⟩ := e
    rw [List.map_cons, List.pairwise_cons] at hn
    simp only [lookupFixed]
    rcases List.mem_cons.1 h with h | h
    · cases h; rw [if_pos rfl]
    · rw [if_neg, ih hn.2 h]
      rintro rfl
      exact Before.irrefl (hn.1 k (List.mem_map.2 ⟨_, h, rfl⟩))

theorem lookup_reached {L : OutLib} {cfg : VwCfg} {t : Table} (ht : t.Built) {p : CellPos}
    {x : Located Cell} {u : Str} (h : t.Reached p x) (hu : cellStr L cfg x.inner = some u) :
    lookupFixed (fixedOf L cfg t) p = some (padCell cfg u) :=
  lookupFixed_of_mem (fixed_keys ht) ((mem_fixed ht).2 ⟨x, u, h, hu, rfl⟩)

theorem lookup_align {L : OutLib} {cfg : VwCfg} {t : Table} (ht : t.Built) {r c : Nat}
    {a : Align} {reg : Region} (h : t.getCell r c = some ⟨.align a, reg⟩) :
    lookupFixed (fixedOf L cfg t) ⟨r, c⟩ = none := by
  cases hl : lookupFixed (fixedOf L cfg t) ⟨r, c⟩ with
  | none => rfl
  | some s =>
    obtain ⟨x, u, h1, h2, -⟩ := (mem_fixed ht).1 (lookupFixed_mem hl)
    rw [h1.1] at h
    cases h
    simp [cellStr] at h2

/-! ## Widths -/

theorem sizeFold_spec (col : Nat) (fx : List (CellPos × Str)) (acc : Option Nat) :
    (fx.foldl (sizeStep col) acc = none ↔ acc = none ∧ ∀ e ∈ fx, e.1.col ≠ col) ∧
    ∀ n, fx.foldl (sizeStep col) acc = some n → (∀ m, acc = some m → m ≤ n) ∧
      ∀ e ∈ fx, e.1.col = col → e.2.length ≤ n := by
  induction fx generalizing acc with
  | nil =>
    refine ⟨by simp, fun n hn => ⟨fun m hm => ?_, by simp⟩⟩
    rw [List.foldl_nil, hm] at hn
    cases hn; exact Nat.le_refl _
  | cons e fx ih =>
    rw [List.foldl_cons]
    obtain ⟨i1, i2⟩ := ih (sizeStep col acc e)
    have key : (sizeStep col acc e = none ↔ acc = none ∧ e.1.col ≠ col) ∧
        ∀ k, sizeStep col acc e = some k → (∀ m, acc = some m → m ≤ k) ∧
          (e.1.col = col → e.2.length ≤ k) := by
      unfold sizeStep
      split
      · next hc =>
        cases acc with
        | none => simp [hc]
        | some m =>
          dsimp only
          split
          · simp [hc]; omega
          · simp [hc]; omega
      · next hc =>
        refine ⟨by simp [hc], fun k hk => ⟨fun m hm => ?_, fun h => absurd h hc⟩⟩
        rw [hm] at hk; cases hk; exact Nat.le_refl _
    refine ⟨?_, ?_⟩
    · rw [i1, key.1]
      constructor
      · rintro ⟨⟨h1, h2⟩, h3⟩
        refine ⟨h1, fun e' he' => ?_⟩
        rcases List.mem_cons.1 he' with rfl | he'
        · exact h2
        · exact h3 _ he'
      · rintro ⟨h1, h2⟩
        exact ⟨⟨h1, h2 e (by simp)⟩, fun e he => h2 e (by simp [he])⟩
    · intro n hn
      obtain ⟨j1, j2⟩ := i2 n hn
      have hk : ∃ k, sizeStep col acc e = some k ∨ sizeStep col acc e = none := by
        cases sizeStep col acc e with
        | none => exact ⟨0, .inr rfl⟩
        | some k => exact ⟨k, .inl rfl⟩
      obtain ⟨k, hk | hk⟩ := hk
      · have := j1 k hk
        obtain ⟨k1, k2⟩ := key.2 k hk
        refine ⟨fun m hm => Nat.le_trans (k1 m hm) this, ?_⟩
        intro e' he'
        rcases List.mem_cons.1 he' with rfl | he'
        · intro hc; exact Nat.le_trans (k2 hc) this
        · exact j2 e' he'
      · obtain ⟨h1, h2⟩ := key.1.1 hk
        refine ⟨fun m hm => absurd (h1.symm.trans hm) (by simp), ?_⟩
        intro e' he'
        rcases List.mem_cons.1 he' with rfl | he'
        · intro hc; exact absurd hc h2
        · exact j2 e' he'

theorem columnWidth_none {t : Table} {fx : List (CellPos × Str)} {c : Nat}
    (h : ∀ e ∈ fx, e.1.col ≠ c) : columnWidth t fx c = 0 := by
  unfold columnWidth columnSize
  rw [(sizeFold_spec c fx none).1.2 ⟨rfl, h⟩]

theorem columnWidth_some {t : Table} {fx : List (CellPos × Str)} {c : Nat} {e : CellPos × Str}
    (h : e ∈ fx) (hc : e.1.col = c) :
    minAlign t c ≤ columnWidth t fx c ∧ e.2.length ≤ columnWidth t fx c := by
  unfold columnWidth
  cases hn : columnSize fx c with
  | none => exact absurd hc (((sizeFold_spec c fx none).1.1 hn).2 e h)
  | some n =>
    have := ((sizeFold_spec c fx none).2 n hn).2 e h hc
    dsimp only
    split <;> omega

theorem foldl_max_ge (l : List Nat) (acc : Nat) : acc ≤ l.foldl max acc ∧ ∀ x ∈ l, x ≤ l.foldl max acc := by
  induction l generalizing acc with
  | nil => simp
  | cons y l ih =>
    rw [List.foldl_cons]
    obtain ⟨h1, h2⟩ := ih (max acc y)
    refine ⟨by omega, ?_⟩
    intro x hx
    rcases List.mem_cons.1 hx with rfl | hx
    · omega
    · exact h2 x hx

/-- An alignment cell without a gap above it counts for the width. -/
theorem minAlign_ge {t : Table} (ht : t.Built) {r c : Nat} {x : Located Cell}
    (h : t.getCell r c = some x) (hg : ∀ r', r' < r → (t.getCell r' c).isSome) :
    alignNeed x.inner ≤ minAlign t c := by
  obtain ⟨l, hy, hl, hf⟩ := ht.column c
  unfold minAlign
  rw [hy.drain _ (by omega)]
  have hr : r < l.length := by
    apply Classical.byContradiction
    intro hn
    have h0 := hf l.length (Nat.le_refl _)
    rw [List.getElem?_eq_none (Nat.le_refl _)] at h0
    by_cases he : l.length = r
    · rw [he, h] at h0; cases h0
    · have := hg l.length (by omega)
      rw [h0] at this; cases this
  have hm := hf r (by omega)
  rw [h] at hm
  exact (foldl_max_ge _ 0).2 _ (List.mem_map.2 ⟨x, List.mem_of_getElem? hm.symm, rfl⟩)

theorem foldl_max_mem (l : List Nat) : ∀ acc, l.foldl max acc = acc ∨ l.foldl max acc ∈ l := by
  induction l with
  | nil => intro acc; exact .inl rfl
  | cons x l ih =>
    intro acc
    rw [List.foldl_cons]
    rcases ih (max acc x) with h | h
    · rw [h]
      by_cases hx : x ≤ acc
      · left; omega
      · right; rw [show max acc x = x by omega]; simp
    · exact .inr (List.mem_cons_of_mem _ h)

theorem sizeFold_mem (col : Nat) (fx : List (CellPos × Str)) : ∀ (acc : Option Nat) (n : Nat), fx.foldl (sizeStep col) acc = some n →
    acc = some n ∨ ∃ e ∈ fx, e.1.col = col ∧ e.2.length = n := by
  induction fx with
  | nil => intro acc n h; exact .inl h
  | cons e fx ih =>
    intro acc n h
    rw [List.foldl_cons] at h
    rcases ih _ _ h with h | ⟨e', h1, h2⟩
    · unfold sizeStep at h
      split at h
      · next hc =>
        cases acc with
        | none => cases h; exact .inr ⟨e, by simp, hc, rfl⟩
        | some m =>
          simp only at h
          split at h
          · cases h; exact .inr ⟨e, by simp, hc, rfl⟩
          · exact .inl h
      · exact .inl h
    · exact .inr ⟨e', by simp [h1], h2⟩

theorem minAlign_lt {t : Table} (ht : t.Built) {c n : Nat} (hn : 0 < n) : minAlign t c < n ↔
    ∀ r x, t.getCell r c = some x → (∀ r', r' < r → (t.getCell r' c).isSome) → alignNeed x.inner < n := by
  constructor
  · intro h r x hx hg
    exact Nat.lt_of_le_of_lt (minAlign_ge ht hx hg) h
  · intro h
    unfold minAlign
    rcases foldl_max_mem (List.map (fun c => alignNeed c.inner) (drain (t.columnNext c) (t.rowCnt + 1) 0)) 0
      with e | e
    · rw [e]; exact hn
    · obtain ⟨x, hx, e⟩ := List.mem_map.1 e
      rw [← e]
      obtain ⟨l, hy, hl, hf⟩ := ht.column c
      rw [hy.drain _ (by omega)] at hx
      obtain ⟨j, hj, hjx⟩ := List.getElem_of_mem hx
      have hg := hf j (by omega)
      rw [List.getElem?_eq_getElem hj, hjx] at hg
      refine h j x hg fun r' hr => ?_
      rw [hf r' (by omega), List.getElem?_eq_getElem (by omega)]
      rfl

theorem columnWidth_lt {t : Table} {fx : List (CellPos × Str)} {c n : Nat} (hn : 0 < n) :
    columnWidth t fx c < n ↔ ∀ e ∈ fx, e.1.col = c → e.2.length < n ∧ minAlign t c < n := by
  constructor
  · intro h e he hc
    obtain ⟨h1, h2⟩ := columnWidth_some (t := t) he hc
    exact ⟨by omega, by omega⟩
  · intro h
    unfold columnWidth
    split
    · exact hn
    · next m hm =>
      rcases sizeFold_mem c _ none m hm with e | ⟨e, he, hec, rfl⟩
      · cases e
      · obtain ⟨h1, h2⟩ := h e he hec
        split <;> assumption

/-! ## Lines -/

theorem dividerText_length {n : Nat} {x : Option Cell} {s : Str} (h : dividerText n x = some s) :
    s.length = n := by
  unfold dividerText at h
  split at h
  · cases h; simp [rep]
  · split at h
    · cases h
    · cases h; simp [rep]; omega
  · split at h
    · cases h
    · cases h; simp [rep]; omega
  · split at h
    · cases h
    · cases h; simp [rep]; omega
  · cases h; simp [rep]

theorem bodyText_length {t : Table} {fx : List (CellPos × Str)} {r c : Nat} {s : Str}
    (h : bodyText t fx r c = some s) : s.length = columnWidth t fx c := by
  unfold bodyText at h
  split at h
  · next u hu =>
    cases h
    have := (columnWidth_some (t := t) (lookupFixed_mem hu) rfl).2
    simp only [List.length_append, rep, List.length_replicate] at this ⊢
    omega
  · exact dividerText_length h

theorem cellsText_spec {t : Table} {fx : List (CellPos × Str)} {r : Nat} {ks : List Nat} {cs : List Str}
    (h : cellsText t fx r ks = some cs) :
    cs.map List.length = ks.map (columnWidth t fx) ∧
      ∀ (j k : Nat), ks[j]? = some k → ∃ s, cs[j]? = some s ∧ bodyText t fx r k = some s := by
  induction ks generalizing cs with
  | nil => simp only [cellsText, Option.some.injEq] at h; subst h; simp
  | cons k ks ih =>
    simp only [cellsText, Option.bind_eq_some_iff, Option.map_eq_some_iff] at h
    obtain ⟨x, h1, cs, h2, rfl⟩ := h
    obtain ⟨i1, i2⟩ := ih h2
    refine ⟨by simp [i1, bodyText_length h1], ?_⟩
    intro j k' hj
    cases j with
    | zero => simp at hj; subst hj; exact ⟨x, by simp, h1⟩
    | succ j => simpa using i2 j k' (by simpa using hj)

theorem rowsText_spec {t : Table} {fx : List (CellPos × Str)} {rs : List Nat} {rows : List (List Str)}
    (h : rowsText t fx rs = some rows) : rows.length = rs.length ∧
      ∀ (j r : Nat), rs[j]? = some r → ∃ cs, rows[j]? = some cs ∧
        cellsText t fx r (List.range t.colCnt) = some cs := by
  induction rs generalizing rows with
  | nil => simp only [rowsText, Option.some.injEq] at h; subst h; simp
  | cons r rs ih =>
    simp only [rowsText, Option.bind_eq_some_iff, Option.map_eq_some_iff] at h
    obtain ⟨x, h1, cs, h2, rfl⟩ := h
    obtain ⟨i1, i2⟩ := ih h2
    refine ⟨by simp [i1], ?_⟩
    intro j k' hj
    cases j with
    | zero => simp at hj; subst hj; exact ⟨x, by simp, h1⟩
    | succ j => simpa using i2 j k' (by simpa using hj)

theorem cellsText_none {t : Table} {fx : List (CellPos × Str)} {r : Nat} {ks : List Nat} :
    cellsText t fx r ks = none ↔ ∃ k ∈ ks, bodyText t fx r k = none := by
  induction ks with
  | nil => simp [cellsText]
  | cons k ks ih =>
    simp only [cellsText, Option.bind_eq_none_iff, Option.map_eq_none_iff, List.mem_cons,
      exists_eq_or_imp]
    constructor
    · intro h
      cases hb : bodyText t fx r k with
      | none => exact .inl rfl
      | some x => exact .inr (ih.1 (h x hb))
    · rintro (h | h) x hx
      · rw [h] at hx; cases hx
      · exact ih.2 h

theorem rowsText_none {t : Table} {fx : List (CellPos × Str)} {rs : List Nat} :
    rowsText t fx rs = none ↔ ∃ r ∈ rs, ∃ k < t.colCnt, bodyText t fx r k = none := by
  induction rs with
  | nil => simp [rowsText]
  | cons r rs ih =>
    simp only [rowsText, Option.bind_eq_none_iff, Option.map_eq_none_iff, List.mem_cons,
      exists_eq_or_imp]
    have hr : cellsText t fx r (List.range t.colCnt) = none ↔ ∃ k < t.colCnt, bodyText t fx r k = none := by
      rw [cellsText_none]; simp
    constructor
    · intro h
      cases hb : cellsText t fx r (List.range t.colCnt) with
      | none => exact .inl (hr.1 hb)
      | some x => exact .inr (ih.1 (h x hb))
    · rintro (h | h) x hx
      · rw [hr.2 h] at hx; cases hx
      · exact ih.2 h

theorem bodyText_none {t : Table} {fx : List (CellPos × Str)} {r c : Nat} :
    bodyText t fx r c = none ↔ lookupFixed fx ⟨r, c⟩ = none ∧ ∃ a reg,
      t.getCell r c = some ⟨.align a, reg⟩ ∧
      (((a = .left ∨ a = .right) ∧ columnWidth t fx c < 1) ∨ (a = .center ∧ columnWidth t fx c < 2)) := by
  unfold bodyText
  cases lookupFixed fx ⟨r, c⟩ with
  | some s => simp
  | none =>
    simp only [true_and]
    cases hg : t.getCell r c with
    | none => simp [dividerText]
    | some x =>
      obtain ⟨x, reg⟩ := x
      cases x with
      | content _ => simp [dividerText]
      | span _ => simp [dividerText]
      | align a => cases a <;> simp [dividerText]

/-! ## Cell texts -/

theorem padCell_spec (cfg : VwCfg) (u : Str) : ∃ a b, padCell cfg u = a ++ (u ++ b) ∧ Spaces a ∧ Spaces b := by
  have s0 : Spaces [] := by intro b hb; cases hb
  have s1 : Spaces b!" " := by intro b hb; simpa using hb
  unfold padCell
  split
  · exact ⟨b!" ", b!" ", by simp, s1, s1⟩
  · exact ⟨b!" ", [], by simp, s1, s0⟩
  · exact ⟨[], b!" ", by simp, s0, s1⟩
  · next h => exact ⟨b!" ", [], by simp at h; simp [h], s1, s0⟩
  · exact ⟨[], [], by simp, s0, s0⟩

theorem rep_spaces (n : Nat) : Spaces (rep c!" " n) := by
  intro b hb
  exact (List.mem_replicate.1 hb).2

theorem Spaces.append {a b : Str} (h1 : Spaces a) (h2 : Spaces b) : Spaces (a ++ b) := by
  intro x hx
  rcases List.mem_append.1 hx with h | h
  · exact h1 x h
  · exact h2 x h

end Vw
