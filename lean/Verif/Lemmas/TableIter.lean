import Verif.Model.TableIter
import Verif.Lemmas.Table
import Verif.Spec.Tables

/-!
# Facts about table iterators
-/

namespace Vw

/-! ## Iteration in general -/

theorem Yields.drain {σ α} {next : σ → Option α × σ} {s : σ} {l : List α} (h : Yields next s l)
    (n : Nat) (hn : l.length < n) : Vw.drain next n s = l := by
  induction h generalizing n with
  | @done s h =>
    cases n with
    | zero => simp at hn
    | succ n =>
      unfold Vw.drain
      cases hs : next s with
      | mk a b => rw [hs] at h; simp only at h; subst h; rfl
  | more h _ ih =>
    cases n with
    | zero => simp at hn
    | succ n =>
      unfold Vw.drain
      rw [h]
      simp only [List.cons.injEq, true_and]
      exact ih n (by simpa using hn)

theorem Yields.unique {σ α} {next : σ → Option α × σ} {s : σ} {l l' : List α} (h : Yields next s l)
    (h' : Yields next s l') : l = l' := by
  have h1 := h.drain (max l.length l'.length + 1) (by omega)
  have h2 := h'.drain (max l.length l'.length + 1) (by omega)
  exact h1.symm.trans h2

/-- An iterator over an index. -/
def indexNext {α} (f : Nat → Option α) (i : Nat) : Option α × Nat :=
  match f i with
  | some x => (some x, i + 1)
  | none => (none, i)

theorem indexNext_yields {α} {f : Nat → Option α} {l : List α} {i : Nat}
    (h : ∀ j, j ≤ l.length → f (i + j) = l[j]?) : Yields (indexNext f) i l := by
  induction l generalizing i with
  | nil =>
    have := h 0 (by simp)
    refine .done ?_
    unfold indexNext
    simp only [Nat.add_zero, List.getElem?_nil] at this
    rw [this]
  | cons x l ih =>
    have := h 0 (by simp)
    refine .more (s' := i + 1) ?_ (ih ?_)
    · unfold indexNext
      simp only [Nat.add_zero, List.getElem?_cons_zero] at this
      rw [this]
    · intro j hj
      have := h (j + 1) (by simpa using hj)
      rw [show i + 1 + j = i + (j + 1) by omega, this]
      rfl

/-- The items before the first gap. -/
theorem index_prefix {α} (f : Nat → Option α) (n : Nat) (i : Nat) (hn : f (i + n) = none) :
    ∃ l : List α, l.length ≤ n ∧ ∀ j, j ≤ l.length → f (i + j) = l[j]? := by
  induction n generalizing i with
  | zero => exact ⟨[], by simp, by intro j hj; have : j = 0 := by simpa using hj
                                   subst this; simpa using hn⟩
  | succ n ih =>
    cases hf : f i with
    | none => exact ⟨[], by simp, by intro j hj; have : j = 0 := by simpa using hj
                                     subst this; simpa using hf⟩
    | some x =>
      obtain ⟨l, h1, h2⟩ := ih (i + 1) (by rw [← hn]; congr 1; omega)
      refine ⟨x :: l, by simpa using h1, ?_⟩
      intro j hj
      cases j with
      | zero => simpa using hf
      | succ j =>
        rw [show i + (j + 1) = i + 1 + j by omega, h2 j (by simpa using hj)]
        rfl

theorem upTo_yields {n : Nat} {next : Nat → Option Nat × Nat}
    (h : ∀ i, next i = if i < n then (some i, i + 1) else (none, i)) (m i : Nat) (hi : i + m = n) :
    Yields next i (List.range' i m) := by
  induction m generalizing i with
  | zero => exact .done (by rw [h, if_neg (by omega)])
  | succ m ih =>
    rw [List.range'_succ]
    exact .more (by rw [h, if_pos (by omega)]) (ih (i + 1) (by omega))

namespace Table

/-! ## Tables made by the constructor -/

theorem lookupCell_mem {m : List (CellPos × Located Cell)} {p : CellPos} {x : Located Cell}
    (h : lookupCell m p = some x) : p ∈ m.map (·.1) := by
  induction m with
  | nil => cases h
  | cons e m ih =>
    obtain ⟨k, v⟩ := e
    unfold lookupCell at h
    split at h
    · rename_i hk; simp [hk]
    · exact List.mem_cons_of_mem _ (ih h)

theorem lookupCell_of_mem {m : List (CellPos × Located Cell)} {p : CellPos}
    (h : p ∈ m.map (·.1)) : ∃ x, lookupCell m p = some x := by
  induction m with
  | nil => cases h
  | cons e m ih =>
    obtain ⟨k, v⟩ := e
    unfold lookupCell
    by_cases hk : k = p
    · exact ⟨v, if_pos hk⟩
    · rw [if_neg hk]
      refine ih ?_
      simp only [List.map_cons, List.mem_cons] at h
      exact h.resolve_left (fun e => hk e.symm)

/-- Every cell lies inside the counts. -/
theorem Built.bound {t : Table} (h : t.Built) {r c : Nat} {x : Located Cell}
    (hx : t.getCell r c = some x) : r < t.rowCnt ∧ c < t.colCnt := by
  obtain ⟨cells, b, b', rfl⟩ := h
  have hm := lookupCell_mem (show lookupCell (collect cells) ⟨r, c⟩ = some x from hx)
  refine ⟨?_, ?_⟩
  · have := ((foldl_max_le (fun p : CellPos => p.row + 1) ((collect cells).map (·.1)) 0 _).1
      (Nat.le_refl _)).2 _ hm
    exact this
  · have := ((foldl_max_le (fun p : CellPos => p.col + 1) ((collect cells).map (·.1)) 0 _).1
      (Nat.le_refl _)).2 _ hm
    exact this

theorem Built.none {t : Table} (h : t.Built) {r c : Nat} (hx : t.rowCnt ≤ r ∨ t.colCnt ≤ c) :
    t.getCell r c = none := by
  cases hg : t.getCell r c with
  | none => rfl
  | some x => have := h.bound hg; omega

theorem foldl_max_attained {α} (f : α → Nat) (l : List α) (acc : Nat) :
    l.foldl (fun acc p => max acc (f p)) acc = acc ∨
      ∃ p ∈ l, f p = l.foldl (fun acc p => max acc (f p)) acc := by
  induction l generalizing acc with
  | nil => exact .inl rfl
  | cons x l ih =>
    rw [List.foldl_cons]
    rcases ih (max acc (f x)) with h | ⟨p, hp, h⟩
    · by_cases hx : f x ≤ acc
      · left; rw [h]; omega
      · right; exact ⟨x, by simp, by rw [h]; omega⟩
    · exact .inr ⟨p, by simp [hp], h⟩

/-- The counts are one more than the largest index of a cell. -/
theorem Built.attained {t : Table} (h : t.Built) :
    (0 < t.rowCnt → ∃ c x, t.getCell (t.rowCnt - 1) c = some x) ∧
    (0 < t.colCnt → ∃ r x, t.getCell r (t.colCnt - 1) = some x) := by
  obtain ⟨cells, b, b', rfl⟩ := h
  refine ⟨?_, ?_⟩
  · intro h0
    rcases foldl_max_attained (fun p : CellPos => p.row + 1) ((collect cells).map (·.1)) 0 with h | ⟨p, hp, h⟩
    · have : (Table.new cells b).rowCnt = 0 := h
      have h0 : 0 < (Table.new cells b).rowCnt := h0
      omega
    · obtain ⟨x, hx⟩ := lookupCell_of_mem hp
      refine ⟨p.col, x, ?_⟩
      have : (Table.new cells b).rowCnt - 1 = p.row := by
        show List.foldl _ 0 _ - 1 = _
        rw [← h]; omega
      show lookupCell (collect cells) ⟨(Table.new cells b).rowCnt - 1, p.col⟩ = _
      rw [this]; exact hx
  · intro h0
    rcases foldl_max_attained (fun p : CellPos => p.col + 1) ((collect cells).map (·.1)) 0 with h | ⟨p, hp, h⟩
    · have : (Table.new cells b).colCnt = 0 := h
      have h0 : 0 < (Table.new cells b).colCnt := h0
      omega
    · obtain ⟨x, hx⟩ := lookupCell_of_mem hp
      refine ⟨p.row, x, ?_⟩
      have : (Table.new cells b).colCnt - 1 = p.col := by
        show List.foldl _ 0 _ - 1 = _
        rw [← h]; omega
      show lookupCell (collect cells) ⟨p.row, (Table.new cells b).colCnt - 1⟩ = _
      rw [this]; exact hx

/-! ## Rows and columns -/

theorem rowNext_eq (t : Table) (r : Nat) : t.rowNext r = indexNext (t.getCell r) := by
  funext c
  unfold rowNext indexNext
  cases t.getCell r c <;> rfl

theorem columnNext_eq (t : Table) (c : Nat) : t.columnNext c = indexNext (fun r => t.getCell r c) := by
  funext r
  unfold columnNext indexNext
  simp only
  cases t.getCell r c <;> rfl

theorem rowsNext_yields (t : Table) : Yields t.rowsNext 0 (List.range t.rowCnt) := by
  rw [List.range_eq_range']
  exact upTo_yields (n := t.rowCnt) (fun i => rfl) _ _ (by omega)

theorem columnsNext_yields (t : Table) : Yields t.columnsNext 0 (List.range t.colCnt) := by
  rw [List.range_eq_range']
  exact upTo_yields (n := t.colCnt) (fun i => rfl) _ _ (by omega)

theorem Built.row {t : Table} (h : t.Built) (r : Nat) :
    ∃ l, Yields (t.rowNext r) 0 l ∧ l.length ≤ t.colCnt ∧ ∀ j, j ≤ l.length → t.getCell r j = l[j]? := by
  obtain ⟨l, h1, h2⟩ := index_prefix (t.getCell r) t.colCnt 0 (h.none (.inr (by omega)))
  refine ⟨l, ?_, h1, by simpa using h2⟩
  rw [rowNext_eq]
  exact indexNext_yields h2

theorem Built.column {t : Table} (h : t.Built) (c : Nat) :
    ∃ l, Yields (t.columnNext c) 0 l ∧ l.length ≤ t.rowCnt ∧ ∀ j, j ≤ l.length → t.getCell j c = l[j]? := by
  obtain ⟨l, h1, h2⟩ := index_prefix (fun r => t.getCell r c) t.rowCnt 0 (h.none (.inl (by omega)))
  refine ⟨l, ?_, h1, by simpa using h2⟩
  rw [columnNext_eq]
  exact indexNext_yields h2

/-! ## Divider rows -/

theorem isDividerRow_iff {t : Table} {r : Nat} : t.isDividerRow r = true ↔ t.Divider r := by
  unfold isDividerRow Divider
  cases h : t.getCell r 0 with
  | none => simp
  | some x =>
    obtain ⟨x, reg⟩ := x
    cases x <;> simp [isAlign]

theorem dividerRowIndex_eq (t : Table) :
    t.dividerRowIndex = (List.range t.rowCnt).find? t.isDividerRow := by
  unfold dividerRowIndex
  rw [(rowsNext_yields t).drain _ (by simp)]

theorem dividerRowIndex_some {t : Table} {d : Nat} (h : t.dividerRowIndex = some d) :
    d < t.rowCnt ∧ t.Divider d ∧ ∀ r, r < d → ¬ t.Divider r := by
  rw [dividerRowIndex_eq, List.find?_range_eq_some] at h
  obtain ⟨h1, h2, h3⟩ := h
  refine ⟨by simpa using h2, isDividerRow_iff.1 h1, ?_⟩
  intro r hr hd
  have := h3 r hr
  rw [isDividerRow_iff.2 hd] at this
  cases this

theorem dividerRowIndex_none {t : Table} (h : t.dividerRowIndex = none) {r : Nat} (hr : r < t.rowCnt) :
    ¬ t.Divider r := by
  rw [dividerRowIndex_eq, List.find?_range_eq_none] at h
  intro hd
  have := h r hr
  rw [isDividerRow_iff.2 hd] at this
  cases this

theorem skipDividers_spec (t : Table) (stop fuel i : Nat) (hi : i ≤ stop) (hf : stop < i + fuel) :
    skipDividers t stop fuel i = (((List.range' i (stop - i)).find? fun r => !t.isDividerRow r),
      (((List.range' i (stop - i)).find? fun r => !t.isDividerRow r).map (· + 1)).getD stop) := by
  induction fuel generalizing i with
  | zero => omega
  | succ fuel ih =>
    unfold skipDividers
    split
    · rename_i hlt
      obtain ⟨k, hk⟩ : ∃ k, stop - i = k + 1 := ⟨stop - i - 1, by omega⟩
      rw [hk, List.range'_succ, List.find?_cons]
      cases hd : t.isDividerRow i with
      | true =>
        have : stop - (i + 1) = k := by omega
        simp only [↓reduceIte, Bool.not_true]
        rw [ih (i + 1) (by omega) (by omega), this]
      | false => simp
    · have e : stop - i = 0 := by omega
      have : i = stop := by omega
      simp [this]

theorem skip_yields {t : Table} {stop fuel : Nat} (hf : stop < fuel) :
    ∀ m i, i + m = stop → Yields (skipDividers t stop fuel) i
      ((List.range' i m).filter fun r => !t.isDividerRow r) := by
  intro m
  induction m with
  | zero =>
    intro i hi
    refine .done ?_
    rw [skipDividers_spec t stop fuel i (by omega) (by omega), show stop - i = 0 by omega]
    rfl
  | succ m ih =>
    intro i hi
    rw [List.range'_succ]
    cases hd : t.isDividerRow i with
    | false =>
      simp only [List.filter_cons, hd, Bool.not_false, ↓reduceIte]
      refine .more ?_ (ih (i + 1) (by omega))
      rw [skipDividers_spec t stop fuel i (by omega) (by omega), show stop - i = m + 1 by omega,
        List.range'_succ, List.find?_cons, hd]
      rfl
    | true =>
      simp only [List.filter_cons, hd, Bool.not_true, Bool.false_eq_true, ↓reduceIte]
      have hs : skipDividers t stop fuel i = skipDividers t stop fuel (i + 1) := by
        rw [skipDividers_spec t stop fuel i (by omega) (by omega), skipDividers_spec t stop fuel (i + 1) (by omega) (by omega),
          show stop - i = m + 1 by omega, show stop - (i + 1) = m by omega,
          List.range'_succ, List.find?_cons, hd]
        rfl
      have := ih (i + 1) (by omega)
      cases hl : (List.range' (i + 1) m).filter fun r => !t.isDividerRow r with
      | nil =>
        rw [hl] at this
        cases this with
        | done h => exact .done (hs ▸ h)
      | cons x l =>
        rw [hl] at this
        cases this with
        | more h1 h2 =>
          exact .more (hs.trans h1) h2

theorem header_yields (t : Table) : Yields t.headerNext 0 (List.range (t.dividerRowIndex.getD 0)) := by
  have h := skip_yields (t := t) (stop := t.dividerRowIndex.getD 0) (Nat.lt_succ_self _) _ 0
    (Nat.zero_add _)
  have e : ((List.range' 0 (t.dividerRowIndex.getD 0)).filter fun r => !t.isDividerRow r) =
      List.range (t.dividerRowIndex.getD 0) := by
    rw [List.range_eq_range', List.filter_eq_self]
    intro r hr
    have hr : r < t.dividerRowIndex.getD 0 := by simpa using hr
    cases hd : t.dividerRowIndex with
    | none => rw [hd] at hr; simp at hr
    | some d =>
      rw [hd] at hr
      have := (dividerRowIndex_some hd).2.2 r hr
      rw [← isDividerRow_iff] at this
      simpa using this
  rw [e] at h
  exact h

theorem bodyStart_le (t : Table) : t.bodyStart ≤ t.rowCnt := by
  unfold bodyStart
  split
  · rename_i d hd; exact (dividerRowIndex_some hd).1
  · omega

theorem body_yields (t : Table) : Yields t.bodyNext t.bodyStart
    ((List.range' t.bodyStart (t.rowCnt - t.bodyStart)).filter fun r => !t.isDividerRow r) := by
  have := bodyStart_le t
  exact skip_yields (Nat.lt_succ_self _) _ _ (by omega)

/-! ## Spans -/

theorem takeWhile_run {α} (p : α → Bool) (l : List α) :
    (∀ i x, i < (l.takeWhile p).length → l[i]? = some x → p x = true) ∧
    (∀ x, l[(l.takeWhile p).length]? = some x → p x = false) := by
  induction l with
  | nil => simp
  | cons y l ih =>
    rw [List.takeWhile_cons]
    cases hy : p y with
    | true =>
      simp only [↓reduceIte, List.length_cons, List.getElem?_cons_succ]
      refine ⟨?_, ih.2⟩
      intro i x hi hx
      cases i with
      | zero => simp only [List.getElem?_cons_zero, Option.some.injEq] at hx; rw [← hx]; exact hy
      | succ i => exact ih.1 i x (by omega) (by simpa using hx)
    | false => simp [hy]

/-- The count for the cells `f 0, f 1, ...` up to the first gap. -/
theorem spanCount_spec {g : Cell → Bool} {f : Nat → Option (Located Cell)} {l : List (Located Cell)}
    (h : ∀ j, j ≤ l.length → f j = l[j]?) (k : Nat) :
    ((∀ j, j < k → (f j).isSome) → (∃ x reg, f k = some ⟨.content x, reg⟩) →
      ∃ n, spanCount g (l.drop k) = n + 1 ∧
        (∀ i, i < n → ∃ x, f (k + 1 + i) = some x ∧ g x.inner = true) ∧
        ¬ ∃ x, f (k + 1 + n) = some x ∧ g x.inner = true) ∧
    ((∃ x reg, f k = some ⟨.content x, reg⟩) → (∃ j, j < k ∧ f j = none) → spanCount g (l.drop k) = 0) ∧
    ((¬ ∃ x reg, f k = some ⟨.content x, reg⟩) → spanCount g (l.drop k) = 0) := by
  refine ⟨?_, ?_, ?_⟩
  · rintro hb ⟨x, reg, hx⟩
    have hk : k < l.length := by
      apply Classical.byContradiction
      intro hk
      have h1 := h l.length (Nat.le_refl _)
      rw [List.getElem?_eq_none (Nat.le_refl _)] at h1
      by_cases he : l.length = k
      · rw [he, hx] at h1; cases h1
      · have := hb l.length (by omega)
        rw [h1] at this; cases this
    have hlk := h k (by omega)
    rw [hx, List.getElem?_eq_getElem hk] at hlk
    rw [List.drop_eq_getElem_cons hk, ← Option.some.inj hlk]
    refine ⟨_, by simp only [spanCount, isContent, ↓reduceIte]; rfl, ?_, ?_⟩
    · intro i hi
      have hlen : i < (l.drop (k + 1)).length := by
        have := (List.takeWhile_sublist (fun c : Located Cell => g c.inner) (l := l.drop (k + 1))).length_le
        omega
      have hg : (l.drop (k + 1))[i]? = some (l.drop (k + 1))[i] := List.getElem?_eq_getElem hlen
      refine ⟨_, ?_, (takeWhile_run _ (l.drop (k + 1))).1 i _ hi hg⟩
      rw [List.length_drop] at hlen
      rw [h _ (by omega), ← hg, List.getElem?_drop]
    · rintro ⟨y, hy, hgy⟩
      generalize hn : ((l.drop (k + 1)).takeWhile fun c => g c.inner).length = n at hy
      have hle : n ≤ (l.drop (k + 1)).length := by
        rw [← hn]; exact (List.takeWhile_sublist _).length_le
      rw [List.length_drop] at hle
      rw [h _ (by omega), ← List.getElem?_drop, ← hn] at hy
      have := (takeWhile_run (fun c : Located Cell => g c.inner) (l.drop (k + 1))).2 y hy
      rw [hgy] at this
      cases this
  · rintro _ ⟨j, hj, hn⟩
    have : l.length ≤ k := by
      apply Classical.byContradiction
      intro hk
      have := h j (by omega)
      rw [hn, List.getElem?_eq_getElem (by omega)] at this
      cases this
    rw [List.drop_eq_nil_of_le this]
    rfl
  · intro hc
    cases hd : l.drop k with
    | nil => rfl
    | cons y ys =>
      simp only [spanCount]
      rw [if_neg]
      intro hy
      apply hc
      have hk : k < l.length := by
        have := congrArg List.length hd
        simp only [List.length_drop, List.length_cons] at this
        omega
      have e := h k (by omega)
      have hy' : l[k]? = some y := by
        have := List.getElem?_drop (xs := l) (i := k) (j := 0)
        rw [hd] at this
        simpa using this.symm
      rw [hy'] at e
      obtain ⟨y, reg⟩ := y
      cases y with
      | content c => exact ⟨c, reg, e⟩
      | span _ => cases hy
      | align _ => cases hy

theorem isAbove_iff {x : Located Cell} : isAbove x.inner = true ↔ x = ⟨.span .fromAbove, x.region⟩ := by
  obtain ⟨x, reg⟩ := x
  cases x with
  | span s => cases s <;> simp [isAbove]
  | _ => simp [isAbove]

theorem isLeft_iff {x : Located Cell} : isLeft x.inner = true ↔ x = ⟨.span .fromLeft, x.region⟩ := by
  obtain ⟨x, reg⟩ := x
  cases x with
  | span s => cases s <;> simp [isLeft]
  | _ => simp [isLeft]

theorem aboveAt_iff {t : Table} {r c : Nat} :
    t.AboveAt r c ↔ ∃ x, t.getCell r c = some x ∧ isAbove x.inner = true := by
  constructor
  · rintro ⟨reg, h⟩; exact ⟨_, h, rfl⟩
  · rintro ⟨x, h, hx⟩; exact ⟨x.region, by rw [h, ← isAbove_iff.1 hx]⟩

theorem leftAt_iff {t : Table} {r c : Nat} :
    t.LeftAt r c ↔ ∃ x, t.getCell r c = some x ∧ isLeft x.inner = true := by
  constructor
  · rintro ⟨reg, h⟩; exact ⟨_, h, rfl⟩
  · rintro ⟨x, h, hx⟩; exact ⟨x.region, by rw [h, ← isLeft_iff.1 hx]⟩

/-! ## All cells -/

/-- The items before the first gap. -/
def leading {α} : List (Option α) → List α
  | some x :: xs => x :: leading xs
  | _ => []

/-- The positions of the rows from `r` on, `n` rows of `C` columns. -/
def posRows (C r n : Nat) : List CellPos :=
  (List.range' r n).flatMap fun r => (List.range' 0 C).map fun c => ⟨r, c⟩

theorem cells_from {σ α} {next : σ → Option α × σ} {item : CellPos → Option α}
    {St : σ → CellPos → Prop} {R C : Nat}
    (hstop : ∀ s, St s ⟨R, C⟩ → (next s).1 = none)
    (hnone : ∀ s p, St s p → item p = none → (next s).1 = none)
    (hsome : ∀ s p x, St s p → item p = some x → ∃ s', next s = (some x, s') ∧ St s' (cellsAdvance R C p)) :
    ∀ n r, r + n + 1 = R → ∀ m c s, c + m + 1 = C → St s ⟨r, c⟩ →
      Yields next s (leading (((List.range' c (m + 1)).map (fun c => (⟨r, c⟩ : CellPos)) ++
        posRows C (r + 1) n).map item)) := by
  intro n
  induction n with
  | zero =>
    intro r hr m
    induction m with
    | zero =>
      intro c s hc hs
      simp only [List.range'_succ, List.range'_zero, posRows, List.flatMap_nil, List.map_cons,
        List.map_nil, List.append_nil]
      cases hi : item ⟨r, c⟩ with
      | none => exact .done (hnone _ _ hs hi)
      | some x =>
        obtain ⟨s', h1, h2⟩ := hsome _ _ _ hs hi
        rw [cellsAdvance, if_neg (by simp only; omega), if_neg (by simp only; omega)] at h2
        exact .more h1 (.done (hstop _ h2))
    | succ m ih =>
      intro c s hc hs
      rw [List.range'_succ]
      simp only [List.map_cons, List.cons_append]
      cases hi : item ⟨r, c⟩ with
      | none => exact .done (hnone _ _ hs hi)
      | some x =>
        obtain ⟨s', h1, h2⟩ := hsome _ _ _ hs hi
        rw [cellsAdvance, if_pos (by simp only; omega)] at h2
        exact .more h1 (ih (c + 1) s' (by omega) h2)
  | succ n ihn =>
    intro r hr m
    induction m with
    | zero =>
      intro c s hc hs
      simp only [List.range'_succ, List.range'_zero, List.map_cons,
        List.map_nil, List.cons_append, List.nil_append]
      cases hi : item ⟨r, c⟩ with
      | none => exact .done (hnone _ _ hs hi)
      | some x =>
        obtain ⟨s', h1, h2⟩ := hsome _ _ _ hs hi
        rw [cellsAdvance, if_neg (by simp only; omega), if_pos (by simp only; omega)] at h2
        refine .more h1 ?_
        have := ihn (r + 1) (by omega) (C - 1) 0 s' (by omega) h2
        rw [show C - 1 + 1 = C by omega] at this
        unfold posRows
        rw [List.range'_succ, List.flatMap_cons]
        exact this
    | succ m ih =>
      intro c s hc hs
      rw [List.range'_succ]
      simp only [List.map_cons, List.cons_append]
      cases hi : item ⟨r, c⟩ with
      | none => exact .done (hnone _ _ hs hi)
      | some x =>
        obtain ⟨s', h1, h2⟩ := hsome _ _ _ hs hi
        rw [cellsAdvance, if_pos (by simp only; omega)] at h2
        exact .more h1 (ih (c + 1) s' (by omega) h2)

theorem cells_yields {σ α} {next : σ → Option α × σ} {item : CellPos → Option α}
    {St : σ → CellPos → Prop} {R C : Nat} (h0 : R = 0 ∨ C = 0 → item ⟨0, 0⟩ = none)
    (hstop : ∀ s, St s ⟨R, C⟩ → (next s).1 = none)
    (hnone : ∀ s p, St s p → item p = none → (next s).1 = none)
    (hsome : ∀ s p x, St s p → item p = some x → ∃ s', next s = (some x, s') ∧ St s' (cellsAdvance R C p))
    {s : σ} (hs : St s ⟨0, 0⟩) : Yields next s (leading ((posRows C 0 R).map item)) := by
  cases R with
  | zero => exact .done (hnone _ _ hs (h0 (.inl rfl)))
  | succ n =>
    cases C with
    | zero =>
      have : posRows 0 0 (n + 1) = [] := by simp [posRows]
      rw [this]
      exact .done (hnone _ _ hs (h0 (.inr rfl)))
    | succ m =>
      have := cells_from hstop hnone hsome n 0 (by omega) m 0 s (by omega) hs
      unfold posRows
      rw [List.range'_succ (s := 0) (n := n), List.flatMap_cons]
      exact this

theorem mem_posRows {C r n : Nat} {p : CellPos} :
    p ∈ posRows C r n ↔ (r ≤ p.row ∧ p.row < r + n) ∧ p.col < C := by
  obtain ⟨a, b⟩ := p
  simp [posRows, List.mem_flatMap, List.mem_range'_1]

theorem posRows_sorted (C r n : Nat) : (posRows C r n).Pairwise CellPos.Before := by
  induction n generalizing r with
  | zero => simp [posRows]
  | succ n ih =>
    unfold posRows
    rw [List.range'_succ, List.flatMap_cons, List.pairwise_append]
    refine ⟨?_, ih (r + 1), ?_⟩
    · rw [List.pairwise_map]
      exact List.Pairwise.imp (fun h => .inr ⟨rfl, h⟩) (List.pairwise_lt_range' (s := 0) (n := C))
    · intro p hp q hq
      have hq : q ∈ posRows C (r + 1) n := hq
      rw [mem_posRows] at hq
      obtain ⟨c, _, rfl⟩ := List.mem_map.1 hp
      exact .inl (by simp only; omega)

theorem Before.irrefl {p : CellPos} : ¬ p.Before p := by
  unfold CellPos.Before; omega

theorem Before.asymm {p q : CellPos} (h : p.Before q) : ¬ q.Before p := by
  unfold CellPos.Before at *; omega

theorem mem_leading {α} {item : CellPos → Option α} {ps : List CellPos}
    (hs : ps.Pairwise CellPos.Before) {p : CellPos} {x : α} :
    (p, x) ∈ leading (ps.map fun p => (item p).map fun x => (p, x)) ↔
      p ∈ ps ∧ item p = some x ∧ ∀ q ∈ ps, q.Before p → (item q).isSome := by
  induction ps with
  | nil => simp [leading]
  | cons y ps ih =>
    rw [List.pairwise_cons] at hs
    rw [List.map_cons]
    cases hi : item y with
    | none =>
      simp only [Option.map_none, leading, List.not_mem_nil, false_iff, not_and]
      intro hp hx hall
      rcases List.mem_cons.1 hp with rfl | hp
      · rw [hi] at hx; cases hx
      · have := hall y (by simp) (hs.1 p hp)
        rw [hi] at this; cases this
    | some z =>
      simp only [Option.map_some, leading, List.mem_cons, Prod.mk.injEq]
      rw [ih hs.2]
      constructor
      · rintro (⟨rfl, rfl⟩ | ⟨h1, h2, h3⟩)
        · refine ⟨.inl rfl, hi, ?_⟩
          rintro q (rfl | hq) hb
          · exact absurd hb Before.irrefl
          · exact absurd hb (Before.asymm (hs.1 q hq))
        · refine ⟨.inr h1, h2, ?_⟩
          rintro q (rfl | hq) hb
          · rw [hi]; rfl
          · exact h3 q hq hb
      · rintro ⟨rfl | h1, h2, h3⟩
        · left; rw [hi] at h2; exact ⟨rfl, (Option.some.inj h2).symm⟩
        · exact .inr ⟨h1, h2, fun q hq hb => h3 q (.inr hq) hb⟩

theorem leading_sorted {α} {item : CellPos → Option α} {ps : List CellPos}
    (hs : ps.Pairwise CellPos.Before) :
    ((leading (ps.map fun p => (item p).map fun x => (p, x))).map (·.1)).Pairwise CellPos.Before := by
  induction ps with
  | nil => simp [leading]
  | cons y ps ih =>
    rw [List.pairwise_cons] at hs
    rw [List.map_cons]
    cases hi : item y with
    | none => simp [leading]
    | some z =>
      simp only [Option.map_some, leading, List.map_cons, List.pairwise_cons]
      refine ⟨?_, ih hs.2⟩
      intro q hq
      obtain ⟨⟨q', x⟩, hm, rfl⟩ := List.mem_map.1 hq
      exact hs.1 _ ((mem_leading hs.2).1 hm).1

theorem leading_map_snd {α} (item : CellPos → Option α) (ps : List CellPos) :
    (leading (ps.map fun p => (item p).map fun x => (p, x))).map (·.2) = leading (ps.map item) := by
  induction ps with
  | nil => rfl
  | cons y ps ih =>
    rw [List.map_cons, List.map_cons]
    cases hi : item y with
    | none => rfl
    | some z => simp [leading, ih]

/-- The cells with their positions, up to the first gap in row-major order. -/
def listed (t : Table) : List (CellPos × Located Cell) :=
  leading ((posRows t.colCnt 0 t.rowCnt).map fun p => (t.getCell p.row p.col).map fun x => (p, x))

theorem Built.cells_pos {t : Table} (h : t.Built) :
    Yields (withPos id t.cellsNext) ⟨0, 0⟩ t.listed := by
  refine cells_yields (St := fun s p => s = p) (item := fun p => (t.getCell p.row p.col).map fun x => (p, x))
    ?_ ?_ ?_ ?_ rfl
  · intro h0
    simp only [Option.map_eq_none_iff]
    exact h.none (by omega)
  · rintro s rfl
    simp only [withPos, cellsNext, Option.map_eq_none_iff]
    exact h.none (.inl (Nat.le_refl _))
  · rintro s p rfl hi
    exact hi
  · rintro s p x rfl hi
    exact ⟨_, by simp only [withPos, cellsNext, id]; rw [hi], rfl⟩

theorem Built.cells_plain {t : Table} (h : t.Built) :
    Yields t.cellsNext ⟨0, 0⟩ (t.listed.map (·.2)) := by
  unfold listed
  rw [leading_map_snd (fun p => t.getCell p.row p.col)]
  refine cells_yields (St := fun s p => s = p) (item := fun p => t.getCell p.row p.col)
    ?_ ?_ ?_ ?_ rfl
  · intro h0
    exact h.none (by omega)
  · rintro s rfl
    exact h.none (.inl (Nat.le_refl _))
  · rintro s p rfl hi
    exact hi
  · rintro s p x rfl hi
    exact ⟨_, by simp only [cellsNext]; rw [hi], rfl⟩

theorem lookup_remove {m : List (CellPos × Located Cell)} {p q : CellPos} (h : q ≠ p) :
    lookupCell (removeCell m p) q = lookupCell m q := lookupCell_filter h

theorem before_advance {R C : Nat} {p q : CellPos} (h : (cellsAdvance R C p).Before q ∨ cellsAdvance R C p = q)
    (hp : p.row < R ∧ p.col < C) : p.Before q := by
  unfold cellsAdvance at h
  unfold CellPos.Before at *
  obtain ⟨a, b⟩ := p
  obtain ⟨c, d⟩ := q
  simp only at *
  split at h
  · rcases h with h | h
    · simp only at h; omega
    · cases h; omega
  · split at h
    · rcases h with h | h
      · simp only at h; omega
      · cases h; omega
    · rcases h with h | h
      · simp only at h; omega
      · cases h; omega

theorem Built.into_cells {t : Table} (h : t.Built) :
    Yields (intoCellsNext t.rowCnt t.colCnt) (t.cells, ⟨0, 0⟩) (t.listed.map (·.2)) := by
  unfold listed
  rw [leading_map_snd (fun p => t.getCell p.row p.col)]
  refine cells_yields (St := fun s p => s.2 = p ∧ ∀ q, p.Before q ∨ p = q →
      lookupCell s.1 q = t.getCell q.row q.col) (item := fun p => t.getCell p.row p.col)
    ?_ ?_ ?_ ?_ ⟨rfl, fun q _ => rfl⟩
  · intro h0
    exact h.none (by omega)
  · rintro ⟨m, p⟩ ⟨rfl, hl⟩
    have := hl ⟨t.rowCnt, t.colCnt⟩ (.inr rfl)
    simp only [intoCellsNext]
    rw [this]
    exact h.none (.inl (Nat.le_refl _))
  · rintro ⟨m, p'⟩ p ⟨rfl, hl⟩ hi
    simp only [intoCellsNext]
    rw [hl p' (.inr rfl)]
    exact hi
  · rintro ⟨m, p'⟩ p x ⟨rfl, hl⟩ hi
    refine ⟨_, by simp only [intoCellsNext]; rw [hl p' (.inr rfl), hi], rfl, ?_⟩
    intro q hq
    have hb := before_advance hq (h.bound hi)
    have hne : q ≠ p' := by rintro rfl; exact Before.irrefl hb
    rw [lookup_remove hne]
    exact hl q (.inl hb)

theorem mem_listed {t : Table} (h : t.Built) {p : CellPos} {x : Located Cell} :
    (p, x) ∈ t.listed ↔ t.getCell p.row p.col = some x ∧
      ∀ q : CellPos, q.Before p → q.row < t.rowCnt → q.col < t.colCnt →
        (t.getCell q.row q.col).isSome := by
  unfold listed
  rw [mem_leading (item := fun p => t.getCell p.row p.col) (posRows_sorted _ _ _)]
  constructor
  · rintro ⟨_, h2, h3⟩
    exact ⟨h2, fun q hb h1 h4 => h3 q (mem_posRows.2 ⟨⟨by omega, by omega⟩, h4⟩) hb⟩
  · rintro ⟨h2, h3⟩
    have := h.bound h2
    refine ⟨mem_posRows.2 ⟨⟨by omega, by omega⟩, this.2⟩, h2, ?_⟩
    intro q hq hb
    rw [mem_posRows] at hq
    exact h3 q hb (by omega) hq.2

theorem listed_sorted (t : Table) : (t.listed.map (·.1)).Pairwise CellPos.Before :=
  leading_sorted (posRows_sorted _ _ _)

/-! ## Owning iterators over one row or column -/

theorem into_row_yields {row : Nat} {l : List (Located Cell)} {m : List (CellPos × Located Cell)} {i : Nat}
    (h : ∀ j, j ≤ l.length → lookupCell m ⟨row, i + j⟩ = l[j]?) :
    Yields (intoRowNext row) (m, i) l := by
  induction l generalizing i m with
  | nil =>
    have := h 0 (by simp)
    simp only [Nat.add_zero, List.getElem?_nil] at this
    exact .done (by simp only [intoRowNext]; rw [this])
  | cons x l ih =>
    have := h 0 (by simp)
    simp only [Nat.add_zero, List.getElem?_cons_zero] at this
    refine .more (s' := (removeCell m ⟨row, i⟩, i + 1)) (by simp only [intoRowNext]; rw [this]) (ih ?_)
    intro j hj
    have hj' := h (j + 1) (by simpa using hj)
    rw [lookup_remove (by simp only [ne_eq, CellPos.mk.injEq]; omega), show i + 1 + j = i + (j + 1) by omega, hj']
    rfl

theorem into_column_yields {col : Nat} {l : List (Located Cell)} {m : List (CellPos × Located Cell)} {i : Nat}
    (h : ∀ j, j ≤ l.length → lookupCell m ⟨i + j, col⟩ = l[j]?) :
    Yields (intoColumnNext col) (m, i) l := by
  induction l generalizing i m with
  | nil =>
    have := h 0 (by simp)
    simp only [Nat.add_zero, List.getElem?_nil] at this
    exact .done (by simp only [intoColumnNext]; rw [this])
  | cons x l ih =>
    have := h 0 (by simp)
    simp only [Nat.add_zero, List.getElem?_cons_zero] at this
    refine .more (s' := (removeCell m ⟨i, col⟩, i + 1)) (by simp only [intoColumnNext]; rw [this]) (ih ?_)
    intro j hj
    have hj' := h (j + 1) (by simpa using hj)
    rw [lookup_remove (by simp only [ne_eq, CellPos.mk.injEq]; omega), show i + 1 + j = i + (j + 1) by omega, hj']
    rfl

end Table
end Vw
