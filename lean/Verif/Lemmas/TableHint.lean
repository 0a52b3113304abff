import Verif.Lemmas.TableIter
import Verif.Lemmas.Always

/-!
# Lemmas about size hints
-/

namespace Vw

theorem After.inv {σ α} {next : σ → Option α × σ} {s : σ} {I : σ → Prop} (h0 : I s)
    (hs : ∀ s x s', I s → next s = (some x, s') → I s') {k : Nat} {s' : σ} (h : After next s k s') : I s' := by
  induction h with
  | start => exact h0
  | call _ h2 ih => exact hs _ _ _ ih h2

theorem After.yields {σ α} {next : σ → Option α × σ} {s : σ} {l : List α} (hl : Yields next s l) {k : Nat} {s' : σ}
    (h : After next s k s') : k ≤ l.length ∧ Yields next s' (l.drop k) := by
  induction h with
  | start => exact ⟨Nat.zero_le _, hl⟩
  | @call k s' x s'' _ h2 ih =>
    obtain ⟨h3, h4⟩ := ih
    generalize hd : l.drop k = d at h4
    cases h4 with
    | done h => rw [h2] at h; cases h
    | @more _ y s3 ys h5 h6 =>
      rw [h2] at h5
      cases h5
      have hlt : k < l.length := by
        apply Nat.lt_of_not_le
        intro hge
        rw [List.drop_eq_nil_of_le hge] at hd
        cases hd
      refine ⟨hlt, ?_⟩
      rw [List.drop_eq_getElem_cons hlt] at hd
      cases hd
      exact h6

namespace Table

theorem hintSub_le {a b : Nat} (h : b ≤ a) : hintSub a b = some (a - b) := if_pos h

/-- Counting up to `n`. -/
theorem upTo_hint {n : Nat} {next : Nat → Option Nat × Nat} (h : ∀ i, next i = if i < n then (some i, i + 1) else (none, i)) :
    HintExact next (hintSub n) 0 := by
  intro k i l ha hl
  have hi : i ≤ n := ha.inv (I := fun i => i ≤ n) (Nat.zero_le _) (fun i x j hi hn => by
    rw [h] at hn
    split at hn
    · cases hn; omega
    · cases hn)
  rw [hintSub_le hi, hl.unique (upTo_yields h (n - i) i (by omega)), List.length_range']

/-- Cells one after the other. -/
theorem index_hint {α} {f : Nat → Option α} {n : Nat} (h : ∀ i, n ≤ i → f i = none) :
    HintUpper (indexNext f) (hintSub n) 0 ∧ ((∀ i, i < n → (f i).isSome) → HintExact (indexNext f) (hintSub n) 0) := by
  have key : ∀ k i l, After (indexNext f) 0 k i → Yields (indexNext f) i l →
      i ≤ n ∧ l.length ≤ n - i ∧ f (i + l.length) = none := by
    intro k i l ha hl
    have hi : i ≤ n := ha.inv (I := fun i => i ≤ n) (Nat.zero_le _) (fun i x j hi hn => by
      unfold indexNext at hn
      split at hn
      · next hf =>
        cases hn
        apply Nat.succ_le_of_lt
        apply Nat.lt_of_not_le
        intro hge
        rw [h i hge] at hf
        cases hf
      · cases hn)
    obtain ⟨l', h1, h2⟩ := index_prefix f (n - i) i (h _ (by omega))
    have e := hl.unique (indexNext_yields h2)
    subst e
    exact ⟨hi, h1, by rw [h2 _ (Nat.le_refl _)]; simp⟩
  refine ⟨fun k i l ha hl => ?_, fun hf k i l ha hl => ?_⟩
  · obtain ⟨h1, h2, _⟩ := key k i l ha hl
    exact ⟨_, hintSub_le h1, h2⟩
  · obtain ⟨h1, h2, h3⟩ := key k i l ha hl
    rw [hintSub_le h1]
    have : n ≤ i + l.length := by
      apply Nat.le_of_not_lt
      intro hlt
      have := hf _ hlt
      rw [h3] at this
      cases this
    exact congrArg some (by omega)

theorem skip_state {t : Table} {stop i x j : Nat} (hi : i ≤ stop) (h : skipDividers t stop (stop + 1) i = (some x, j)) :
    i ≤ j ∧ j ≤ stop := by
  rw [skipDividers_spec t stop _ i hi (by omega)] at h
  cases hf : (List.range' i (stop - i)).find? fun r => !t.isDividerRow r with
  | none => rw [hf] at h; cases h
  | some y =>
    rw [hf] at h
    simp only [Option.map_some, Option.getD_some, Prod.mk.injEq, Option.some.injEq] at h
    have := List.mem_of_find?_eq_some hf
    rw [List.mem_range'_1] at this
    omega

theorem skip_hint (t : Table) (stop start : Nat) (h0 : start ≤ stop) :
    HintUpper (skipDividers t stop (stop + 1)) (hintSub stop) start ∧
    ((∀ r, start ≤ r → r < stop → ¬ t.Divider r) → HintExact (skipDividers t stop (stop + 1)) (hintSub stop) start) := by
  have key : ∀ k i l, After (skipDividers t stop (stop + 1)) start k i → Yields (skipDividers t stop (stop + 1)) i l →
      start ≤ i ∧ i ≤ stop ∧ l = (List.range' i (stop - i)).filter fun r => !t.isDividerRow r := by
    intro k i l ha hl
    have hi := ha.inv (I := fun i => start ≤ i ∧ i ≤ stop) ⟨Nat.le_refl _, h0⟩ (fun i x j hi hn => by
      have := skip_state hi.2 hn
      omega)
    exact ⟨hi.1, hi.2, hl.unique (skip_yields (Nat.lt_succ_self _) _ _ (by omega))⟩
  refine ⟨fun k i l ha hl => ?_, fun hd k i l ha hl => ?_⟩
  · obtain ⟨_, h1, rfl⟩ := key k i l ha hl
    refine ⟨_, hintSub_le h1, Nat.le_trans (List.length_filter_le _ _) ?_⟩
    rw [List.length_range']
    exact Nat.le_refl _
  · obtain ⟨h2, h1, rfl⟩ := key k i l ha hl
    rw [hintSub_le h1, List.filter_eq_self.2, List.length_range']
    intro r hr
    rw [List.mem_range'_1] at hr
    have := hd r (by omega) (by omega)
    rw [← isDividerRow_iff] at this
    simpa using this

/-! ## Owning iterators over a row or column -/

theorem into_row_hint {t : Table} (h : t.Built) (r : Nat) :
    HintUpper (intoRowNext r) (fun s => t.rowHint s.2) (t.cells, 0) ∧
    ((∀ c, c < t.colCnt → (t.getCell r c).isSome) → HintExact (intoRowNext r) (fun s => t.rowHint s.2) (t.cells, 0)) := by
  have key : ∀ k s l, After (intoRowNext r) (t.cells, 0) k s → Yields (intoRowNext r) s l →
      s.2 ≤ t.colCnt ∧ l.length ≤ t.colCnt - s.2 ∧ t.getCell r (s.2 + l.length) = none := by
    intro k s l ha hl
    have hi := ha.inv (I := fun s => s.2 ≤ t.colCnt ∧ ∀ j, s.2 ≤ j → lookupCell s.1 ⟨r, j⟩ = t.getCell r j)
      ⟨Nat.zero_le _, fun j _ => rfl⟩ (fun s x s' hi hn => by
        unfold intoRowNext at hn
        rw [hi.2 _ (Nat.le_refl _)] at hn
        split at hn
        · next hf =>
          cases hn
          refine ⟨(h.bound hf).2, fun j hj => ?_⟩
          have hj : s.2 + 1 ≤ j := hj
          show lookupCell (removeCell s.1 _) _ = _
          rw [lookup_remove (by simp only [ne_eq, CellPos.mk.injEq]; omega)]
          exact hi.2 j (by omega)
        · cases hn)
    obtain ⟨l', h1, h2⟩ := index_prefix (t.getCell r) (t.colCnt - s.2) s.2 (h.none (.inr (by omega)))
    have e := hl.unique (into_row_yields (m := s.1) (i := s.2) fun j hj => by rw [hi.2 _ (by omega), h2 j hj])
    subst e
    exact ⟨hi.1, h1, by rw [h2 _ (Nat.le_refl _)]; simp⟩
  refine ⟨fun k s l ha hl => ?_, fun hf k s l ha hl => ?_⟩
  · obtain ⟨h1, h2, _⟩ := key k s l ha hl
    exact ⟨_, hintSub_le h1, h2⟩
  · obtain ⟨h1, h2, h3⟩ := key k s l ha hl
    show hintSub _ _ = _
    rw [hintSub_le h1]
    have : t.colCnt ≤ s.2 + l.length := by
      apply Nat.le_of_not_lt
      intro hlt
      have := hf _ hlt
      rw [h3] at this
      cases this
    exact congrArg some (by omega)

theorem into_column_hint {t : Table} (h : t.Built) (c : Nat) :
    HintUpper (intoColumnNext c) (fun s => t.columnHint s.2) (t.cells, 0) ∧
    ((∀ r, r < t.rowCnt → (t.getCell r c).isSome) → HintExact (intoColumnNext c) (fun s => t.columnHint s.2) (t.cells, 0)) := by
  have key : ∀ k s l, After (intoColumnNext c) (t.cells, 0) k s → Yields (intoColumnNext c) s l →
      s.2 ≤ t.rowCnt ∧ l.length ≤ t.rowCnt - s.2 ∧ t.getCell (s.2 + l.length) c = none := by
    intro k s l ha hl
    have hi := ha.inv (I := fun s => s.2 ≤ t.rowCnt ∧ ∀ j, s.2 ≤ j → lookupCell s.1 ⟨j, c⟩ = t.getCell j c)
      ⟨Nat.zero_le _, fun j _ => rfl⟩ (fun s x s' hi hn => by
        unfold intoColumnNext at hn
        rw [hi.2 _ (Nat.le_refl _)] at hn
        split at hn
        · next hf =>
          cases hn
          refine ⟨(h.bound hf).1, fun j hj => ?_⟩
          have hj : s.2 + 1 ≤ j := hj
          show lookupCell (removeCell s.1 _) _ = _
          rw [lookup_remove (by simp only [ne_eq, CellPos.mk.injEq]; omega)]
          exact hi.2 j (by omega)
        · cases hn)
    obtain ⟨l', h1, h2⟩ := index_prefix (fun r => t.getCell r c) (t.rowCnt - s.2) s.2 (h.none (.inl (by omega)))
    have e := hl.unique (into_column_yields (m := s.1) (i := s.2) fun j hj => by rw [hi.2 _ (by omega), h2 j hj])
    subst e
    exact ⟨hi.1, h1, by rw [h2 _ (Nat.le_refl _)]; simp⟩
  refine ⟨fun k s l ha hl => ?_, fun hf k s l ha hl => ?_⟩
  · obtain ⟨h1, h2, _⟩ := key k s l ha hl
    exact ⟨_, hintSub_le h1, h2⟩
  · obtain ⟨h1, h2, h3⟩ := key k s l ha hl
    show hintSub _ _ = _
    rw [hintSub_le h1]
    have : t.rowCnt ≤ s.2 + l.length := by
      apply Nat.le_of_not_lt
      intro hlt
      have := hf _ hlt
      rw [h3] at this
      cases this
    exact congrArg some (by omega)

/-! ## All cells -/

theorem nodup_length_le {α : Type} [DecidableEq α] : ∀ {xs ys : List α}, xs.Nodup → (∀ x ∈ xs, x ∈ ys) → xs.length ≤ ys.length
  | [], _, _, _ => Nat.zero_le _
  | x :: xs, ys, hn, hs => by
    rw [List.nodup_cons] at hn
    have := nodup_length_le (xs := xs) (ys := ys.erase x) hn.2 fun y hy => by
      have hne : y ≠ x := by rintro rfl; exact hn.1 hy
      exact (List.mem_erase_of_ne hne).2 (hs y (by simp [hy]))
    rw [List.length_erase_of_mem (hs x (by simp))] at this
    have : 0 < ys.length := List.length_pos_of_mem (hs x (by simp))
    simp only [List.length_cons]; omega

theorem Built.distinct {t : Table} (h : t.Built) : (t.cells.map (·.1)).Nodup := by
  obtain ⟨cells, c, c', rfl⟩ := h
  exact tableCollect_distinct cells

theorem Built.listed_le {t : Table} (h : t.Built) : t.listed.length ≤ t.cells.length := by
  have hs := listed_sorted t
  have hn : (t.listed.map (·.1)).Nodup := hs.imp fun h e => by subst e; exact Before.irrefl h
  have := nodup_length_le (ys := t.cells.map (·.1)) hn (fun p hp => by
    obtain ⟨⟨p, x⟩, hm, rfl⟩ := List.mem_map.1 hp
    exact lookupCell_mem ((mem_listed h).1 hm).1)
  simpa using this

theorem Built.listed_full {t : Table} (h : t.Built)
    (hf : ∀ r c, r < t.rowCnt → c < t.colCnt → (t.getCell r c).isSome) : t.listed.length = t.cells.length := by
  refine Nat.le_antisymm h.listed_le ?_
  have := nodup_length_le (ys := t.listed.map (·.1)) h.distinct (fun p hp => by
    obtain ⟨x, hx⟩ := lookupCell_of_mem hp
    exact List.mem_map.2 ⟨(p, x), (mem_listed h).2 ⟨hx, fun q _ h1 h2 => hf _ _ h1 h2⟩, rfl⟩)
  simpa using this

/-- Where `cells()` is after `k` cells. -/
theorem Built.cells_state {t : Table} (h : t.Built) {k : Nat} {p : CellPos} (ha : After t.cellsNext ⟨0, 0⟩ k p) :
    (p.col ≤ t.colCnt ∧ p.row * t.colCnt + p.col = k) ∨ (p = ⟨t.rowCnt, t.colCnt⟩) := by
  have key : (p.row * t.colCnt + p.col = k ∧ (p.row < t.rowCnt ∧ p.col < t.colCnt ∨ p = ⟨0, 0⟩)) ∨ p = ⟨t.rowCnt, t.colCnt⟩ := by
    induction ha with
    | start => exact .inl ⟨by simp, .inr rfl⟩
    | @call k p x q _ hn ih =>
      unfold cellsNext at hn
      simp only [Prod.mk.injEq] at hn
      obtain ⟨hx, rfl⟩ := hn
      have hb := h.bound hx
      rcases ih with ⟨ih, _⟩ | ih
      · unfold cellsAdvance
        split
        · exact .inl ⟨by simp only; omega, .inl (by simp only; omega)⟩
        · split
          · refine .inl ⟨?_, .inl (by simp only; omega)⟩
            have : p.col + 1 = t.colCnt := by omega
            simp only [Nat.succ_mul, Nat.add_zero, Nat.add_mul, Nat.one_mul]
            omega
          · exact .inr rfl
      · subst ih; simp only at hb; omega
  rcases key with ⟨h1, h2⟩ | h1
  · refine .inl ⟨?_, h1⟩
    rcases h2 with h2 | rfl
    · omega
    · exact Nat.zero_le _
  · exact .inr h1

theorem Built.cells_end {t : Table} (h : t.Built) {l : List (Located Cell)}
    (hl : Yields t.cellsNext ⟨t.rowCnt, t.colCnt⟩ l) : l = [] := by
  cases hl with
  | done _ => rfl
  | more hn _ =>
    unfold cellsNext at hn
    simp only [Prod.mk.injEq] at hn
    have := h.bound hn.1
    omega

theorem leading_length {α} : ∀ xs : List (Option α), (leading xs).length ≤ xs.length
  | [] => Nat.le_refl _
  | none :: xs => Nat.zero_le _
  | some x :: xs => Nat.succ_le_succ (leading_length xs)

theorem posRows_length (C r n : Nat) : (posRows C r n).length = n * C := by
  unfold posRows
  induction n generalizing r with
  | zero => simp
  | succ n ih =>
    rw [List.range'_succ, List.flatMap_cons, List.length_append, ih, List.length_map, List.length_range', Nat.succ_mul]
    omega

theorem Built.cells_le {t : Table} (h : t.Built) : t.cells.length ≤ t.rowCnt * t.colCnt := by
  have := nodup_length_le (ys := posRows t.colCnt 0 t.rowCnt) h.distinct (fun p hp => by
    obtain ⟨x, hx⟩ := lookupCell_of_mem hp
    have := h.bound (r := p.row) (c := p.col) hx
    exact mem_posRows.2 (by omega))
  rwa [posRows_length, List.length_map] at this

theorem removeCell_length : ∀ {m : List (CellPos × Located Cell)} {p : CellPos} {x : Located Cell}, (m.map (·.1)).Nodup →
    lookupCell m p = some x → (removeCell m p).length = m.length - 1
  | [], _, _, _, h => by cases h
  | e :: m, p, x, hn, h => by
    rw [List.map_cons, List.nodup_cons] at hn
    by_cases he : e.1 = p
    · have : removeCell m p = m := by
        refine List.filter_eq_self.2 fun y hy => ?_
        simp only [ne_eq, decide_not, Bool.not_eq_true', decide_eq_false_iff_not]
        rintro rfl
        exact hn.1 (he ▸ List.mem_map.2 ⟨y, hy, rfl⟩)
      unfold removeCell at this ⊢
      rw [List.filter_cons_of_neg (by simpa using he), this]
      simp
    · have h' : lookupCell m p = some x := by
        simpa [lookupCell, he] using h
      have ih := removeCell_length hn.2 h'
      have hpos : 0 < m.length := by
        cases m with
        | nil => cases h'
        | cons => simp
      unfold removeCell at ih ⊢
      rw [List.filter_cons_of_pos (by simpa using he), List.length_cons, ih, List.length_cons]
      omega

theorem cellsHint_eq (C n : Nat) (p : CellPos) : cellsHint C n p = some (n - (p.row * C + p.col)) := by
  unfold cellsHint
  simp only
  split
  · rfl
  · exact congrArg some (by omega)

end Table
end Vw
