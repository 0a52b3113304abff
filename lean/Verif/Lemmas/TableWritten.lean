import Verif.Lemmas.VwTable
import Verif.Lemmas.Always
import Verif.Lemmas.Equality
import Verif.Spec.TableText

/-!
# What the formatter writes for a table
-/

namespace Vw
open Table

variable {env : Env} {ue : Uri → Uri → Bool} {L : OutLib} {cfg : VwCfg} {t : Table} {d : Nat}

theorem trimStart_shorter {b : Byte} {s : Str} (hb : b = 32 ∨ b = 9) : (trimStart (b :: s)).length < (b :: s).length := by
  obtain ⟨w, -, h2, h3⟩ := trimStart_spec (b :: s)
  cases w with
  | nil =>
    rw [List.nil_append] at h2
    rw [← h2] at h3
    rcases hb with rfl | rfl <;> simp [wsCharLen] at h3
  | cons c w =>
    have := congrArg List.length h2
    simp only [List.length_append, List.length_cons] at this ⊢
    omega

theorem trimEnd_shorter {b : Byte} (s : Str) (hb : b = 32 ∨ b = 9) : (trimEnd (s ++ [b])).length < (s ++ [b]).length := by
  induction s with
  | nil => rcases hb with rfl | rfl <;> decide
  | cons c s ih =>
    rw [List.cons_append, trimEnd]
    split
    · simp
    · simp only [List.length_cons]; omega

theorem padCell_same {u : Str} {b : Byte} {s : Str} (h : u = b :: s) (hb : b = 32 ∨ b = 9)
    (he : cfg.tableNoPadding = true ∨ ∃ t b, u = t ++ [b] ∧ (b = 32 ∨ b = 9)) : padCell cfg u = u := by
  unfold padCell
  rw [show decide ((trimStart u).length < u.length) = true by rw [h]; exact decide_eq_true (trimStart_shorter hb)]
  rcases he with he | ⟨t, c, e, hc⟩
  · rw [he]; rfl
  · rw [show decide ((trimEnd u).length < u.length) = true by rw [e]; exact decide_eq_true (trimEnd_shorter t hc)]
    rw [show u.isEmpty = false by rw [h]; rfl]
    cases cfg.tableNoPadding <;> rfl

theorem padCell_span (s : CellSpan) {u : Str} (h : cellStr L cfg (.span s) = some u) : padCell cfg u = spanText cfg s := by
  cases s <;> cases h <;> unfold padCell spanText <;> cases cfg.tableNoPadding <;> decide

theorem built_distinct (h : t.Built) : DistinctKeys t.cells := by
  obtain ⟨cells, c, c', rfl⟩ := h
  exact tableCollect_distinct cells

theorem getCell_mem {r c : Nat} {x : Located Cell} (h : t.Built) : t.getCell r c = some x ↔ (⟨r, c⟩, x) ∈ t.cells := by
  unfold getCell
  rw [lookupCell_eq]
  exact ⟨lookup_mem, lookup_of_mem (built_distinct h)⟩

theorem full_reached (hf : t.Full) {r c : Nat} {x : Located Cell} (h : t.getCell r c = some x) : t.Reached ⟨r, c⟩ x :=
  ⟨h, fun q _ h1 h2 => hf q.row q.col h1 h2⟩

/-- A cell that is no alignment has a text of the width it needs. -/
theorem cell_padded (h : TableOk env ue L cfg d t) {r c : Nat} {x : Located Cell} (hx : t.getCell r c = some x)
    (ha : ∀ a, x.inner ≠ .align a) : ∃ u, cellStr L cfg x.inner = some u ∧ (padCell cfg u).length = cellNeed L cfg x.inner := by
  obtain ⟨x, reg⟩ := x
  cases x with
  | content xs =>
    obtain ⟨-, h2⟩ := h.cells r c xs reg hx
    obtain ⟨b, t, reg, rest, rfl, hb⟩ := h2.first
    refine ⟨_, rfl, ?_⟩
    rw [padCell_same (b := b) (s := t ++ Inline.textAll L cfg rest) (by simp [Inline.textAll, Inline.textOf]) hb h2.last]
    rfl
  | span s =>
    obtain ⟨u, hu⟩ : ∃ u, cellStr L cfg (.span s) = some u := by cases s <;> exact ⟨_, rfl⟩
    exact ⟨u, hu, by rw [padCell_span s hu]; rfl⟩
  | align a => exact absurd rfl (ha a)

theorem width_ge_need (ht : t.Built) {r c : Nat} {x : Located Cell} (hx : t.getCell r c = some x) :
    cellNeed L cfg x.inner ≤ t.width L cfg c := by
  unfold Table.width
  refine (foldl_max_ge _ 0).2 _ (List.mem_map.2 ⟨(⟨r, c⟩, x), List.mem_filter.2 ⟨(getCell_mem ht).1 hx, by simp⟩, rfl⟩)

theorem alignNeed_le (x : Cell) : alignNeed x ≤ cellNeed L cfg x := by
  cases x with
  | content _ => exact Nat.zero_le _
  | span _ => exact Nat.zero_le _
  | align a => cases a <;> exact Nat.le_refl _

theorem columnWidth_eq (h : TableOk env ue L cfg d t) {c : Nat} (hc : c < t.colCnt) :
    columnWidth t (fixedOf L cfg t) c = t.width L cfg c := by
  obtain ⟨r0, x0, hx0, ha0⟩ := h.columns c hc
  obtain ⟨u0, hu0, -⟩ := cell_padded h hx0 ha0
  have hmem0 := (mem_fixed (cfg := cfg) h.built).2 ⟨x0, u0, full_reached h.full hx0, hu0, rfl⟩
  apply Nat.le_antisymm
  · have hmin : minAlign t c ≤ t.width L cfg c := by
      unfold minAlign
      rcases foldl_max_mem (List.map (fun c => alignNeed c.inner) (drain (t.columnNext c) (t.rowCnt + 1) 0)) 0 with e | e
      · rw [e]; exact Nat.zero_le _
      · obtain ⟨x, hx, e⟩ := List.mem_map.1 e
        rw [← e]
        obtain ⟨l, hy, hl, hf⟩ := h.built.column c
        rw [hy.drain _ (by omega)] at hx
        obtain ⟨j, hj, hjx⟩ := List.getElem_of_mem hx
        have := hf j (by omega)
        rw [List.getElem?_eq_getElem hj, hjx] at this
        exact Nat.le_trans (alignNeed_le _) (width_ge_need h.built this)
    unfold columnWidth
    split
    · exact Nat.zero_le _
    · next n hn =>
      have : n ≤ t.width L cfg c := by
        rcases sizeFold_mem c _ none n hn with e | ⟨⟨p, s⟩, he, hec, rfl⟩
        · cases e
        · obtain ⟨x, u, h1, h2, rfl⟩ := (mem_fixed h.built).1 he
          simp only at hec
          have hx : t.getCell p.row p.col = some x := h1.1
          have hal : ∀ a, x.inner ≠ .align a := by intro a e; rw [e] at h2; cases h2
          obtain ⟨u', hu', hlen⟩ := cell_padded h hx hal
          rw [h2] at hu'
          cases hu'
          simp only
          rw [hlen, ← hec]
          exact width_ge_need h.built hx
      split <;> assumption
  · unfold Table.width
    rcases foldl_max_mem (((t.cells.filter fun e => e.1.col = c).map fun e => cellNeed L cfg e.2.inner)) 0 with e | e
    · rw [e]; exact Nat.zero_le _
    · obtain ⟨⟨p, x⟩, hx, e⟩ := List.mem_map.1 e
      rw [← e]
      obtain ⟨hxm, hpc⟩ := List.mem_filter.1 hx
      clear hx
      obtain ⟨r, c'⟩ := p
      simp only [decide_eq_true_eq] at hpc
      subst hpc
      have hx := (getCell_mem h.built).2 hxm
      have hcw := columnWidth_some (t := t) hmem0 rfl
      by_cases ha : ∃ a, x.inner = .align a
      · obtain ⟨a, ha⟩ := ha
        have hb := h.built.bound hx
        have := minAlign_ge h.built hx fun r' hr => h.full r' c' (by omega) hb.2
        simp only at hcw ⊢
        have e : cellNeed L cfg x.inner = alignNeed x.inner := by rw [ha]; cases a <;> rfl
        omega
      · obtain ⟨u, hu, hlen⟩ := cell_padded h hx (fun a e => ha ⟨a, e⟩)
        have := (columnWidth_some (t := t) ((mem_fixed (cfg := cfg) h.built).2 ⟨x, u, full_reached h.full hx, hu, rfl⟩) rfl).2
        simp only at this ⊢
        omega

theorem body_eq (h : TableOk env ue L cfg d t) {r c : Nat} (hr : r < t.rowCnt) (hc : c < t.colCnt) :
    bodyText t (fixedOf L cfg t) r c = some (t.cellAt L cfg r c) := by
  obtain ⟨⟨x, reg⟩, hx⟩ := Option.isSome_iff_exists.1 (h.full r c hr hc)
  have hneed := width_ge_need (L := L) (cfg := cfg) h.built hx
  unfold bodyText Table.cellAt
  rw [columnWidth_eq h hc, hx]
  cases x with
  | content xs =>
    obtain ⟨h1, h2⟩ := h.cells r c xs reg hx
    rw [lookup_reached h.built (full_reached h.full hx) (rfl : cellStr L cfg (.content xs) = _)]
    obtain ⟨b, t', reg, rest, rfl, hb⟩ := h2.first
    simp only
    rw [padCell_same (b := b) (s := t' ++ Inline.textAll L cfg rest) (by simp [Inline.textAll, Inline.textOf]) hb h2.last, h1]
    simp [rep, cellFull]
  | span s =>
    obtain ⟨u, hu⟩ : ∃ u, cellStr L cfg (.span s) = some u := by cases s <;> exact ⟨_, rfl⟩
    rw [lookup_reached h.built (full_reached h.full hx) hu, padCell_span s hu]
    rfl
  | align a =>
    rw [lookup_align h.built hx]
    cases a
    · rfl
    all_goals
      simp only [cellNeed] at hneed
      simp only [Option.map_some, dividerText]
      rw [if_neg (by omega)]
      rfl

theorem cells_eq (h : TableOk env ue L cfg d t) {r : Nat} (hr : r < t.rowCnt) : ∀ ks : List Nat, (∀ k ∈ ks, k < t.colCnt) →
    cellsText t (fixedOf L cfg t) r ks = some (ks.map (t.cellAt L cfg r)) := by
  intro ks
  induction ks with
  | nil => intro _; rfl
  | cons k ks ih =>
    intro hk
    rw [cellsText, body_eq h hr (hk k (by simp)), ih fun k h => hk k (by simp [h])]
    rfl

theorem rows_eq (h : TableOk env ue L cfg d t) : ∀ rs : List Nat, (∀ r ∈ rs, r < t.rowCnt) →
    rowsText t (fixedOf L cfg t) rs = some (rs.map (t.rowAt L cfg)) := by
  intro rs
  induction rs with
  | nil => intro _; rfl
  | cons r rs ih =>
    intro hk
    rw [rowsText, cells_eq h (hk r (by simp)) _ (by simp), ih fun k h => hk k (by simp [h])]
    rfl

/-- The text of the table is the one the formatter writes. -/
theorem table_text (h : TableOk env ue L cfg d t) (c : Str) (i : Nat) :
    t.fmt L cfg ⟨c, i, false⟩ = some ⟨c ++ t.text L cfg i (Fm.bol c), i, false⟩ := by
  rw [table_eq, rows_eq h _ (by simp)]
  rfl

theorem table_rows (h : TableOk env ue L cfg d t) : 0 < t.rowCnt ∧ 0 < t.colCnt := by
  obtain ⟨r, x, hx, -⟩ := h.rows
  have := h.built.bound hx
  omega

theorem rowLines_last (ce : Bool) (i : Nat) : ∀ (rows : List (List Str)) (b : Bool), rows ≠ [] →
    (rowLines cfg ce i b rows).getLast? = some 10 := by
  intro rows
  induction rows with
  | nil => intro b h; exact absurd rfl h
  | cons cs rows ih =>
    intro b _
    unfold rowLines
    cases rows with
    | nil =>
      rw [rowLines, List.append_nil, rowLine, List.getLast?_append, List.getLast?_append, List.getLast?_append,
        List.getLast?_append]
      rfl
    | cons r rows =>
      rw [List.getLast?_append, List.getLast?_append, ih true (by simp)]
      rfl

theorem table_last (h : TableOk env ue L cfg d t) (i : Nat) (b : Bool) : (t.text L cfg i b).getLast? = some 10 := by
  refine rowLines_last _ _ _ _ ?_
  have := (table_rows h).1
  intro e
  have := congrArg List.length e
  simp at this
  omega

end Vw
