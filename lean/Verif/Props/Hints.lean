import Verif.Lemmas.TableHint
import Verif.Props.Tables

/-!
# C86: size hints of the iterators over tables
-/

namespace Vw

/-- C86: the iterators over all rows, all columns and the header rows always know how many are left. -/
theorem C86_rows (t : Table) : HintExact t.rowsNext t.rowsHint 0 ∧ HintExact t.columnsNext t.columnsHint 0 ∧
    HintExact t.headerNext t.headerHint 0 := by
  refine ⟨Table.upTo_hint fun _ => rfl, Table.upTo_hint fun _ => rfl, ?_⟩
  refine (Table.skip_hint t (t.dividerRowIndex.getD 0) 0 (Nat.zero_le _)).2 fun r _ hr => ?_
  cases hd : t.dividerRowIndex with
  | none => rw [hd] at hr; simp at hr
  | some d => rw [hd] at hr; exact (Table.dividerRowIndex_some hd).2.2 r (by simpa using hr)

/-- C86, how far it holds of the body rows: the hint is never too small, and exact if only one row is a
divider. Missing: tables with several divider rows. -/
theorem C86_body_partial (t : Table) : HintUpper t.bodyNext t.bodyHint t.bodyStart ∧
    ((∀ r, t.bodyStart ≤ r → r < t.rowCnt → ¬ t.Divider r) → HintExact t.bodyNext t.bodyHint t.bodyStart) :=
  Table.skip_hint t t.rowCnt t.bodyStart (Table.bodyStart_le t)

/-- C86, how far it holds of the cells of a row or column, also when the table is consumed: the hint is
never too small, and exact if the row or column has no gap. Missing: rows and columns with gaps. -/
theorem C86_row_column_partial {t : Table} (ht : t.Built) (i : Nat) :
    HintUpper (t.rowNext i) t.rowHint 0 ∧ HintUpper (t.columnNext i) t.columnHint 0 ∧
    HintUpper (Table.intoRowNext i) (fun s => t.rowHint s.2) (t.cells, 0) ∧
    HintUpper (Table.intoColumnNext i) (fun s => t.columnHint s.2) (t.cells, 0) ∧
    ((∀ c, c < t.colCnt → (t.getCell i c).isSome) → HintExact (t.rowNext i) t.rowHint 0 ∧
      HintExact (Table.intoRowNext i) (fun s => t.rowHint s.2) (t.cells, 0)) ∧
    ((∀ r, r < t.rowCnt → (t.getCell r i).isSome) → HintExact (t.columnNext i) t.columnHint 0 ∧
      HintExact (Table.intoColumnNext i) (fun s => t.columnHint s.2) (t.cells, 0)) := by
  have h1 := Table.index_hint (f := t.getCell i) (n := t.colCnt) fun c hc => ht.none (.inr hc)
  have h2 := Table.index_hint (f := fun r => t.getCell r i) (n := t.rowCnt) fun r hr => ht.none (.inl hr)
  have h3 := Table.into_row_hint ht i
  have h4 := Table.into_column_hint ht i
  rw [← Table.rowNext_eq] at h1
  rw [← Table.columnNext_eq] at h2
  exact ⟨h1.1, h2.1, h3.1, h4.1, fun h => ⟨h1.2 h, h3.2 h⟩, fun h => ⟨h2.2 h, h4.2 h⟩⟩

/-- C86, how far it holds of `cells()`: the hint is never too small, and exact if the table has no gap.
Missing: tables with gaps, and `into_cells()`. -/
theorem C86_cells_partial {t : Table} (ht : t.Built) : HintUpper t.cellsNext (Table.cellsHint t.colCnt t.cells.length) ⟨0, 0⟩ ∧
    ((∀ r c, r < t.rowCnt → c < t.colCnt → (t.getCell r c).isSome) →
      HintExact t.cellsNext (Table.cellsHint t.colCnt t.cells.length) ⟨0, 0⟩) := by
  have key : ∀ k p l, After t.cellsNext ⟨0, 0⟩ k p → Yields t.cellsNext p l → k + l.length = t.listed.length := by
    intro k p l ha hl
    obtain ⟨h1, h2⟩ := ha.yields ht.cells_plain
    have := hl.unique h2
    rw [List.length_map] at h1
    rw [this, List.length_drop, List.length_map]
    omega
  refine ⟨fun k p l ha hl => ⟨_, Table.cellsHint_eq _ _ _, ?_⟩, fun hf k p l ha hl => ?_⟩
  · rcases ht.cells_state ha with h | rfl
    · have := key k p l ha hl
      have := ht.listed_le
      omega
    · rw [ht.cells_end hl]
      exact Nat.zero_le _
  · rw [Table.cellsHint_eq, ← ht.listed_full hf, ← key k p l ha hl]
    refine congrArg some ?_
    rcases ht.cells_state ha with h | h
    · omega
    · subst h
      have hl0 := ht.cells_end hl
      have hk := key k _ l ha hl
      rw [hl0] at hk ⊢
      simp only [List.length_nil, Nat.add_zero] at hk ⊢
      rw [hk, ht.listed_full hf]
      have : t.cells.length ≤ t.rowCnt * t.colCnt := by
        rw [← ht.listed_full hf, Table.listed]
        refine Nat.le_trans (Table.leading_length _) ?_
        rw [List.length_map, Table.posRows_length]
        exact Nat.le_refl _
      omega

/-- C86 fails for `into_cells()` on every table without gaps that has two cells or more: once the first cell
has been returned the hint is one less than what is left. -/
theorem C86_into_cells_violated {t : Table} (ht : t.Built)
    (hf : ∀ r c, r < t.rowCnt → c < t.colCnt → (t.getCell r c).isSome) (h2 : 2 ≤ t.cells.length) :
    ∃ x s l, Table.intoCellsNext t.rowCnt t.colCnt (t.cells, ⟨0, 0⟩) = (some x, s) ∧
      Yields (Table.intoCellsNext t.rowCnt t.colCnt) s l ∧ Table.cellsHint t.colCnt s.1.length s.2 = some (l.length - 1) ∧
      l.length ≠ 0 := by
  have hy := ht.into_cells
  have hlen := ht.listed_full hf
  generalize hm : t.listed.map (·.2) = m at hy
  have hml : m.length = t.cells.length := by rw [← hm, List.length_map, hlen]
  cases hy with
  | done _ => simp at hml; omega
  | @more _ x s l hn hl =>
    refine ⟨x, s, l, hn, hl, ?_, ?_⟩
    · unfold Table.intoCellsNext at hn
      simp only [Prod.mk.injEq] at hn
      obtain ⟨hx, rfl⟩ := hn
      have hb := ht.bound (r := 0) (c := 0) hx
      have hrm : (Table.removeCell t.cells ⟨0, 0⟩).length = t.cells.length - 1 := Table.removeCell_length ht.distinct hx
      rw [Table.cellsHint_eq, hrm]
      simp only [List.length_cons] at hml
      have hadv : (Table.cellsAdvance t.rowCnt t.colCnt ⟨0, 0⟩).row * t.colCnt + (Table.cellsAdvance t.rowCnt t.colCnt ⟨0, 0⟩).col = 1 := by
        unfold Table.cellsAdvance
        split
        · simp
        · next hc =>
          split
          · simp only at hc ⊢; omega
          · next hr =>
            simp only at hc hr
            have := ht.cells_le
            have e1 : t.rowCnt = 1 := by omega
            have e2 : t.colCnt = 1 := by omega
            rw [e1, e2] at this
            omega
      rw [hadv]
      exact congrArg some (by omega)
    · simp only [List.length_cons] at hml
      omega

/-- C86 fails for the body rows of a table with two divider rows: three are announced, two returned. -/
theorem C86_body_violated : ∃ s pg, parsePage demo b!"|a|\n|-|\n|b|\n|-|\n|c|\n" = .ok s pg ∧ ∃ t ∈ pg.table?,
    t.bodyHint t.bodyStart = some 3 ∧ drain t.bodyNext 9 t.bodyStart = [2, 4] :=
  page_test _ (by decide +kernel)

/-- C86 fails for tables with rows of different lengths: for the second row two cells are announced and one
returned, for all cells five are announced and three returned. -/
theorem C86_gap_violated : ∃ s pg, parsePage demo b!"|a|b|\n|c|\n|d|e|\n" = .ok s pg ∧ ∃ t ∈ pg.table?,
    t.rowHint 0 = some 2 ∧ (drain (t.rowNext 1) 9 0).length = 1 ∧
    t.columnHint 0 = some 3 ∧ (drain (t.columnNext 1) 9 0).length = 1 ∧
    Table.cellsHint t.colCnt t.cells.length ⟨0, 0⟩ = some 5 ∧ (drain t.cellsNext 9 ⟨0, 0⟩).length = 3 :=
  page_test _ (by decide +kernel)

/-- A table without gaps and with one divider row. -/
example : ∃ s pg, parsePage demo b!"|a|b|\n|-|-|\n|c|d|\n" = .ok s pg ∧ ∃ t ∈ pg.table?,
    t.rowCnt = 3 ∧ t.colCnt = 2 ∧ t.cells.length = 6 ∧ (∀ r < 3, ∀ c < 2, (t.getCell r c).isSome) ∧ t.bodyStart = 2 ∧
    t.isDividerRow 2 = false :=
  page_test _ (by decide +kernel)

end Vw
