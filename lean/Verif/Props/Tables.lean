import Verif.Lemmas.TableIter
import Verif.Lemmas.Pieces
import Verif.Spec.Demo

/-!
# Properties of tables (C18, C20-C22, C57)
-/

namespace Vw

set_option maxRecDepth 20000

/-! ## C18 -/

/-- C18: every table of a page, at any depth, was written as rows of cells between
bars, one row per line; the cell at `(r, c)` is the `c`-th cell of the `r`-th row
and there are no others; the counts are the number of rows and the length of the
longest row. -/
theorem C18_cells_by_row_and_column {env : Env} {text : Str} {s : Span} {pg : Page}
    (h : parsePage env text = .ok s pg) {t : Table} {reg : Region}
    (ht : ⟨.table t, reg⟩ ∈ pg.blocks) :
    ∃ rows, BarRows text reg.offset rows (reg.offset + reg.len) ∧ rows ≠ [] ∧
      (∀ r c, t.getCell r c = (rows[r]?).bind (·[c]?)) ∧
      t.rowCnt = rows.length ∧ (∀ row ∈ rows, row.length ≤ t.colCnt) ∧
      ∃ row ∈ rows, row.length = t.colCnt := by
  have hp := (parsePage_block h ht).2.2
  simp only at hp
  cases hp with
  | @table _ _ _ rows c c' h1 h2 h3 =>
    have hc := Table.colCnt_new_le (rows := rows) c
    refine ⟨rows, h3, h2, Table.getCell_new rows c, Table.rowCnt_new h1.ne c,
      (hc _).1 (Nat.le_refl _), ?_⟩
    apply Classical.byContradiction
    intro hn
    have hle := (hc _).1 (Nat.le_refl _)
    obtain ⟨row, hrow⟩ := List.exists_mem_of_ne_nil rows h2
    have h0 : 0 < (Table.new (tableCells 0 rows) c).colCnt := by
      have := hle row hrow
      have := List.length_pos_iff.2 (h1.ne row hrow)
      omega
    have : (Table.new (tableCells 0 rows) c).colCnt ≤ (Table.new (tableCells 0 rows) c).colCnt - 1 := by
      rw [hc]
      intro row hrow
      have h4 := hle row hrow
      have h5 : row.length ≠ (Table.new (tableCells 0 rows) c).colCnt := fun e => hn ⟨row, hrow, e⟩
      omega
    omega

/-- A ragged table inside a list item, with cells of every kind. -/
example : ∃ s pg, parsePage demo b!"- x\n  |a|>|\n  |:-|--:|-|\n  | \\/ |b|c|\n" = .ok s pg ∧
    ∃ x ∈ pg.blocks, ∃ t ∈ x.inner.table?, t.rowCnt = 3 ∧ t.colCnt = 3 ∧
      (t.getCell 0 2).isNone ∧ (t.getCell 2 2).isSome := page_test _ (by decide +kernel)

theorem parsed_table_built {env : Env} {text : Str} {s : Span} {pg : Page}
    (h : parsePage env text = .ok s pg) {t : Table} {reg : Region}
    (ht : ⟨.table t, reg⟩ ∈ pg.blocks) : t.Built := by
  have hp := (parsePage_block h ht).2.2
  simp only at hp
  cases hp with
  | @table _ _ _ rows c c' h1 h2 h3 => exact ⟨_, _, _, rfl⟩

/-- C18 for tables made by the constructor: no cell lies outside the counts, and a
count that is not zero is reached by some cell. -/
theorem C18_counts_exact {t : Table} (ht : t.Built) :
    (∀ r c x, t.getCell r c = some x → r < t.rowCnt ∧ c < t.colCnt) ∧
    (0 < t.rowCnt → ∃ c x, t.getCell (t.rowCnt - 1) c = some x) ∧
    (0 < t.colCnt → ∃ r x, t.getCell r (t.colCnt - 1) = some x) :=
  ⟨fun _ _ _ h => ht.bound h, ht.attained⟩

/-- A table with one cell far from the origin. -/
example : ∃ t : Table, t.Built ∧ t.rowCnt = 3 ∧ t.colCnt = 8 :=
  ⟨_, ⟨[(⟨2, 7⟩, ⟨.span .fromLeft, Region.new 0 1⟩)], false, false, rfl⟩, by decide, by decide⟩

/-! ## C20 -/

/-- C20: in every table the header rows and the body rows, as the two iterators
return them, are in order and without repetition exactly the rows that are not
divider rows; a row is a header row iff there is a divider row and it is before
the first one. -/
theorem C20_rows_partition (t : Table) :
    ∃ H B, Yields t.headerNext 0 H ∧ Yields t.bodyNext t.bodyStart B ∧
      (H ++ B).Pairwise (· < ·) ∧
      (∀ r, r ∈ H ++ B ↔ r < t.rowCnt ∧ ¬ t.Divider r) ∧
      (∀ r, r ∈ H ↔ r < t.rowCnt ∧ (∃ d, d < t.rowCnt ∧ t.Divider d) ∧
        ∀ d, d ≤ r → ¬ t.Divider d) := by
  refine ⟨_, _, Table.header_yields t, Table.body_yields t, ?_, ?_, ?_⟩
  · rw [List.pairwise_append]
    refine ⟨List.pairwise_lt_range, (List.pairwise_lt_range' (step := 1)).filter _, ?_⟩
    intro a ha b hb
    rw [List.mem_range] at ha
    rw [List.mem_filter, List.mem_range'_1] at hb
    unfold Table.bodyStart at hb
    cases hd : t.dividerRowIndex with
    | none => rw [hd] at ha; simp at ha
    | some d => rw [hd] at ha hb; simp only [Option.getD_some] at ha hb; omega
  · intro r
    rw [List.mem_append, List.mem_range, List.mem_filter, List.mem_range'_1]
    have hb := Table.bodyStart_le t
    have hiff : ((!t.isDividerRow r) = true) ↔ ¬ t.Divider r := by
      rw [← Table.isDividerRow_iff]; simp
    rw [hiff]
    unfold Table.bodyStart at *
    cases hd : t.dividerRowIndex with
    | none =>
      rw [hd] at hb
      simp only [Option.getD_none]
      constructor
      · rintro (h | ⟨h1, h2⟩)
        · omega
        · exact ⟨by omega, h2⟩
      · rintro ⟨h1, h2⟩
        exact .inr ⟨by omega, h2⟩
    | some d =>
      rw [hd] at hb
      obtain ⟨h1, h2, h3⟩ := Table.dividerRowIndex_some hd
      simp only [Option.getD_some]
      constructor
      · rintro (h | ⟨h4, h5⟩)
        · exact ⟨by omega, h3 r h⟩
        · exact ⟨by have := h4.2; omega, h5⟩
      · rintro ⟨h4, h5⟩
        by_cases hr : r < d
        · exact .inl hr
        · have : r ≠ d := by rintro rfl; exact h5 h2
          exact .inr ⟨by omega, h5⟩
  · intro r
    rw [List.mem_range]
    cases hd : t.dividerRowIndex with
    | none =>
      simp only [Option.getD_none]
      constructor
      · intro h; omega
      · rintro ⟨_, ⟨d, h1, h2⟩, _⟩
        exact absurd h2 (Table.dividerRowIndex_none hd h1)
    | some d =>
      obtain ⟨h1, h2, h3⟩ := Table.dividerRowIndex_some hd
      simp only [Option.getD_some]
      constructor
      · intro h
        exact ⟨by omega, ⟨d, h1, h2⟩, fun d' hd' => h3 d' (by omega)⟩
      · rintro ⟨_, _, h4⟩
        apply Classical.byContradiction
        intro hr
        exact h4 d (by omega) h2

/-- A table with a header row, two divider rows and two body rows. -/
example : ∃ s pg, parsePage demo b!"|h|\n|-|\n|a|\n|-|\n|b|\n" = .ok s pg ∧
    ∃ t ∈ pg.table?, drain t.headerNext 9 0 = [0] ∧ drain t.bodyNext 9 t.bodyStart = [2, 4] :=
  page_test _ (by decide +kernel)

/-! ## C21 -/

/-- C21 for row spans, what holds: in every table whose column has no gap above the
cell, the row span of a content cell is one plus the length of the maximal run of
markers directly below it; the row span of anything else is zero. -/
theorem C21_rowspan_partial {t : Table} (ht : t.Built) (r c : Nat) :
    (t.ContentAt r c → (∀ r', r' < r → (t.getCell r' c).isSome) →
      ∃ n, t.rowspan r c = n + 1 ∧ (∀ i, i < n → t.AboveAt (r + 1 + i) c) ∧
        ¬ t.AboveAt (r + 1 + n) c) ∧
    (¬ t.ContentAt r c → t.rowspan r c = 0) := by
  obtain ⟨l, hy, hl, hf⟩ := ht.column c
  have hs := Table.spanCount_spec (g := Table.isAbove) (f := fun r => t.getCell r c) hf r
  unfold Table.rowspan
  rw [hy.drain _ (by omega)]
  refine ⟨fun h1 h2 => ?_, fun h => hs.2.2 h⟩
  obtain ⟨n, h3, h4, h5⟩ := hs.1 h2 h1
  refine ⟨n, h3, ?_, ?_⟩
  · intro i hi; rw [Table.aboveAt_iff]; exact h4 i hi
  · rw [Table.aboveAt_iff]; exact h5

/-- C21 for column spans, what holds of every table: as for rows, with markers to
the right. -/
theorem C21_colspan_partial {t : Table} (ht : t.Built) (r c : Nat) :
    (t.ContentAt r c → (∀ c', c' < c → (t.getCell r c').isSome) →
      ∃ n, t.colspan r c = n + 1 ∧ (∀ i, i < n → t.LeftAt r (c + 1 + i)) ∧
        ¬ t.LeftAt r (c + 1 + n)) ∧
    (¬ t.ContentAt r c → t.colspan r c = 0) := by
  obtain ⟨l, hy, hl, hf⟩ := ht.row r
  have hs := Table.spanCount_spec (g := Table.isLeft) (f := fun c => t.getCell r c) hf c
  unfold Table.colspan
  rw [hy.drain _ (by omega)]
  refine ⟨fun h1 h2 => ?_, fun h => hs.2.2 h⟩
  obtain ⟨n, h3, h4, h5⟩ := hs.1 h2 h1
  refine ⟨n, h3, ?_, ?_⟩
  · intro i hi; rw [Table.leftAt_iff]; exact h4 i hi
  · rw [Table.leftAt_iff]; exact h5

/-- C21 for column spans of parsed tables: no condition is needed, rows of a parsed
table have no gaps. -/
theorem C21_colspan_parsed {env : Env} {text : Str} {s : Span} {pg : Page}
    (h : parsePage env text = .ok s pg) {t : Table} {reg : Region}
    (ht : ⟨.table t, reg⟩ ∈ pg.blocks) (r c : Nat) (hc : t.ContentAt r c) :
    ∃ n, t.colspan r c = n + 1 ∧ (∀ i, i < n → t.LeftAt r (c + 1 + i)) ∧
      ¬ t.LeftAt r (c + 1 + n) := by
  refine (C21_colspan_partial (parsed_table_built h ht) r c).1 hc ?_
  intro c' hc'
  obtain ⟨rows, _, _, hg, _⟩ := C18_cells_by_row_and_column h ht
  obtain ⟨x, rg, hx⟩ := hc
  rw [hg] at hx ⊢
  obtain ⟨row, hr, hx⟩ := Option.bind_eq_some_iff.1 hx
  have := (List.getElem?_eq_some_iff.1 hx).1
  rw [hr]
  simp only [Option.bind_some]
  rw [List.getElem?_eq_getElem (by omega)]
  rfl

example : ∃ s pg, parsePage demo b!"|a|>|>|b|\n|\\/|c|d|e|\n|\\/|f|\n" = .ok s pg ∧
    ∃ t ∈ pg.table?, t.colspan 0 0 = 3 ∧ t.rowspan 0 0 = 3 ∧ t.colspan 0 3 = 1 ∧ t.rowspan 1 0 = 0 :=
  page_test _ (by decide +kernel)

/-- C21 does not hold for row spans of ragged tables: the content cell in the second
column of the second row has row span 0 because the first row is shorter. -/
theorem C21_violated : ∃ s pg, parsePage demo b!"|a|\n|b|c|\n|d|\\/|\n" = .ok s pg ∧
    ∃ t ∈ pg.table?, ((t.getCell 1 1).map fun x => Table.isContent x.inner) = some true ∧
      ((t.getCell 2 1).map fun x => Table.isAbove x.inner) = some true ∧ t.rowspan 1 1 = 0 :=
  page_test _ (by decide +kernel)

/-- C21, the deviation exactly: a content cell below a gap of its column has row
span 0. -/
theorem C21_gap_above {t : Table} (ht : t.Built) (r c : Nat) (h1 : t.ContentAt r c)
    (r' : Nat) (h2 : r' < r) (h3 : t.getCell r' c = none) : t.rowspan r c = 0 := by
  obtain ⟨l, hy, hl, hf⟩ := ht.column c
  have hs := Table.spanCount_spec (g := Table.isAbove) (f := fun r => t.getCell r c) hf r
  unfold Table.rowspan
  rw [hy.drain _ (by omega)]
  exact hs.2.1 h1 ⟨r', h2, h3⟩

/-! ## C22 -/

/-- C22, what holds for every table: `cells()` with positions lists cells in
row-major order without repetition, each with its own position, and exactly those
before which no position of the grid is empty. `cells()` and `into_cells()` list
the same cells. -/
theorem C22_cells_partial {t : Table} (ht : t.Built) :
    ∃ l, Yields (Table.withPos id t.cellsNext) ⟨0, 0⟩ l ∧
      (l.map (·.1)).Pairwise CellPos.Before ∧
      (∀ p x, (p, x) ∈ l ↔ t.getCell p.row p.col = some x ∧
        ∀ q : CellPos, q.Before p → q.row < t.rowCnt → q.col < t.colCnt →
          (t.getCell q.row q.col).isSome) ∧
      Yields t.cellsNext ⟨0, 0⟩ (l.map (·.2)) ∧
      Yields (Table.intoCellsNext t.rowCnt t.colCnt) (t.cells, ⟨0, 0⟩) (l.map (·.2)) :=
  ⟨t.listed, ht.cells_pos, Table.listed_sorted t, fun _ _ => Table.mem_listed ht, ht.cells_plain,
    ht.into_cells⟩

/-- C22 for tables without gaps: every cell is listed exactly once. -/
theorem C22_rectangular_partial {t : Table} (ht : t.Built)
    (hfull : ∀ r c, r < t.rowCnt → c < t.colCnt → (t.getCell r c).isSome) :
    ∃ l, Yields (Table.withPos id t.cellsNext) ⟨0, 0⟩ l ∧
      (l.map (·.1)).Pairwise CellPos.Before ∧
      (∀ p x, (p, x) ∈ l ↔ t.getCell p.row p.col = some x) ∧
      Yields t.cellsNext ⟨0, 0⟩ (l.map (·.2)) ∧
      Yields (Table.intoCellsNext t.rowCnt t.colCnt) (t.cells, ⟨0, 0⟩) (l.map (·.2)) := by
  obtain ⟨l, h1, h2, h3, h4, h5⟩ := C22_cells_partial ht
  refine ⟨l, h1, h2, ?_, h4, h5⟩
  intro p x
  rw [h3]
  exact ⟨fun h => h.1, fun h => ⟨h, fun q _ hr hc => hfull _ _ hr hc⟩⟩

/-- A table without gaps. -/
example : ∃ s pg, parsePage demo b!"|a|b|\n|c|d|\n" = .ok s pg ∧ ∃ t ∈ pg.table?,
    t.rowCnt = 2 ∧ t.colCnt = 2 ∧ (∀ r < 2, ∀ c < 2, (t.getCell r c).isSome) ∧
    (drain t.cellsNext 9 ⟨0, 0⟩).map (fun x => x.region.offset) = [1, 3, 7, 9] :=
  page_test _ (by decide +kernel)

/-- C22 does not hold for ragged tables: five cells are written, `cells()` returns
the three before the gap. -/
theorem C22_violated : ∃ s pg, parsePage demo b!"|a|b|\n|c|\n|d|e|\n" = .ok s pg ∧
    ∃ t ∈ pg.table?, t.cells.length = 5 ∧ (t.getCell 2 1).isSome ∧
      (drain t.cellsNext 99 ⟨0, 0⟩).map (fun x => x.region.offset) = [1, 3, 7] :=
  page_test _ (by decide +kernel)

/-- C22, row by row: `rows()` returns every row index once and in order, and the
iterator over a row of a parsed table returns all its cells in order. So going
through `rows()` and then through each row visits every cell of a parsed table
exactly once, also of a ragged one. -/
theorem C22_rows_parsed {env : Env} {text : Str} {s : Span} {pg : Page}
    (h : parsePage env text = .ok s pg) {t : Table} {reg : Region}
    (ht : ⟨.table t, reg⟩ ∈ pg.blocks) :
    Yields t.rowsNext 0 (List.range t.rowCnt) ∧
    ∀ r, ∃ l, Yields (t.rowNext r) 0 l ∧ Yields (Table.intoRowNext r) (t.cells, 0) l ∧
      ∀ c, t.getCell r c = l[c]? := by
  refine ⟨Table.rowsNext_yields t, fun r => ?_⟩
  obtain ⟨rows, _, _, hg, _⟩ := C18_cells_by_row_and_column h ht
  refine ⟨(rows[r]?).getD [], ?_, ?_, ?_⟩
  · rw [Table.rowNext_eq]
    refine indexNext_yields fun j _ => ?_
    rw [hg]
    cases rows[r]? <;> simp
  · refine Table.into_row_yields fun j _ => ?_
    show t.getCell r (0 + j) = _
    rw [hg]
    cases rows[r]? <;> simp
  · intro c
    rw [hg]
    cases rows[r]? <;> simp

/-- C22 for one row or column of any table: the cells before its first gap. -/
theorem C22_row_column {t : Table} (ht : t.Built) (i : Nat) :
    (∃ l, Yields (t.rowNext i) 0 l ∧ Yields (Table.intoRowNext i) (t.cells, 0) l ∧
      ∀ j, j ≤ l.length → t.getCell i j = l[j]?) ∧
    ∃ l, Yields (t.columnNext i) 0 l ∧ Yields (Table.intoColumnNext i) (t.cells, 0) l ∧
      ∀ j, j ≤ l.length → t.getCell j i = l[j]? := by
  obtain ⟨l, h1, _, h2⟩ := ht.row i
  obtain ⟨l', h1', _, h2'⟩ := ht.column i
  refine ⟨⟨l, h1, Table.into_row_yields fun j hj => ?_, h2⟩,
    l', h1', Table.into_column_yields fun j hj => ?_, h2'⟩
  · rw [Nat.zero_add]; exact h2 j hj
  · rw [Nat.zero_add]; exact h2' j hj

/-! ## C57 -/

/-- C57, what holds: the alignment of a column without a gap above its first
alignment cell is that of this cell, and the default if no cell of the column is an
alignment cell. -/
theorem C57_column_alignment_partial {t : Table} (ht : t.Built) (c : Nat) :
    (∀ r a reg, t.getCell r c = some ⟨.align a, reg⟩ →
      (∀ r', r' < r → ∃ x, t.getCell r' c = some x ∧ ∀ a, x.inner ≠ .align a) →
      t.columnAlignment c = a) ∧
    ((∀ r a reg, t.getCell r c ≠ some ⟨.align a, reg⟩) → t.columnAlignment c = .none) := by
  obtain ⟨l, hy, hl, hf⟩ := ht.column c
  unfold Table.columnAlignment
  rw [hy.drain _ (by omega)]
  refine ⟨?_, ?_⟩
  · intro r a reg hr hb
    have hlt : r < l.length := by
      apply Classical.byContradiction
      intro hk
      have h1 := hf l.length (Nat.le_refl _)
      rw [List.getElem?_eq_none (Nat.le_refl _)] at h1
      by_cases he : l.length = r
      · rw [he, hr] at h1; cases h1
      · obtain ⟨x, hx, _⟩ := hb l.length (by omega)
        rw [h1] at hx; cases hx
    have e : l = l.take r ++ (⟨.align a, reg⟩ :: l.drop (r + 1)) := by
      have := hf r (by omega)
      rw [hr, List.getElem?_eq_getElem hlt] at this
      rw [Option.some.inj this, ← List.drop_eq_getElem_cons hlt, List.take_append_drop]
    rw [e, List.findSome?_append, List.findSome?_eq_none_iff.2]
    · rfl
    · intro x hx
      obtain ⟨i, hi⟩ := List.getElem?_of_mem hx
      rw [List.getElem?_take] at hi
      split at hi
      · rename_i hir
        obtain ⟨y, hy, hn⟩ := hb i hir
        rw [hf i (by omega), hi] at hy
        cases hy
        cases hx : x.inner with
        | align a => exact absurd hx (hn a)
        | _ => rfl
      · cases hi
  · intro hn
    rw [List.findSome?_eq_none_iff.2]
    · rfl
    · intro x hx
      obtain ⟨i, hi⟩ := List.getElem?_of_mem hx
      have := hf i (by have := (List.getElem?_eq_some_iff.1 hi).1; omega)
      rw [hi] at this
      obtain ⟨x, reg⟩ := x
      cases x with
      | align a => exact absurd this (hn i a reg)
      | _ => rfl

example : ∃ s pg, parsePage demo b!"|a|b|c|\n|:--|:-:|--|\n|d|-:|e|\n" = .ok s pg ∧
    ∃ t ∈ pg.table?, t.columnAlignment 0 = .left ∧ t.columnAlignment 1 = .center ∧
      t.columnAlignment 2 = .none := page_test _ (by decide +kernel)

/-- C57 does not hold for ragged tables: the alignment written for the second column
is ignored because the header row is shorter. -/
theorem C57_violated : ∃ s pg, parsePage demo b!"|a|\n|:-:|--:|\n|b|c|\n" = .ok s pg ∧
    ∃ t ∈ pg.table?, ((t.getCell 1 1).map fun x => Table.getAlign x.inner) = some (some .right) ∧
      t.columnAlignment 0 = .center ∧ t.columnAlignment 1 = .none := page_test _ (by decide +kernel)

end Vw
