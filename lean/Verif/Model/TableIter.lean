import Verif.Model.Ast

/-!
# Table iterators and spans

The iterators of `lang/elements/blocks/tables.rs`. An iterator is a step function
from a state to the returned item and the next state, as `Iterator::next`.
References to the table are a parameter; owning iterators keep the cell map in
their state because `next` removes cells from it.
-/

namespace Vw

/-- What `collect` sees when it calls `next` at most `fuel` times: the items before
the first `None`. -/
def drain {σ α} (next : σ → Option α × σ) : Nat → σ → List α
  | 0, _ => []
  | n + 1, s =>
    match next s with
    | (none, _) => []
    | (some x, s') => x :: drain next n s'

namespace Table

/-- `Row::next` (tables.rs:719-725); the state is the column. -/
def rowNext (t : Table) (row : Nat) (col : Nat) : Option (Located Cell) × Nat :=
  match t.getCell row col with
  | some x => (some x, col + 1)
  | none => (none, col)

/-- `Column::next` (tables.rs:881-887); the state is the row. -/
def columnNext (t : Table) (col : Nat) (row : Nat) : Option (Located Cell) × Nat :=
  match t.getCell row col with
  | some x => (some x, row + 1)
  | none => (none, row)

/-- How `Cells::next` and `IntoCells::next` move on (tables.rs:993-1009,
1076-1092). -/
def cellsAdvance (rowCnt colCnt : Nat) (p : CellPos) : CellPos :=
  if p.col + 1 < colCnt then ⟨p.row, p.col + 1⟩
  else if p.row + 1 < rowCnt then ⟨p.row + 1, 0⟩
  else ⟨rowCnt, colCnt⟩

/-- `Cells::next` (tables.rs:990-1012). -/
def cellsNext (t : Table) (p : CellPos) : Option (Located Cell) × CellPos :=
  (t.getCell p.row p.col, cellsAdvance t.rowCnt t.colCnt p)

/-- `HashMap::remove` for the cell map. -/
def removeCell (m : List (CellPos × Located Cell)) (p : CellPos) :
    List (CellPos × Located Cell) := m.filter (fun x => x.1 ≠ p)

/-- `IntoCells::next` (tables.rs:1072-1095); the state is the remaining cell map
and the position. -/
def intoCellsNext (rowCnt colCnt : Nat) (s : List (CellPos × Located Cell) × CellPos) :
    Option (Located Cell) × (List (CellPos × Located Cell) × CellPos) :=
  (lookupCell s.1 s.2, removeCell s.1 s.2, cellsAdvance rowCnt colCnt s.2)

/-- `IntoRow::next` (tables.rs:779-786). -/
def intoRowNext (row : Nat) (s : List (CellPos × Located Cell) × Nat) :
    Option (Located Cell) × (List (CellPos × Located Cell) × Nat) :=
  match lookupCell s.1 ⟨row, s.2⟩ with
  | some x => (some x, removeCell s.1 ⟨row, s.2⟩, s.2 + 1)
  | none => (none, removeCell s.1 ⟨row, s.2⟩, s.2)

/-- `IntoColumn::next` (tables.rs:933-940). -/
def intoColumnNext (col : Nat) (s : List (CellPos × Located Cell) × Nat) :
    Option (Located Cell) × (List (CellPos × Located Cell) × Nat) :=
  match lookupCell s.1 ⟨s.2, col⟩ with
  | some x => (some x, removeCell s.1 ⟨s.2, col⟩, s.2 + 1)
  | none => (none, removeCell s.1 ⟨s.2, col⟩, s.2)

/-- `CellIter::next_with_pos` and `ZipCellPos::next` (tables.rs:494-500, 515-517):
`pos` is the `row()` and `col()` of the iterator. -/
def withPos {σ α} (pos : σ → CellPos) (next : σ → Option α × σ) (s : σ) :
    Option (CellPos × α) × σ :=
  ((next s).1.map fun x => (pos s, x), (next s).2)

/-- `Rows::next` (tables.rs:557-565); a row is its index. -/
def rowsNext (t : Table) (idx : Nat) : Option Nat × Nat :=
  if idx < t.rowCnt then (some idx, idx + 1) else (none, idx)

/-- `Columns::next` (tables.rs:841-849); a column is its index. -/
def columnsNext (t : Table) (idx : Nat) : Option Nat × Nat :=
  if idx < t.colCnt then (some idx, idx + 1) else (none, idx)

/-- `get_divider_row_index` (tables.rs:174-182). -/
def dividerRowIndex (t : Table) : Option Nat :=
  (drain t.rowsNext (t.rowCnt + 1) 0).find? t.isDividerRow

/-- The loop of `HeaderRows::next` and `BodyRows::next` (tables.rs:602-615,
660-673): skip divider rows below `stop`. The state is the index. -/
def skipDividers (t : Table) (stop : Nat) : Nat → Nat → Option Nat × Nat
  | 0, idx => (none, idx)
  | fuel + 1, idx =>
    if idx < stop then
      if t.isDividerRow idx then skipDividers t stop fuel (idx + 1) else (some idx, idx + 1)
    else (none, idx)

/-- `HeaderRows::next` (tables.rs:602-615). -/
def headerNext (t : Table) (idx : Nat) : Option Nat × Nat :=
  let stop := t.dividerRowIndex.getD 0
  skipDividers t stop (stop + 1) idx

/-- `BodyRows::new` (tables.rs:636-648): where the body begins. -/
def bodyStart (t : Table) : Nat :=
  match t.dividerRowIndex with
  | some d => d + 1
  | none => 0

/-- `BodyRows::next` (tables.rs:660-673). -/
def bodyNext (t : Table) (idx : Nat) : Option Nat × Nat :=
  skipDividers t t.rowCnt (t.rowCnt + 1) idx

/-- `cell.get_span() == Some(FromAbove)`. -/
def isAbove : Cell → Bool
  | .span .fromAbove => true
  | _ => false

/-- `cell.get_span() == Some(FromLeft)`. -/
def isLeft : Cell → Bool
  | .span .fromLeft => true
  | _ => false

/-- The count in `get_cell_rowspan` and `get_cell_colspan` on the cells that are
left after `skip`. -/
def spanCount (f : Cell → Bool) : List (Located Cell) → Nat
  | [] => 0
  | x :: xs => if isContent x.inner then (xs.takeWhile fun c => f c.inner).length + 1 else 0

/-- `get_cell_rowspan` (tables.rs:293-309). -/
def rowspan (t : Table) (row col : Nat) : Nat :=
  spanCount isAbove ((drain (t.columnNext col) (t.rowCnt + 1) 0).drop row)

/-- `get_cell_colspan` (tables.rs:316-331). -/
def colspan (t : Table) (row col : Nat) : Nat :=
  spanCount isLeft ((drain (t.rowNext row) (t.colCnt + 1) 0).drop col)

/-- `Cell::get_align`. -/
def getAlign : Cell → Option Align
  | .align a => some a
  | _ => none

/-- `get_column_alignment` (tables.rs:188-192); the default is `None`
(tables.rs:449-468). -/
def columnAlignment (t : Table) (col : Nat) : Align :=
  ((drain (t.columnNext col) (t.rowCnt + 1) 0).findSome? fun c => getAlign c.inner).getD .none

/-! ## Size hints

The two bounds of a hint are always the same number. `none` is the panic of a subtraction below zero. -/

/-- `a - b` of `usize`. -/
def hintSub (a b : Nat) : Option Nat := if b ≤ a then some (a - b) else none

/-- `Rows::size_hint` (tables.rs:567-570). -/
def rowsHint (t : Table) (idx : Nat) : Option Nat := hintSub t.rowCnt idx

/-- `HeaderRows::size_hint` (tables.rs:623-626). -/
def headerHint (t : Table) (idx : Nat) : Option Nat := hintSub (t.dividerRowIndex.getD 0) idx

/-- `BodyRows::size_hint` (tables.rs:681-684). -/
def bodyHint (t : Table) (idx : Nat) : Option Nat := hintSub t.rowCnt idx

/-- `Row::size_hint` and `IntoRow::size_hint` (tables.rs:727-730, 788-791). -/
def rowHint (t : Table) (col : Nat) : Option Nat := hintSub t.colCnt col

/-- `Columns::size_hint` (tables.rs:851-854). -/
def columnsHint (t : Table) (idx : Nat) : Option Nat := hintSub t.colCnt idx

/-- `Column::size_hint` and `IntoColumn::size_hint` (tables.rs:889-892, 942-945). -/
def columnHint (t : Table) (row : Nat) : Option Nat := hintSub t.rowCnt row

/-- `Cells::size_hint` and `IntoCells::size_hint` (tables.rs:1014-1023, 1097-1106), where `len` is the number of
cells that the table has at that time. -/
def cellsHint (colCnt len : Nat) (p : CellPos) : Option Nat :=
  let consumed := p.row * colCnt + p.col
  some (if len > consumed then len - consumed else 0)

end Table
end Vw
