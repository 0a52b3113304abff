import Verif.Spec.BlockText
import Verif.Spec.Tables

/-!
# Tables that are read back as they were written
-/

namespace Vw

/-- `s` followed by spaces up to the width `w`. -/
def fill (w : Nat) (s : Str) : Str := s ++ rep c!" " (w - s.length)

/-- The text of a span cell. -/
def spanText (cfg : VwCfg) : CellSpan → Str
  | .fromLeft => if cfg.tableNoPadding then b!">" else b!" > "
  | .fromAbove => if cfg.tableNoPadding then b!"\\/" else b!" \\/ "

/-- The least width of a cell. -/
def cellNeed (L : OutLib) (cfg : VwCfg) : Cell → Nat
  | .content xs => (Inline.textAll L cfg xs).length
  | .span s => (spanText cfg s).length
  | .align .none => 1
  | .align .left => 2
  | .align .right => 2
  | .align .center => 3

/-- The cell in a column of the width `w`. -/
def cellFull (L : OutLib) (cfg : VwCfg) (w : Nat) : Cell → Str
  | .content xs => Inline.textAll L cfg xs
  | .span s => fill w (spanText cfg s)
  | .align .none => rep c!"-" w
  | .align .left => b!":" ++ rep c!"-" (w - 1)
  | .align .right => rep c!"-" (w - 1) ++ b!":"
  | .align .center => b!":" ++ (rep c!"-" (w - 2) ++ b!":")

/-- The width of a column: that of its widest cell. -/
def Table.width (L : OutLib) (cfg : VwCfg) (t : Table) (c : Nat) : Nat :=
  ((t.cells.filter fun e => e.1.col = c).map fun e => cellNeed L cfg e.2.inner).foldl max 0

/-- The text of the cell at a position. -/
def Table.cellAt (L : OutLib) (cfg : VwCfg) (t : Table) (r c : Nat) : Str :=
  match t.getCell r c with
  | some x => cellFull L cfg (t.width L cfg c) x.inner
  | none => []

/-- The texts of the cells of a row. -/
def Table.rowAt (L : OutLib) (cfg : VwCfg) (t : Table) (r : Nat) : List Str :=
  (List.range t.colCnt).map (t.cellAt L cfg r)

/-- The text of a table at indentation level `i`; `b` says whether the first line is indented,
too. -/
def Table.text (L : OutLib) (cfg : VwCfg) (t : Table) (i : Nat) (b : Bool) : Str :=
  rowLines cfg t.centered i b ((List.range t.rowCnt).map (t.rowAt L cfg))

/-- Contents that can be written in a cell read at depth `d`: they begin and, unless cells
are not padded, end with a blank, hold no bar, and cannot be taken for a span cell. -/
structure CellTextOk (env : Env) (ue : Uri → Uri → Bool) (L : OutLib) (cfg : VwCfg) (d : Nat) (xs : Inlines) : Prop where
  first : ∃ b t reg rest, xs = ⟨.text (b :: t), reg⟩ :: rest ∧ (b = 32 ∨ b = 9)
  last : cfg.tableNoPadding = true ∨ ∃ t b, Inline.textAll L cfg xs = t ++ [b] ∧ (b = 32 ∨ b = 9)
  bar : c!"|" ∉ Inline.textAll L cfg xs
  line : 10 ∉ Inline.textAll L cfg xs
  span : ∀ ws q, Inline.textAll L cfg xs = ws ++ q → AllBlank ws → ¬ b!">" <+: q ∧ ¬ b!"\\/" <+: q
  ok : InlinesOk env ue L cfg [] xs
  depth : d + 2 + Inline.nestAll xs ≤ 65535

/-- A table that can be written, read at depth `d`. There is a cell at every position, cells
with contents are as wide as their columns, each column has a cell that is no alignment, not
all rows are dividers, and the first line has no `::`. -/
structure TableOk (env : Env) (ue : Uri → Uri → Bool) (L : OutLib) (cfg : VwCfg) (d : Nat) (t : Table) : Prop where
  built : t.Built
  full : t.Full
  cells : ∀ r c xs reg, t.getCell r c = some ⟨.content xs, reg⟩ →
    (Inline.textAll L cfg xs).length = t.width L cfg c ∧ CellTextOk env ue L cfg d xs
  columns : ∀ c < t.colCnt, ∃ r x, t.getCell r c = some x ∧ ∀ a, x.inner ≠ .align a
  rows : ∃ r x, t.getCell r 0 = some x ∧ ∀ a, x.inner ≠ .align a
  term : NoTermLine (b!"|" ++ barred (t.rowAt L cfg 0))

end Vw
