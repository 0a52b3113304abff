import Verif.Model.Ast
import Verif.Spec.Lines

/-!
# The documented syntax of tables
-/

namespace Vw

/-- A cell that continues the cell above it. -/
def AboveForm (w : Str) : Prop := ∃ a b, w = a ++ (b!"\\/" ++ b) ∧ AllBlank a ∧ AllBlank b

/-- A cell that continues the cell left of it. -/
def LeftForm (w : Str) : Prop := ∃ a b, w = a ++ (b!">" ++ b) ∧ AllBlank a ∧ AllBlank b

/-- A colon or nothing. -/
def colonIf (b : Bool) : Str := if b then b!":" else []

/-- A cell of hyphens with an optional colon on the left and on the right. -/
def HyphenForm (w : Str) (left right : Bool) : Prop :=
  ∃ n, 0 < n ∧ w = colonIf left ++ (List.replicate n c!"-" ++ colonIf right)

/-- What the source of a cell looks like. -/
def CellForm (w : Str) : Cell → Prop
  | .span .fromAbove => AboveForm w
  | .span .fromLeft => LeftForm w
  | .align .center => HyphenForm w true true
  | .align .left => HyphenForm w true false
  | .align .right => HyphenForm w false true
  | .align .none => HyphenForm w false false
  | .content _ => ¬ AboveForm w ∧ ¬ LeftForm w ∧ ∀ l r, ¬ HyphenForm w l r

/-- The cells `xs` are written in the text as `|x|x|...|` from `a` to `b`, one
between each pair of adjacent bars. -/
inductive BarCells (text : Str) : Nat → List (Located Cell) → Nat → Prop where
  | nil {a} : text[a]? = some c!"|" → BarCells text a [] (a + 1)
  | cons {a x xs b} : text[a]? = some c!"|" → x.region.offset = a + 1 → 0 < x.region.len →
      c!"|" ∉ x.region.source text → 10 ∉ x.region.source text →
      CellForm (x.region.source text) x.inner →
      BarCells text (a + 1 + x.region.len) xs b → BarCells text a (x :: xs) b

/-- The rows are written in the text one per line from `a` to `b`: blanks, the
cells between bars, the line end. -/
inductive BarRows (text : Str) : Nat → List (List (Located Cell)) → Nat → Prop where
  | nil {a} : BarRows text a [] a
  | cons {a i xs j m rows b} : a ≤ i → AllBlank (sub text a i) → xs ≠ [] → BarCells text i xs j →
      (m = j ∧ rows = []) ∨ (j < m ∧ (sub text j m = b!"\n" ∨ sub text j m = b!"\r\n")) →
      BarRows text m rows b → BarRows text a (xs :: rows) b

/-! ## Iteration -/

/-- Calling `next` from state `s` until it returns nothing gives the items `l`: what
`collect` or a `for` loop over the iterator sees. -/
inductive Yields {σ α} (next : σ → Option α × σ) : σ → List α → Prop where
  | done {s} : (next s).1 = none → Yields next s []
  | more {s x s' xs} : next s = (some x, s') → Yields next s' xs → Yields next s (x :: xs)

/-- `s'` is the state after `k` calls of `next`, which all returned something. -/
inductive After {σ α} (next : σ → Option α × σ) (s : σ) : Nat → σ → Prop where
  | start : After next s 0 s
  | call {k s' x s''} : After next s k s' → next s' = (some x, s'') → After next s (k + 1) s''

/-- At any time the hint is the number of things that are still returned. -/
def HintExact {σ α} (next : σ → Option α × σ) (hint : σ → Option Nat) (s : σ) : Prop :=
  ∀ k s' l, After next s k s' → Yields next s' l → hint s' = some l.length

/-- At any time no more than the hint is still returned, and taking the hint does not panic. -/
def HintUpper {σ α} (next : σ → Option α × σ) (hint : σ → Option Nat) (s : σ) : Prop :=
  ∀ k s' l, After next s k s' → Yields next s' l → ∃ n, hint s' = some n ∧ l.length ≤ n

/-- A table made by the constructor, whatever the cells given to it; `centered` may
have been changed. -/
def Table.Built (t : Table) : Prop := ∃ cells c c', t = { Table.new cells c with centered := c' }

/-- Row-major order of positions. -/
def CellPos.Before (p q : CellPos) : Prop := p.row < q.row ∨ (p.row = q.row ∧ p.col < q.col)

/-- The first cell of the row is an alignment cell. -/
def Table.Divider (t : Table) (r : Nat) : Prop := ∃ a reg, t.getCell r 0 = some ⟨.align a, reg⟩

/-- The cell at the position exists and continues the cell above. -/
def Table.AboveAt (t : Table) (r c : Nat) : Prop :=
  ∃ reg, t.getCell r c = some ⟨.span .fromAbove, reg⟩

/-- The cell at the position exists and continues the cell on its left. -/
def Table.LeftAt (t : Table) (r c : Nat) : Prop :=
  ∃ reg, t.getCell r c = some ⟨.span .fromLeft, reg⟩

/-- The cell at the position exists and has content. -/
def Table.ContentAt (t : Table) (r c : Nat) : Prop :=
  ∃ x reg, t.getCell r c = some ⟨.content x, reg⟩

end Vw
