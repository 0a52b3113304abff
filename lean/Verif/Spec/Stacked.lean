import Verif.Spec.LineStarts

/-!
# Blocks of whole lines
-/

namespace Vw

/-- A line or the text ends before `q`. -/
def LineEdge (text : Str) (q : Nat) : Prop := LineStart text q ∨ q = text.length

/-- The blocks are one after the other with nothing between them, the last one ends at `b`, and all
but the first begin with a line. -/
def Stacked (text : Str) : List (Located Block) → Nat → Prop
  | [], _ => False
  | [y], b => y.region.offset + y.region.len = b
  | y :: z :: r, b => y.region.offset + y.region.len = z.region.offset ∧ LineStart text z.region.offset ∧
    Stacked text (z :: r) b

/-- The regions are one after the other from `a` to `b`, each behind `n` blanks at the beginning of a
line. -/
def RowsOver (text : Str) (n : Nat) : Nat → List Region → Nat → Prop
  | a, [], b => a = b
  | a, r :: rs, b => LineStart text a ∧ r.offset = a + n ∧ AllBlank (sub text a (a + n)) ∧ 0 < r.len ∧
    RowsOver text n (r.offset + r.len) rs b

end Vw
