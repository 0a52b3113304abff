import Verif.Model.Ast

/-!
# Specification vocabulary for inline elements

Independent of the parser: what a piece of source text looks like.
-/

namespace Vw

/-- The bytes of `s` from `a` (inclusive) to `b` (exclusive). -/
def sub (s : Str) (a b : Nat) : Str := (s.take b).drop a

/-- The delimiter on both sides of a decoration. -/
def Deco.delim : Deco → Str
  | .bold => b!"*"
  | .italic => b!"_"
  | .strikeout => b!"~~"
  | .superscript => b!"^"
  | .subscript => b!",,"

/-- The spelling of a keyword. -/
def Keyword.bytes : Keyword → Str
  | .todo => b!"TODO"
  | .done => b!"DONE"
  | .started => b!"STARTED"
  | .fixme => b!"FIXME"
  | .fixed => b!"FIXED"
  | .xxx => b!"XXX"

/-- The two lists have the same length and related elements. -/
inductive All2 {α β : Type} (R : α → β → Prop) : List α → List β → Prop where
  | nil : All2 R [] []
  | cons {x y xs ys} : R x y → All2 R xs ys → All2 R (x :: xs) (y :: ys)

/-- `ls` are the lines of `body`: line endings are `\n` or `\r\n`, and a last
line without a line ending counts if it is not empty. -/
inductive LinesOf : Str → List Str → Prop where
  | nil : LinesOf [] []
  | last {l} : l ≠ [] → 10 ∉ l → LinesOf l [l]
  | lf {l rest ls} : 10 ∉ l → l.getLast? ≠ some 13 → LinesOf rest ls →
      LinesOf (l ++ b!"\n" ++ rest) (l :: ls)
  | crlf {l rest ls} : 10 ∉ l → LinesOf rest ls →
      LinesOf (l ++ b!"\r\n" ++ rest) (l :: ls)

end Vw
