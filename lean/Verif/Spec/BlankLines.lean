import Verif.Spec.LineStarts

/-!
# Blank lines
-/

namespace Vw

/-- A line begins at `q` that has blanks only. -/
def BlankAt (text : Str) (q : Nat) : Prop :=
  LineStart text q ∧ ∃ j, q ≤ j ∧ AllBlank (sub text q j) ∧
    (text[j]? = some 10 ∨ (text[j]? = some 13 ∧ text[j + 1]? = some 10) ∨ (j = text.length ∧ q < j))

/-- `q` is in one of the quotes. -/
def QuotedAt (bs : List (Located Block)) (q : Nat) : Prop :=
  ∃ y ∈ bs, y.region.offset ≤ q ∧ q < y.region.offset + y.region.len ∧ ∃ ls, y.inner = .blockquote ls

end Vw
