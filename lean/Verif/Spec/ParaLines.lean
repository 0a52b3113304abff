import Verif.Spec.InText
import Verif.Spec.LineStarts
import Verif.Spec.Inline

/-!
# Lines of paragraphs
-/

namespace Vw

/-- Elements that begin at `i` and end at `e`. -/
def RowOver (xs : Inlines) (i e : Nat) : Prop :=
  (∃ x, xs.head? = some x ∧ x.region.offset = i) ∧
  ∃ x, xs.getLast? = some x ∧ x.region.offset + x.region.len = e

/-- The elements begin with the first byte that is no blank at or behind `q`, and end with the line.
The next line begins at `q'`.  Line feeds are inside of comments over several lines only. -/
def RowOfLine (text : Str) (xs : Inlines) (q q' : Nat) : Prop :=
  ∃ i e, q ≤ i ∧ AllBlank (sub text q i) ∧ (∀ b, text[i]? = some b → ¬ (b = 32 ∨ b = 9)) ∧
    RowOver xs i e ∧ i < e ∧
    ((q' = e + 1 ∧ sub text e q' = b!"\n") ∨ (q' = e + 2 ∧ sub text e q' = b!"\r\n") ∨ (e = text.length ∧ q' = e)) ∧
    ∀ p, i ≤ p → p < e → text[p]? = some 10 →
      ∃ y ∈ Inline.all xs, y.region.Inside (p + 1) ∧ ∃ ls, y.inner = .comment (.multi ls)

/-- The rows are the lines from `a` to `b`. -/
def LineRows (text : Str) : Nat → List Inlines → Nat → Prop
  | a, [], b => a = b
  | a, xs :: rows, b => ∃ a', a < a' ∧ RowOfLine text xs a a' ∧ LineRows text a' rows b

end Vw
