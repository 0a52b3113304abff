import Verif.Spec.Elements
import Verif.Spec.Lines

/-!
# The source of placeholders
-/

namespace Vw

/-- Blanks, then a text in one line that does not begin with a blank. -/
def Value (w v : Str) : Prop :=
  ∃ ws, ws ≠ [] ∧ AllBlank ws ∧ w = ws ++ v ∧ 10 ∉ v ∧ ∀ x, v.head? = some x → ¬ (x = 32 ∨ x = 9)

/-- The text of a placeholder, without the end of its line. -/
inductive PlaceholderSource (date : Str → Option Date) : Str → Placeholder → Prop where
  | title {w v} : Value w v → PlaceholderSource date (b!"%title" ++ w) (.title v)
  | noHtml {ws} : AllBlank ws → PlaceholderSource date (b!"%nohtml" ++ ws) .noHtml
  | template {w v} : Value w v → PlaceholderSource date (b!"%template" ++ w) (.template v)
  | date {w v d} : Value w v → date v = some d → PlaceholderSource date (b!"%date" ++ w) (.date d)
  | other {n w v} : OtherName n → Value w v → PlaceholderSource date (b!"%" ++ (n ++ w)) (.other n v)

end Vw
