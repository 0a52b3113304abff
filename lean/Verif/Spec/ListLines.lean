import Verif.Spec.PlainStarts

/-!
# Lines below an item
-/

namespace Vw

/-- The first line of the text is indented more than `n`, has more than blanks, and is no header. -/
structure UnderForm (text : Str) (n : Nat) : Prop where
  first : ∃ ws v, text = ws ++ v ∧ AllBlank ws ∧ n < ws.length ∧ (∀ c, v.head? = some c → ¬ (c = 32 ∨ c = 9)) ∧
    ¬ EolHere v
  header : ∀ m c mid, ¬ HeaderForm text m c mid

/-- All lines after `q` and before `q'` are indented more than `n`, have more than blanks, and are no
headers. -/
def UnderLines (text : Str) (n q q' : Nat) : Prop :=
  ∀ p, q < p → p < q' → LineStart text p → UnderForm (text.drop p) n

end Vw
