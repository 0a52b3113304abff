import Verif.Spec.BlockStarts

/-!
# Lines that begin no block but a paragraph
-/

namespace Vw

/-- The first line of the text is not blank, and it does not begin like a block: after its blanks
there is no bar, no `>`, no fence, no prefix of a list item and, unless it is indented, no single
`%`; it is no header and no divider, and it has no two colons. -/
structure PlainForm (text : Str) : Prop where
  first : ∃ ws x r, text = ws ++ x :: r ∧ AllBlank ws ∧ ¬ (x = 32 ∨ x = 9) ∧ x ≠ 10 ∧ x ≠ 13 ∧
    x ≠ c!"|" ∧ x ≠ c!">" ∧ ¬ b!"{{{" <+: x :: r ∧ ¬ b!"{{$" <+: x :: r ∧
    (x = c!"%" → ws = [] → r.head? = some c!"%") ∧
    ∀ ty su w, PrefixText ty su w → ¬ w <+: x :: r
  header : ∀ n c mid, ¬ HeaderForm text n c mid
  divider : ¬ DividerForm text
  colons : ¬ ColonLine text 0

/-- The line at `q` begins with an arrow after blanks. -/
def ArrowLine (text : Str) (q : Nat) : Prop :=
  ∃ ws r, text.drop q = ws ++ (b!"> " ++ r) ∧ AllBlank ws

/-- `q` is in a paragraph. -/
def InParagraph (bs : List (Located Block)) (q : Nat) : Prop :=
  ∃ y ∈ bs, y.region.offset ≤ q ∧ q < y.region.offset + y.region.len ∧ ∃ rows, y.inner = .paragraph rows

end Vw
