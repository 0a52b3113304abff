import Verif.Spec.InText

/-!
# Texts beside each other
-/

namespace Vw

/-- No two texts are next to each other in a row. -/
def TextsApart (xs : Inlines) : Prop :=
  ∀ i y z, xs[i]? = some y → xs[i + 1]? = some z → ∀ t t', y.inner = .text t → z.inner ≠ .text t'

/-- What elements other than text begin with. -/
def openMarks : List Str :=
  [b!"`", b!"$", b!"%%", b!"[[", b!"{{", b!":", b!"*", b!"_", b!"~~", b!"^", b!",,",
   b!"TODO", b!"DONE", b!"STARTED", b!"FIXME", b!"FIXED", b!"XXX"]

/-- Text without anything that elements begin with. -/
def PlainText (u : Str) : Prop := ∀ w ∈ openMarks, ¬ w <:+: u

end Vw
