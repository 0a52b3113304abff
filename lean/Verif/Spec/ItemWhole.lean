import Verif.Spec.InText
import Verif.Spec.BlockStarts

/-!
# Blocks in items of lists
-/

namespace Vw

/-- Both blocks are paragraphs, tables, definition lists or quotes. -/
def Alike : Block → Block → Prop
  | .paragraph _, .paragraph _ => True
  | .table _, .table _ => True
  | .defs _, .defs _ => True
  | .blockquote _, .blockquote _ => True
  | _, _ => False

/-- The blocks are of different kinds.  If both are lists, their first items have different
indentations. -/
def Unlike (text : Str) (y z : Located Block) : Prop :=
  ¬ Alike y.inner z.inner ∧
  ∀ l l' n m, y.inner = .list l → z.inner = .list l' → ItemForm (text.drop y.region.offset) n →
    ItemForm (text.drop z.region.offset) m → n ≠ m

/-- No block is followed by one of the same kind. -/
def KindsApart (text : Str) (xs : List (Located Block)) : Prop :=
  ∀ i y z, xs[i]? = some y → xs[i + 1]? = some z → Unlike text y z

end Vw
