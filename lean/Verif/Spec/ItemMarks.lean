import Verif.Spec.Lists

/-!
# What is written at the beginning of an item
-/

namespace Vw

/-- The item begins with a prefix of its kind of suffix, and it has a mark exactly if that mark is
written after the prefix. -/
def ItemMarked (text : Str) (it : Located ListItem) : Prop :=
  ∃ ty w, PrefixText ty it.inner.suffix w ∧ w <+: text.drop it.region.offset ∧
    ∀ td, it.inner.todo = some td ↔ todoText (some td) <+: text.drop (it.region.offset + w.length)

end Vw
