import Verif.Model.Copy

/-!
# What is assumed of copies
-/

namespace Vw

/-- Copied URIs are equal to the original, copied hash maps have the same entries. -/
structure CopyLib.Sound (ue : Uri → Uri → Bool) (K : CopyLib) : Prop where
  uri : ∀ u, ue (K.uri u) u = true
  order : ∀ m, (K.order m).Perm m
  cellOrder : ∀ m, (K.cellOrder m).Perm m

end Vw
