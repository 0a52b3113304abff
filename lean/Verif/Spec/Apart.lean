import Verif.Model.Ast

/-!
# Decorations inside decorations
-/

namespace Vw

mutual
/-- No decoration of one of the kinds `ks` is in the element, and none is inside another one of
its own kind. -/
def Inline.Apart : List Deco → Inline → Prop
  | ks, .decorated k cs => k ∉ ks ∧ Inline.Aparts (k :: ks) cs
  | _, _ => True
def Inline.Aparts : List Deco → List (Located Inline) → Prop
  | _, [] => True
  | ks, ⟨x, _⟩ :: xs => Inline.Apart ks x ∧ Inline.Aparts ks xs
end

end Vw
