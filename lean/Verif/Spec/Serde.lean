import Verif.Spec.Json
import Verif.Spec.Copy
import Verif.Spec.WellFormed

/-!
# Which pages can be written as JSON
-/

namespace Vw

mutual
/-- The block is a definition list, or a list with one in it. -/
def Block.hasDefs : Block → Bool
  | .blockquote _ => false
  | .code _ _ _ => false
  | .defs _ => true
  | .divider => false
  | .header _ _ _ => false
  | .list xs => Block.itemsHaveDefs xs
  | .math _ _ => false
  | .paragraph _ => false
  | .placeholder _ => false
  | .table _ => false
def Block.itemsHaveDefs : List (Located (ItemF Block)) → Bool
  | [] => false
  | ⟨⟨_, _, _, cs, _⟩, _⟩ :: xs => Block.anyDefs cs || Block.itemsHaveDefs xs
def Block.anyDefs : List (Located Block) → Bool
  | [] => false
  | ⟨x, _⟩ :: xs => Block.hasDefs x || Block.anyDefs xs
end

/-- There is a definition list somewhere on the page. -/
def Page.hasDefs (pg : Page) : Bool := Block.anyDefs pg.elements

/-- What is assumed of uriparse and chrono: they can write all URIs and dates and read them back, URIs as
`K.uri`. -/
structure SerdeLib.Sound (K : SerdeLib) : Prop where
  uri : ∀ u, K.readUri (K.writeUri u) = some (K.uri u)
  uriDone : ∀ u, (K.writeUri u).Complete = true
  date : ∀ d, K.readDate (K.writeDate d) = some d
  dateDone : ∀ d, (K.writeDate d).Complete = true

end Vw
