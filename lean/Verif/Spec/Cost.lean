import Verif.Model.Ast
import Verif.Spec.Lines
import Verif.Spec.Lists

/-!
# How often the lists of a page have to be read
-/

namespace Vw

/-- A paragraph. -/
def Block.isPara : Block → Bool
  | .paragraph _ => true
  | _ => false

mutual
/-- One for a list and what its items ask for. -/
def Block.weight : Block → Nat
  | .list xs => 1 + Block.weightItems xs
  | _ => 0
/-- The items of a list. -/
def Block.weightItems : List (Located (ItemF Block)) → Nat
  | [] => 0
  | ⟨⟨_, _, _, cs, _⟩, _⟩ :: xs => Block.weightConts false cs + Block.weightItems xs
/-- The contents of an item; what comes directly after a paragraph counts twice. -/
def Block.weightConts (twice : Bool) : List (Located Block) → Nat
  | [] => 0
  | ⟨x, _⟩ :: xs => (if twice then 2 else 1) * x.weight +
      Block.weightConts x.isPara xs
end

/-- The blocks of a page. -/
def Page.weight (p : Page) : Nat := (p.elements.map fun x => x.inner.weight).sum

/-- Lines `- a`, each one blank deeper than the one before. -/
def stairs : Nat → Nat → Str
  | _, 0 => []
  | i, n + 1 => List.replicate i 32 ++ (b!"- a\n" ++ stairs (i + 1) n)

/-- No line of the text begins, after blanks, as a list item does. -/
def NoItems (text : Str) : Prop :=
  ∀ a b, text = a ++ b → (a = [] ∨ a.getLast? = some 10) →
    ∀ ws ty su w r, AllBlank ws → PrefixText ty su w → b ≠ ws ++ (w ++ r)

end Vw
