import Verif.Spec.Moved
import Verif.Spec.Equality

/-!
# Moved elements without their places
-/

namespace Vw

mutual
theorem Inline.erase_moved (k : Nat) : ∀ x : Inline, (x.moved k).erase = x.erase
  | .text _ => rfl
  | .decorated d xs => by rw [Inline.moved, Inline.erase, Inline.erase, Inline.erases_moved k xs]
  | .keyword _ => rfl
  | .link _ => rfl
  | .tags _ => rfl
  | .code _ => rfl
  | .math _ => rfl
  | .comment _ => rfl
theorem Inline.erases_moved (k : Nat) : ∀ xs : List (Located Inline), Inline.erases (Inline.allMoved k xs) = Inline.erases xs
  | [] => rfl
  | ⟨x, _⟩ :: xs => by
    rw [Inline.allMoved, Inline.erases, Inline.erases, Inline.erase_moved k x, Inline.erases_moved k xs]
end

theorem Cell.erase_moved (k : Nat) (x : Cell) : (x.moved k).erase = x.erase := by
  cases x with
  | content c => simp only [Cell.moved, Cell.erase, Inline.erases_moved]
  | span _ => rfl
  | align _ => rfl

theorem Table.erase_moved (k : Nat) (t : Table) : (t.moved k).erase = t.erase := by
  simp only [Table.moved, Table.erase, List.map_map, Function.comp_def, Cell.erase_moved]

theorem TermDefs.erase_moved (k : Nat) (x : TermDefs) : (x.moved k).erase = x.erase := by
  simp only [TermDefs.moved, TermDefs.erase, Inline.lineMoved, List.map_map, Function.comp_def, Inline.erases_moved]

mutual
theorem Block.erase_moved (k : Nat) : ∀ x : Block, (x.moved k).erase = x.erase
  | .blockquote _ => rfl
  | .code .. => rfl
  | .defs xs => by
    rw [Block.moved, Block.erase, Block.erase]
    simp only [List.map_map, Function.comp_def, TermDefs.erase_moved]
  | .divider => rfl
  | .header c n b => by rw [Block.moved, Block.erase, Block.erase, Inline.erases_moved]
  | .list xs => by rw [Block.moved, Block.erase, Block.erase, Block.eraseItems_moved k xs]
  | .math .. => rfl
  | .paragraph ls => by
    rw [Block.moved, Block.erase, Block.erase]
    simp only [List.map_map, Function.comp_def, Inline.erases_moved]
  | .placeholder _ => rfl
  | .table t => by rw [Block.moved, Block.erase, Block.erase, Table.erase_moved]
theorem Block.eraseItems_moved (k : Nat) : ∀ xs : List (Located (ItemF Block)),
    Block.eraseItems (Block.itemsMoved k xs) = Block.eraseItems xs
  | [] => rfl
  | ⟨⟨_, _, _, cs, _⟩, _⟩ :: xs => by
    rw [Block.itemsMoved, Block.eraseItems, Block.eraseItems, Block.erases_moved k cs, Block.eraseItems_moved k xs]
theorem Block.erases_moved (k : Nat) : ∀ xs : List (Located Block), Block.erases (Block.allMoved k xs) = Block.erases xs
  | [] => rfl
  | ⟨x, _⟩ :: xs => by
    rw [Block.allMoved, Block.erases, Block.erases, Block.erase_moved k x, Block.erases_moved k xs]
end

theorem Page.erase_moved (k : Nat) (pg : Page) : (pg.moved k).erase = pg.erase := by
  unfold Page.moved Page.erase
  rw [Block.erases_moved]

end Vw
