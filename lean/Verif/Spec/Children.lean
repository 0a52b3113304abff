import Verif.Model.Children
import Verif.Spec.Tree

/-!
# Walking through a page

What a program sees that asks every element for its children, and the elements of a page listed
without asking.
-/

namespace Vw

/-- A walk: every element is visited, then what is below it, then its next sibling. -/
inductive Walk : List (Located Element) → List (Located Element) → Prop where
  | nil : Walk [] []
  | cons {x xs ys zs} : Walk x.inner.children ys → Walk xs zs → Walk (x :: xs) (x :: (ys ++ zs))

mutual
/-- An inline element and the ones in it. -/
def Inline.elems (r : Region) : Inline → List (Located Element)
  | .text s => [⟨.inline (.text s), r⟩]
  | .decorated k xs => ⟨.inline (.decorated k xs), r⟩ :: Inline.elemsAll xs
  | .keyword k => [⟨.inline (.keyword k), r⟩]
  | .link l => [⟨.inline (.link l), r⟩]
  | .tags ts => [⟨.inline (.tags ts), r⟩]
  | .code s => [⟨.inline (.code s), r⟩]
  | .math s => [⟨.inline (.math s), r⟩]
  | .comment c => [⟨.inline (.comment c), r⟩]
def Inline.elemsAll : List (Located Inline) → List (Located Element)
  | [] => []
  | ⟨x, r⟩ :: xs => Inline.elems r x ++ Inline.elemsAll xs
end

/-- A cell is not an element, its contents are. -/
def Cell.elems : Cell → List (Located Element)
  | .content xs => Inline.elemsAll xs
  | .span _ => []
  | .align _ => []

/-- A term followed by its definitions. -/
def TermDefs.elems (x : TermDefs) : List (Located Element) :=
  ⟨.term x.term.inner, x.term.region⟩ :: Inline.elemsAll x.term.inner ++
    x.defs.inner.flatMap fun d => ⟨.definition d.inner, d.region⟩ :: Inline.elemsAll d.inner

mutual
/-- A block and everything in it. Cells are listed by row and column. -/
def Block.elems (r : Region) : Block → List (Located Element)
  | .blockquote ls => [⟨.block (.blockquote ls), r⟩]
  | .code l m ls => [⟨.block (.code l m ls), r⟩]
  | .defs xs => ⟨.block (.defs xs), r⟩ :: xs.flatMap fun x => x.inner.elems
  | .divider => [⟨.block .divider, r⟩]
  | .header xs n c => ⟨.block (.header xs n c), r⟩ :: Inline.elemsAll xs
  | .list xs => ⟨.block (.list xs), r⟩ :: Block.elemsItems xs
  | .math ls e => [⟨.block (.math ls e), r⟩]
  | .paragraph rows => ⟨.block (.paragraph rows), r⟩ :: rows.flatMap Inline.elemsAll
  | .placeholder p => [⟨.block (.placeholder p), r⟩]
  | .table t => ⟨.block (.table t), r⟩ :: t.allCells.flatMap fun c => c.inner.elems
def Block.elemsItems : List (Located (ItemF Block)) → List (Located Element)
  | [] => []
  | ⟨⟨ty, sf, n, cs, td⟩, r⟩ :: xs =>
    ⟨.item ⟨ty, sf, n, cs, td⟩, r⟩ :: Block.elemsAll cs ++ Block.elemsItems xs
def Block.elemsAll : List (Located Block) → List (Located Element)
  | [] => []
  | ⟨x, r⟩ :: xs => Block.elems r x ++ Block.elemsAll xs
end

/-- All elements of a page. -/
def Page.elems (p : Page) : List (Located Element) := Block.elemsAll p.elements

/-- Whether the element is a table. -/
def Element.IsTable : Element → Prop
  | .block (.table _) => True
  | _ => False

/-- `a` ends before `b` begins. -/
def Located.Before {α β} (a : Located α) (b : Located β) : Prop :=
  a.region.offset + a.region.len ≤ b.region.offset

/-- `a` is in the region of `b`. -/
def Located.Inside {α β} (a : Located α) (b : Located β) : Prop :=
  b.region.offset ≤ a.region.offset ∧
    a.region.offset + a.region.len ≤ b.region.offset + b.region.len

end Vw
