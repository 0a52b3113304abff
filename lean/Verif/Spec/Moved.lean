import Verif.Model.Blocks

/-!
# Elements found further on in a text

`moved k` is the same value with all regions, at every depth, `k` bytes later.
-/

namespace Vw

/-- The region `k` bytes later. -/
def Region.moved (k : Nat) (r : Region) : Region := { r with offset := k + r.offset }

mutual
/-- An inline element `k` bytes later. -/
def Inline.moved (k : Nat) : Inline → Inline
  | .decorated d xs => .decorated d (Inline.allMoved k xs)
  | x => x
/-- Inline elements `k` bytes later. -/
def Inline.allMoved (k : Nat) : List (Located Inline) → List (Located Inline)
  | [] => []
  | ⟨x, r⟩ :: xs => ⟨Inline.moved k x, r.moved k⟩ :: Inline.allMoved k xs
end

/-- A cell `k` bytes later. -/
def Cell.moved (k : Nat) : Cell → Cell
  | .content c => .content (Inline.allMoved k c)
  | x => x

/-- A table `k` bytes later. -/
def Table.moved (k : Nat) (t : Table) : Table :=
  { t with cells := t.cells.map fun e => (e.1, ⟨e.2.inner.moved k, e.2.region.moved k⟩) }

/-- A term or definition `k` bytes later. -/
def Inline.lineMoved (k : Nat) (x : Located Inlines) : Located Inlines :=
  ⟨Inline.allMoved k x.inner, x.region.moved k⟩

/-- A term with its definitions `k` bytes later. -/
def TermDefs.moved (k : Nat) (x : TermDefs) : TermDefs :=
  ⟨Inline.lineMoved k x.term, ⟨x.defs.inner.map (Inline.lineMoved k), x.defs.region.moved k⟩⟩

mutual
/-- A block `k` bytes later. -/
def Block.moved (k : Nat) : Block → Block
  | .defs xs => .defs (xs.map fun x => ⟨x.inner.moved k, x.region.moved k⟩)
  | .header c n b => .header (Inline.allMoved k c) n b
  | .list xs => .list (Block.itemsMoved k xs)
  | .paragraph rs => .paragraph (rs.map (Inline.allMoved k))
  | .table t => .table (t.moved k)
  | .blockquote l => .blockquote l
  | .code l m ls => .code l m ls
  | .divider => .divider
  | .math l e => .math l e
  | .placeholder p => .placeholder p
/-- List items `k` bytes later. -/
def Block.itemsMoved (k : Nat) : List (Located (ItemF Block)) → List (Located (ItemF Block))
  | [] => []
  | ⟨⟨ty, su, pos, cs, td⟩, r⟩ :: xs =>
    ⟨⟨ty, su, pos, Block.allMoved k cs, td⟩, r.moved k⟩ :: Block.itemsMoved k xs
/-- Blocks `k` bytes later. -/
def Block.allMoved (k : Nat) : List (Located Block) → List (Located Block)
  | [] => []
  | ⟨x, r⟩ :: xs => ⟨Block.moved k x, r.moved k⟩ :: Block.allMoved k xs
end

/-- A page `k` bytes later. -/
def Page.moved (k : Nat) (pg : Page) : Page := ⟨Block.allMoved k pg.elements⟩

end Vw
