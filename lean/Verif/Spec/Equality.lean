import Verif.Model.Ast

/-!
# Specification for equality of elements

Representation invariants of the maps inside elements, and elements without their
regions.
-/

namespace Vw

/-- The keys of a hash map are distinct. -/
def DistinctKeys {κ υ : Type} (m : List (κ × υ)) : Prop := (m.map (·.1)).Nodup

/-- Properties of links have distinct keys. -/
def PropsValid (p : Option Map) : Prop := ∀ m, p = some m → DistinctKeys m

def Description.Valid : Description → Prop
  | .text _ => True
  | .transclusion _ none p => PropsValid p
  | .transclusion _ (some d) p => Description.Valid d ∧ PropsValid p

def LinkData.Valid (x : LinkData) : Prop := (∀ d, x.desc = some d → d.Valid) ∧ PropsValid x.props

def Link.Valid : Link → Prop
  | .wiki x => x.Valid
  | .indexed _ x => x.Valid
  | .named _ x => x.Valid
  | .diary _ x => x.Valid
  | .raw x => x.Valid
  | .transclusion x => x.Valid

mutual
def Inline.Valid : Inline → Prop
  | .text _ => True
  | .decorated _ xs => Inline.Valids xs
  | .keyword _ => True
  | .link l => l.Valid
  | .tags _ => True
  | .code _ => True
  | .math _ => True
  | .comment _ => True
def Inline.Valids : List (Located Inline) → Prop
  | [] => True
  | ⟨x, _⟩ :: xs => Inline.Valid x ∧ Inline.Valids xs
end

def Cell.Valid : Cell → Prop
  | .content c => Inline.Valids c
  | .span _ => True
  | .align _ => True

/-- `n` is one more than the largest index, zero if there is none. -/
def CountOf (is : List Nat) (n : Nat) : Prop := (∀ i ∈ is, i < n) ∧ (n = 0 ∨ ∃ i ∈ is, i + 1 = n)

/-- Cells have distinct positions and the counts are those of the cells. -/
def Table.Valid (t : Table) : Prop :=
  DistinctKeys t.cells ∧ (∀ e ∈ t.cells, e.2.inner.Valid) ∧
    CountOf (t.cells.map (fun e => e.1.row)) t.rowCnt ∧
    CountOf (t.cells.map (fun e => e.1.col)) t.colCnt

def TermDefs.Valid (x : TermDefs) : Prop :=
  Inline.Valids x.term.inner ∧ ∀ d ∈ x.defs.inner, Inline.Valids d.inner

mutual
/-- All maps inside the block have distinct keys and the counts of tables are right. -/
def Block.Valid : Block → Prop
  | .blockquote _ => True
  | .code _ m _ => DistinctKeys m
  | .defs xs => ∀ x ∈ xs, x.inner.Valid
  | .divider => True
  | .header c _ _ => Inline.Valids c
  | .list xs => Block.ValidItems xs
  | .math _ _ => True
  | .paragraph rs => ∀ r ∈ rs, Inline.Valids r
  | .placeholder _ => True
  | .table t => t.Valid
def Block.ValidItems : List (Located (ItemF Block)) → Prop
  | [] => True
  | ⟨⟨_, _, _, cs, _⟩, _⟩ :: xs => Block.Valids cs ∧ Block.ValidItems xs
def Block.Valids : List (Located Block) → Prop
  | [] => True
  | ⟨x, _⟩ :: xs => Block.Valid x ∧ Block.Valids xs
end

/-- All maps inside the page have distinct keys and the counts of tables are right. -/
def Page.Valid (pg : Page) : Prop := Block.Valids pg.elements

/-! ## Elements without regions -/

/-- The region that replaces all others. -/
def Region.zero : Region := ⟨0, 0, 0⟩

mutual
def Inline.erase : Inline → Inline
  | .text s => .text s
  | .decorated k xs => .decorated k (Inline.erases xs)
  | .keyword k => .keyword k
  | .link l => .link l
  | .tags ts => .tags ts
  | .code s => .code s
  | .math s => .math s
  | .comment c => .comment c
def Inline.erases : List (Located Inline) → List (Located Inline)
  | [] => []
  | ⟨x, _⟩ :: xs => ⟨Inline.erase x, .zero⟩ :: Inline.erases xs
end

def Cell.erase : Cell → Cell
  | .content c => .content (Inline.erases c)
  | .span s => .span s
  | .align a => .align a

def Table.erase (t : Table) : Table :=
  { t with cells := t.cells.map (fun e => (e.1, ⟨e.2.inner.erase, .zero⟩)) }

def TermDefs.erase (x : TermDefs) : TermDefs :=
  ⟨⟨Inline.erases x.term.inner, .zero⟩,
    ⟨x.defs.inner.map (fun d => ⟨Inline.erases d.inner, .zero⟩), .zero⟩⟩

mutual
/-- The block with all regions replaced. -/
def Block.erase : Block → Block
  | .blockquote l => .blockquote l
  | .code l m ls => .code l m ls
  | .defs xs => .defs (xs.map (fun x => ⟨x.inner.erase, .zero⟩))
  | .divider => .divider
  | .header c n b => .header (Inline.erases c) n b
  | .list xs => .list (Block.eraseItems xs)
  | .math l e => .math l e
  | .paragraph rs => .paragraph (rs.map Inline.erases)
  | .placeholder p => .placeholder p
  | .table t => .table t.erase
def Block.eraseItems : List (Located (ItemF Block)) → List (Located (ItemF Block))
  | [] => []
  | ⟨⟨ty, su, pos, cs, td⟩, _⟩ :: xs =>
    ⟨⟨ty, su, pos, Block.erases cs, td⟩, .zero⟩ :: Block.eraseItems xs
def Block.erases : List (Located Block) → List (Located Block)
  | [] => []
  | ⟨x, _⟩ :: xs => ⟨Block.erase x, .zero⟩ :: Block.erases xs
end

/-- The page with all regions replaced. -/
def Page.erase (pg : Page) : Page := ⟨Block.erases pg.elements⟩

/-! ## The regions of a page -/

mutual
def Inline.regions : Inline → List Region
  | .decorated _ xs => Inline.regionsAll xs
  | .text _ => []
  | .keyword _ => []
  | .link _ => []
  | .tags _ => []
  | .code _ => []
  | .math _ => []
  | .comment _ => []
def Inline.regionsAll : List (Located Inline) → List Region
  | [] => []
  | ⟨x, r⟩ :: xs => r :: (Inline.regions x ++ Inline.regionsAll xs)
end

/-- The regions of a cell and inside it. -/
def Cell.regions (c : Located Cell) : List Region :=
  match c.inner with
  | .content xs => c.region :: Inline.regionsAll xs
  | _ => [c.region]

def TermDefs.regions (x : TermDefs) : List Region :=
  x.term.region :: Inline.regionsAll x.term.inner ++ x.defs.region ::
    x.defs.inner.flatMap fun d => d.region :: Inline.regionsAll d.inner

mutual
/-- All regions inside the block in order, where a table gives for each position the
regions of its cell. -/
def Block.regions : Block → List (Region ⊕ (CellPos → Option (List Region)))
  | .blockquote _ => []
  | .code _ _ _ => []
  | .defs xs => (xs.flatMap fun x => x.region :: x.inner.regions).map .inl
  | .divider => []
  | .header c _ _ => (Inline.regionsAll c).map .inl
  | .list xs => Block.regionsItems xs
  | .math _ _ => []
  | .paragraph rs => (rs.flatMap Inline.regionsAll).map .inl
  | .placeholder _ => []
  | .table t => [.inr fun k => (t.getCell k.row k.col).map Cell.regions]
def Block.regionsItems : List (Located (ItemF Block)) →
    List (Region ⊕ (CellPos → Option (List Region)))
  | [] => []
  | ⟨⟨_, _, _, cs, _⟩, r⟩ :: xs => .inl r :: (Block.regionsAll cs ++ Block.regionsItems xs)
def Block.regionsAll : List (Located Block) → List (Region ⊕ (CellPos → Option (List Region)))
  | [] => []
  | ⟨x, r⟩ :: xs => .inl r :: (Block.regions x ++ Block.regionsAll xs)
end

/-- All regions of a page in order. -/
def Page.regions (pg : Page) : List (Region ⊕ (CellPos → Option (List Region))) :=
  Block.regionsAll pg.elements

end Vw
