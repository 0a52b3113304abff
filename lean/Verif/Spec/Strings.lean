import Verif.Spec.Tree

/-!
# All inline elements and all strings of a page

What a user can reach of a parsed page, independently of the parser.
-/

namespace Vw

/-! ## Inline elements -/

mutual
/-- The elements inside an inline element. -/
def Inline.inside : Inline → List (Located Inline)
  | .decorated _ ys => Inline.all ys
  | _ => []
/-- All inline elements of a row, at any depth. -/
def Inline.all : List (Located Inline) → List (Located Inline)
  | [] => []
  | ⟨x, r⟩ :: xs => ⟨x, r⟩ :: (Inline.inside x ++ Inline.all xs)
end

/-- The inline elements of a cell. -/
def Cell.inlines : Cell → List (Located Inline)
  | .content c => Inline.all c
  | _ => []

mutual
/-- All inline elements of a block, at any depth. -/
def Block.inlines : Block → List (Located Inline)
  | .defs xs => xs.flatMap fun x => (x.inner.term :: x.inner.defs.inner).flatMap fun y => Inline.all y.inner
  | .header xs _ _ => Inline.all xs
  | .list xs => Block.itemInlines xs
  | .paragraph rows => rows.flatMap Inline.all
  | .table t => t.allCells.flatMap fun c => c.inner.inlines
  | .blockquote _ => []
  | .code _ _ _ => []
  | .divider => []
  | .math _ _ => []
  | .placeholder _ => []
/-- All inline elements of list items. -/
def Block.itemInlines : List (Located (ItemF Block)) → List (Located Inline)
  | [] => []
  | ⟨⟨_, _, _, cs, _⟩, _⟩ :: xs => Block.allInlines cs ++ Block.itemInlines xs
/-- All inline elements of a sequence of blocks. -/
def Block.allInlines : List (Located Block) → List (Located Inline)
  | [] => []
  | ⟨x, _⟩ :: xs => Block.inlines x ++ Block.allInlines xs
end

/-- All inline elements of a page, at any depth. -/
def Page.inlines (p : Page) : List (Located Inline) := Block.allInlines p.elements

/-! ## Blocks -/

mutual
/-- The blocks inside a block. -/
def Block.inside : Block → List (Located Block)
  | .list xs => Block.itemBlocks xs
  | .blockquote _ => []
  | .code _ _ _ => []
  | .defs _ => []
  | .divider => []
  | .header _ _ _ => []
  | .math _ _ => []
  | .paragraph _ => []
  | .placeholder _ => []
  | .table _ => []
/-- The blocks inside list items. -/
def Block.itemBlocks : List (Located (ItemF Block)) → List (Located Block)
  | [] => []
  | ⟨⟨_, _, _, cs, _⟩, _⟩ :: xs => Block.allBlocks cs ++ Block.itemBlocks xs
/-- All blocks of a sequence, at any depth. -/
def Block.allBlocks : List (Located Block) → List (Located Block)
  | [] => []
  | ⟨x, r⟩ :: xs => ⟨x, r⟩ :: (Block.inside x ++ Block.allBlocks xs)
end

/-- All blocks of a page, at any depth. -/
def Page.blocks (p : Page) : List (Located Block) := Block.allBlocks p.elements

/-! ## Strings -/

/-- Keys and values of optional properties. -/
def propStrings : Option Map → List Str
  | none => []
  | some m => m.flatMap fun e => [e.1, e.2]

/-- The strings of a link description. -/
def Description.strings : Description → List Str
  | .text s => [s]
  | .transclusion _ (some d) ps => d.strings ++ propStrings ps
  | .transclusion _ none ps => propStrings ps

/-- The strings of an optional description. -/
def descStrings : Option Description → List Str
  | none => []
  | some d => d.strings

/-- The strings of the data of a link; the URI belongs to a library. -/
def LinkData.strings (d : LinkData) : List Str := descStrings d.desc ++ propStrings d.props

/-- The strings of a link. -/
def Link.strings : Link → List Str
  | .wiki d => d.strings
  | .indexed _ d => d.strings
  | .named n d => n :: d.strings
  | .diary _ d => d.strings
  | .raw d => d.strings
  | .transclusion d => d.strings

/-- The strings of an inline element, not counting elements inside it. -/
def Inline.strings : Inline → List Str
  | .text s => [s]
  | .decorated _ _ => []
  | .keyword _ => []
  | .link l => l.strings
  | .tags ts => ts
  | .code s => [s]
  | .math s => [s]
  | .comment (.line s) => [s]
  | .comment (.multi ls) => ls

/-- The strings of a block, not counting elements inside it. -/
def Block.strings : Block → List Str
  | .blockquote ls => ls
  | .code lang m ls => lang.toList ++ (m.flatMap fun e => [e.1, e.2]) ++ ls
  | .math ls e => ls ++ e.toList
  | .placeholder (.title s) => [s]
  | .placeholder .noHtml => []
  | .placeholder (.template s) => [s]
  | .placeholder (.date _) => []
  | .placeholder (.other n v) => [n, v]
  | .defs _ => []
  | .divider => []
  | .header _ _ _ => []
  | .list _ => []
  | .paragraph _ => []
  | .table _ => []

/-- All strings of a page. -/
def Page.strings (p : Page) : List Str :=
  (p.inlines.flatMap fun x => x.inner.strings) ++ (p.blocks.flatMap fun x => x.inner.strings)

/-! ## UTF-8 -/

/-- A continuation byte. -/
def Cont8 (b : Byte) : Prop := 128 ≤ b ∧ b ≤ 191

/-- Well-formed UTF-8 (Unicode standard, table 3-7). -/
inductive ValidUtf8 : Str → Prop where
  | nil : ValidUtf8 []
  | one {a rest} : a < 128 → ValidUtf8 rest → ValidUtf8 (a :: rest)
  | two {a b rest} : 194 ≤ a → a ≤ 223 → Cont8 b → ValidUtf8 rest → ValidUtf8 (a :: b :: rest)
  | three {a b c rest} : 224 ≤ a → a ≤ 239 → Cont8 b → (a = 224 → 160 ≤ b) → (a = 237 → b ≤ 159) →
      Cont8 c → ValidUtf8 rest → ValidUtf8 (a :: b :: c :: rest)
  | four {a b c d rest} : 240 ≤ a → a ≤ 244 → Cont8 b → (a = 240 → 144 ≤ b) → (a = 244 → b ≤ 143) →
      Cont8 c → Cont8 d → ValidUtf8 rest → ValidUtf8 (a :: b :: c :: d :: rest)

end Vw
