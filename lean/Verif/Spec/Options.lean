import Verif.Model.HtmlOut

/-!
# Specification of what the options of the HTML output do
-/

namespace Vw

/-- The configurations agree on everything but `template.name`, `template.ext`, `list.ignore_newline` and the options
of links. -/
def HtmlCfg.AgreeOnRest (c d : HtmlCfg) : Prop :=
  d = { c with
    templateName := d.templateName, templateExt := d.templateExt, listIgnoreNewline := d.listIgnoreNewline
    baseUrl := d.baseUrl, canonicalize := d.canonicalize, uglyUrls := d.uglyUrls }

/-! ## Pages without comments -/

mutual
/-- An element without the comments in it. -/
def Inline.uncommented : Inline → Inline
  | .decorated k cs => .decorated k (Inline.uncommentedAll cs)
  | x => x
/-- Elements without comments. -/
def Inline.uncommentedAll : List (Located Inline) → List (Located Inline)
  | [] => []
  | ⟨.comment _, _⟩ :: xs => Inline.uncommentedAll xs
  | ⟨x, r⟩ :: xs => ⟨Inline.uncommented x, r⟩ :: Inline.uncommentedAll xs
end

/-- A cell without comments. -/
def Cell.uncommented : Cell → Cell
  | .content c => .content (Inline.uncommentedAll c)
  | x => x

/-- A table without comments. -/
def Table.uncommented (t : Table) : Table :=
  { t with cells := t.cells.map fun e => (e.1, ⟨e.2.inner.uncommented, e.2.region⟩) }

/-- A term or definition without comments. -/
def Inline.lineUncommented (x : Located Inlines) : Located Inlines := ⟨Inline.uncommentedAll x.inner, x.region⟩

/-- A term and its definitions without comments. -/
def TermDefs.uncommented (x : TermDefs) : TermDefs :=
  ⟨Inline.lineUncommented x.term, ⟨x.defs.inner.map Inline.lineUncommented, x.defs.region⟩⟩

mutual
/-- A block without comments; the lines of paragraphs stay. -/
def Block.uncommented : Block → Block
  | .defs xs => .defs (xs.map fun x => ⟨x.inner.uncommented, x.region⟩)
  | .header c n b => .header (Inline.uncommentedAll c) n b
  | .list xs => .list (Block.itemsUncommented xs)
  | .paragraph rs => .paragraph (rs.map Inline.uncommentedAll)
  | .table t => .table t.uncommented
  | .blockquote l => .blockquote l
  | .code l m ls => .code l m ls
  | .divider => .divider
  | .math l e => .math l e
  | .placeholder p => .placeholder p
/-- List items without comments. -/
def Block.itemsUncommented : List (Located (ItemF Block)) → List (Located (ItemF Block))
  | [] => []
  | ⟨⟨ty, su, pos, cs, td⟩, r⟩ :: xs => ⟨⟨ty, su, pos, Block.allUncommented cs, td⟩, r⟩ :: Block.itemsUncommented xs
/-- Blocks without comments. -/
def Block.allUncommented : List (Located Block) → List (Located Block)
  | [] => []
  | ⟨x, r⟩ :: xs => ⟨Block.uncommented x, r⟩ :: Block.allUncommented xs
end

/-- A page without comments. -/
def Page.uncommented (pg : Page) : Page := ⟨Block.allUncommented pg.elements⟩

/-! ## Pages whose paragraphs have one line -/

/-- Lines joined by the text of one space. -/
def spaced : List Inlines → Inlines
  | [] => []
  | [l] => l
  | l :: ls => l ++ ⟨.text b!" ", ⟨0, 0, 0⟩⟩ :: spaced ls

/-- A paragraph as one line. Paragraphs of nothing but comments stay. -/
def oneLine (ls : List Inlines) : List Inlines :=
  if ls.all fun l => l.all fun e => e.inner.isComment then ls else [spaced ls]

mutual
/-- A block in which every paragraph is one line. -/
def Block.joined : Block → Block
  | .list xs => .list (Block.itemsJoined xs)
  | .paragraph rs => .paragraph (oneLine rs)
  | .defs xs => .defs xs
  | .header c n b => .header c n b
  | .table t => .table t
  | .blockquote l => .blockquote l
  | .code l m ls => .code l m ls
  | .divider => .divider
  | .math l e => .math l e
  | .placeholder p => .placeholder p
/-- List items in which every paragraph is one line. -/
def Block.itemsJoined : List (Located (ItemF Block)) → List (Located (ItemF Block))
  | [] => []
  | ⟨⟨ty, su, pos, cs, td⟩, r⟩ :: xs => ⟨⟨ty, su, pos, Block.allJoined cs, td⟩, r⟩ :: Block.itemsJoined xs
/-- Blocks in which every paragraph is one line. -/
def Block.allJoined : List (Located Block) → List (Located Block)
  | [] => []
  | ⟨x, r⟩ :: xs => ⟨Block.joined x, r⟩ :: Block.allJoined xs
end

/-- A page in which every paragraph is one line. -/
def Page.joined (pg : Page) : Page := ⟨Block.allJoined pg.elements⟩

/-! ## Templates -/

/-- A path to something in a directory, without `..`. -/
def Path.InDir (dir q : Path) : Prop := ∃ names : List Str, q = dir ++ names.map Comp.normal

end Vw
