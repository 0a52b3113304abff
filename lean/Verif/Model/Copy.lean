import Verif.Model.Children

/-!
# Copies of elements

Models `to_borrowed` and `into_owned` of the elements (`/repo/vimwiki-core/src/lang/elements`), which make a
value that borrows from the original or owns all its data. Both walk the elements in the same way, so one
definition stands for both; the comments cite both places. Texts are copied as they are.
-/

namespace Vw

/-- What is not modelled of copies: how a URI is copied (`uri_ref_to_borrowed`, links/data.rs:279-290, and
`into_owned` of uriparse), and the order in which new hash maps keep their entries. -/
structure CopyLib where
  uri : Uri → Uri
  order : Map → Map
  cellOrder : List (CellPos × Located Cell) → List (CellPos × Located Cell)

/-- `Description` (links/description.rs:46-63) with the boxed data (links/data.rs:26-74) inlined. -/
def Description.copy (K : CopyLib) : Description → Description
  | .text s => .text s
  | .transclusion u none p => .transclusion (K.uri u) none (p.map K.order)
  | .transclusion u (some d) p => .transclusion (K.uri u) (some (Description.copy K d)) (p.map K.order)

/-- `LinkData` (links/data.rs:26-74). -/
def LinkData.copy (K : CopyLib) (x : LinkData) : LinkData := ⟨K.uri x.uri, x.desc.map (Description.copy K), x.props.map K.order⟩

/-- `Link` (links/mod.rs:352-409). -/
def Link.copy (K : CopyLib) : Link → Link
  | .wiki x => .wiki (x.copy K)
  | .indexed i x => .indexed i (x.copy K)
  | .named n x => .named n (x.copy K)
  | .diary d x => .diary d (x.copy K)
  | .raw x => .raw (x.copy K)
  | .transclusion x => .transclusion (x.copy K)

mutual
/-- `InlineElement` (inline/mod.rs:47-71), `DecoratedText` and its content (typefaces.rs:111-131, 218-256),
`Text` (60-64), `Tags` (tags.rs:47-57, 182-186), `Comment` (comments.rs:30-42, 94-96, 147-172). -/
def Inline.copy (K : CopyLib) : Inline → Inline
  | .text s => .text s
  | .decorated k xs => .decorated k (Inline.copies K xs)
  | .keyword k => .keyword k
  | .link l => .link (l.copy K)
  | .tags ts => .tags ts
  | .code s => .code s
  | .math s => .math s
  | .comment c => .comment c
/-- `InlineElementContainer` (inline/mod.rs:154-170). -/
def Inline.copies (K : CopyLib) : List (Located Inline) → List (Located Inline)
  | [] => []
  | ⟨x, r⟩ :: xs => ⟨Inline.copy K x, r⟩ :: Inline.copies K xs
end

/-- `Cell` (tables.rs:371-385). -/
def Cell.copy (K : CopyLib) : Cell → Cell
  | .content c => .content (Inline.copies K c)
  | .span s => .span s
  | .align a => .align a

/-- `Table` (tables.rs:93-117). -/
def Table.copy (K : CopyLib) (t : Table) : Table :=
  { t with cells := K.cellOrder (t.cells.map fun e => (e.1, e.2.map (Cell.copy K))) }

/-- `TermAndDefinitions` (definitions.rs:252-265), with `DefinitionBundle` (198-214) and
`DefinitionListValue` (59-65). -/
def TermDefs.copy (K : CopyLib) (x : TermDefs) : TermDefs :=
  ⟨x.term.map (Inline.copies K), x.defs.map (·.map (·.map (Inline.copies K)))⟩

mutual
/-- `BlockElement` (blocks/mod.rs:52-82) and the blocks it holds: blockquotes.rs:54-72, code.rs:49-104,
definitions.rs:312-326, headers.rs:49-63, math.rs:45-77, paragraphs.rs:53-59, placeholders.rs:22-66. -/
def Block.copy (K : CopyLib) : Block → Block
  | .blockquote l => .blockquote l
  | .code l m ls => .code l (K.order m) ls
  | .defs xs => .defs (xs.map (·.map (TermDefs.copy K)))
  | .divider => .divider
  | .header c n b => .header (Inline.copies K c) n b
  | .list xs => .list (Block.copyItems K xs)
  | .math l e => .math l e
  | .paragraph rs => .paragraph (rs.map (Inline.copies K))
  | .placeholder p => .placeholder p
  | .table t => .table (t.copy K)
/-- `List` (lists/mod.rs:43-53) and `ListItem` (lists/item.rs:49-67, 289-294, 359-367). -/
def Block.copyItems (K : CopyLib) : List (Located (ItemF Block)) → List (Located (ItemF Block))
  | [] => []
  | ⟨⟨ty, su, pos, cs, td⟩, r⟩ :: xs => ⟨⟨ty, su, pos, Block.copies K cs, td⟩, r⟩ :: Block.copyItems K xs
/-- `ListItemContents` (lists/mod.rs:194-204) and the elements of a `Page` (elements/mod.rs:57-75). -/
def Block.copies (K : CopyLib) : List (Located Block) → List (Located Block)
  | [] => []
  | ⟨x, r⟩ :: xs => ⟨Block.copy K x, r⟩ :: Block.copies K xs
end

/-- `Page` (elements/mod.rs:57-75). -/
def Page.copy (K : CopyLib) (pg : Page) : Page := ⟨Block.copies K pg.elements⟩

end Vw
