import Verif.Model.Ast

/-!
# Children of elements

Models the implementations of `IntoChildren` in `/repo/vimwiki-core/src/lang/elements`.
-/

namespace Vw

/-- `Element` (elements/mod.rs:108-112) with the variants of `InlineBlockElement`
(elements/mod.rs:207-211) inlined. -/
inductive Element where
  | block (b : Block)
  | inline (i : Inline)
  | item (x : ListItem)
  | term (x : Inlines)
  | definition (x : Inlines)
deriving Repr

/-- `InlineElement::into_children` (inline/mod.rs:74-83) with `DecoratedText::into_children`
(typefaces.rs:373-392); `DecoratedTextContent::into_inline_element` is the identity here. -/
def Inline.children : Inline → List (Located Inline)
  | .decorated _ xs => xs
  | _ => []

/-- `Cell::into_children` (tables.rs:418-427). -/
def Cell.children : Cell → List (Located Inline)
  | .content xs => xs
  | _ => []

/-- `Table::into_children` (tables.rs:334-343): in the order of the map of cells. -/
def Table.children (t : Table) : List (Located Inline) :=
  t.cells.flatMap fun e => e.2.inner.children

/-- `TermAndDefinitions::into_children` (definitions.rs:276-289). -/
def TermDefs.children (x : TermDefs) : List (Located Element) :=
  x.term.map .term :: x.defs.inner.map (·.map .definition)

/-- `BlockElement::into_children` (blocks/mod.rs:299-332), with `DefinitionList::into_children`
(definitions.rs:358-367), `Header::into_children` (headers.rs:74-80), `List::into_children`
(lists/mod.rs:144-152) and `Paragraph::into_children` (paragraphs.rs:79-85). -/
def Block.children : Block → List (Located Element)
  | .defs xs => xs.flatMap fun x => x.inner.children
  | .header xs _ _ => xs.map (·.map .inline)
  | .list xs => xs.map (·.map .item)
  | .paragraph rows => (rows.flatMap id).map (·.map .inline)
  | .table t => t.children.map (·.map .inline)
  | _ => []

/-- `Element::into_children` (elements/mod.rs:134-148) with `InlineBlockElement::into_children`
(elements/mod.rs:245-263), `ListItem::into_children` (lists/item.rs:70-76) and
`DefinitionListValue::into_children` (definitions.rs:68-74). -/
def Element.children : Element → List (Located Element)
  | .block b => b.children
  | .inline i => i.children.map (·.map .inline)
  | .item x => x.contents.map (·.map .block)
  | .term xs => xs.map (·.map .inline)
  | .definition xs => xs.map (·.map .inline)

/-- `Page::into_children` (elements/mod.rs:76-82), each block as an element. -/
def Page.children (p : Page) : List (Located Element) := p.elements.map (·.map .block)

end Vw
