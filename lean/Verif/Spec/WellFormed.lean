import Verif.Spec.Equality
import Verif.Spec.NestText

/-!
# Well-formed pages

The shape that every parsed page has, whatever the text.
-/

namespace Vw

/-- Only wiki links and transclusions have properties, only links in brackets or braces
descriptions; an index is a 32 bit number; the scheme of a raw link is one of six. -/
def Link.WF : Link → Prop
  | .wiki d => d.Valid
  | .indexed i d => i < 4294967296 ∧ d.Valid ∧ d.props = none
  | .named _ d => d.Valid ∧ d.props = none
  | .diary _ d => d.Valid ∧ d.props = none
  | .raw d => d.desc = none ∧ d.props = none ∧ ∃ sc ∈ linkSchemes, d.uri.scheme = some sc
  | .transclusion d => d.Valid

mutual
/-- Decorations are not empty and contain only text, decorations, keywords and links; tags
are not empty. -/
def Inline.WF : Inline → Prop
  | .text _ => True
  | .decorated _ cs => cs ≠ [] ∧ (∀ c ∈ cs, c.inner.InDeco) ∧ Inline.WFs cs
  | .keyword _ => True
  | .link l => l.WF
  | .tags ts => ts ≠ []
  | .code _ => True
  | .math _ => True
  | .comment _ => True
def Inline.WFs : List (Located Inline) → Prop
  | [] => True
  | ⟨x, _⟩ :: xs => Inline.WF x ∧ Inline.WFs xs
end

/-- Contents of a line. -/
def LineWF (xs : Inlines) : Prop := xs ≠ [] ∧ Inline.WFs xs

/-- Cells with contents are not empty. -/
def Cell.WF : Cell → Prop
  | .content c => LineWF c
  | .span _ => True
  | .align _ => True

/-- There is a row, not all rows are dividers, and every row has a first cell. Positions are
distinct and the counts are those of the cells. -/
structure Table.WF (t : Table) : Prop where
  distinct : DistinctKeys t.cells
  cells : ∀ e ∈ t.cells, e.2.inner.WF
  rows : CountOf (t.cells.map fun e => e.1.row) t.rowCnt
  cols : CountOf (t.cells.map fun e => e.1.col) t.colCnt
  content : ∃ r < t.rowCnt, t.isDividerRow r = false
  first : ∀ r < t.rowCnt, ∃ c, (⟨r, 0⟩, c) ∈ t.cells

/-- A term has contents and at least one definition. -/
structure TermDefs.WF (x : TermDefs) : Prop where
  term : LineWF x.term.inner
  some : x.defs.inner ≠ []
  defs : ∀ d ∈ x.defs.inner, LineWF d.inner

/-- The blocks that list items can contain. Tables in them are not centered. -/
def Block.InItem : Block → Prop
  | .header _ _ _ => False
  | .divider => False
  | .placeholder _ => False
  | .table t => t.centered = false
  | _ => True

mutual
/-- Levels of headers are between 1 and 6; paragraphs, blockquotes, lists, items and
definition lists are not empty; the keys of metadata are distinct. -/
def Block.WF : Block → Prop
  | .blockquote ls => ls ≠ []
  | .code _ m _ => DistinctKeys m
  | .defs xs => xs ≠ [] ∧ ∀ x ∈ xs, x.inner.WF
  | .divider => True
  | .header c n _ => 1 ≤ n ∧ n ≤ 6 ∧ LineWF c
  | .list xs => xs ≠ [] ∧ Block.WFItems xs
  | .math _ _ => True
  | .paragraph rs => rs ≠ [] ∧ ∀ r ∈ rs, LineWF r
  | .placeholder _ => True
  | .table t => t.WF
def Block.WFItems : List (Located (ItemF Block)) → Prop
  | [] => True
  | ⟨⟨_, _, _, cs, _⟩, _⟩ :: xs =>
    (cs ≠ [] ∧ (∀ c ∈ cs, c.inner.InItem) ∧ Block.WFs cs) ∧ Block.WFItems xs
def Block.WFs : List (Located Block) → Prop
  | [] => True
  | ⟨x, _⟩ :: xs => Block.WF x ∧ Block.WFs xs
end

/-- All elements of the page are well-formed. -/
def Page.WF (pg : Page) : Prop := Block.WFs pg.elements

end Vw
