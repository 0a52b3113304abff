import Verif.Spec.Tables
import Verif.Model.HtmlOut

/-!
# What a page needs in order to be converted
-/

namespace Vw

/-- Something asked of the world while a page is converted. -/
inductive Need where
  /-- Where a link leads. -/
  | link (l : Link)
  /-- The markup of a code block. -/
  | code (lang : Option Str) (lines : List Str)

/-- The answer. -/
def Need.answer (L : HtmlLib) (c : HtmlCfg) : Need → Except HtmlErr Unit
  | .link l => (resolveHere L c l).map fun _ => ()
  | .code lang lines => (L.highlight lang lines).map fun _ => ()

/-- A link needs its own target and that of the image that describes it. -/
def Link.Needs (l : Link) (n : Need) : Prop :=
  n = .link l ∨ ((∀ d, l ≠ .transclusion d) ∧ ∃ u d p, l.data.desc = some (.transclusion u d p) ∧ n = .link (.transclusion ⟨u, d, p⟩))

mutual
/-- Inline elements need what their links need. -/
def Inline.Needs : Inline → Need → Prop
  | .decorated _ cs, n => Inline.NeedsAll cs n
  | .link l, n => l.Needs n
  | .text _, _ => False
  | .keyword _, _ => False
  | .tags _, _ => False
  | .code _, _ => False
  | .math _, _ => False
  | .comment _, _ => False
/-- Several elements. -/
def Inline.NeedsAll : List (Located Inline) → Need → Prop
  | [], _ => False
  | ⟨x, _⟩ :: xs, n => Inline.Needs x n ∨ Inline.NeedsAll xs n
end

/-- A table needs what the contents of its cells need, save for cells behind a gap in their row and rows that begin
with a divider, which are not shown. -/
def Table.Needs (t : Table) (n : Need) : Prop :=
  ∃ r i xs reg, r < t.rowCnt ∧ ¬ t.Divider r ∧ (∀ j, j < i → (t.getCell r j).isSome) ∧
    t.getCell r i = some ⟨.content xs, reg⟩ ∧ Inline.NeedsAll xs n

mutual
/-- Blocks. -/
def Block.Needs (c : HtmlCfg) : Block → Need → Prop
  | .blockquote _, _ => False
  | .code lang _ ls, n => c.serverSide = true ∧ n = .code lang ls
  | .defs items, n => ∃ x ∈ items, Inline.NeedsAll x.inner.term.inner n ∨ ∃ d ∈ x.inner.defs.inner, Inline.NeedsAll d.inner n
  | .divider, _ => False
  | .header xs _ _, n => Inline.NeedsAll xs n
  | .list items, n => Block.NeedsItems c items n
  | .math _ _, _ => False
  | .paragraph ls, n => ∃ l ∈ ls, Inline.NeedsAll l n
  | .placeholder _, _ => False
  | .table t, n => t.Needs n
/-- The items of a list. -/
def Block.NeedsItems (c : HtmlCfg) : List (Located (ItemF Block)) → Need → Prop
  | [], _ => False
  | ⟨⟨_, _, _, cs, _⟩, _⟩ :: xs, n => Block.NeedsAll c cs n ∨ Block.NeedsItems c xs n
/-- Several blocks. -/
def Block.NeedsAll (c : HtmlCfg) : List (Located Block) → Need → Prop
  | [], _ => False
  | ⟨x, _⟩ :: xs, n => Block.Needs c x n ∨ Block.NeedsAll c xs n
end

/-- What a page needs. -/
def Page.Needs (c : HtmlCfg) (p : Page) (n : Need) : Prop := Block.NeedsAll c p.elements n

end Vw
