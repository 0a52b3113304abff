import Verif.Model.HtmlOut

/-!
# Equality of elements

Models `==` (derived `PartialEq`, `PartialEq for Located`, elements/utils/mod.rs:154-161, and
`PartialEq for DefinitionListValue`, definitions.rs:84-89) and `strict_eq`
(vimwiki-core/src/utils.rs:1-19 and the implementations of `StrictEq` in
`/repo/vimwiki-core/src/lang/elements`). Both walk the elements in the same way, so each
function has a flag `st`, which is `true` for `strict_eq`. They differ for `Located` (regions),
for `Table` (counts of rows and columns) and for terms and definitions: those are compared by
`strict_eq` like other inline elements but by `==` only as they are displayed. For blocks the flag
`false` therefore means sameness of structure, which all derived `PartialEq` would give;
`Block.eq` at the end is `==`. `ue` is `==` of the external type `URIReference`.
-/

namespace Vw

/-- `HashMap::get`. -/
def lookup {κ υ : Type} [DecidableEq κ] : List (κ × υ) → κ → Option υ
  | [], _ => none
  | (k, v) :: rest, x => if k = x then some v else lookup rest x

/-- The value is present and related to `v`. -/
def related {υ : Type} (r : υ → υ → Bool) (v : υ) : Option υ → Bool
  | some v' => r v v'
  | none => false

/-- `HashMap == HashMap` (std: same length and every entry has an equal value in the
other map); the same with `strict_eq` in `Table` (tables.rs:349-352). -/
def mapEq {κ υ : Type} [DecidableEq κ] (r : υ → υ → Bool) (m m' : List (κ × υ)) : Bool :=
  m.length == m'.length && m.all (fun e => related r e.2 (lookup m' e.1))

/-- Derived equality of `Option`. -/
def optEq {υ : Type} (r : υ → υ → Bool) : Option υ → Option υ → Bool
  | some x, some y => r x y
  | none, none => true
  | _, _ => false

/-- Equality of `Option<HashMap<_, _>>`. -/
def propsEq (p p' : Option Map) : Bool := optEq (mapEq (fun x y => decide (x = y))) p p'

/-- `Located`: `==` (elements/utils/mod.rs:154-161) and `strict_eq` (172-181). -/
def locEq {α : Type} (st : Bool) (r : α → α → Bool) (x y : Located α) : Bool :=
  r x.inner y.inner && (!st || decide (x.region = y.region))

/-- `Vec`: `==`, and `strict_eq` (vimwiki-core/src/utils.rs:13-19). -/
def vecEq {α : Type} (r : α → α → Bool) : List α → List α → Bool
  | [], [] => true
  | x :: xs, y :: ys => r x y && vecEq r xs ys
  | _, _ => false

/-- `Description` (links/description.rs:8-26, 90-96: both derived). The boxed
`LinkData` (links/data.rs:18-23) is inlined. -/
def Description.eqv (ue : Uri → Uri → Bool) : Description → Description → Bool
  | .text s, .text t => decide (s = t)
  | .transclusion u none p, .transclusion u' none p' => ue u u' && propsEq p p'
  | .transclusion u (some d) p, .transclusion u' (some d') p' =>
    ue u u' && Description.eqv ue d d' && propsEq p p'
  | _, _ => false

/-- `LinkData` (links/data.rs:18-23, 269-275: both derived). -/
def LinkData.eqv (ue : Uri → Uri → Bool) (x y : LinkData) : Bool :=
  ue x.uri y.uri && optEq (Description.eqv ue) x.desc y.desc && propsEq x.props y.props

/-- `Link` (links/mod.rs:20-63 and 412-443). -/
def Link.eqv (ue : Uri → Uri → Bool) : Link → Link → Bool
  | .wiki x, .wiki y => x.eqv ue y
  | .indexed i x, .indexed j y => decide (i = j) && x.eqv ue y
  | .named m x, .named n y => decide (m = n) && x.eqv ue y
  | .diary d x, .diary e y => decide (d = e) && x.eqv ue y
  | .raw x, .raw y => x.eqv ue y
  | .transclusion x, .transclusion y => x.eqv ue y
  | _, _ => false

mutual
/-- `InlineElement` (inline/mod.rs:25-46, 85-100), `DecoratedText` and
`DecoratedTextContent` (typefaces.rs:189-200, 403-415). -/
def Inline.eqv (st : Bool) (ue : Uri → Uri → Bool) : Inline → Inline → Bool
  | .text s, .text t => decide (s = t)
  | .decorated k xs, .decorated k' ys => decide (k = k') && Inline.eqvs st ue xs ys
  | .keyword k, .keyword k' => decide (k = k')
  | .link l, .link l' => l.eqv ue l'
  | .tags ts, .tags ts' => decide (ts = ts')
  | .code s, .code t => decide (s = t)
  | .math s, .math t => decide (s = t)
  | .comment c, .comment c' => decide (c = c')
  | _, _ => false
/-- `InlineElementContainer` (inline/mod.rs:105-125, 210-215). -/
def Inline.eqvs (st : Bool) (ue : Uri → Uri → Bool) :
    List (Located Inline) → List (Located Inline) → Bool
  | [], [] => true
  | ⟨x, r⟩ :: xs, ⟨y, r'⟩ :: ys =>
    (Inline.eqv st ue x y && (!st || decide (r = r'))) && Inline.eqvs st ue xs ys
  | _, _ => false
end

/-- `Cell` (tables.rs:358-366, 429-439). -/
def Cell.eqv (st : Bool) (ue : Uri → Uri → Bool) : Cell → Cell → Bool
  | .content c, .content c' => Inline.eqvs st ue c c'
  | .span x, .span y => decide (x = y)
  | .align x, .align y => decide (x = y)
  | _, _ => false

/-- `Table`: derived `==` (tables.rs:72-88), and `strict_eq` (345-354), which ignores
the counts of rows and columns. -/
def Table.eqv (st : Bool) (ue : Uri → Uri → Bool) (t t' : Table) : Bool :=
  decide (t.centered = t'.centered) && mapEq (locEq st (Cell.eqv st ue)) t.cells t'.cells &&
    (st || (decide (t.rowCnt = t'.rowCnt) && decide (t.colCnt = t'.colCnt)))

/-- `TermAndDefinitions` (definitions.rs:243-247, 268-274). -/
def TermDefs.eqv (st : Bool) (ue : Uri → Uri → Bool) (x y : TermDefs) : Bool :=
  locEq st (Inline.eqvs st ue) x.term y.term &&
    locEq st (vecEq (locEq st (Inline.eqvs st ue))) x.defs y.defs

mutual
/-- `BlockElement` (blocks/mod.rs:32-60, 334-353) and the blocks it holds. -/
def Block.eqv (st : Bool) (ue : Uri → Uri → Bool) : Block → Block → Bool
  | .blockquote l, .blockquote l' => decide (l = l')
  | .code l m ls, .code l' m' ls' => decide (l = l') &&
      mapEq (fun x y => decide (x = y)) m m' && decide (ls = ls')
  | .defs xs, .defs ys => vecEq (locEq st (TermDefs.eqv st ue)) xs ys
  | .divider, .divider => true
  | .header c n b, .header c' n' b' => decide (n = n') && decide (b = b') && Inline.eqvs st ue c c'
  | .list xs, .list ys => Block.eqvItems st ue xs ys
  | .math l e, .math l' e' => decide (l = l') && decide (e = e')
  | .paragraph rs, .paragraph rs' => vecEq (Inline.eqvs st ue) rs rs'
  | .placeholder p, .placeholder p' => decide (p = p')
  | .table t, .table t' => t.eqv st ue t'
  | _, _ => false
/-- Items of a list (lists/mod.rs:162-167) and `ListItem` (lists/item.rs:78-87). -/
def Block.eqvItems (st : Bool) (ue : Uri → Uri → Bool) :
    List (Located (ItemF Block)) → List (Located (ItemF Block)) → Bool
  | [], [] => true
  | ⟨⟨ty, su, pos, cs, td⟩, r⟩ :: xs, ⟨⟨ty', su', pos', cs', td'⟩, r'⟩ :: ys =>
    (decide (ty = ty') && decide (su = su') && decide (pos = pos') && Block.eqvs st ue cs cs' &&
      decide (td = td') && (!st || decide (r = r'))) && Block.eqvItems st ue xs ys
  | _, _ => false
/-- A `Vec<Located<BlockElement>>` (`ListItemContents`, lists/mod.rs:283-288, and
`Page`, elements/mod.rs:96-106). -/
def Block.eqvs (st : Bool) (ue : Uri → Uri → Bool) :
    List (Located Block) → List (Located Block) → Bool
  | [], [] => true
  | ⟨x, r⟩ :: xs, ⟨y, r'⟩ :: ys =>
    (Block.eqv st ue x y && (!st || decide (r = r'))) && Block.eqvs st ue xs ys
  | _, _ => false
end

/-- The two pages have the same structure: they differ at most in regions and in the order of
maps. -/
def Page.same (ue : Uri → Uri → Bool) (x y : Page) : Bool := Block.eqvs false ue x.elements y.elements

/-- `Page::strict_eq` (elements/mod.rs:96-106). -/
def Page.strictEq (ue : Uri → Uri → Bool) (x y : Page) : Bool :=
  Block.eqvs true ue x.elements y.elements

/-- `PartialEq for DefinitionListValue` (definitions.rs:84-89): the displayed texts. -/
def valueEq (L : OutLib) (x y : Inlines) : Bool :=
  decide (Inline.displayAll L x = Inline.displayAll L y)

/-- `TermAndDefinitions == TermAndDefinitions` (definitions.rs:243-247), with `DefinitionBundle`
(129-147). -/
def TermDefs.eq (L : OutLib) (x y : TermDefs) : Bool :=
  locEq false (valueEq L) x.term y.term && locEq false (vecEq (locEq false (valueEq L))) x.defs y.defs

mutual
/-- `BlockElement == BlockElement` (blocks/mod.rs:32-60). Blocks other than lists and definition
lists have no terms, definitions or blocks in them. -/
def Block.eq (L : OutLib) (ue : Uri → Uri → Bool) : Block → Block → Bool
  | .defs xs, .defs ys => vecEq (locEq false (TermDefs.eq L)) xs ys
  | .list xs, .list ys => Block.eqItems L ue xs ys
  | x, y => Block.eqv false ue x y
/-- `Vec<Located<ListItem>> == Vec<Located<ListItem>>` (lists/mod.rs:19-40, lists/item.rs:14-44). -/
def Block.eqItems (L : OutLib) (ue : Uri → Uri → Bool) :
    List (Located (ItemF Block)) → List (Located (ItemF Block)) → Bool
  | [], [] => true
  | ⟨⟨ty, su, pos, cs, td⟩, _⟩ :: xs, ⟨⟨ty', su', pos', cs', td'⟩, _⟩ :: ys =>
    (decide (ty = ty') && decide (su = su') && decide (pos = pos') && Block.eqs L ue cs cs' &&
      decide (td = td')) && Block.eqItems L ue xs ys
  | _, _ => false
/-- `Vec<Located<BlockElement>> == Vec<Located<BlockElement>>` (lists/mod.rs:170-195). -/
def Block.eqs (L : OutLib) (ue : Uri → Uri → Bool) :
    List (Located Block) → List (Located Block) → Bool
  | [], [] => true
  | ⟨x, _⟩ :: xs, ⟨y, _⟩ :: ys => Block.eq L ue x y && Block.eqs L ue xs ys
  | _, _ => false
end

/-- `Page == Page` (elements/mod.rs:20-42). -/
def Page.eq (L : OutLib) (ue : Uri → Uri → Bool) (x y : Page) : Bool :=
  Block.eqs L ue x.elements y.elements

end Vw
