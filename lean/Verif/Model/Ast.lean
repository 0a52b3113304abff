import Verif.Model.Scan

/-!
# Elements

Models the element types of `/repo/vimwiki-core/src/lang/elements`. Hash maps
are association lists without duplicate keys (`Map`); their order carries no
meaning.
-/

namespace Vw

/-- A URI reference (`uriparse::URIReference`): only the parts the code reads. -/
structure Uri where
  scheme : Option Str
  authority : Option Str
  absolute : Bool
  segments : List Str
  query : Option Str
  fragment : Option Str
deriving DecidableEq, Repr

/-- `chrono::NaiveDate`. -/
structure Date where
  year : Int
  month : Nat
  day : Nat
deriving DecidableEq, Repr

/-- The external libraries used while parsing. -/
structure Env where
  /-- `URIReference::try_from` on bytes; `none` is an error. -/
  uri : Str → Option Uri
  /-- `NaiveDate::parse_from_str(_, "%Y-%m-%d")`. -/
  date : Str → Option Date

/-- `HashMap<Cow<str>, Cow<str>>` as an association list. -/
abbrev Map := List (Str × Str)

/-- `HashMap::insert`: replaces an existing entry. -/
def Map.insert (m : Map) (k v : Str) : Map := (k, v) :: m.filter (fun e => e.1 ≠ k)

/-- `pairs.into_iter().collect::<HashMap<_, _>>()`: later pairs win. -/
def Map.collect (pairs : List (Str × Str)) : Map :=
  pairs.foldl (fun m e => Map.insert m e.1 e.2) []

/-- `Description` (elements/blocks/inline/links/description.rs:23-26) with the
boxed `LinkData` inlined. -/
inductive Description where
  | text (s : Str)
  | transclusion (uri : Uri) (desc : Option Description) (props : Option Map)
deriving Repr

/-- `LinkData` (links/data.rs:18-23). -/
structure LinkData where
  uri : Uri
  desc : Option Description
  props : Option Map
deriving Repr

/-- `Link` (links/mod.rs:35-63). -/
inductive Link where
  | wiki (data : LinkData)
  | indexed (index : Nat) (data : LinkData)
  | named (name : Str) (data : LinkData)
  | diary (date : Date) (data : LinkData)
  | raw (data : LinkData)
  | transclusion (data : LinkData)
deriving Repr

/-- `Keyword` (elements/blocks/inline/typefaces.rs). -/
inductive Keyword where
  | todo | done | started | fixme | fixed | xxx
deriving DecidableEq, Repr

/-- Variant of `DecoratedText` (typefaces.rs). -/
inductive Deco where
  | bold | italic | strikeout | superscript | subscript
deriving DecidableEq, Repr

/-- `Comment` (comments.rs). -/
inductive Comment where
  | line (s : Str)
  | multi (lines : List Str)
deriving DecidableEq, Repr

/-- `InlineElement` (elements/blocks/inline/mod.rs). `DecoratedTextContent` is
embedded: decorated contents only ever hold text, decorated text, keywords and
links. -/
inductive Inline where
  | text (s : Str)
  | decorated (kind : Deco) (contents : List (Located Inline))
  | keyword (k : Keyword)
  | link (l : Link)
  | tags (ts : List Str)
  | code (s : Str)
  | math (s : Str)
  | comment (c : Comment)
deriving Repr

/-- `InlineElementContainer`. -/
abbrev Inlines := List (Located Inline)

/-- `ListItemSuffix` (lists/item.rs:245-249). -/
inductive Suffix where
  | none | period | paren
deriving DecidableEq, Repr

/-- `ListItemType` with `UnorderedListItemType` and `OrderedListItemType`
(lists/item.rs:276-279, 334-341, 406-419). -/
inductive ItemType where
  | hyphen | asterisk | other (s : Str)
  | number | pound | lowerAlpha | upperAlpha | lowerRoman | upperRoman
deriving DecidableEq, Repr

/-- `ListItemTodoStatus` (lists/item.rs:494-512). -/
inductive Todo where
  | incomplete | partial1 | partial2 | partial3 | complete | rejected
deriving DecidableEq, Repr

/-- `ListItem` (lists/item.rs:26-44), with the type of contained blocks as a
parameter. -/
structure ItemF (β : Type) where
  ty : ItemType
  suffix : Suffix
  pos : Nat
  contents : List (Located β)
  todo : Option Todo
deriving Repr

/-- `TermAndDefinitions` (definitions.rs:244-247). -/
structure TermDefs where
  term : Located Inlines
  defs : Located (List (Located Inlines))
deriving Repr

/-- `Placeholder` (placeholders.rs). -/
inductive Placeholder where
  | title (s : Str)
  | noHtml
  | template (s : Str)
  | date (d : Date)
  | other (name value : Str)
deriving DecidableEq, Repr

/-- `CellSpan` (tables.rs:443-446). -/
inductive CellSpan where
  | fromLeft | fromAbove
deriving DecidableEq, Repr

/-- `ColumnAlign` (tables.rs:457-462). -/
inductive Align where
  | none | left | center | right
deriving DecidableEq, Repr

/-- `Cell` (tables.rs:362-366). -/
inductive Cell where
  | content (c : Inlines)
  | span (s : CellSpan)
  | align (a : Align)
deriving Repr

/-- `CellPos` (tables.rs:26-32). -/
structure CellPos where
  row : Nat
  col : Nat
deriving DecidableEq, Repr

/-- `Table` (tables.rs:73-88). The cell map is an association list. -/
structure Table where
  cells : List (CellPos × Located Cell)
  rowCnt : Nat
  colCnt : Nat
  centered : Bool
deriving Repr

/-- `BlockElement` (elements/blocks/mod.rs). -/
inductive Block where
  | blockquote (lines : List Str)
  | code (lang : Option Str) (metadata : Map) (lines : List Str)
  | defs (items : List (Located TermDefs))
  | divider
  | header (content : Inlines) (level : Nat) (centered : Bool)
  | list (items : List (Located (ItemF Block)))
  | math (lines : List Str) (env : Option Str)
  | paragraph (lines : List Inlines)
  | placeholder (p : Placeholder)
  | table (t : Table)
deriving Repr

abbrev ListItem := ItemF Block

/-- `Page` (elements/mod.rs:36-42). -/
structure Page where
  elements : List (Located Block)
deriving Repr

namespace Table

/-- `HashMap::get` for the cell map. -/
def lookupCell : List (CellPos × Located Cell) → CellPos → Option (Located Cell)
  | [], _ => none
  | (k, v) :: rest, pos => if k = pos then some v else lookupCell rest pos

/-- `cells.into_iter().collect::<HashMap<_,_>>()`: later entries win. -/
def collect (cells : List (CellPos × Located Cell)) : List (CellPos × Located Cell) :=
  cells.foldl (fun m e => e :: m.filter (fun x => x.1 ≠ e.1)) []

/-- `Table::new` (tables.rs:121-140). -/
def new (cells : List (CellPos × Located Cell)) (centered : Bool) : Table :=
  let m := collect cells
  { cells := m
    rowCnt := (m.map (·.1)).foldl (fun acc p => max acc (p.row + 1)) 0
    colCnt := (m.map (·.1)).foldl (fun acc p => max acc (p.col + 1)) 0
    centered := centered }

/-- `get_cell` (tables.rs:270-276). -/
def getCell (t : Table) (row col : Nat) : Option (Located Cell) :=
  lookupCell t.cells ⟨row, col⟩

/-- `Cell::is_align` (derived `IsVariant`). -/
def isAlign : Cell → Bool
  | .align _ => true
  | _ => false

/-- `Cell::is_content` (derived `IsVariant`). -/
def isContent : Cell → Bool
  | .content _ => true
  | _ => false

/-- `Row::is_divider_row` (tables.rs:696-702): looks at column 0 only. -/
def isDividerRow (t : Table) (row : Nat) : Bool :=
  match t.getCell row 0 with
  | some c => isAlign c.inner
  | none => false

end Table
end Vw
