import Verif.Model.Children
import Verif.Model.HtmlOut

/-!
# The JavaScript package

Models the parts of `/repo/vimwiki-wasm/src/elements.rs` that do more than hand on a field, and
what they use of `/repo/vimwiki-core/src/lang/elements`. Values of JavaScript that have the wrong type are
`none`. The copies made by `to_borrowed().into_owned()` are left out here, see `Model/Copy`.
-/

namespace Vw

/-- Dates of JavaScript: the type, `new Date(year, month, day)`, and the year, month and day of month that a
date shows in local time and in UTC. Months are counted from 0. -/
structure JsLib where
  T : Type
  make : Nat → Int → Int → T
  shown : T → Nat × Nat × Nat
  shownUtc : T → Nat × Nat × Nat

/-- Leap years of the Gregorian calendar. -/
def leapYear (y : Int) : Bool := y % 4 = 0 && (y % 100 ≠ 0 || y % 400 = 0)

/-- The number of days of a month, counted from 1. -/
def monthDays (y : Int) : Nat → Nat
  | 1 => 31 | 2 => if leapYear y then 29 else 28 | 3 => 31 | 4 => 30 | 5 => 31 | 6 => 30
  | 7 => 31 | 8 => 31 | 9 => 30 | 10 => 31 | 11 => 30 | 12 => 31
  | _ => 0

/-- `NaiveDate::from_ymd` (chrono): `none` is the panic for a date that does not exist. The range of years
is not modelled. -/
def Date.fromYmd (y : Int) (m d : Nat) : Option Date :=
  if 1 ≤ d ∧ d ≤ monthDays y m then some ⟨y, m, d⟩ else none

/-- `x.year() as u32`. -/
def yearU32 (y : Int) : Nat := (y % 4294967296).toNat

/-- `Placeholder::date` (elements.rs:891-904). -/
def Placeholder.jsDate (J : JsLib) : Placeholder → Option J.T
  | .date d => some (J.make (yearU32 d.year) d.month d.day)
  | _ => none

/-- The description of the link constructors (elements.rs:1287-1288 and the same lines of the others):
`Description::try_from_uri_ref_str` (description.rs:36-42), else the text. -/
def jsDescription (env : Env) (s : Str) : Description :=
  match env.uri s with
  | some u => .transclusion u none none
  | none => .text s

/-- `Link::new_wiki_link` (elements.rs:1278-1293); `none` is the error. -/
def jsWikiLink (env : Env) (uri desc : Str) : Option Link :=
  (env.uri uri).map fun u => .wiki ⟨u, some (jsDescription env desc), none⟩

/-- `Link::new_indexed_interwiki_link` (elements.rs:1296-1313). -/
def jsIndexedLink (env : Env) (index : Nat) (uri desc : Str) : Option Link :=
  (env.uri uri).map fun u => .indexed index ⟨u, some (jsDescription env desc), none⟩

/-- `Link::new_named_interwiki_link` (elements.rs:1316-1333). -/
def jsNamedLink (env : Env) (name uri desc : Str) : Option Link :=
  (env.uri uri).map fun u => .named name ⟨u, some (jsDescription env desc), none⟩

/-- `Link::new_diary_link` (elements.rs:1336-1356); `none` is a panic. -/
def jsDiaryLink (env : Env) (J : JsLib) (t : J.T) (desc anchor : Str) : Option Link :=
  let p := J.shownUtc t
  match Date.fromYmd p.1 p.2.1 p.2.2 with
  | none => none
  | some date =>
    match env.uri (diaryUriText (Anchor.fromUriFragment anchor)) with
    | some u => some (.diary date ⟨u, some (jsDescription env desc), none⟩)
    | none => none

/-- `Link::new_raw_link` (elements.rs:1359-1371). -/
def jsRawLink (env : Env) (uri : Str) : Option Link := (env.uri uri).map fun u => .raw ⟨u, none, none⟩

/-- `Link::new_transclusion_link` (elements.rs:1374-1406); the entries of the object whose value is not a
string are `none`. -/
def jsTransclusionLink (env : Env) (uri desc : Str) (props : List (Str × Option Str)) : Option Link :=
  (env.uri uri).map fun u =>
    .transclusion ⟨u, some (jsDescription env desc), some (Map.collect (props.filterMap fun e => e.2.map (e.1, ·)))⟩

/-- One row of `Table::new`: cells that are no `Cell` are left out before the columns are counted. -/
def jsRow (row : Nat) (cells : List (Option (Located Cell))) : List (CellPos × Located Cell) :=
  (cells.filterMap id).zipIdx.map fun e => (⟨row, e.2⟩, e.1)

/-- `Table::new` (elements.rs:939-969): rows that are no array are left out after the rows are counted. -/
def jsTable (rows : List (Option (List (Option (Located Cell))))) (centered : Bool) : Table :=
  Table.new (rows.zipIdx.flatMap fun e =>
    match e.1 with
    | some cells => jsRow e.2 cells
    | none => []) centered

/-- `DefinitionList::get` (definitions.rs:329-334); a term is compared as displayed
(definitions.rs:104-108). -/
def defListGet (L : OutLib) (items : List (Located TermDefs)) (term : Str) : Option (Located (List (Located Inlines))) :=
  (items.find? fun x => Inline.displayAll L x.inner.term.inner = term).map (·.inner.defs)

/-- `DefinitionList::terms` (definitions.rs:344-346) as displayed by `terms` (elements.rs:526-532). -/
def defListTerms (L : OutLib) (items : List (Located TermDefs)) : List Str :=
  items.map fun x => Inline.displayAll L x.inner.term.inner

/-- `DefinitionList::definitions` (definitions.rs:349-354). -/
def defListDefs (items : List (Located TermDefs)) : List (Located Inlines) := items.flatMap (·.inner.defs.inner)

/-- `DefinitionList::get_def` (elements.rs:535-543) with `FromIterator` for containers
(inline/mod.rs:200-208). -/
def jsGetDef (L : OutLib) (items : List (Located TermDefs)) (term : Str) : Option Inlines :=
  (defListGet L items term).map fun b => b.inner.flatMap (·.inner)

/-- The loop of `descendants` (elements.rs:1820-1833); `none` when the fuel runs out. -/
def jsVisit : Nat → List (Located Element) → List (Located Element) → Option (List (Located Element))
  | _, [], elements => some elements
  | 0, _ :: _, _ => none
  | fuel + 1, next :: queue, elements => jsVisit fuel (queue ++ next.inner.children) (elements ++ [next])

/-- `descendants` (elements.rs:1802-1840) of a value with the given children. -/
def jsDescendants (fuel : Nat) (children : List (Located Element)) : Option (List (Located Element)) :=
  jsVisit fuel children []

end Vw
