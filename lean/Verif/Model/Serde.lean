import Verif.Model.Json
import Verif.Model.Copy

/-!
# Pages as JSON

Models the derived `Serialize` and `Deserialize` of the elements (`/repo/vimwiki-core/src/lang/elements`), as
used with JSON. Enums have the form `{"type": …, "data": …}`, the names of variants in snake case (for example
`blocks/mod.rs`:35).

The readers are modelled on objects and arrays as they are written: the other forms that derived readers take
(sequences for structs, numbers for variants) never occur in a file of the tool. Bounds of numbers are not
checked.
-/

namespace Vw

/-- What is not modelled: the forms of URIs (uriparse) and of dates (chrono), which a page cannot take apart,
and the order in which new hash maps keep their entries. -/
structure SerdeLib extends CopyLib where
  writeUri : Uri → Json
  readUri : Json → Option Uri
  writeDate : Date → Json
  readDate : Json → Option Date

namespace Json

/-! ## Writing -/

/-- A variant without data. -/
def tag (name : Str) : Json := .obj [(b!"type", .str name)]

/-- A variant with data. -/
def tagged (name : Str) (d : Json) : Json := .obj [(b!"type", .str name), (b!"data", d)]

/-- An `Option`. -/
def opt {α : Type} (f : α → Json) : Option α → Json
  | some x => f x
  | none => .null

/-- Texts. -/
def strs (xs : List Str) : Json := .arr (xs.map .str)

/-- A hash map of texts. -/
def map (m : Map) : Json := .obj (m.map fun e => (e.1, .str e.2))

/-- `Region` (utils/region.rs:9-20). -/
def region (r : Region) : Json := .obj [(b!"offset", .num r.offset), (b!"len", .num r.len), (b!"depth", .num r.depth)]

/-- `Located` (utils/mod.rs:57-67): the fields of the inner element, then the region. An element that is not
written as an object cannot be flattened: the serializer stops after the brace. -/
def located (inner : Json) (r : Region) : Json :=
  match inner with
  | .obj fs => .obj (fs ++ [(b!"region", region r)])
  | _ => .torn

/-! ## Reading -/

/-- A field that must be there once. -/
def field (k : Str) (fs : List (Str × Json)) : Option Json :=
  match fs.filter (fun e => e.1 = k) with
  | [e] => some e.2
  | _ => none

/-- A field that may be missing. -/
def field? (k : Str) (fs : List (Str × Json)) : Option (Option Json) :=
  match fs.filter (fun e => e.1 = k) with
  | [] => some none
  | [e] => some (some e.2)
  | _ => none

def asObj : Json → Option (List (Str × Json))
  | .obj fs => some fs
  | _ => none

def asArr : Json → Option (List Json)
  | .arr xs => some xs
  | _ => none

def asStr : Json → Option Str
  | .str s => some s
  | _ => none

def asNum : Json → Option Nat
  | .num n => some n
  | _ => none

def asBool : Json → Option Bool
  | .bool b => some b
  | _ => none

/-- All values of an array. -/
def readEach {α : Type} (f : Json → Option α) : List Json → Option (List α)
  | [] => some []
  | j :: js =>
    match f j, readEach f js with
    | some x, some xs => some (x :: xs)
    | _, _ => none

def readArr {α : Type} (f : Json → Option α) (j : Json) : Option (List α) := j.asArr.bind (readEach f)

/-- The name and the data of a variant. -/
def readTagged (j : Json) : Option (Str × Option Json) :=
  j.asObj.bind fun fs => (field b!"type" fs).bind fun t => t.asStr.bind fun t => (field? b!"data" fs).map (t, ·)

/-- A field with an `Option`: may be missing. -/
def readOpt {α : Type} (f : Json → Option α) (k : Str) (fs : List (Str × Json)) : Option (Option α) :=
  (field? k fs).bind fun
    | none => some none
    | some .null => some none
    | some j => (f j).map some

def readField {α : Type} (f : Json → Option α) (k : Str) (fs : List (Str × Json)) : Option α := (field k fs).bind f

/-- Entries of a map whose later entries win. -/
def keepLast {κ ν : Type} [DecidableEq κ] : List (κ × ν) → List (κ × ν)
  | [] => []
  | e :: r => if (r.map (·.1)).contains e.1 then keepLast r else e :: keepLast r

/-- A hash map of texts. -/
def readMap (K : CopyLib) (j : Json) : Option Map :=
  j.asObj.bind fun fs =>
    (readEach asStr (fs.map (·.2))).map fun vs => K.order (keepLast ((fs.map (·.1)).zip vs))

def readRegion (j : Json) : Option Region :=
  j.asObj.bind fun fs => (readField asNum b!"offset" fs).bind fun o => (readField asNum b!"len" fs).bind fun l =>
    (readField asNum b!"depth" fs).map fun d => ⟨o, l, d⟩

/-- `Located`: the inner element is read from all fields that are not the region. -/
def readLocated {α : Type} (f : Json → Option α) (j : Json) : Option (Located α) :=
  j.asObj.bind fun fs => (readField readRegion b!"region" fs).bind fun r =>
    (f (.obj (fs.filter fun e => e.1 ≠ b!"region"))).map fun x => ⟨x, r⟩

end Json

open Json

/-! ## Elements without parts -/

/-- `Keyword` (inline/typefaces.rs:418-435). -/
def Keyword.jsonName : Keyword → Str
  | .todo => b!"todo" | .done => b!"done" | .started => b!"started"
  | .fixme => b!"fixme" | .fixed => b!"fixed" | .xxx => b!"xxx"

/-- `DecoratedText` (inline/typefaces.rs:203-213). -/
def Deco.jsonName : Deco → Str
  | .bold => b!"bold" | .italic => b!"italic" | .strikeout => b!"strikeout"
  | .superscript => b!"superscript" | .subscript => b!"subscript"

/-- `ListItemSuffix` (lists/item.rs:243-249). -/
def Suffix.jsonName : Suffix → Str
  | .none => b!"none" | .period => b!"period" | .paren => b!"paren"

/-- `ListItemTodoStatus` (lists/item.rs:492-512). -/
def Todo.jsonName : Todo → Str
  | .incomplete => b!"incomplete" | .partial1 => b!"partially_complete1" | .partial2 => b!"partially_complete2"
  | .partial3 => b!"partially_complete3" | .complete => b!"complete" | .rejected => b!"rejected"

/-- `CellSpan` (tables.rs:441-446). -/
def CellSpan.jsonName : CellSpan → Str
  | .fromLeft => b!"from_left" | .fromAbove => b!"from_above"

/-- `ColumnAlign` (tables.rs:455-462). -/
def Align.jsonName : Align → Str
  | .none => b!"none" | .left => b!"left" | .center => b!"center" | .right => b!"right"

/-- The value of a list that has a given name. -/
def byName {α : Type} (name : α → Str) (all : List α) (s : Str) : Option α := all.find? fun x => name x = s

/-- A variant without data: the data may be there as `null`. -/
def readUnit {α : Type} (name : α → Str) (all : List α) (j : Json) : Option α :=
  (readTagged j).bind fun
    | (s, none) => byName name all s
    | (s, some .null) => byName name all s
    | _ => none

def Keyword.all : List Keyword := [.todo, .done, .started, .fixme, .fixed, .xxx]
def Deco.all : List Deco := [.bold, .italic, .strikeout, .superscript, .subscript]
def Suffix.all : List Suffix := [.none, .period, .paren]
def Todo.all : List Todo := [.incomplete, .partial1, .partial2, .partial3, .complete, .rejected]
def CellSpan.all : List CellSpan := [.fromLeft, .fromAbove]
def Align.all : List Align := [.none, .left, .center, .right]

/-- `ListItemType` (lists/item.rs:274-279, 332-341, 404-419). -/
def ItemType.toJson : ItemType → Json
  | .hyphen => tagged b!"unordered" (tag b!"hyphen")
  | .asterisk => tagged b!"unordered" (tag b!"asterisk")
  | .other s => tagged b!"unordered" (tagged b!"other" (.str s))
  | .number => tagged b!"ordered" (tag b!"number")
  | .pound => tagged b!"ordered" (tag b!"pound")
  | .lowerAlpha => tagged b!"ordered" (tag b!"lowercase_alphabet")
  | .upperAlpha => tagged b!"ordered" (tag b!"uppercase_alphabet")
  | .lowerRoman => tagged b!"ordered" (tag b!"lowercase_roman")
  | .upperRoman => tagged b!"ordered" (tag b!"uppercase_roman")

/-- The names of `OrderedListItemType`. -/
def orderedOf (s : Str) : Option ItemType :=
  if s = b!"number" then some .number
  else if s = b!"pound" then some .pound
  else if s = b!"lowercase_alphabet" then some .lowerAlpha
  else if s = b!"uppercase_alphabet" then some .upperAlpha
  else if s = b!"lowercase_roman" then some .lowerRoman
  else if s = b!"uppercase_roman" then some .upperRoman
  else none

def ItemType.ofJson (j : Json) : Option ItemType :=
  (readTagged j).bind fun
    | (s, some d) =>
      if s = b!"unordered" then
        (readTagged d).bind fun
          | (t, e) =>
            if t = b!"other" then (e.bind asStr).map .other
            else if t = b!"hyphen" ∧ (e matches none | some .null) then some .hyphen
            else if t = b!"asterisk" ∧ (e matches none | some .null) then some .asterisk
            else none
      else if s = b!"ordered" then
        (readTagged d).bind fun
          | (t, none) => orderedOf t
          | (t, some .null) => orderedOf t
          | _ => none
      else none
    | _ => none

/-- `Comment` (inline/comments.rs:20-25). -/
def Comment.toJson : Comment → Json
  | .line s => tagged b!"line" (.str s)
  | .multi ls => tagged b!"multi_line" (strs ls)

def Comment.ofJson (j : Json) : Option Comment :=
  (readTagged j).bind fun
    | (s, some d) =>
      if s = b!"line" then (asStr d).map .line
      else if s = b!"multi_line" then (readArr asStr d).map .multi
      else none
    | _ => none

/-- `Placeholder` (placeholders.rs:6-17). -/
def Placeholder.toJson (K : SerdeLib) : Placeholder → Json
  | .title s => tagged b!"title" (.str s)
  | .noHtml => tag b!"no_html"
  | .template s => tagged b!"template" (.str s)
  | .date d => tagged b!"date" (K.writeDate d)
  | .other n v => tagged b!"other" (.obj [(b!"name", .str n), (b!"value", .str v)])

def Placeholder.ofJson (K : SerdeLib) (j : Json) : Option Placeholder :=
  (readTagged j).bind fun
    | (s, d) =>
      if s = b!"title" then (d.bind asStr).map .title
      else if s = b!"no_html" then (if d matches none | some .null then some .noHtml else none)
      else if s = b!"template" then (d.bind asStr).map .template
      else if s = b!"date" then (d.bind K.readDate).map .date
      else if s = b!"other" then
        (d.bind asObj).bind fun fs => (readField asStr b!"name" fs).bind fun n =>
          (readField asStr b!"value" fs).map fun v => .other n v
      else none

/-! ## Links -/

/-- The fields of `LinkData` (links/data.rs:18-23), and `Description` (links/description.rs:22-26). -/
def Description.toJson (K : SerdeLib) : Description → Json
  | .text s => tagged b!"text" (.str s)
  | .transclusion u none p => tagged b!"transclusion_link"
      (.obj [(b!"uri_ref", K.writeUri u), (b!"description", .null), (b!"properties", opt Json.map p)])
  | .transclusion u (some d) p => tagged b!"transclusion_link"
      (.obj [(b!"uri_ref", K.writeUri u), (b!"description", Description.toJson K d), (b!"properties", opt Json.map p)])

/-- `LinkData` (links/data.rs:18-23). -/
def LinkData.toJson (K : SerdeLib) (x : LinkData) : Json :=
  .obj [(b!"uri_ref", K.writeUri x.uri), (b!"description", opt (Description.toJson K) x.desc),
    (b!"properties", opt Json.map x.props)]

/-- The first argument bounds the depth of descriptions in descriptions. -/
def Description.ofJson (K : SerdeLib) : Nat → Json → Option Description
  | 0, _ => none
  | n + 1, j =>
    (readTagged j).bind fun
      | (s, some d) =>
        if s = b!"text" then (asStr d).map .text
        else if s = b!"transclusion_link" then
          (asObj d).bind fun fs => (readField K.readUri b!"uri_ref" fs).bind fun u =>
            (readOpt (Description.ofJson K n) b!"description" fs).bind fun e =>
              (readOpt (readMap K.toCopyLib) b!"properties" fs).map fun p => .transclusion u e p
        else none
      | _ => none

def LinkData.ofJson (K : SerdeLib) (n : Nat) (j : Json) : Option LinkData :=
  (asObj j).bind fun fs => (readField K.readUri b!"uri_ref" fs).bind fun u =>
    (readOpt (Description.ofJson K n) b!"description" fs).bind fun e =>
      (readOpt (readMap K.toCopyLib) b!"properties" fs).map fun p => ⟨u, e, p⟩

/-- `Link` (links/mod.rs:34-63). -/
def Link.toJson (K : SerdeLib) : Link → Json
  | .wiki x => tagged b!"wiki" (.obj [(b!"data", x.toJson K)])
  | .indexed i x => tagged b!"indexed_inter_wiki" (.obj [(b!"index", .num i), (b!"data", x.toJson K)])
  | .named n x => tagged b!"named_inter_wiki" (.obj [(b!"name", .str n), (b!"data", x.toJson K)])
  | .diary d x => tagged b!"diary" (.obj [(b!"date", K.writeDate d), (b!"data", x.toJson K)])
  | .raw x => tagged b!"raw" (.obj [(b!"data", x.toJson K)])
  | .transclusion x => tagged b!"transclusion" (.obj [(b!"data", x.toJson K)])

def Link.ofJson (K : SerdeLib) (n : Nat) (j : Json) : Option Link :=
  (readTagged j).bind fun
    | (s, some d) =>
      (asObj d).bind fun fs => (readField (LinkData.ofJson K n) b!"data" fs).bind fun x =>
        if s = b!"wiki" then some (.wiki x)
        else if s = b!"indexed_inter_wiki" then (readField asNum b!"index" fs).map fun i => .indexed i x
        else if s = b!"named_inter_wiki" then (readField asStr b!"name" fs).map fun i => .named i x
        else if s = b!"diary" then (readField K.readDate b!"date" fs).map fun i => .diary i x
        else if s = b!"raw" then some (.raw x)
        else if s = b!"transclusion" then some (.transclusion x)
        else none
    | _ => none

/-! ## Inline elements -/

mutual
/-- `InlineElement` (inline/mod.rs:28-43), `DecoratedText` and its content (typefaces.rs:100-106, 206-213),
`Text` (typefaces.rs:26), `Tags` (tags.rs:38-41), `CodeInline` and `MathInline` (code.rs:20-23, math.rs:19-22). -/
def Inline.toJson (K : SerdeLib) : Inline → Json
  | .text s => tagged b!"text" (.str s)
  | .decorated k xs => tagged b!"decorated_text" (tagged k.jsonName (.arr (Inline.toJsons K xs)))
  | .keyword k => tagged b!"keyword" (tag k.jsonName)
  | .link l => tagged b!"link" (l.toJson K)
  | .tags ts => tagged b!"tags" (strs ts)
  | .code s => tagged b!"code" (.str s)
  | .math s => tagged b!"math" (.str s)
  | .comment c => tagged b!"comment" c.toJson
def Inline.toJsons (K : SerdeLib) : List (Located Inline) → List Json
  | [] => []
  | ⟨x, r⟩ :: xs => located (Inline.toJson K x) r :: Inline.toJsons K xs
end

/-- `InlineElementContainer` (inline/mod.rs:104-109). -/
def inlinesToJson (K : SerdeLib) (xs : Inlines) : Json := .obj [(b!"elements", .arr (Inline.toJsons K xs))]

/-- The four variants of `DecoratedTextContent` (typefaces.rs:100-106). -/
def Inline.forDeco : Inline → Bool
  | .text _ => true
  | .decorated _ _ => true
  | .keyword _ => true
  | .link _ => true
  | _ => false

/-- The first argument bounds the depth of decorations and descriptions. -/
def Inline.ofJson (K : SerdeLib) : Nat → Json → Option Inline
  | 0, _ => none
  | n + 1, j =>
    (readTagged j).bind fun
      | (s, some d) =>
        if s = b!"text" then (asStr d).map .text
        else if s = b!"decorated_text" then
          (readTagged d).bind fun
            | (t, some e) => (byName Deco.jsonName Deco.all t).bind fun k =>
              (readArr (readLocated fun j => (Inline.ofJson K n j).filter Inline.forDeco) e).map fun xs => .decorated k xs
            | _ => none
        else if s = b!"keyword" then (readUnit Keyword.jsonName Keyword.all d).map .keyword
        else if s = b!"link" then (Link.ofJson K n d).map .link
        else if s = b!"tags" then (readArr asStr d).map .tags
        else if s = b!"code" then (asStr d).map .code
        else if s = b!"math" then (asStr d).map .math
        else if s = b!"comment" then (Comment.ofJson d).map .comment
        else none
      | _ => none

def inlinesOfJson (K : SerdeLib) (n : Nat) (j : Json) : Option Inlines :=
  (asObj j).bind (readField (readArr (readLocated (Inline.ofJson K n))) b!"elements")

/-! ## Tables and definition lists -/

/-- `Cell` (tables.rs:361-366). -/
def Cell.toJson (K : SerdeLib) : Cell → Json
  | .content c => tagged b!"content" (inlinesToJson K c)
  | .span s => tagged b!"span" (tag s.jsonName)
  | .align a => tagged b!"align" (tag a.jsonName)

def Cell.ofJson (K : SerdeLib) (n : Nat) (j : Json) : Option Cell :=
  (readTagged j).bind fun
    | (s, some d) =>
      if s = b!"content" then (inlinesOfJson K n d).map .content
      else if s = b!"span" then (readUnit CellSpan.jsonName CellSpan.all d).map .span
      else if s = b!"align" then (readUnit Align.jsonName Align.all d).map .align
      else none
    | _ => none

/-- `CellPos` (tables.rs:26-32). -/
def CellPos.toJson (p : CellPos) : Json := .obj [(b!"row", .num p.row), (b!"col", .num p.col)]

def CellPos.ofJson (j : Json) : Option CellPos :=
  (asObj j).bind fun fs => (readField asNum b!"row" fs).bind fun r => (readField asNum b!"col" fs).map fun c => ⟨r, c⟩

/-- `Table` (tables.rs:73-88), its map as an array of pairs. -/
def Table.toJson (K : SerdeLib) (t : Table) : Json :=
  .obj [(b!"cells", .arr (t.cells.map fun e => .arr [e.1.toJson, located (e.2.inner.toJson K) e.2.region])),
    (b!"row_cnt", .num t.rowCnt), (b!"col_cnt", .num t.colCnt), (b!"centered", .bool t.centered)]

/-- A pair of position and cell. -/
def readCell (K : SerdeLib) (n : Nat) : Json → Option (CellPos × Located Cell)
  | .arr [p, c] => (CellPos.ofJson p).bind fun p => (readLocated (Cell.ofJson K n) c).map (p, ·)
  | _ => none

def Table.ofJson (K : SerdeLib) (n : Nat) (j : Json) : Option Table :=
  (asObj j).bind fun fs => (readField (readArr (readCell K n)) b!"cells" fs).bind fun cs =>
    (readField asNum b!"row_cnt" fs).bind fun r => (readField asNum b!"col_cnt" fs).bind fun c =>
      (readField asBool b!"centered" fs).map fun b => ⟨K.cellOrder (keepLast cs), r, c, b⟩

/-- `TermAndDefinitions` (definitions.rs:243-247): the bundle (155) is a sequence. -/
def TermDefs.toJson (K : SerdeLib) (x : TermDefs) : Json :=
  .obj [(b!"term", located (inlinesToJson K x.term.inner) x.term.region),
    (b!"definitions", located (.arr (x.defs.inner.map fun d => located (inlinesToJson K d.inner) d.region)) x.defs.region)]

/-- A sequence cannot be read from the fields of a `Located` either (`FlatMapDeserializer`). -/
def TermDefs.ofJson (_ : Json) : Option TermDefs := none

/-! ## Blocks -/

mutual
/-- `BlockElement` (blocks/mod.rs:35-47), `Blockquote` (blockquotes.rs), `CodeBlock` (code.rs:18-31), `Header`
(headers.rs:24-36), `MathBlock` (math.rs:19-28), `Paragraph` (paragraphs.rs:23-29), `DefinitionList`
(definitions.rs:305-308), `List` (lists/mod.rs:32-38), `Divider` (dividers.rs). -/
def Block.toJson (K : SerdeLib) : Block → Json
  | .blockquote ls => tagged b!"blockquote" (.obj [(b!"lines", strs ls)])
  | .code l m ls => tagged b!"code_block"
      (.obj [(b!"language", opt .str l), (b!"metadata", Json.map m), (b!"lines", strs ls)])
  | .defs xs => tagged b!"definition_list" (.obj [(b!"items", .arr (xs.map fun x => located (x.inner.toJson K) x.region))])
  | .divider => tagged b!"divider" .null
  | .header c n b => tagged b!"header" (.obj [(b!"content", inlinesToJson K c), (b!"level", .num n), (b!"centered", .bool b)])
  | .list xs => tagged b!"list" (.obj [(b!"items", .arr (Block.toJsonItems K xs))])
  | .math ls e => tagged b!"math_block" (.obj [(b!"lines", strs ls), (b!"environment", opt .str e)])
  | .paragraph rs => tagged b!"paragraph" (.obj [(b!"lines", .arr (rs.map (inlinesToJson K)))])
  | .placeholder p => tagged b!"placeholder" (p.toJson K)
  | .table t => tagged b!"table" (t.toJson K)
/-- `ListItem` and its attributes (lists/item.rs:26-44, 525-528). -/
def Block.toJsonItems (K : SerdeLib) : List (Located (ItemF Block)) → List Json
  | [] => []
  | ⟨⟨ty, su, pos, cs, td⟩, r⟩ :: xs =>
    located (.obj [(b!"ty", ty.toJson), (b!"suffix", tag su.jsonName), (b!"pos", .num pos),
      (b!"contents", .arr (Block.toJsons K cs)),
      (b!"attributes", .obj [(b!"todo_status", opt (fun t : Todo => tag t.jsonName) td)])]) r :: Block.toJsonItems K xs
/-- `ListItemContents` (lists/mod.rs:188) and the elements of a page. -/
def Block.toJsons (K : SerdeLib) : List (Located Block) → List Json
  | [] => []
  | ⟨x, r⟩ :: xs => located (Block.toJson K x) r :: Block.toJsons K xs
end

/-- `ListItem` (lists/item.rs:26-44), with the reader of its contents. -/
def itemOfJson (f : Json → Option Block) (j : Json) : Option (ItemF Block) :=
  (asObj j).bind fun fs => (readField ItemType.ofJson b!"ty" fs).bind fun ty =>
    (readField (readUnit Suffix.jsonName Suffix.all) b!"suffix" fs).bind fun su =>
      (readField asNum b!"pos" fs).bind fun pos =>
        (readField (readArr (readLocated f)) b!"contents" fs).bind fun cs =>
          (readField asObj b!"attributes" fs).bind fun as =>
            (readOpt (readUnit Todo.jsonName Todo.all) b!"todo_status" as).map fun td => ⟨ty, su, pos, cs, td⟩

/-- The first argument bounds the depth of elements in elements. -/
def Block.ofJson (K : SerdeLib) : Nat → Json → Option Block
  | 0, _ => none
  | n + 1, j =>
    (readTagged j).bind fun
      | (s, some d) =>
        if s = b!"blockquote" then ((asObj d).bind (readField (readArr asStr) b!"lines")).map .blockquote
        else if s = b!"code_block" then
          (asObj d).bind fun fs => (readOpt asStr b!"language" fs).bind fun l =>
            (readField (readMap K.toCopyLib) b!"metadata" fs).bind fun m =>
              (readField (readArr asStr) b!"lines" fs).map fun ls => .code l m ls
        else if s = b!"definition_list" then
          ((asObj d).bind (readField (readArr (readLocated TermDefs.ofJson)) b!"items")).map .defs
        else if s = b!"divider" then (if d matches .null then some .divider else none)
        else if s = b!"header" then
          (asObj d).bind fun fs => (readField (inlinesOfJson K n) b!"content" fs).bind fun c =>
            (readField asNum b!"level" fs).bind fun l => (readField asBool b!"centered" fs).map fun b => .header c l b
        else if s = b!"list" then
          ((asObj d).bind (readField (readArr (readLocated (itemOfJson (Block.ofJson K n)))) b!"items")).map .list
        else if s = b!"math_block" then
          (asObj d).bind fun fs => (readField (readArr asStr) b!"lines" fs).bind fun ls =>
            (readOpt asStr b!"environment" fs).map fun e => .math ls e
        else if s = b!"paragraph" then
          ((asObj d).bind (readField (readArr (inlinesOfJson K n)) b!"lines")).map .paragraph
        else if s = b!"placeholder" then (Placeholder.ofJson K d).map .placeholder
        else if s = b!"table" then (Table.ofJson K n d).map .table
        else none
      | _ => none

/-! ## Pages -/

/-- `Page` (elements/mod.rs:36-42). -/
def Page.toJson (K : SerdeLib) (pg : Page) : Json := .obj [(b!"elements", .arr (Block.toJsons K pg.elements))]

def Page.ofJson (K : SerdeLib) (n : Nat) (j : Json) : Option Page :=
  ((asObj j).bind (readField (readArr (readLocated (Block.ofJson K n))) b!"elements")).map Page.mk

/-- The text that `serde_json::to_writer_pretty` has written when it returns, with an error or without
(vimwiki-cli/src/ast.rs:289). -/
def Page.toText (K : SerdeLib) (pg : Page) : Str := (pg.toJson K).toText

/-- `serde_json::from_reader::<_, Page>` (vimwiki-cli/src/ast.rs:243-246). Elements in elements are at least one
level of JSON deeper, so that 128 bounds their depth. -/
def Page.ofText (K : SerdeLib) (s : Str) : Option Page := (Json.ofText s).bind (Page.ofJson K 128)

end Vw
