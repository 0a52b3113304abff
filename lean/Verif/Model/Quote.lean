import Verif.Model.Macros
import Verif.Model.Cli

/-!
# The elements a macro generates code for

Models `/repo/vimwiki_macros/src/lib.rs` and `/repo/vimwiki_macros/src/tokens`. The generated
code consists of calls of constructors; the model yields the value of that code instead of
its tokens. `Located::new`, `Region::new`, `Table::new` and collecting into a hash map are the
only such calls that do not just build the value they name. Expressions that a formatting
macro gets are values of any type `α`.
-/

namespace Vw

/-- `TokenizeContext` (tokens/mod.rs:6-9) and the libraries that the generated code calls. -/
structure QCtx (α : Type) where
  verbatim : Bool
  args : FormatArgs α
  /-- `std::format!`; `none` is a call that does not compile. -/
  format : FormatCall α → Option Str
  /-- `URIReference::to_string`. -/
  uriText : Uri → Str
  /-- `URIReference::try_from` of the generated code. -/
  uri : Str → Option Uri

/-- Tokenizing and running the generated code, with the counter of the formatter. A compile
error in the generated code is an error of the macro; `panic` also stands for a panic of the
generated code. -/
abbrev Q (β : Type) := Nat → MRes (β × Nat)

namespace Q

/-- A value that needs no argument. -/
def ret {β} (x : β) : Q β := fun n => .ok (x, n)

/-- One after the other. -/
def bind {β γ} (q : Q β) (f : β → Q γ) : Q γ := fun n =>
  match q n with
  | .ok (x, m) => f x m
  | .error e => .error e

/-- A value built from another one. -/
def map {β γ} (f : β → γ) (q : Q β) : Q γ := bind q fun x => ret (f x)

/-- All parts of a list, from first to last (`iter().map(..)` within `quote!`). -/
def list {β γ} (f : β → Q γ) : List β → Q (List γ)
  | [] => ret []
  | x :: xs => bind (f x) fun y => map (y :: ·) (list f xs)

/-- `tokenize_option` (tokens/utils.rs:76-88). -/
def option {β γ} (f : β → Q γ) : Option β → Q (Option γ)
  | none => ret none
  | some x => map some (f x)

end Q

variable {α : Type}

namespace QCtx

/-- `TokenizeContext::quote_str` (tokens/mod.rs:13-21). -/
def str (c : QCtx α) (s : Str) : Q Str := fun n =>
  if c.verbatim then .ok (s, n)
  else
    match quoteFormat c.args n s with
    | .ok (call, m) =>
      match c.format call with
      | some t => .ok (t, m)
      | none => .error .reject
    | .error e => .error e

/-- `tokenize_hashmap` for texts (tokens/utils.rs:55-73). -/
def strMap (c : QCtx α) (m : Map) : Q Map :=
  .map Map.collect (.list (fun e => .bind (c.str e.1) fun k => .map (fun v => (k, v)) (c.str e.2)) m)

/-- `tokenize_uri_reference` (primitives.rs:75-89). -/
def uriRef (c : QCtx α) (u : Uri) : Q Uri := fun n =>
  match c.uri (c.uriText u) with
  | some v => .ok (v, n)
  | none => .error .panic

/-- `Tokenize for Located` (elements/location.rs:6-25) with `tokenize_region` (27-39): the
depth is left out. -/
def located {β γ} (f : β → Q γ) (x : Located β) : Q (Located γ) :=
  .map (fun y => ⟨y, Region.new x.region.offset x.region.len⟩) (f x.inner)

/-- `tokenize_description` with `tokenize_link_data` for the boxed data (links.rs:47-95). -/
def description (c : QCtx α) : Description → Q Description
  | .text s => .map .text (c.str s)
  | .transclusion uri none props =>
    .bind (c.uriRef uri) fun u => .map (fun p => .transclusion u none p) (.option c.strMap props)
  | .transclusion uri (some d) props =>
    .bind (c.uriRef uri) fun u => .bind (description c d) fun d' =>
      .map (fun p => .transclusion u (some d') p) (.option c.strMap props)

/-- `tokenize_link_data` (links.rs:47-75). -/
def linkData (c : QCtx α) (d : LinkData) : Q LinkData :=
  .bind (c.uriRef d.uri) fun u => .bind (.option c.description d.desc) fun e =>
    .map (fun p => ⟨u, e, p⟩) (.option c.strMap d.props)

/-- `tokenize_link` (links.rs:10-43). Dates and numbers are written as they are. -/
def link (c : QCtx α) : Link → Q Link
  | .wiki d => .map .wiki (c.linkData d)
  | .indexed i d => .map (.indexed i) (c.linkData d)
  | .named s d => .bind (c.str s) fun s' => .map (.named s') (c.linkData d)
  | .diary t d => .map (.diary t) (c.linkData d)
  | .raw d => .map .raw (c.linkData d)
  | .transclusion d => .map .transclusion (c.linkData d)

/-- `tokenize_comment` (comments.rs:8-49). -/
def comment (c : QCtx α) : Comment → Q Comment
  | .line s => .map .line (c.str s)
  | .multi ls => .map .multi (.list c.str ls)

mutual
/-- `tokenize_inline_element` and `tokenize_decorated_text` (inline/mod.rs:29-71,
typefaces.rs:41-107). -/
def inline (c : QCtx α) : Inline → Q Inline
  | .text s => .map .text (c.str s)
  | .decorated k xs => .map (.decorated k) (inlines c xs)
  | .keyword k => .ret (.keyword k)
  | .link l => .map .link (c.link l)
  | .tags ts => .map .tags (.list c.str ts)
  | .code s => .map .code (c.str s)
  | .math s => .map .math (c.str s)
  | .comment x => .map .comment (c.comment x)
/-- `tokenize_inline_element_container` (inline/mod.rs:13-26). -/
def inlines (c : QCtx α) : List (Located Inline) → Q (List (Located Inline))
  | [] => .ret []
  | ⟨x, r⟩ :: xs =>
    .bind (.map (fun y => ⟨y, Region.new r.offset r.len⟩) (inline c x)) fun y => .map (y :: ·) (inlines c xs)
end

/-- `tokenize_term_and_definitions`, `tokenize_definition_bundle` and
`tokenize_definition_list_value` (definitions.rs:21-59). -/
def termDefs (c : QCtx α) (d : TermDefs) : Q TermDefs :=
  .bind (located c.inlines d.term) fun t =>
    .map (fun ds => ⟨t, ds⟩) (located (.list (located c.inlines)) d.defs)

/-- `tokenize_placeholder` (placeholders.rs:7-42). -/
def placeholder (c : QCtx α) : Placeholder → Q Placeholder
  | .title s => .map .title (c.str s)
  | .noHtml => .ret .noHtml
  | .template s => .map .template (c.str s)
  | .date d => .ret (.date d)
  | .other k v => .bind (c.str k) fun k' => .map (.other k') (c.str v)

/-- `tokenize_cell` (tables.rs:30-47). -/
def cell (c : QCtx α) : Cell → Q Cell
  | .content x => .map .content (c.inlines x)
  | .span s => .ret (.span s)
  | .align a => .ret (.align a)

/-- `tokenize_table` (tables.rs:9-28), in the order of the hash map of cells. -/
def table (c : QCtx α) (t : Table) : Q Table :=
  .map (fun cells => Table.new (Table.collect cells) t.centered)
    (.list (fun e => .map (fun x => (e.1, x)) (located c.cell e.2)) t.cells)

/-- `tokenize_list_item_type` (lists.rs:92-152): only the `Other` variant holds a text. -/
def itemType (c : QCtx α) : ItemType → Q ItemType
  | .other s => .map .other (c.str s)
  | t => .ret t

mutual
/-- `tokenize_block_element` (blocks/mod.rs:21-71) with the functions for each variant
(blockquotes.rs, code.rs, definitions.rs, headers.rs, lists.rs:10-18, math.rs, paragraphs.rs).
The environment of a math block comes before its lines, which `quote!` maps lazily. -/
def block (c : QCtx α) : Block → Q Block
  | .blockquote ls => .map .blockquote (.list c.str ls)
  | .code lang metadata ls =>
    .bind (.option c.str lang) fun l => .bind (c.strMap metadata) fun m => .map (.code l m) (.list c.str ls)
  | .defs xs => .map .defs (.list (located c.termDefs) xs)
  | .divider => .ret .divider
  | .header x level centered => .map (fun y => .header y level centered) (c.inlines x)
  | .list items => .map .list (items' c items)
  | .math ls e => .bind (.option c.str e) fun e' => .map (fun ls' => .math ls' e') (.list c.str ls)
  | .paragraph ls => .map .paragraph (.list c.inlines ls)
  | .placeholder p => .map .placeholder (c.placeholder p)
  | .table t => .map .table (c.table t)
/-- The items of a list, `tokenize_list_item` (lists.rs:21-40). -/
def items' (c : QCtx α) : List (Located (ItemF Block)) → Q (List (Located (ItemF Block)))
  | [] => .ret []
  | ⟨⟨ty, suffix, pos, contents, todo⟩, r⟩ :: xs =>
    .bind (.bind (c.itemType ty) fun ty' =>
      .map (fun ys => ⟨⟨ty', suffix, pos, ys, todo⟩, Region.new r.offset r.len⟩) (blocks c contents)) fun y =>
      .map (y :: ·) (items' c xs)
/-- `tokenize_list_item_contents` (lists.rs:43-53) and the elements of a page
(elements/mod.rs:10-17). -/
def blocks (c : QCtx α) : List (Located Block) → Q (List (Located Block))
  | [] => .ret []
  | ⟨x, r⟩ :: xs =>
    .bind (.map (fun y => ⟨y, Region.new r.offset r.len⟩) (block c x)) fun y => .map (y :: ·) (blocks c xs)
end

/-- `Tokenize` of every type that a macro can parse. -/
def parsed (c : QCtx α) : Parsed → Q Parsed
  | .page p => .map (fun xs => .page ⟨xs⟩) (c.blocks p.elements)
  | .block b => .map .block (located c.block b)
  | .inlines x => .map .inlines (located c.inlines x)
  | .inline x => .map .inline (located c.inline x)
  | .item i =>
    .map .item (located (fun i => .bind (c.itemType i.ty) fun ty =>
      .map (fun ys => ⟨ty, i.suffix, i.pos, ys, i.todo⟩) (c.blocks i.contents)) i)

end QCtx

/-- `try_expand` in `impl_macro!` (lib.rs:28-66): the value of the code that a macro for
elements of some kind generates. A panic of the parser is one of the macro. -/
def expandMacro (env : Env) (c : QCtx α) (k : Kind) (raw : Bool) (token : Str) : MRes Parsed :=
  match inputToString raw token with
  | .error e => .error e
  | .ok s =>
    match k.fromLanguage env (.vimwiki s) with
    | .ok _ x => (c.parsed x 0).map (·.1)
    | .err => .error .reject
    | .panic _ => .error .panic
    | .diverge => .error .panic

end Vw
