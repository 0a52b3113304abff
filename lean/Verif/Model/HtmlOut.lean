import Verif.Model.Paths
import Verif.Model.VimwikiOut

/-!
# HTML output

Models `/repo/vimwiki-core/src/lang/output/html/{formatter,convert,mod}.rs` and the text
functions of `utils.rs`. Line numbers without a file name are those of `mod.rs`.

A writer is a function from formatter state to formatter state or an error. Writing into
a `String` cannot fail. The configuration is a parameter because no function changes it.
-/

namespace Vw

/-- The external functions used when writing HTML, besides those of `OutLib`. -/
structure HtmlLib extends OutLib where
  /-- URI references and fragments, see `LinkLib`. -/
  link : LinkLib
  /-- `str::to_lowercase` -/
  lower : Str → Str
  /-- The server-side highlighting of a code block (mod.rs:501-567): the language and the
  lines to everything written before `</pre>`, or an error. -/
  highlight : Option Str → List Str → Except HtmlErr Str
  /-- `std::fs::read_to_string` -/
  readFile : Path → Option Str
  /-- `Local::now().naive_local().date()` -/
  today : Date

/-! ## Text -/

/-- One byte of `voca_rs::escape::escape_html`. -/
def escapeByte (b : Byte) : Str :=
  if b = c!"&" then b!"&amp;"
  else if b = c!"<" then b!"&lt;"
  else if b = c!">" then b!"&gt;"
  else if b = c!"\"" then b!"&quot;"
  else if b = c!"'" then b!"&#x27;"
  else if b = c!"`" then b!"&#x60;"
  else [b]

/-- `voca_rs::escape::escape_html`. -/
def escapeHtml (s : Str) : Str := s.flatMap escapeByte

/-- `str::split(|c: char| c.is_whitespace())`; the first argument is the number of bytes
left. The current piece is kept in reverse. -/
def splitWsF : Nat → Str → Str → List Str
  | 0, cur, _ => [cur.reverse]
  | _ + 1, cur, [] => [cur.reverse]
  | n + 1, cur, b :: bs =>
    if wsCharLen (b :: bs) = 0 then splitWsF n (b :: cur) bs
    else cur.reverse :: splitWsF n [] ((b :: bs).drop (wsCharLen (b :: bs)))

/-- `str::split(|c: char| c.is_whitespace())` on UTF-8 bytes. -/
def splitWs (s : Str) : List Str := splitWsF s.length [] s

/-- `normalize_id` (utils.rs:54-63). -/
def normalizeId (lower : Str → Str) (s : Str) : Str :=
  escapeHtml (joinWith b!"-" ((splitWs (lower s)).filter fun w => !w.isEmpty))

/-! ## The formatter -/

/-- `HashMap<String, usize>` as an association list. -/
abbrev IdCache := List (Str × Nat)

namespace IdCache

/-- `HashMap::get`. -/
def get : IdCache → Str → Option Nat
  | [], _ => none
  | (k, n) :: rest, id => if k = id then some n else get rest id

/-- `HashMap::insert`. -/
def insert (c : IdCache) (id : Str) (n : Nat) : IdCache := (id, n) :: c.filter fun e => e.1 ≠ id

/-- `format!("{}-{}", id, n)` (formatter.rs:92, 98). -/
def numbered (id : Str) (n : Nat) : Str := id ++ b!"-" ++ decStr n

/-- The loop of `ensure_unique_id` (formatter.rs:91-100); the first argument bounds the
number of rounds, `none` means that they did not suffice. -/
def loop : Nat → IdCache → Str → Option (Str × IdCache)
  | 0, _, _ => none
  | fuel + 1, c, id =>
    match c.get id with
    | none => some (id, c)
    | some count =>
      match c.get (numbered id (count + 1)) with
      | none => loop fuel (c.insert id (count + 1)) (numbered id (count + 1))
      | some _ => loop fuel c (numbered id 1)

/-- More rounds than the loop of `ensure_unique_id` can take, see C41. -/
def rounds (c : IdCache) : Nat := (c.map fun e => e.1.length).foldl max 0 + 2

/-- `ensure_unique_id` (formatter.rs:87-109). -/
def unique (c : IdCache) (id : Str) : Option (Str × IdCache) :=
  match c.get id with
  | some _ => loop c.rounds c id
  | none => some (id, c.insert id 0)

end IdCache

/-- `HtmlFormatter` (formatter.rs:13-34) without the configuration. The template is the
relative path as text. -/
structure HFm where
  headers : List (Nat × Str) := []
  ids : IdCache := []
  title : Option Str := none
  date : Option Date := none
  template : Option Str := none
  content : Str := []
deriving DecidableEq, Repr

/-- A writer: `fn fmt(&self, f: &mut HtmlFormatter) -> HtmlOutputResult`. -/
abbrev W := HFm → Except HtmlErr HFm

namespace W

/-- `write!(f, "{}", s)` (formatter.rs:40-44). -/
def put (s : Str) : W := fun f => .ok { f with content := f.content ++ s }

/-- Nothing is written. -/
def nop : W := fun f => .ok f

/-- Two statements, the first with `?`. -/
def seq (a b : W) : W := fun f => (a f).bind b

@[inherit_doc] infixr:65 " ⊳ " => W.seq

/-- A `for` loop. -/
def each {α} (w : α → W) : List α → W
  | [] => nop
  | x :: xs => w x ⊳ each w xs

/-- `if c { a } else { b }`. -/
def choose (c : Bool) (a b : W) : W := if c then a else b

/-- `let id = f.ensure_unique_id(id)`. -/
def withId (id : Str) (k : Str → W) : W := fun f =>
  match f.ids.unique id with
  | none => .error .diverge
  | some (u, c) => k u { f with ids := c }

end W

/-- `get_header_text` (formatter.rs:74-76). -/
def HFm.headerText (f : HFm) (level : Nat) : Option Str :=
  (f.headers.find? fun e => e.1 == level).map (·.2)

/-- `max_header_level` (formatter.rs:79-81). -/
def HFm.maxLevel (f : HFm) : Option Nat :=
  f.headers.foldl (fun m e => some (match m with
    | none => e.1
    | some n => max n e.1)) none

/-- `insert_header_text` (formatter.rs:65-71). -/
def W.insertHeader (level : Nat) (text : Str) : W := fun f =>
  .ok { f with headers := (level, text) :: f.headers.filter fun e => e.1 ≠ level }

/-- The prefix made of the header texts below `max_level` (mod.rs:1264-1270). -/
def HFm.idPrefix (f : HFm) : List Nat → Str
  | [] => []
  | i :: is =>
    (match f.headerText i with
     | some t => t ++ b!"-"
     | none => []) ++ f.idPrefix is

/-- `build_complete_id` (mod.rs:1257-1274). -/
def HFm.completeId (f : HFm) (maxLevel : Nat) (id : Str) : Str :=
  f.idPrefix ((List.range maxLevel).drop 1) ++ id

open W

/-! ## Inline elements -/

/-- `Display for Description` and, for a transclusion, `Display for LinkData`
(links/description.rs:9-26, links/data.rs:226-235). -/
def Description.display (L : OutLib) : Description → Str
  | .text s => s
  | .transclusion _ (some d) _ => d.display L
  | .transclusion u none _ => L.uriStr u

/-- `Display for LinkData` (links/data.rs:226-235). -/
def LinkData.display (L : OutLib) (d : LinkData) : Str :=
  match d.desc with
  | some x => x.display L
  | none => L.uriStr d.uri

/-- `Display for Link` (links/mod.rs:24-63). -/
def Link.display (L : OutLib) : Link → Str
  | .wiki d => d.display L
  | .indexed _ d => d.display L
  | .named _ d => d.display L
  | .diary dt d =>
    match d.desc with
    | some x => x.display L
    | none => L.dateStr dt
  | .raw d => d.display L
  | .transclusion d => d.display L

mutual
/-- `Display for InlineElement` and the elements in it (inline/mod.rs:25-42,
inline/typefaces.rs:394-401, inline/tags.rs:60-79). -/
def Inline.display (L : OutLib) : Inline → Str
  | .text s => s
  | .decorated _ cs => Inline.displayAll L cs
  | .keyword k => k.display
  | .link l => l.display L
  | .tags ts => ts.flatMap (fun t => c!":" :: t) ++ b!":"
  | .code s => s
  | .math s => s
  | .comment _ => []
/-- `Display for InlineElementContainer` (inline/mod.rs:181-188). -/
def Inline.displayAll (L : OutLib) : List (Located Inline) → Str
  | [] => []
  | ⟨x, _⟩ :: xs => Inline.display L x ++ Inline.displayAll L xs
end

/-- `Link::data`. -/
def Link.data : Link → LinkData
  | .wiki d => d
  | .indexed _ d => d
  | .named _ d => d
  | .diary _ d => d
  | .raw d => d
  | .transclusion d => d

/-- `to_description_or_fallback` (links/mod.rs:271-294). -/
def Link.descOr (L : HtmlLib) (l : Link) : Option Description :=
  match l.data.desc with
  | some d => some d
  | none =>
    match l with
    | .raw _ => none
    | .transclusion _ => none
    | .diary dt _ => some (.text (b!"diary:" ++ L.link.dateStr dt))
    | .wiki d => some (.text (decodedUri L.toOutLib d.uri))
    | .indexed _ d => some (.text (decodedUri L.toOutLib d.uri))
    | .named _ d => some (.text (decodedUri L.toOutLib d.uri))

/-- `write!(f, " {}=\"{}\"", k, v)`. -/
def attrText (k v : Str) : Str := b!" " ++ k ++ b!"=\"" ++ v ++ b!"\""

/-- The properties of a link as attributes (mod.rs:1079-1083, 1089-1093). -/
def propsHtml (props : Option Map) : Str :=
  match props with
  | none => []
  | some m => m.flatMap fun e => attrText e.1 (escapeHtml e.2)

/-- `write_link` with `use_img_tag` (mod.rs:1068-1085). -/
def writeImg (L : HtmlLib) (href : Uri) (desc : Option Description) (props : Option Map) : W :=
  put (b!"<img src=\"" ++ L.uriStr href ++ b!"\"") ⊳
  put (match desc with
    | some d => attrText b!"alt" (escapeHtml (d.display L.toOutLib))
    | none => []) ⊳
  put (propsHtml props) ⊳ put b!" />"

/-- `resolve_link` with the arguments of mod.rs:1119-1125. -/
def resolveHere (L : HtmlLib) (c : HtmlCfg) (l : Link) : Except HtmlErr Uri :=
  match c.pageWithin with
  | none => .error .panic
  | some p => resolveLink L.link c c.currentWiki p l

/-- `Output for Link` where the link is a transclusion (mod.rs:1119-1132). -/
def fmtImg (L : HtmlLib) (c : HtmlCfg) (d : LinkData) : W := fun f =>
  match resolveHere L c (.transclusion d) with
  | .error e => .error e
  | .ok u => writeImg L u d.desc d.props f

/-- The text of a link (mod.rs:1097-1112). -/
def writeDesc (L : HtmlLib) (c : HtmlCfg) (href : Uri) : Option Description → W
  | some (.text s) => put (escapeHtml s)
  | some (.transclusion u d p) => fmtImg L c ⟨u, d, p⟩
  | none => put (L.uriStr href)

/-- `Output for Link` (mod.rs:1054-1133). -/
def Link.html (L : HtmlLib) (c : HtmlCfg) (l : Link) : W :=
  match l with
  | .transclusion d => fmtImg L c d
  | l => fun f =>
    match resolveHere L c l with
    | .error e => .error e
    | .ok u =>
      (put (b!"<a href=\"" ++ L.uriStr u ++ b!"\"") ⊳ put (propsHtml l.data.props) ⊳
        put b!">" ⊳ writeDesc L c u (l.descOr L) ⊳ put b!"</a>") f

/-- The span with the complete id in front of bold text and tags (mod.rs:880-889,
1152-1162). -/
def writeAnchor (id : Str) : W := fun f =>
  match f.maxLevel with
  | none => .ok f
  | some m =>
    withId (f.completeId (m + 1) id)
      (fun u => put (b!"<span id=\"" ++ u ++ b!"\"></span>")) f

/-- One tag (mod.rs:1148-1168). -/
def writeTag (L : HtmlLib) (tag : Str) : W :=
  withId (normalizeId L.lower tag) fun u =>
    writeAnchor (normalizeId L.lower tag) ⊳
    put (b!"<span class=\"tag\" id=\"" ++ u ++ b!"\">" ++ normalizeId L.lower tag ++ b!"</span>")

/-- `Output for Keyword` (mod.rs:946-964). -/
def Keyword.html : Keyword → W
  | .todo => put b!"<span class=\"todo\">TODO</span>"
  | k => put k.display

/-- `Output for Comment`, `LineComment` and `MultiLineComment` (mod.rs:1203-1255). -/
def Comment.html (c : HtmlCfg) : Comment → W
  | .line s => choose c.comments (put (b!"<!-- " ++ s ++ b!" -->")) nop
  | .multi ls =>
    choose c.comments (put b!"<!--\n" ⊳ each (fun l => put (l ++ b!"\n")) ls ⊳ put b!"-->") nop

mutual
/-- `Output for InlineElement`, `Text`, `DecoratedText`, `DecoratedTextContent`, `Tags`,
`CodeInline` and `MathInline` (mod.rs:840-944, 1135-1201). -/
def Inline.html (L : HtmlLib) (c : HtmlCfg) : Inline → W
  | .text s => put (escapeHtml s)
  | .decorated .bold cs =>
    withId (normalizeId L.lower (Inline.displayAll L.toOutLib cs)) fun u =>
      writeAnchor (normalizeId L.lower (Inline.displayAll L.toOutLib cs)) ⊳
      put (b!"<strong id=\"" ++ u ++ b!"\">") ⊳ Inline.htmlAll L c cs ⊳ put b!"</strong>"
  | .decorated .italic cs => put b!"<em>" ⊳ Inline.htmlAll L c cs ⊳ put b!"</em>"
  | .decorated .strikeout cs => put b!"<del>" ⊳ Inline.htmlAll L c cs ⊳ put b!"</del>"
  | .decorated .superscript cs =>
    put b!"<sup><small>" ⊳ Inline.htmlAll L c cs ⊳ put b!"</small></sup>"
  | .decorated .subscript cs =>
    put b!"<sub><small>" ⊳ Inline.htmlAll L c cs ⊳ put b!"</small></sub>"
  | .keyword k => k.html
  | .link l => l.html L c
  | .tags ts => each (writeTag L) ts
  | .code s => put (b!"<code>" ++ escapeHtml s ++ b!"</code>")
  | .math s => put (b!"\\(" ++ escapeHtml s ++ b!"\\)")
  | .comment x => x.html c
/-- `Output for InlineElementContainer` (mod.rs:829-838). -/
def Inline.htmlAll (L : HtmlLib) (c : HtmlCfg) : List (Located Inline) → W
  | [] => nop
  | ⟨x, _⟩ :: xs => Inline.html L c x ⊳ Inline.htmlAll L c xs
end

/-! ## Blocks -/

/-- `Output for Blockquote` (mod.rs:88-130). -/
def quoteHtml (lines : List Str) : W :=
  put b!"<blockquote>\n" ⊳
  choose (decide ((lineGroups lines).length > 1))
    (each (fun g => put (b!"<p>" ++ escapeHtml (joinWith b!" " (g.map trim)) ++ b!"</p>\n"))
      (lineGroups lines))
    (each (fun l => put (escapeHtml l ++ b!"\n")) lines) ⊳
  put b!"</blockquote>"

/-- One definition (mod.rs:155-159). -/
def defHtml (L : HtmlLib) (c : HtmlCfg) (d : Located Inlines) : W :=
  put b!"<dd>" ⊳ Inline.htmlAll L c d.inner ⊳ put b!"</dd>\n"

/-- One term with its definitions (mod.rs:148-160). -/
def termHtml (L : HtmlLib) (c : HtmlCfg) (x : Located TermDefs) : W :=
  put b!"<dt>" ⊳ Inline.htmlAll L c x.inner.term.inner ⊳ put b!"</dt>\n" ⊳
  each (defHtml L c) x.inner.defs.inner

/-- `Output for DefinitionList` (mod.rs:132-172). -/
def defListHtml (L : HtmlLib) (c : HtmlCfg) (items : List (Located TermDefs)) : W :=
  put b!"<dl>\n" ⊳ each (termHtml L c) items ⊳ put b!"</dl>"

/-- A header that is not the table of contents (mod.rs:223-262); `u` is the unique id. -/
def plainHeader (L : HtmlLib) (c : HtmlCfg) (content : Inlines) (level : Nat) (id u : Str) : W :=
  fun f =>
    if f.completeId level id ≠ id then
      withId (f.completeId level id) (fun cu =>
        put (b!"<div id=\"" ++ cu ++ b!"\">") ⊳
        put (b!"<h" ++ decStr level ++ b!" id=\"" ++ u ++ b!"\" class=\"header\">") ⊳
        put (b!"<a href=\"#" ++ cu ++ b!"\">") ⊳ Inline.htmlAll L c content ⊳
        put (b!"</a></h" ++ decStr level ++ b!">") ⊳ put b!"</div>") f
    else
      (put (b!"<h" ++ decStr level ++ b!" id=\"" ++ u ++ b!"\" class=\"header\">") ⊳
        put (b!"<a href=\"#" ++ u ++ b!"\">") ⊳ Inline.htmlAll L c content ⊳
        put (b!"</a></h" ++ decStr level ++ b!">")) f

/-- `Output for Header` (mod.rs:186-266). -/
def headerHtml (L : HtmlLib) (c : HtmlCfg) (content : Inlines) (level : Nat) : W :=
  withId (normalizeId L.lower (Inline.displayAll L.toOutLib content)) fun u =>
    insertHeader level (normalizeId L.lower (Inline.displayAll L.toOutLib content)) ⊳
    choose (level == 1 && trim (Inline.displayAll L.toOutLib content) == c.toc)
      (put b!"<div class=\"toc\">" ⊳
        put (b!"<h" ++ decStr level ++ b!" id=\"" ++ u ++ b!"\">") ⊳
        Inline.htmlAll L c content ⊳ put (b!"</h" ++ decStr level ++ b!"></div>"))
      (plainHeader L c content level
        (normalizeId L.lower (Inline.displayAll L.toOutLib content)) u)

/-- `Output for MathBlock` (mod.rs:398-436). -/
def mathHtml (lines : List Str) (env : Option Str) : W :=
  match env with
  | some e =>
    put (b!"\\begin{" ++ e ++ b!"}\n") ⊳ each (fun l => put (escapeHtml l ++ b!"\n")) lines ⊳
    put (b!"\\end{" ++ e ++ b!"}")
  | none =>
    put b!"\\[\n" ⊳ each (fun l => put (escapeHtml l ++ b!"\n")) lines ⊳ put b!"\\]"

/-- `Output for Placeholder` (mod.rs:438-455). -/
def placeholderHtml : Placeholder → W
  | .title s => fun f => .ok { f with title := some s }
  | .date d => fun f => .ok { f with date := some d }
  | .template s => fun f => .ok { f with template := some s }
  | .noHtml => nop
  | .other _ _ => nop

/-- The lines of a code block (mod.rs:591-600). -/
def codeLines : List Str → W
  | [] => nop
  | [l] => put (escapeHtml l)
  | l :: ls => put (escapeHtml l ++ b!"\n") ⊳ codeLines ls

/-- `Output for CodeBlock` (mod.rs:457-608). The order of the metadata is that of the hash
map. -/
def codeHtml (L : HtmlLib) (c : HtmlCfg) (lang : Option Str) (metadata : Map)
    (lines : List Str) : W := fun f =>
  if c.serverSide then
    match L.highlight lang lines with
    | .error e => .error e
    | .ok s => (put s ⊳ put b!"</pre>") f
  else
    (put b!"<pre>" ⊳ put b!"<code" ⊳
      put (match lang with
        | some l => attrText b!"class" l
        | none => []) ⊳
      put (metadata.flatMap fun e => attrText e.1 e.2) ⊳ put b!">" ⊳ codeLines lines ⊳
      put b!"</code></pre>") f

/-- Whether an element is a comment. -/
def Inline.isComment : Inline → Bool
  | .comment _ => true
  | _ => false

/-- `Paragraph::is_blank` (elements/blocks/paragraphs.rs:36-49). -/
def blankParagraph (lines : List Inlines) : Bool :=
  lines.all fun l => l.all fun e => e.inner.isComment

/-- The lines of a paragraph (mod.rs:652-669). -/
def paraLines (L : HtmlLib) (c : HtmlCfg) : List Inlines → W
  | [] => nop
  | [l] => Inline.htmlAll L c l
  | l :: ls =>
    Inline.htmlAll L c l ⊳ put (if c.ignoreNewline then b!" " else b!"<br />") ⊳ paraLines L c ls

/-- `Output for Paragraph` (mod.rs:610-678). -/
def paragraphHtml (L : HtmlLib) (c : HtmlCfg) (lines : List Inlines) : W :=
  choose (!blankParagraph lines) (put b!"<p>") nop ⊳ paraLines L c lines ⊳
  choose (!blankParagraph lines) (put b!"</p>") nop

/-- `Row::has_content` (tables.rs:705-713). -/
def Table.rowHasContent (t : Table) (row : Nat) : Bool :=
  (drain (t.rowNext row) (t.colCnt + 1) 0).any fun c => Table.isContent c.inner

/-- `rowspan` and `colspan` (mod.rs:764-772, 801-809). -/
def spanAttr (name : Str) (n : Nat) : Str := if n > 1 then attrText name (decStr n) else []

/-- One cell (mod.rs:760-777, 797-814); `tag` is `th` or `td`. -/
def cellHtml (L : HtmlLib) (c : HtmlCfg) (t : Table) (tag : Str) (e : CellPos × Located Cell) : W :=
  match e.2.inner with
  | .content x =>
    put (b!"<" ++ tag) ⊳ put (spanAttr b!"rowspan" (t.rowspan e.1.row e.1.col)) ⊳
    put (spanAttr b!"colspan" (t.colspan e.1.row e.1.col)) ⊳ put b!">" ⊳
    Inline.htmlAll L c x ⊳ put (b!"</" ++ tag ++ b!">\n")
  | _ => nop

/-- One row (mod.rs:753-779, 790-816). -/
def rowHtml (L : HtmlLib) (c : HtmlCfg) (t : Table) (tag : Str) (row : Nat) : W :=
  choose (t.rowHasContent row)
    (put b!"<tr>\n" ⊳
      each (cellHtml L c t tag)
        (drain (Table.withPos (fun col => ⟨row, col⟩) (t.rowNext row)) (t.colCnt + 1) 0) ⊳
      put b!"</tr>\n") nop

/-- `Output for Table` (mod.rs:680-827). -/
def tableHtml (L : HtmlLib) (c : HtmlCfg) (t : Table) : W :=
  put (if t.centered then b!"<table class=\"center\">\n" else b!"<table>\n") ⊳
  choose (t.headerNext 0).1.isSome
    (put b!"<thead>\n" ⊳
      each (rowHtml L c t b!"th") (drain t.headerNext (t.rowCnt + 1) 0) ⊳
      put b!"</thead>\n") nop ⊳
  choose (t.bodyNext t.bodyStart).1.isSome
    (put b!"<tbody>\n" ⊳
      each (rowHtml L c t b!"td") (drain t.bodyNext (t.rowCnt + 1) t.bodyStart) ⊳
      put b!"</tbody>\n") nop ⊳
  put b!"</table>"

/-- The class of a list item (mod.rs:347-367). -/
def todoClass : Option Todo → Option Str
  | some .incomplete => some b!"done0"
  | some .partial1 => some b!"done1"
  | some .partial2 => some b!"done2"
  | some .partial3 => some b!"done3"
  | some .complete => some b!"done4"
  | some .rejected => some b!"rejected"
  | none => none

/-- The opening tag of a list item (mod.rs:370-375). -/
def itemOpen (todo : Option Todo) : Str :=
  match todoClass todo with
  | some k => b!"<li class=\"" ++ k ++ b!"\">"
  | none => b!"<li>"

/-- `List::is_ordered` (lists/mod.rs:81-85). -/
def orderedItems : List (Located (ItemF Block)) → Bool
  | [] => false
  | x :: _ => x.inner.ty.isOrdered

mutual
/-- `Output for BlockElement` (mod.rs:71-86) with `List` (mod.rs:268-315) and `Divider`
(mod.rs:174-184). -/
def Block.html (L : HtmlLib) (c : HtmlCfg) : Block → W
  | .blockquote ls => quoteHtml ls
  | .code lang md ls => codeHtml L c lang md ls
  | .defs items => defListHtml L c items
  | .divider => put b!"<hr />"
  | .header x level _ => headerHtml L c x level
  | .list items =>
    put (if orderedItems items then b!"<ol>\n" else b!"<ul>\n") ⊳ Block.htmlItems L c items ⊳
    put (if orderedItems items then b!"</ol>" else b!"</ul>")
  | .math ls env => mathHtml ls env
  | .paragraph ls => paragraphHtml L c ls
  | .placeholder p => placeholderHtml p
  | .table t => tableHtml L c t
/-- The items of a list (mod.rs:301-304) and `Output for ListItem` (mod.rs:317-385). -/
def Block.htmlItems (L : HtmlLib) (c : HtmlCfg) : List (Located (ItemF Block)) → W
  | [] => nop
  | ⟨⟨_, _, _, cs, todo⟩, _⟩ :: xs =>
    put (itemOpen todo) ⊳ Block.htmlContents L c cs ⊳ put b!"</li>" ⊳ put b!"\n" ⊳
    Block.htmlItems L c xs
/-- `Output for ListItemContents` (mod.rs:387-396). -/
def Block.htmlContents (L : HtmlLib) (c : HtmlCfg) : List (Located Block) → W
  | [] => nop
  | ⟨x, _⟩ :: xs => Block.html L c x ⊳ Block.htmlContents L c xs
end

/-- `Output for Page` (mod.rs:40-49). -/
def pageHtml (L : HtmlLib) (c : HtmlCfg) (p : Page) : W :=
  each (fun x => Block.html L c x.inner ⊳ put b!"\n") p.elements

/-- `to_html_string` (convert.rs:12-21). -/
def toHtmlString (w : W) : Except HtmlErr Str := (w {}).map (·.content)

/-! ## Templates -/

/-- `str::replace`: the first argument is the number of bytes left. -/
def replaceF (pat to : Str) : Nat → Str → Str
  | 0, s => s
  | _ + 1, [] => []
  | n + 1, b :: bs =>
    if pat.isPrefixOf (b :: bs) then to ++ replaceF pat to n ((b :: bs).drop pat.length)
    else b :: replaceF pat to n bs

/-- `str::replace` for a pattern that is not empty. -/
def replace (pat to s : Str) : Str := replaceF pat to s.length s

/-- The title (convert.rs:42-49). -/
def pageTitle (L : HtmlLib) (c : HtmlCfg) (f : HFm) : Str :=
  f.title.getD ((c.page.fileStem).elim [] L.lossy)

/-- The template put (convert.rs:56-65). -/
def pageTemplate (L : HtmlLib) (c : HtmlCfg) (f : HFm) : Except HtmlErr Str :=
  match f.template with
  | none => .ok c.templateText
  | some p =>
    match L.readFile (c.templateDir.join (.ofStr p)) with
    | some t => .ok t
    | none => .error .template

/-- The value of `%root_path%` (convert.rs:73-87). -/
def rootPath (c : HtmlCfg) : Str :=
  if c.pageToRoot.toUriString.isEmpty then [] else c.pageToRoot.toUriString ++ b!"/"

/-- The template after every replacement but the last (convert.rs:70-100). -/
def fillTemplate (L : HtmlLib) (c : HtmlCfg) (f : HFm) (within : Path) (t : Str) : Str :=
  replace b!"%encoding%" b!"utf-8" (replace b!"%css%" c.currentWiki.cssName
    (replace b!"%wiki_path%" within.toUriString (replace b!"%root_path%" (rootPath c)
      (replace b!"%date%" (L.dateStr (f.date.getD L.today))
        (replace b!"%title%" (pageTitle L c f) t)))))

/-- `to_html_page` (convert.rs:31-107). -/
def toHtmlPage (L : HtmlLib) (c : HtmlCfg) (w : W) : Except HtmlErr Str :=
  (w {}).bind fun f =>
    (pageTemplate L c f).bind fun t =>
      match c.pageWithin with
      | none => .error .panic
      | some p => .ok (replace b!"%content%" f.content (fillTemplate L c f p t))

end Vw
