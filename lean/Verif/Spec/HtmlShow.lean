import Verif.Spec.Html

/-!
# The HTML of every element

A relation between the elements of a page and pieces of HTML, written without the state of
the formatter. Only the ids that are numbered to be unique are left open (C40).
-/

namespace Vw

/-- The levels and ids of the headers met so far, in order. -/
abbrev Headers := List (Nat × Str)

namespace Headers

/-- The id of the last header of a level. -/
def latest (hs : Headers) (l : Nat) : Option Str := ((hs.filter fun e => e.1 = l).getLast?).map (·.2)

/-- The ids of the last headers of the levels 1 to `n`, then `i`, with dashes between. -/
def pathTo (hs : Headers) (n : Nat) (i : Str) : Str :=
  joinWith b!"-" ((List.range' 1 n).filterMap hs.latest ++ [i])

end Headers

/-- `a` if `p` holds, else `b`. -/
def Either (p a b : Prop) : Prop := (p ∧ a) ∨ (¬ p ∧ b)

/-- An id, or the id with numbers after it. -/
inductive Variant (i : Str) : Str → Prop
  | same : Variant i i
  | numbered {u : Str} (n : Nat) (h : Variant i u) : Variant i (u ++ b!"-" ++ decStr n)

/-- In front of bold text and tags there is, once a header has been met, an empty element whose
id also names the last header of each level. -/
def AnchorShows (hs : Headers) (i : Str) (t : List Html) : Prop :=
  (hs = [] ∧ t = []) ∨ ∃ m u, (∃ e ∈ hs, e.1 = m) ∧ (∀ e ∈ hs, e.1 ≤ m) ∧ Variant (hs.pathTo m i) u ∧
    t = [.elem b!"span" [(b!"id", u)] []]

/-- The attributes made of the properties of a link. -/
def linkAttrs : Option Map → List (Str × Str)
  | none => []
  | some m => m.map fun e => (e.1, escapeHtml e.2)

/-- An image, the target of which is `u`. -/
def imgHtml (L : HtmlLib) (u : Uri) (desc : Option Description) (props : Option Map) : Html :=
  .void b!"img" ((b!"src", L.uriStr u) :: (match desc with
    | some d => [(b!"alt", escapeHtml (d.display L.toOutLib))]
    | none => []) ++ linkAttrs props)

/-- What is shown for a link to `u`: its description, which may be an image, or what it was
written as. -/
def DescShows (L : HtmlLib) (c : HtmlCfg) (l : Link) (u : Uri) (t : List Html) : Prop :=
  match l.data.desc, l with
  | some (.text s), _ => t = [.text (escapeHtml s)]
  | some (.transclusion v d p), _ => ∃ w, resolveHere L c (.transclusion ⟨v, d, p⟩) = .ok w ∧ t = [imgHtml L w d p]
  | none, .diary dt _ => t = [.text (escapeHtml (b!"diary:" ++ L.link.dateStr dt))]
  | none, .raw _ => t = [.text (L.uriStr u)]
  | none, l => t = [.text (escapeHtml (L.lossy (percentDecode (L.uriStr l.data.uri))))]

/-- Links and images. Where they lead is the subject of C47 to C50 and C59. -/
def LinkShows (L : HtmlLib) (c : HtmlCfg) (l : Link) (t : List Html) : Prop :=
  ∃ u, resolveHere L c l = .ok u ∧
    match l with
    | .transclusion d => t = [imgHtml L u d.desc d.props]
    | l => ∃ ts, DescShows L c l u ts ∧ t = [.elem b!"a" ((b!"href", L.uriStr u) :: linkAttrs l.data.props) ts]

/-- A tag. -/
def TagShows (L : HtmlLib) (hs : Headers) (tag : Str) (t : List Html) : Prop :=
  ∃ a u, AnchorShows hs (normalizeId L.lower tag) a ∧ Variant (normalizeId L.lower tag) u ∧
    t = a ++ [.elem b!"span" [(b!"class", b!"tag"), (b!"id", u)] [.text (normalizeId L.lower tag)]]

/-- Each element of a list is shown, one after the other. -/
def EachShows {α} (S : α → List Html → Prop) : List α → List Html → Prop
  | [], t => t = []
  | x :: xs, t => ∃ a b, t = a ++ b ∧ S x a ∧ EachShows S xs b

/-- Comments appear only if this was asked for. -/
def commentHtml (c : HtmlCfg) : Comment → List Html
  | .line s => if c.comments then [.text (b!"<!-- " ++ s ++ b!" -->")] else []
  | .multi ls =>
    if c.comments then [.text (b!"<!--\n" ++ (ls.flatMap fun l => l ++ b!"\n") ++ b!"-->")] else []

mutual
/-- Inline elements. -/
def Inline.Shows (L : HtmlLib) (c : HtmlCfg) (hs : Headers) : Inline → List Html → Prop
  | .text s, t => t = [.text (escapeHtml s)]
  | .decorated .bold cs, t => ∃ a u ts,
      AnchorShows hs (normalizeId L.lower (Inline.displayAll L.toOutLib cs)) a ∧
      Variant (normalizeId L.lower (Inline.displayAll L.toOutLib cs)) u ∧
      Inline.ShowsAll L c hs cs ts ∧ t = a ++ [.elem b!"strong" [(b!"id", u)] ts]
  | .decorated .italic cs, t => ∃ ts, Inline.ShowsAll L c hs cs ts ∧ t = [.elem b!"em" [] ts]
  | .decorated .strikeout cs, t => ∃ ts, Inline.ShowsAll L c hs cs ts ∧ t = [.elem b!"del" [] ts]
  | .decorated .superscript cs, t => ∃ ts, Inline.ShowsAll L c hs cs ts ∧ t = [.elem b!"sup" [] [.elem b!"small" [] ts]]
  | .decorated .subscript cs, t => ∃ ts, Inline.ShowsAll L c hs cs ts ∧ t = [.elem b!"sub" [] [.elem b!"small" [] ts]]
  | .keyword .todo, t => t = [.elem b!"span" [(b!"class", b!"todo")] [.text b!"TODO"]]
  | .keyword .done, t => t = [.text b!"DONE"]
  | .keyword .started, t => t = [.text b!"STARTED"]
  | .keyword .fixme, t => t = [.text b!"FIXME"]
  | .keyword .fixed, t => t = [.text b!"FIXED"]
  | .keyword .xxx, t => t = [.text b!"XXX"]
  | .link l, t => LinkShows L c l t
  | .tags ts, t => EachShows (TagShows L hs) ts t
  | .code s, t => t = [.elem b!"code" [] [.text (escapeHtml s)]]
  | .math s, t => t = [.text (b!"\\(" ++ escapeHtml s ++ b!"\\)")]
  | .comment x, t => t = commentHtml c x
/-- Several inline elements. -/
def Inline.ShowsAll (L : HtmlLib) (c : HtmlCfg) (hs : Headers) : List (Located Inline) → List Html → Prop
  | [], t => t = []
  | ⟨x, _⟩ :: xs, t => ∃ a b, t = a ++ b ∧ Inline.Shows L c hs x a ∧ Inline.ShowsAll L c hs xs b
end

/-! ## Blocks -/

/-- A line break in the HTML. -/
def nl : Html := .text b!"\n"

/-- Lines of a blockquote: as they are, or in paragraphs if there are several. -/
def quoteTree (lines : List Str) : List Html :=
  [.elem b!"blockquote" [] (nl ::
    if (lineGroups lines).length > 1 then
      (lineGroups lines).flatMap fun g => [.elem b!"p" [] [.text (escapeHtml (joinWith b!" " (g.map trim)))], nl]
    else lines.map fun l => .text (escapeHtml l ++ b!"\n"))]

/-- One definition. -/
def DefShows (L : HtmlLib) (c : HtmlCfg) (hs : Headers) (d : Located Inlines) (t : List Html) : Prop :=
  ∃ ts, Inline.ShowsAll L c hs d.inner ts ∧ t = [.elem b!"dd" [] ts, nl]

/-- A term with its definitions. -/
def TermShows (L : HtmlLib) (c : HtmlCfg) (hs : Headers) (x : Located TermDefs) (t : List Html) : Prop :=
  ∃ a b, Inline.ShowsAll L c hs x.inner.term.inner a ∧ EachShows (DefShows L c hs) x.inner.defs.inner b ∧
    t = [.elem b!"dt" [] a, nl] ++ b

/-- A header. A header of level 1 with the configured title is that of the table of contents.
All others link to themselves; if a header of a higher level came before, there is an element
around it whose id names these, too. -/
def HeaderShows (L : HtmlLib) (c : HtmlCfg) (hs : Headers) (xs : Inlines) (level : Nat) (t : List Html) : Prop :=
  let i := normalizeId L.lower (Inline.displayAll L.toOutLib xs)
  ∃ u ts, Variant i u ∧ Inline.ShowsAll L c (hs ++ [(level, i)]) xs ts ∧
    Either (level = 1 ∧ trim (Inline.displayAll L.toOutLib xs) = c.toc)
      (t = [.elem b!"div" [(b!"class", b!"toc")] [.elem b!"h1" [(b!"id", u)] ts]])
      (Either (∃ l, 1 ≤ l ∧ l < level ∧ (hs.latest l).isSome)
        (∃ v, Variant (hs.pathTo (level - 1) i) v ∧
          t = [.elem b!"div" [(b!"id", v)] [.elem (b!"h" ++ decStr level) [(b!"id", u), (b!"class", b!"header")]
            [.elem b!"a" [(b!"href", b!"#" ++ v)] ts]]])
        (t = [.elem (b!"h" ++ decStr level) [(b!"id", u), (b!"class", b!"header")]
          [.elem b!"a" [(b!"href", b!"#" ++ u)] ts]]))

/-- The lines of a paragraph. -/
def ParaShows (L : HtmlLib) (c : HtmlCfg) (hs : Headers) : List Inlines → List Html → Prop
  | [], t => t = []
  | [l], t => Inline.ShowsAll L c hs l t
  | l :: ls, t => ∃ a b, Inline.ShowsAll L c hs l a ∧ ParaShows L c hs ls b ∧
      t = a ++ [if c.ignoreNewline then .text b!" " else .void b!"br" []] ++ b

/-- A paragraph; one that only consists of comments has no element of its own. -/
def ParagraphShows (L : HtmlLib) (c : HtmlCfg) (hs : Headers) (lines : List Inlines) (t : List Html) : Prop :=
  ∃ ts, ParaShows L c hs lines ts ∧
    Either (∀ l ∈ lines, ∀ x ∈ l, ∃ y, x.inner = .comment y) (t = ts) (t = [.elem b!"p" [] ts])

/-- The attribute for a cell over several rows or columns (C21). -/
def spanAttrs (t : Table) (r col : Nat) : List (Str × Str) :=
  (if 1 < t.rowspan r col then [(b!"rowspan", decStr (t.rowspan r col))] else []) ++
    if 1 < t.colspan r col then [(b!"colspan", decStr (t.colspan r col))] else []

/-- The cells of row `r` from column `i` on. Only those with contents appear. -/
def CellsShow (L : HtmlLib) (c : HtmlCfg) (hs : Headers) (t : Table) (tag : Str) (r : Nat) :
    Nat → List (Located Cell) → List Html → Prop
  | _, [], h => h = []
  | i, ⟨.content xs, _⟩ :: cells, h => ∃ ts rest, Inline.ShowsAll L c hs xs ts ∧
      CellsShow L c hs t tag r (i + 1) cells rest ∧ h = [.elem tag (spanAttrs t r i) ts, nl] ++ rest
  | i, ⟨.span _, _⟩ :: cells, h => CellsShow L c hs t tag r (i + 1) cells h
  | i, ⟨.align _, _⟩ :: cells, h => CellsShow L c hs t tag r (i + 1) cells h

/-- A row: its cells up to the first gap; nothing if none of them has contents. -/
def RowShows (L : HtmlLib) (c : HtmlCfg) (hs : Headers) (t : Table) (tag : Str) (r : Nat) (h : List Html) : Prop :=
  ∃ cells ts, (∀ j, j ≤ cells.length → t.getCell r j = cells[j]?) ∧ CellsShow L c hs t tag r 0 cells ts ∧
    Either (∃ x ∈ cells, ∃ xs, x.inner = .content xs) (h = [.elem b!"tr" [] (nl :: ts), nl]) (h = [])

/-- A part of a table; nothing if it has no rows. -/
def PartShows (L : HtmlLib) (c : HtmlCfg) (hs : Headers) (t : Table) (part tag : Str) (rows : List Nat) (h : List Html) : Prop :=
  ∃ ts, EachShows (RowShows L c hs t tag) rows ts ∧ if rows = [] then h = [] else h = [.elem part [] (nl :: ts), nl]

/-- A table. The rows before the first divider are its head, the others its body; dividers do
not appear. -/
def TableShows (L : HtmlLib) (c : HtmlCfg) (hs : Headers) (t : Table) (h : List Html) : Prop :=
  ∃ H B a b, (H ++ B).Pairwise (· < ·) ∧ (∀ r, r ∈ H ++ B ↔ r < t.rowCnt ∧ ¬ t.Divider r) ∧
    (∀ r, r ∈ H ↔ r < t.rowCnt ∧ (∃ d, d < t.rowCnt ∧ t.Divider d) ∧ ∀ d, d ≤ r → ¬ t.Divider d) ∧
    PartShows L c hs t b!"thead" b!"th" H a ∧ PartShows L c hs t b!"tbody" b!"td" B b ∧
    h = [.elem b!"table" (if t.centered then [(b!"class", b!"center")] else []) ([nl] ++ a ++ b)]

/-- A code block: marked by the highlighter, or left to the browser. -/
def CodeShows (L : HtmlLib) (c : HtmlCfg) (lang : Option Str) (metadata : Map) (lines : List Str) (h : List Html) : Prop :=
  if c.serverSide then ∃ s, L.highlight lang lines = .ok s ∧ h = [.text (s ++ b!"</pre>")]
  else h = [.elem b!"pre" [] [.elem b!"code" ((match lang with
    | some l => [(b!"class", l)]
    | none => []) ++ metadata.map fun e => (e.1, e.2)) [.text (escapeHtml (joinWith b!"\n" lines))]]]

/-- The lines of a math block. -/
def mathTree (lines : List Str) (env : Option Str) : Str :=
  match env with
  | some e => b!"\\begin{" ++ e ++ b!"}\n" ++ (lines.flatMap fun l => escapeHtml l ++ b!"\n") ++ b!"\\end{" ++ e ++ b!"}"
  | none => b!"\\[\n" ++ (lines.flatMap fun l => escapeHtml l ++ b!"\n") ++ b!"\\]"

/-- The class of a list item. -/
def todoAttrs : Option Todo → List (Str × Str)
  | none => []
  | some .incomplete => [(b!"class", b!"done0")]
  | some .partial1 => [(b!"class", b!"done1")]
  | some .partial2 => [(b!"class", b!"done2")]
  | some .partial3 => [(b!"class", b!"done3")]
  | some .complete => [(b!"class", b!"done4")]
  | some .rejected => [(b!"class", b!"rejected")]

/-- The name of a list: ordered if its first item is. -/
def listTag : List (Located (ItemF Block)) → Str
  | ⟨⟨.hyphen, _, _, _, _⟩, _⟩ :: _ => b!"ul"
  | ⟨⟨.asterisk, _, _, _, _⟩, _⟩ :: _ => b!"ul"
  | ⟨⟨.other _, _, _, _, _⟩, _⟩ :: _ => b!"ul"
  | [] => b!"ul"
  | _ :: _ => b!"ol"

mutual
/-- The headers in a block. -/
def Block.headers (L : HtmlLib) : Block → Headers
  | .header xs level _ => [(level, normalizeId L.lower (Inline.displayAll L.toOutLib xs))]
  | .list items => Block.headersItems L items
  | .blockquote _ => []
  | .code _ _ _ => []
  | .defs _ => []
  | .divider => []
  | .math _ _ => []
  | .paragraph _ => []
  | .placeholder _ => []
  | .table _ => []
/-- The headers in list items. -/
def Block.headersItems (L : HtmlLib) : List (Located (ItemF Block)) → Headers
  | [] => []
  | ⟨⟨_, _, _, cs, _⟩, _⟩ :: xs => Block.headersAll L cs ++ Block.headersItems L xs
/-- The headers in several blocks. -/
def Block.headersAll (L : HtmlLib) : List (Located Block) → Headers
  | [] => []
  | ⟨x, _⟩ :: xs => Block.headers L x ++ Block.headersAll L xs
end

mutual
/-- Blocks, after the headers `hs`. -/
def Block.Shows (L : HtmlLib) (c : HtmlCfg) : Headers → Block → List Html → Prop
  | _, .blockquote ls, t => t = quoteTree ls
  | _, .code lang md ls, t => CodeShows L c lang md ls t
  | hs, .defs items, t => ∃ ts, EachShows (TermShows L c hs) items ts ∧ t = [.elem b!"dl" [] (nl :: ts)]
  | _, .divider, t => t = [.void b!"hr" []]
  | hs, .header x level _, t => HeaderShows L c hs x level t
  | hs, .list items, t => ∃ ts, Block.ShowsItems L c hs items ts ∧ t = [.elem (listTag items) [] (nl :: ts)]
  | _, .math ls env, t => t = [.text (mathTree ls env)]
  | hs, .paragraph ls, t => ParagraphShows L c hs ls t
  | _, .placeholder _, t => t = []
  | hs, .table x, t => TableShows L c hs x t
/-- List items. -/
def Block.ShowsItems (L : HtmlLib) (c : HtmlCfg) : Headers → List (Located (ItemF Block)) → List Html → Prop
  | _, [], t => t = []
  | hs, ⟨⟨_, _, _, cs, todo⟩, _⟩ :: xs, t => ∃ a b, Block.ShowsContents L c hs cs a ∧
      Block.ShowsItems L c (hs ++ Block.headersAll L cs) xs b ∧ t = [.elem b!"li" (todoAttrs todo) a, nl] ++ b
/-- The contents of a list item. -/
def Block.ShowsContents (L : HtmlLib) (c : HtmlCfg) : Headers → List (Located Block) → List Html → Prop
  | _, [], t => t = []
  | hs, ⟨x, _⟩ :: xs, t => ∃ a b, t = a ++ b ∧ Block.Shows L c hs x a ∧
      Block.ShowsContents L c (hs ++ Block.headers L x) xs b
end

/-- The blocks of a page, each followed by a line break. -/
def BlocksShow (L : HtmlLib) (c : HtmlCfg) : Headers → List (Located Block) → List Html → Prop
  | _, [], t => t = []
  | hs, x :: xs, t => ∃ a b, Block.Shows L c hs x.inner a ∧ BlocksShow L c (hs ++ Block.headers L x.inner) xs b ∧
      t = a ++ [nl] ++ b

/-! ## Sections -/

namespace Headers

/-- The open sections after a header: those of lower levels stay, the others end. -/
def enter (st : Headers) (h : Nat × Str) : Headers := (st.filter fun e => e.1 < h.1) ++ [h]

/-- The open sections after some headers, the outermost first. -/
def sections (hs : Headers) : Headers := hs.foldl enter []

/-- The ids of the sections around a header of level `l` that comes after the headers `hs`, then
its own id `i`, with dashes between. -/
def sectionPath (hs : Headers) (l : Nat) (i : Str) : Str :=
  joinWith b!"-" ((hs.sections.filter fun e => e.1 < l).map (·.2) ++ [i])

/-- No header is more than one level deeper than the one before it; the last one has level `n`. -/
inductive NoSkip : Headers → Nat → Prop
  | nil : NoSkip [] 0
  | snoc {hs : Headers} {n l : Nat} (i : Str) (h : NoSkip hs n) (h1 : 1 ≤ l) (h2 : l ≤ n + 1) : NoSkip (hs ++ [(l, i)]) l

end Headers

end Vw
