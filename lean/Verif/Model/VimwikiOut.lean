import Verif.Model.Elements
import Verif.Model.TableIter

/-!
# Vimwiki output

Models `/repo/vimwiki-core/src/lang/output/vimwiki/{config,formatter,convert,mod}.rs`.

A formatter state is `Fm`; the configuration is a parameter because no function
changes it. Writing into a `String` cannot fail, so the `Result` of the code is
dropped; `none` is a panic, which only tables can cause. A `write!` with several
pieces calls `write_str` once per piece; it is one `write` per `{}` or literal here,
too.
-/

namespace Vw

/-- The external functions used when writing: `Display` of `URIReference` and
`NaiveDate`, the lossy UTF-8 step of `decode_uri` (links/data.rs:100-102) and the
crate `numerals`. -/
structure OutLib where
  uriStr : Uri → Str
  lossy : Str → Str
  dateStr : Date → Str
  rom : Int → Str

/-- `VimwikiConfig` (config.rs:6-390), without the wrapping options that nothing
reads. Todo characters are their UTF-8 bytes. -/
structure VwCfg where
  indentStr : Str := b!"    "
  separate : Bool := true
  preferIndentedQuote : Bool := false
  trimQuote : Bool := true
  commentNoPadding : Bool := false
  trimComment : Bool := true
  termAlone : Bool := false
  trimTerms : Bool := true
  trimDefs : Bool := true
  headerNoPadding : Bool := false
  trimHeader : Bool := true
  todoChar : Todo → Str := fun
    | .incomplete => b!" "
    | .partial1 => b!"."
    | .partial2 => b!"o"
    | .partial3 => b!"O"
    | .complete => b!"X"
    | .rejected => b!"-"
  trimParagraph : Bool := true
  tableNoPadding : Bool := false

/-- `VimwikiFormatter` (formatter.rs:7-21) without the configuration. -/
structure Fm where
  content : Str
  indent : Nat
  skip : Bool
deriving DecidableEq, Repr

namespace Fm

/-- `VimwikiFormatter::new` (formatter.rs:46-53). -/
def new : Fm := ⟨[], 0, false⟩

/-- `write_str` (formatter.rs:27-43). -/
def write (s : Str) (f : Fm) : Fm :=
  if f.skip then
    { f with content := f.content ++ trimStart s, skip := (trimStart s).isEmpty }
  else { f with content := f.content ++ s }

/-- The content is empty or ends with a line feed (formatter.rs:66). -/
def bol (c : Str) : Bool := c.isEmpty || c.getLast? == some 10

/-- `n` times the same write, as `for _ in 0..n`. -/
def writeN (s : Str) : Nat → Fm → Fm
  | 0, f => f
  | n + 1, f => writeN s n (write s f)

/-- `write_indent` (formatter.rs:65-75). -/
def writeIndent (cfg : VwCfg) (f : Fm) : Fm :=
  if bol f.content then writeN cfg.indentStr f.indent f else f

/-- `and_indent` (formatter.rs:80-88); `none` is a panic of the closure. -/
def andIndent (w : Fm → Option Fm) (f : Fm) : Option Fm :=
  (w { f with indent := f.indent + 1 }).map fun g => { g with indent := g.indent - 1 }

/-- `skip_whitespace` (formatter.rs:105-113). -/
def skipWhitespace (w : Fm → Fm) (f : Fm) : Fm :=
  { w { f with skip := true } with skip := false }

/-- `trim_end` (formatter.rs:116-119). -/
def trimEnd (f : Fm) : Fm := { f with content := Vw.trimEnd f.content }

/-- `and_trim` (formatter.rs:93-100). -/
def andTrim (w : Fm → Fm) (f : Fm) : Fm := (skipWhitespace w f).trimEnd

/-- `if flag { f.and_trim(w) } else { w(f) }`, as the elements use it. -/
def andTrimIf (flag : Bool) (w : Fm → Fm) (f : Fm) : Fm := if flag then andTrim w f else w f

/-- `if flag { write!(f, "{}", s) }`. -/
def writeIf (flag : Bool) (s : Str) (f : Fm) : Fm := if flag then write s f else f

end Fm

open Fm

/-! ## Inline elements -/

/-- `Display for Keyword` (elements/blocks/inline/typefaces.rs:418-435). -/
def Keyword.display : Keyword → Str
  | .todo => b!"TODO"
  | .done => b!"DONE"
  | .started => b!"STARTED"
  | .fixme => b!"FIXME"
  | .fixed => b!"FIXED"
  | .xxx => b!"XXX"

/-- The comparison of `sort_by(|(key1, _), (key2, _)| key1.cmp(key2))`
(mod.rs:340, 729-730): byte order. -/
def keyLe (a b : Str × Str) : Bool := decide (a.1 ≤ b.1)

/-- Collecting a map into a vector and sorting it by key (mod.rs:335-340, 725-730).
`sort_by` is stable. -/
def sortedMap (m : Map) : Map := m.mergeSort keyLe

/-- The loop that writes sorted pairs (mod.rs:342-349, 732-741); `sep` says whether a
space comes before the first pair. -/
def writePairs : Bool → Map → Fm → Fm
  | _, [], f => f
  | sep, (k, v) :: rest, f =>
    writePairs true rest (write b!"\"" (write v (write b!"=\"" (write k (writeIf sep b!" " f)))))

/-- `to_decoded_uri_string` (links/data.rs:197-199). -/
def decodedUri (L : OutLib) (u : Uri) : Str := L.lossy (percentDecode (L.uriStr u))

/-- The property section of a transclusion (mod.rs:713-742). -/
def writeProps (hasDesc : Bool) (props : Option Map) (f : Fm) : Fm :=
  match props with
  | none => f
  | some m => writePairs false (sortedMap m) (write b!"|" (writeIf (!hasDesc) b!"|" f))

/-- A present description (mod.rs:645-652 and the same lines of the other variants):
`|` and the text, or `|` and the nested transclusion (mod.rs:702-744). -/
def Description.fmt (L : OutLib) : Description → Fm → Fm
  | .text s, f => write s (write b!"|" f)
  | .transclusion u none p, f =>
    write b!"}}" (writeProps false p (write (decodedUri L u) (write b!"{{" (write b!"|" f))))
  | .transclusion u (some d) p, f =>
    write b!"}}" (writeProps true p (Description.fmt L d
      (write (decodedUri L u) (write b!"{{" (write b!"|" f)))))

/-- `match data.description` (mod.rs:645-652). -/
def descFmt (L : OutLib) (d : Option Description) (f : Fm) : Fm :=
  match d with
  | none => f
  | some d => d.fmt L f

/-- `Output<VimwikiFormatter> for Link` (mod.rs:639-749). -/
def Link.fmt (L : OutLib) : Link → Fm → Fm
  | .wiki d, f => write b!"]]" (descFmt L d.desc (write (decodedUri L d.uri) (write b!"[[" f)))
  | .indexed i d, f =>
    write b!"]]" (descFmt L d.desc (write (decodedUri L d.uri)
      (write b!":" (write (decStr i) (write b!"wiki" (write b!"[[" f))))))
  | .named n d, f =>
    write b!"]]" (descFmt L d.desc (write (decodedUri L d.uri)
      (write b!":" (write n (write b!"wn." (write b!"[[" f))))))
  | .diary dt d, f =>
    write b!"]]" (descFmt L d.desc (write (match d.toAnchor with
      | some a => a.display
      | none => []) (write (L.dateStr dt) (write b!"[[diary:" f))))
  | .raw d, f => write (L.uriStr d.uri) f
  | .transclusion d, f =>
    write b!"}}" (writeProps d.desc.isSome d.props
      (descFmt L d.desc (write (decodedUri L d.uri) (write b!"{{" f))))

/-- The marks around decorated text (mod.rs:577-619). -/
def Deco.marks : Deco → Str
  | .bold => b!"*"
  | .italic => b!"_"
  | .strikeout => b!"~~"
  | .superscript => b!"^"
  | .subscript => b!",,"

/-- `for tag in self { write!(f, "{}:", tag) }` (mod.rs:755-757). -/
def writeTags : List Str → Fm → Fm
  | [], f => f
  | t :: ts, f => writeTags ts (write b!":" (write t f))

/-- The lines of a multi line comment (mod.rs:824-837). -/
def writeCommentLines (cfg : VwCfg) : List Str → Fm → Fm
  | [], f => f
  | [l], f => write (if cfg.trimComment then trim l else l) f
  | l :: ls, f =>
    writeCommentLines cfg ls (write b!"\n" (write (if cfg.trimComment then trim l else l) f))

/-- `Output for Comment`, `LineComment` and `MultiLineComment` (mod.rs:777-847). -/
def Comment.fmt (cfg : VwCfg) : Comment → Fm → Fm
  | .line s, f =>
    write (if cfg.trimComment then trim s else s)
      (writeIf (!cfg.commentNoPadding) b!" " (write b!"%%" f))
  | .multi ls, f =>
    write b!"+%%" (writeIf (!cfg.commentNoPadding) b!" " (writeCommentLines cfg ls
      (writeIf (!cfg.commentNoPadding) b!" " (write b!"%%+" f))))

mutual
/-- `Output for InlineElement`, `DecoratedText` and `DecoratedTextContent`
(mod.rs:555-637, 751-775). -/
def Inline.fmt (L : OutLib) (cfg : VwCfg) : Inline → Fm → Fm
  | .text s, f => write s f
  | .decorated k cs, f => write k.marks (Inline.fmtAll L cfg cs (write k.marks f))
  | .keyword k, f => write k.display f
  | .link l, f => l.fmt L f
  | .tags ts, f => writeTags ts (write b!":" f)
  | .code s, f => write b!"`" (write s (write b!"`" f))
  | .math s, f => write b!"$" (write s (write b!"$" f))
  | .comment c, f => c.fmt cfg f
/-- `Output for InlineElementContainer` (mod.rs:545-553). -/
def Inline.fmtAll (L : OutLib) (cfg : VwCfg) : List (Located Inline) → Fm → Fm
  | [], f => f
  | ⟨x, _⟩ :: xs, f => Inline.fmtAll L cfg xs (Inline.fmt L cfg x f)
end

/-! ## Tables -/

/-- The padding rules for one cell (mod.rs:417-452). -/
def padCell (cfg : VwCfg) (s : Str) : Str :=
  match !cfg.tableNoPadding, !s.isEmpty, decide ((trimStart s).length < s.length),
      decide ((trimEnd s).length < s.length) with
  | true, true, false, false => b!" " ++ s ++ b!" "
  | true, true, false, true => b!" " ++ s
  | true, true, true, false => s ++ b!" "
  | true, false, _, _ => b!" "
  | _, _, _, _ => s

/-- The text of a content or span cell (mod.rs:401-416); alignment cells have none.
Content is written by a copy of the formatter without content. -/
def cellText (L : OutLib) (cfg : VwCfg) (f : Fm) : Cell → Option Str
  | .content c => some (Inline.fmtAll L cfg c { f with content := [] }).content
  | .span .fromLeft => some b!">"
  | .span .fromAbove => some b!"\\/"
  | .align _ => none

/-- `fixed_size_cells` (mod.rs:396-455): the cells the iterator reaches, in order. The
hash map is an association list; its keys are distinct. -/
def fixedCells (L : OutLib) (cfg : VwCfg) (f : Fm) (t : Table) : List (CellPos × Str) :=
  (drain (Table.withPos id t.cellsNext) (t.rowCnt * t.colCnt + 1) ⟨0, 0⟩).filterMap fun e =>
    (cellText L cfg f e.2.inner).map fun s => (e.1, padCell cfg s)

/-- One step of the fold for `max_column_sizes` (mod.rs:460-468), seen from one
column. -/
def sizeStep (col : Nat) (acc : Option Nat) (e : CellPos × Str) : Option Nat :=
  if e.1.col = col then
    match acc with
    | none => some e.2.length
    | some n => if e.2.length > n then some e.2.length else some n
  else acc

/-- `max_column_sizes.get(&col)` after the fold (mod.rs:458-468). -/
def columnSize (fixed : List (CellPos × Str)) (col : Nat) : Option Nat :=
  fixed.foldl (sizeStep col) none

/-- The size an alignment cell needs (mod.rs:475-481). -/
def alignNeed : Cell → Nat
  | .align .none => 1
  | .align .left => 2
  | .align .right => 2
  | .align .center => 3
  | _ => 0

/-- `min_align_size` of a column (mod.rs:473-483). -/
def minAlign (t : Table) (col : Nat) : Nat :=
  ((drain (t.columnNext col) (t.rowCnt + 1) 0).map fun c => alignNeed c.inner).foldl max 0

/-- `max_size` of a column (mod.rs:470-488, 504-505). -/
def columnWidth (t : Table) (fixed : List (CellPos × Str)) (col : Nat) : Nat :=
  match columnSize fixed col with
  | none => 0
  | some n => if minAlign t col > n then minAlign t col else n

/-- `fixed_size_cells.get(&CellPos { row, col })`. -/
def lookupFixed : List (CellPos × Str) → CellPos → Option Str
  | [], _ => none
  | (k, v) :: rest, p => if k = p then some v else lookupFixed rest p

/-- `String::repeat` for a one byte string. -/
def rep (b : Byte) (n : Nat) : Str := List.replicate n b

/-- One cell without fixed text (mod.rs:519-533). `none` is the panic of
`max_size - 1` or `max_size - 2`: a subtraction overflow or, without overflow checks,
the capacity overflow of `repeat`. -/
def writeDivider (width : Nat) (c : Option Cell) (f : Fm) : Option Fm :=
  match c with
  | some (.align .none) => some (write (rep c!"-" width) f)
  | some (.align .left) =>
    if width < 1 then none else some (write (rep c!"-" (width - 1)) (write b!":" f))
  | some (.align .center) =>
    if width < 2 then none
    else some (write b!":" (write (rep c!"-" (width - 2)) (write b!":" f)))
  | some (.align .right) =>
    if width < 1 then none else some (write b!":" (write (rep c!"-" (width - 1)) f))
  | _ => some (write (rep c!" " width) f)

/-- A cell with fixed text (mod.rs:508-515). -/
def writeFixed (width : Nat) (s : Str) (f : Fm) : Fm :=
  writeIf (decide (s.length < width)) (rep c!" " (width - s.length)) (write s f)

/-- One cell (mod.rs:504-534). -/
def writeBody (t : Table) (fixed : List (CellPos × Str)) (row col : Nat) (f : Fm) : Option Fm :=
  match lookupFixed fixed ⟨row, col⟩ with
  | some s => some (writeFixed (columnWidth t fixed col) s f)
  | none => writeDivider (columnWidth t fixed col) ((t.getCell row col).map Located.inner) f

/-- One cell and the bar after it (mod.rs:501-537). -/
def writeCell (t : Table) (fixed : List (CellPos × Str)) (row col : Nat) (f : Fm) : Option Fm :=
  (writeBody t fixed row col f).map (write b!"|")

/-- The cells of a row (mod.rs:501-537). -/
def writeCells (t : Table) (fixed : List (CellPos × Str)) (row : Nat) : List Nat → Fm → Option Fm
  | [], f => some f
  | c :: cs, f => (writeCell t fixed row c f).bind (writeCells t fixed row cs)

/-- The rows (mod.rs:492-539). -/
def writeRows (cfg : VwCfg) (t : Table) (fixed : List (CellPos × Str)) : List Nat → Fm → Option Fm
  | [], f => some f
  | r :: rs, f =>
    ((writeCells t fixed r (List.range t.colCnt)
      (write b!"|" (writeIf t.centered b!"    " (writeIndent cfg f)))).map (write b!"\n")).bind
      (writeRows cfg t fixed rs)

/-- `Output for Table` (mod.rs:392-543). -/
def Table.fmt (L : OutLib) (cfg : VwCfg) (t : Table) (f : Fm) : Option Fm :=
  writeRows cfg t (fixedCells L cfg f t) (List.range t.rowCnt) f

/-! ## Blocks -/

/-- `Output for Blockquote` (mod.rs:77-109). -/
def quoteFmt (cfg : VwCfg) : List Str → Fm → Fm
  | [], f => f
  | l :: ls, f =>
    quoteFmt cfg ls (write b!"\n" (andTrimIf cfg.trimQuote (write l)
      (write (if cfg.preferIndentedQuote then b!"    " else b!"> ") (writeIndent cfg f))))

/-- The definitions of a term after the first line break decision (mod.rs:132-146);
`first` says whether `idx == 0`. -/
def defsFmt (L : OutLib) (cfg : VwCfg) : Bool → List (Located Inlines) → Fm → Fm
  | _, [], f => f
  | first, ⟨d, _⟩ :: ds, f =>
    defsFmt L cfg false ds (write b!"\n" (andTrimIf cfg.trimDefs (Inline.fmtAll L cfg d)
      (if first && !cfg.termAlone then write b!" " f
       else write b!":: " (writeIndent cfg f))))

/-- `Output for DefinitionList` (mod.rs:111-150). -/
def defListFmt (L : OutLib) (cfg : VwCfg) : List (Located TermDefs) → Fm → Fm
  | [], f => f
  | ⟨⟨term, ds⟩, _⟩ :: rest, f =>
    defListFmt L cfg rest (defsFmt L cfg true ds.inner
      (writeIf (cfg.termAlone || ds.inner.isEmpty) b!"\n"
        (write b!"::" (andTrimIf cfg.trimTerms (Inline.fmtAll L cfg term.inner)
          (writeIndent cfg f)))))

/-- `Output for Header` (mod.rs:165-210). -/
def headerFmt (L : OutLib) (cfg : VwCfg) (content : Inlines) (level : Nat) (centered : Bool)
    (f : Fm) : Fm :=
  write b!"\n" (writeN b!"=" level (writeIf (!cfg.headerNoPadding) b!" "
    (andTrimIf cfg.trimHeader (Inline.fmtAll L cfg content)
      (writeIf (!cfg.headerNoPadding) b!" " (writeN b!"=" level
        (writeIf centered b!"    " f))))))

/-- The lines of a code or math block (mod.rs:296-299, 354-357). -/
def rawLinesFmt (cfg : VwCfg) : List Str → Fm → Fm
  | [], f => f
  | l :: ls, f => rawLinesFmt cfg ls (write b!"\n" (write l (writeIndent cfg f)))

/-- `Output for MathBlock` (mod.rs:282-307). -/
def mathFmt (cfg : VwCfg) (lines : List Str) (env : Option Str) (f : Fm) : Fm :=
  write b!"}}$\n" (writeIndent cfg (rawLinesFmt cfg lines
    (write b!"\n" (write (match env with
      | some e => b!"%" ++ e ++ b!"%"
      | none => []) (write b!"{{$" (writeIndent cfg f))))))

/-- `Output for Placeholder` (mod.rs:309-321). -/
def placeholderFmt (L : OutLib) : Placeholder → Fm → Fm
  | .title x, f => write b!"\n" (write x (write b!"%title " f))
  | .date d, f => write b!"\n" (write (L.dateStr d) (write b!"%date " f))
  | .template x, f => write b!"\n" (write x (write b!"%template " f))
  | .noHtml, f => write b!"%nohtml\n" f
  | .other n v, f => write b!"\n" (write v (write b!" " (write n (write b!"%" f))))

/-- `Output for CodeBlock` (mod.rs:323-365). -/
def codeFmt (cfg : VwCfg) (lang : Option Str) (metadata : Map) (lines : List Str) (f : Fm) : Fm :=
  write b!"}}}\n" (writeIndent cfg (rawLinesFmt cfg lines
    (write b!"\n" (writePairs lang.isSome (sortedMap metadata) (write (lang.getD [])
      (write b!"{{{" (writeIndent cfg f)))))))

/-- `Output for Paragraph` (mod.rs:367-390). -/
def paragraphFmt (L : OutLib) (cfg : VwCfg) : List Inlines → Fm → Fm
  | [], f => f
  | l :: ls, f =>
    paragraphFmt L cfg ls (write b!"\n" (andTrimIf cfg.trimParagraph (Inline.fmtAll L cfg l)
      (writeIndent cfg f)))

/-- The prefix and todo status before the first content of an item
(mod.rs:227-241, 251-280). -/
def itemHead (L : OutLib) (cfg : VwCfg) (ty : ItemType) (suffix : Suffix) (pos : Nat)
    (todo : Option Todo) (f : Fm) : Fm :=
  let g := write b!" " (write (ty.toPrefix L.rom pos suffix) (writeIndent cfg f))
  match todo with
  | none => g
  | some s => write b!"] " (write (cfg.todoChar s) (write b!"[" g))

mutual
/-- `Output for BlockElement` and, for lists, `Output for List` and `ListItem`
(mod.rs:60-75, 158-163, 212-249). -/
def Block.fmt (L : OutLib) (cfg : VwCfg) : Block → Fm → Option Fm
  | .blockquote ls, f => some (quoteFmt cfg ls f)
  | .code lang md ls, f => some (codeFmt cfg lang md ls f)
  | .defs items, f => some (defListFmt L cfg items f)
  | .divider, f => some (write b!"----\n" f)
  | .header c level centered, f => some (headerFmt L cfg c level centered f)
  | .list items, f => Block.fmtItems L cfg items f
  | .math ls env, f => some (mathFmt cfg ls env f)
  | .paragraph ls, f => some (paragraphFmt L cfg ls f)
  | .placeholder p, f => some (placeholderFmt L p f)
  | .table t, f => t.fmt L cfg f
/-- `Output for List` (mod.rs:212-220) with `ListItem` (mod.rs:222-249). -/
def Block.fmtItems (L : OutLib) (cfg : VwCfg) : List (Located (ItemF Block)) → Fm → Option Fm
  | [], f => some f
  | ⟨⟨ty, suffix, pos, cs, todo⟩, _⟩ :: xs, f =>
    (Block.fmtContents L cfg cs
      (if cs.isEmpty then f else itemHead L cfg ty suffix pos todo f)).bind
      (Block.fmtItems L cfg xs)
/-- The contents of an item, each in `and_indent` (mod.rs:224-245). -/
def Block.fmtContents (L : OutLib) (cfg : VwCfg) : List (Located Block) → Fm → Option Fm
  | [], f => some f
  | ⟨x, _⟩ :: xs, f => (andIndent (Block.fmt L cfg x) f).bind (Block.fmtContents L cfg xs)
end

/-- The loop of `Output for Page` (mod.rs:26-34). -/
def pageFmt (L : OutLib) (cfg : VwCfg) : List (Located Block) → Fm → Option Fm
  | [], f => some f
  | [⟨x, _⟩], f => x.fmt L cfg f
  | ⟨x, _⟩ :: y :: rest, f =>
    (x.fmt L cfg f).bind fun g => pageFmt L cfg (y :: rest) (writeIf cfg.separate b!"\n" g)

/-- `Output for Page` (mod.rs:19-38). -/
def Page.fmt (L : OutLib) (cfg : VwCfg) (p : Page) (f : Fm) : Option Fm :=
  pageFmt L cfg p.elements f

/-- `to_vimwiki_string` (convert.rs:10-19) of a block; `none` is a panic. -/
def Block.toVimwiki (L : OutLib) (cfg : VwCfg) (b : Block) : Option Str :=
  (b.fmt L cfg .new).map (·.content)

/-- `to_vimwiki_string` (convert.rs:10-19) of a page. -/
def Page.toVimwiki (L : OutLib) (cfg : VwCfg) (p : Page) : Option Str :=
  (p.fmt L cfg .new).map (·.content)

end Vw
