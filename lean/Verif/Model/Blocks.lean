import Verif.Model.Inline

/-!
# Block elements and pages

Models `/repo/vimwiki-core/src/lang/parsers/vimwiki/mod.rs` and
`/repo/vimwiki-core/src/lang/parsers/vimwiki/blocks`.
-/

namespace Vw
open P Scan

/-! ## Headers -/

/-- `header_tail` (headers.rs:50-89). -/
def headerTail (env : Env) (level : Nat) : P Inlines := fun s =>
  match takeUntilEol s with
  | .ok s' line =>
    (match (P.bind trimTrailingWhitespace fun _ =>
        P.bind (verify (takeEnd level) (fun e => e.asRemaining.all (· == c!"="))) fun _ =>
        P.bind (peek (verify (take 1) (fun e => e.asRemaining.headD 0 != c!"="))) fun _ =>
        P.bind (peek (verify (takeEnd 1) (fun e => e.asRemaining.headD 0 != c!"="))) fun _ =>
        P.bind trimWhitespace fun _ =>
        P.map (inlineContainer env) (·.inner)) line with
     | .ok _ c => .ok s' c
     | .err => .err
     | .panic r => .panic r
     | .diverge => .diverge)
  | .err => .err
  | .panic r => .panic r
  | .diverge => .diverge

/-- `header` (headers.rs:21-48). -/
def header (env : Env) : P (Located Block) :=
  located (
    P.bind beginningOfLine fun _ =>
    P.bind (P.map space0 (fun s => !s.isEmpty)) fun centered =>
    P.bind (verify (P.map (takeLineWhile1 (char c!"=")) Span.remainingLen)
      (fun level => decide (1 ≤ level) && decide (level ≤ 6))) fun level =>
    P.bind (headerTail env level) fun content =>
    P.bind endOfLineOrInput fun _ =>
    P.pure (Block.header content level centered))

/-! ## Dividers -/

/-- `divider` (dividers.rs:14-26). -/
def divider : P (Located Block) :=
  located (
    P.bind beginningOfLine fun _ =>
    P.bind (verify (takeLineWhile1 (char c!"-")) (fun s => decide (s.remainingLen ≥ 4))) fun _ =>
    P.bind endOfLineOrInput fun _ =>
    P.pure Block.divider)

/-! ## Blockquotes -/

/-- `indented_blockquote_line` (blockquotes.rs:35-44). -/
def indentedBlockquoteLine : P Str :=
  P.bind (verify space0 (fun s => decide (s.remainingLen ≥ 4))) fun _ =>
  P.bind (strOf (verify notLineEnding (fun s => !s.isOnlyWhitespace))) fun text =>
  P.bind endOfLineOrInput fun _ => P.pure text

/-- `indented_blockquote` (blockquotes.rs:24-31). -/
def indentedBlockquote : P (Located Block) :=
  located (P.map (many1 indentedBlockquoteLine) Block.blockquote)

/-- `arrow_blockquote_line` (blockquotes.rs:78-85). -/
def arrowBlockquoteLine : P Str :=
  P.bind space0 fun _ =>
  P.bind (tag b!"> ") fun _ =>
  P.bind (strOf notLineEnding) fun text =>
  P.bind endOfLineOrInput fun _ => P.pure text

/-- `arrow_blockquote` (blockquotes.rs:46-74). -/
def arrowBlockquote : P (Located Block) :=
  located (P.map
    (P.pair (many1 arrowBlockquoteLine)
      (many0 (P.pair (many0 (P.value ([] : Str) blankLine)) arrowBlockquoteLine)))
    (fun (head, rest) =>
      Block.blockquote (head ++ rest.flatMap (fun (blanks, bq) => blanks ++ [bq]))))

/-- `blockquote` (blockquotes.rs:20-22). -/
def blockquote : P (Located Block) := alt indentedBlockquote arrowBlockquote

/-! ## Code and math blocks -/

/-- Length of the Unicode whitespace character at the head of UTF-8 bytes, 0 if
there is none (`char::is_whitespace`, used by `str::trim_start`). -/
def wsCharLen : Str → Nat
  | 0xC2 :: 0x85 :: _ => 2
  | 0xC2 :: 0xA0 :: _ => 2
  | 0xE1 :: 0x9A :: 0x80 :: _ => 3
  | 0xE2 :: 0x80 :: c :: _ =>
    if (0x80 ≤ c ∧ c ≤ 0x8A) ∨ c = 0xA8 ∨ c = 0xA9 ∨ c = 0xAF then 3 else 0
  | 0xE2 :: 0x81 :: 0x9F :: _ => 3
  | 0xE3 :: 0x80 :: 0x80 :: _ => 3
  | b :: _ => if (9 ≤ b ∧ b ≤ 13) ∨ b = 32 then 1 else 0
  | [] => 0

/-- Bytes of leading whitespace: `line.len() - line.trim_start().len()`
(code.rs:43). The first argument is the number of bytes looked at. -/
def leadingWsF : Nat → Str → Nat
  | 0, _ => 0
  | n + 1, s =>
    if wsCharLen s = 0 then 0 else wsCharLen s + leadingWsF n (s.drop (wsCharLen s))

/-- `line.len() - line.trim_start().len()`. -/
def leadingWs (s : Str) : Nat := leadingWsF s.length s

/-- `str::is_char_boundary`. -/
def isCharBoundary (s : Str) (i : Nat) : Bool :=
  i == 0 || i == s.length ||
    (match s[i]? with
     | some b => !(128 ≤ b && b < 192)
     | none => false)

/-- Removing the indentation of one line (code.rs:39-54, math.rs:40-55); `none`
is the panic of slicing off a character boundary. -/
def dedentLine (indent : Nat) (line : Str) : Option Str :=
  let cnt := min (leadingWs line) indent
  if isCharBoundary line cnt then some (line.drop cnt) else none

/-- Removing the indentation of all lines. -/
def dedentLines (indent : Nat) (lines : List Str) : P (List Str) := fun s =>
  match lines.mapM (dedentLine indent) with
  | some ls => .ok s ls
  | none => .panic .dedentBoundary

/-- `map_parser(space0, count_remaining_bytes)`. -/
def indentSize : P Nat := mapParser space0 countRemainingBytes

/-- `code_block_end` (code.rs:112-120). -/
def codeBlockEnd : P Nat :=
  P.bind indentSize fun n =>
  P.bind (tag b!"}}}") fun _ =>
  P.bind space0 fun _ =>
  P.bind endOfLineOrInput fun _ => P.pure n

/-- `code_block_start` (code.rs:64-109). -/
def codeBlockStart : P (Nat × Option Str × Map) :=
  P.bind indentSize fun n =>
  P.bind (tag b!"{{{") fun _ =>
  P.bind (opt (strOf (verify (takeLineUntil1 b!" ")
    (fun s => !s.asRemaining.contains c!"=")))) fun lang =>
  P.bind space0 fun _ =>
  P.bind (separatedList0 space1
    (separatedPair (strOf (takeLineUntil1 b!"=")) (char c!"=")
      (delimited (char c!"\"") (strOf (takeLineUntil b!"\"")) (char c!"\"")))) fun pairs =>
  P.bind space0 fun _ =>
  P.bind endOfLineOrInput fun _ =>
  P.pure (n, lang, Map.collect pairs)

/-- `code_block` (code.rs:24-61). -/
def codeBlock : P (Located Block) :=
  located (
    P.bind codeBlockStart fun (startIndent, lang, metadata) =>
    P.bind (many0 (preceded (P.not codeBlockEnd) (strOf anyLine))) fun lines =>
    P.bind codeBlockEnd fun endIndent =>
    P.bind (dedentLines (min startIndent endIndent) lines) fun lines =>
    P.pure (Block.code lang metadata lines))

/-- `beginning_of_math_block` (math.rs:65-80). -/
def mathBlockStart : P (Nat × Option Str) :=
  P.bind indentSize fun n =>
  P.bind (tag b!"{{$") fun _ =>
  P.bind (opt (strOf (delimited (char c!"%") (takeLineUntil1 b!"%") (char c!"%")))) fun e =>
  P.bind space0 fun _ =>
  P.bind lineEnding fun _ => P.pure (n, e)

/-- `end_of_math_block` (math.rs:82-89). -/
def mathBlockEnd : P Nat :=
  P.bind indentSize fun n =>
  P.bind (tag b!"}}$") fun _ =>
  P.bind space0 fun _ =>
  P.bind endOfLineOrInput fun _ => P.pure n

/-- `math_block` (math.rs:20-63). -/
def mathBlock : P (Located Block) :=
  located (
    P.bind mathBlockStart fun (startIndent, environment) =>
    P.bind (many0 (preceded (P.not mathBlockEnd) (strOf anyLine))) fun lines =>
    P.bind mathBlockEnd fun endIndent =>
    P.bind (dedentLines (min startIndent endIndent) lines) fun lines =>
    P.pure (Block.math lines environment))

/-! ## Placeholders -/

/-- The text of a placeholder up to the end of the line (placeholders.rs:42-47). -/
def placeholderText : P Str :=
  strOf (verify takeUntilEol (fun s => !s.isOnlyWhitespace))

/-- `placeholder_title` (placeholders.rs:38-52). -/
def placeholderTitle : P Placeholder :=
  P.bind (tag b!"%title") fun _ =>
  P.bind space1 fun _ => P.map placeholderText Placeholder.title

/-- `placeholder_nohtml` (placeholders.rs:54-62). -/
def placeholderNohtml : P Placeholder :=
  P.bind (tag b!"%nohtml") fun _ =>
  P.bind space0 fun _ => P.pure Placeholder.noHtml

/-- `placeholder_template` (placeholders.rs:64-78). -/
def placeholderTemplate : P Placeholder :=
  P.bind (tag b!"%template") fun _ =>
  P.bind space1 fun _ => P.map placeholderText Placeholder.template

/-- `placeholder_date` (placeholders.rs:80-95). -/
def placeholderDate (env : Env) : P Placeholder :=
  P.bind (tag b!"%date") fun _ =>
  P.bind space1 fun _ =>
  P.map (mapOpt takeUntilEol (fun s => env.date s.asRemaining)) Placeholder.date

/-- `placeholder_other` (placeholders.rs:97-120). -/
def placeholderOther : P Placeholder :=
  P.bind (P.not (tag b!"%title")) fun _ =>
  P.bind (P.not (tag b!"%nohtml")) fun _ =>
  P.bind (P.not (tag b!"%template")) fun _ =>
  P.bind (P.not (tag b!"%date")) fun _ =>
  P.bind (tag b!"%") fun _ =>
  P.bind (strOf (takeLineUntil31 b!" " b!"\t" b!"%")) fun name =>
  P.bind space1 fun _ =>
  P.map placeholderText (Placeholder.other name)

/-- `placeholder` (placeholders.rs:21-36). The line ending is outside the
region. -/
def placeholder (env : Env) : P (Located Block) :=
  P.bind beginningOfLine fun _ =>
  P.bind (located (P.map (alts [placeholderTitle, placeholderNohtml,
    placeholderTemplate, placeholderDate env, placeholderOther]) Block.placeholder)) fun p =>
  P.bind endOfLineOrInput fun _ => P.pure p

/-! ## Definition lists -/

/-- `term_line` (definitions.rs:57-95). -/
def termLine (env : Env) : P (Located Inlines × Option (Located Inlines)) :=
  P.bind space0 fun _ =>
  P.bind (located (terminated
    (mapParser
      (verify (takeLineUntil1 b!"::")
        (fun s => !(b!"%%").isPrefixOf s.trimStart.asRemaining))
      (P.map (inlineContainer env) (·.inner)))
    (tag b!"::"))) fun term =>
  P.bind (opt (located (preceded space1
    (mapParser takeUntilEol (P.map (inlineContainer env) (·.inner)))))) fun def? =>
  P.bind (P.pair space0 endOfLineOrInput) fun _ =>
  P.pure (term, def?)

/-- `definition_line` (definitions.rs:99-117). -/
def definitionLine (env : Env) : P (Located Inlines) :=
  located (
    P.bind space0 fun _ =>
    P.bind (tag b!"::") fun _ =>
    P.bind space1 fun _ =>
    P.bind (mapParser takeUntilEol (P.map (inlineContainer env) (·.inner))) fun d =>
    P.bind endOfLineOrInput fun _ => P.pure d)

/-- `term_and_definitions` (definitions.rs:37-53). -/
def termAndDefinitions (env : Env) :
    P (Located Inlines × Located (List (Located Inlines))) :=
  P.bind (termLine env) fun (term, def?) =>
  P.bind (located (verify (many0 (definitionLine env))
    (fun defs => def?.isSome || !defs.isEmpty))) fun bundle =>
  P.pure (term, match def? with
    | some d => ⟨d :: bundle.inner, bundle.region⟩
    | none => bundle)

/-- `DefinitionList::from_iter` (elements definitions.rs:369-395), one entry. -/
def mkTermDefs (x : Located Inlines × Located (List (Located Inlines))) : Located TermDefs :=
  ⟨⟨x.1, x.2⟩, Region.new x.1.region.offset (x.1.region.len + x.2.region.len)⟩

/-- `definition_list` (definitions.rs:25-33). -/
def definitionList (env : Env) : P (Located Block) :=
  located (P.map (many1 (deeper (termAndDefinitions env)))
    (fun xs => Block.defs (xs.map mkTermDefs)))

/-! ## Tables -/

/-- `cell_span_left` (tables.rs:128-130). -/
def cellSpanLeft : P CellSpan :=
  P.value CellSpan.fromLeft (delimited space0 (tag b!">") space0)

/-- `cell_span_above` (tables.rs:133-135). -/
def cellSpanAbove : P CellSpan :=
  P.value CellSpan.fromAbove (delimited space0 (tag b!"\\/") space0)

/-- `column_align` (tables.rs:93-106). -/
def columnAlign : P Align :=
  P.bind (opt (char c!":")) fun a =>
  P.bind (takeLineWhile1 (char c!"-")) fun _ =>
  P.bind (opt (char c!":")) fun b =>
  P.pure (match a.isSome, b.isSome with
    | true, true => .center
    | false, true => .right
    | true, false => .left
    | _, _ => .none)

/-- `cell` (tables.rs:109-125). -/
def cell (env : Env) : P (Located Cell) :=
  located (alts [
    P.map cellSpanAbove Cell.span,
    P.map cellSpanLeft Cell.span,
    P.map columnAlign Cell.align,
    P.map (mapParser (takeLineUntil1 b!"|") (inlineContainer env)) (fun l => Cell.content l.inner)])

/-- `row` (tables.rs:78-90). -/
def row (env : Env) : P (List (Located Cell)) :=
  terminated
    (delimited (char c!"|") (separatedList1 (char c!"|") (deeper (cell env))) (char c!"|"))
    endOfLineOrInput

/-- Numbering of one row's cells (tables.rs:43-49). -/
def rowCells (rowIdx : Nat) : Nat → List (Located Cell) → List (CellPos × Located Cell)
  | _, [] => []
  | col, c :: cs => (⟨rowIdx, col⟩, c) :: rowCells rowIdx (col + 1) cs

/-- Numbering of all cells (tables.rs:40-51). -/
def tableCells : Nat → List (List (Located Cell)) → List (CellPos × Located Cell)
  | _, [] => []
  | i, r :: rs => rowCells i 0 r ++ tableCells (i + 1) rs

/-- `table` (tables.rs:25-63). -/
def tableRaw (env : Env) : P (Located Table) :=
  located (verify
    (P.bind space0 fun sp =>
     P.bind (row env) fun first =>
     P.bind (many0 (preceded space0 (row env))) fun rows =>
     P.pure (Table.new (tableCells 0 (first :: rows)) (!sp.isEmpty)))
    (fun t => !(List.range t.rowCnt).all t.isDividerRow))

/-- `table` as a block element. -/
def table (env : Env) : P (Located Block) :=
  P.map (tableRaw env) (fun l => l.map Block.table)

/-- `nested_table` (tables.rs:70-75). -/
def nestedTable (env : Env) : P (Located Block) :=
  P.map (tableRaw env) (fun l => l.map (fun t => Block.table { t with centered := false }))

/-! ## Paragraphs -/

/-- `paragraph_line` (paragraphs.rs:45-52). -/
def paragraphLine (env : Env) : P Inlines :=
  P.bind space0 fun _ => P.map (inlineContainer env) (·.inner)

/-- `continue_paragraph` (paragraphs.rs:57-69) given `list`. -/
def continueParagraphOf (env : Env) (list : P (Located Block)) : P Unit :=
  P.bind (P.not (header env)) fun _ =>
  P.bind (P.not (definitionList env)) fun _ =>
  P.bind (P.not list) fun _ =>
  P.bind (P.not (table env)) fun _ =>
  P.bind (P.not codeBlock) fun _ =>
  P.bind (P.not mathBlock) fun _ =>
  P.bind (P.not blankLine) fun _ =>
  P.bind (P.not arrowBlockquote) fun _ =>
  P.bind (P.not divider) fun _ =>
  P.bind (P.not (placeholder env)) fun _ => P.pure ()

/-- `paragraph` (paragraphs.rs:23-43) given `list`. -/
def paragraphOf (env : Env) (list : P (Located Block)) : P (Located Block) :=
  located (P.map
    (many1 (delimited (continueParagraphOf env list) (paragraphLine env) endOfLineOrInput))
    Block.paragraph)

/-! ## Lists -/

/-- `indentation_level(true)` (lists.rs:161-169). -/
def indentationConsume : P Nat := P.map space0 Span.remainingLen

/-- `indentation_level(false)` (lists.rs:161-169). -/
def indentationPeek : P Nat := P.map (peek space0) Span.remainingLen

/-- `todo_status` (lists.rs:172-184). -/
def todoStatus : P Todo :=
  P.bind (tag b!"[") fun _ =>
  P.bind (alts [
    P.value Todo.incomplete (tag b!" "),
    P.value Todo.partial1 (tag b!"."),
    P.value Todo.partial2 (tag b!"o"),
    P.value Todo.partial3 (tag b!"O"),
    P.value Todo.complete (tag b!"X"),
    P.value Todo.rejected (tag b!"-")]) fun t =>
  P.bind (tag b!"] ") fun _ => P.pure t

/-- `ordered_list_item_prefix` item types (lists.rs:246-252, 276-329). -/
def orderedType : P ItemType :=
  alts [
    P.value ItemType.number digit1,
    P.value ItemType.lowerRoman (many1 (oneOf b!"ivxlcdm")),
    P.value ItemType.upperRoman (many1 (oneOf b!"IVXLEDM")),
    P.value ItemType.lowerAlpha (takeWhile1 isLower),
    P.value ItemType.upperAlpha (takeWhile1 isUpper)]

/-- `list_item_prefix` (lists.rs:187-344). -/
def listItemPrefix : P (ItemType × Suffix) :=
  alts [
    P.value (ItemType.hyphen, Suffix.none) (tag b!"- "),
    P.value (ItemType.asterisk, Suffix.none) (tag b!"* "),
    P.pair orderedType
      (alt (P.value Suffix.period (tag b!". ")) (P.value Suffix.paren (tag b!") "))),
    P.pair (P.value ItemType.pound (tag b!"#")) (P.value Suffix.none (tag b!" "))]

/-- `list_item_tail` (lists.rs:116-156) given `nested_block_element`. -/
def listItemTailOf (nested : P (Located Block)) (indentation : Nat) :
    P (Option Todo × List (Located Block)) :=
  P.bind (opt todoStatus) fun todo =>
  P.bind (deeper nested) fun content =>
  P.bind (many0 (preceded
    (verify indentationPeek (fun level => decide (level > indentation)))
    (deeper nested))) fun contents =>
  P.pure (todo, content :: contents)

/-- The lines belonging to an item (lists.rs:82-88). -/
def itemLines (indentation : Nat) : P Span :=
  recognize (P.pair restOfLine
    (many0 (preceded
      (verify indentationPeek (fun level => decide (level > indentation)))
      restOfLine)))

/-- `list_item` (lists.rs:72-113) given `nested_block_element`. -/
def listItemOf (nested : P (Located Block)) : P (Nat × Located ListItem) :=
  P.bind beginningOfLine fun _ =>
  P.bind indentationConsume fun indentation => fun s =>
    match itemLines indentation s with
    | .ok _ remaining =>
      (match located (P.map (P.pair listItemPrefix (listItemTailOf nested indentation))
          (fun ((ty, suffix), (todo, contents)) =>
            (⟨ty, suffix, 0, contents, todo⟩ : ListItem))) remaining with
       | .ok remaining' item =>
         if remaining'.start < s.start then .panic .offsetUnderflow
         else .ok (s.advanceStartBy (remaining'.start - s.start)) (indentation, item)
       | .err => .err
       | .panic r => .panic r
       | .diverge => .diverge)
    | .err => .err
    | .panic r => .panic r
    | .diverge => .diverge

/-- Assigning positions to the items after the first (lists.rs:48-56). -/
def assignPos : Nat → List (Located ListItem) → List (Located ListItem)
  | _, [] => []
  | i, x :: xs => ⟨{ x.inner with pos := i }, x.region⟩ :: assignPos (i + 1) xs

/-- `List::normalize` (elements lists/mod.rs:112-125). -/
def normalizeItems : List (Located ListItem) → List (Located ListItem)
  | [] => []
  | h :: t => h :: t.map (fun x => ⟨{ x.inner with ty := h.inner.ty }, x.region⟩)

/-- `list` (lists.rs:25-68) given `nested_block_element`. -/
def listOf (nested : P (Located Block)) : P (Located Block) :=
  located (
    P.bind (deeper (listItemOf nested)) fun (indentation, item) =>
    P.bind (many0 (preceded
      (verify indentationPeek (fun level => decide (level = indentation)))
      (P.map (deeper (listItemOf nested)) (·.2)))) fun items =>
    P.pure (Block.list (normalizeItems (item :: assignPos 1 items))))

/-! ## Block elements -/

/-- `nested_block_element` (blocks/mod.rs:49-63) given `list`. -/
def nestedOf (env : Env) (list : P (Located Block)) : P (Located Block) :=
  alts [definitionList env, list, nestedTable env, codeBlock, mathBlock,
    arrowBlockquote, paragraphOf env list]

/-- `nested_block_element` with fuel. -/
def nestedF (env : Env) : Nat → P (Located Block)
  | 0 => fun _ => .diverge
  | n + 1 => nestedOf env (listOf (nestedF env n))

/-- `list`. A nested block starts after a prefix of at least two bytes, so
`remaining` is enough fuel. -/
def list (env : Env) : P (Located Block) := fun s => listOf (nestedF env s.remainingLen) s

/-- `paragraph`. -/
def paragraph (env : Env) : P (Located Block) := paragraphOf env (list env)

/-- `top_level_block_element` (blocks/mod.rs:28-45). -/
def topLevel (env : Env) : P (Located Block) :=
  alts [header env, definitionList env, list env, table env, codeBlock, mathBlock,
    blockquote, divider, placeholder env, paragraph env]

/-- `maybe_block_element` (parsers/vimwiki/mod.rs:20-27). -/
def maybeBlock (env : Env) : P (Option (Located Block)) :=
  alt (P.value none blankLine) (P.map (topLevel env) some)

/-- `page` (parsers/vimwiki/mod.rs:16-35). -/
def page (env : Env) : P Page :=
  P.map (allConsuming (many0 (maybeBlock env))) (fun es => ⟨es.filterMap id⟩)

/-- Parsing a text: `Language::from_vimwiki_str(..).parse::<Page>()`
(lang/mod.rs). -/
def parsePage (env : Env) (text : Str) : Res Page := page env (Span.ofStr text)

end Vw
