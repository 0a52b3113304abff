import Verif.Model.Nom

/-!
# Parser utilities

Models `/repo/vimwiki-core/src/lang/parsers/utils/{bytes,whitespace,character,
line,convert}.rs`. Loops over `memchr*_iter` become recursion over the list of
positions.
-/

namespace Vw
open P

/-- A region (`/repo/vimwiki-core/src/lang/elements/utils/region.rs:9-20`). -/
structure Region where
  offset : Nat
  len : Nat
  depth : Nat
deriving DecidableEq, Repr

/-- `Region::new` (region.rs:25-31). -/
def Region.new (offset len : Nat) : Region := ⟨offset, len, 0⟩

/-- `From<Span> for Region` (region.rs:74-83). -/
def Region.ofSpan (s : Span) : Region := ⟨s.start, s.remainingLen, s.depth⟩

/-- `Located<T>` (elements/utils/mod.rs). -/
structure Located (α : Type) where
  inner : α
  region : Region
deriving DecidableEq, Repr

/-- `Located::map`. -/
def Located.map {α β} (f : α → β) (l : Located α) : Located β :=
  ⟨f l.inner, l.region⟩

namespace Scan

/-- Loop of `offset` (bytes.rs:30-39): does the pattern occur? -/
def offsetLoop (pat bytes : Str) : List Nat → Option Nat
  | [] => none
  | pos :: ps =>
    if pos + pat.length > bytes.length then none
    else if matchesAt bytes pos pat then some pos
    else offsetLoop pat bytes ps

/-- `offset` (bytes.rs:27-46). -/
def offset (pat : Str) : P Nat := fun s =>
  let bytes := s.asRemaining
  match offsetLoop pat bytes (memchrIter (· == pat.headD 0) bytes) with
  | some pos => .ok s pos
  | none => .err

/-- `not_contains` (bytes.rs:14-23). -/
def notContains (pat : Str) (p : P Span) : P Span := fun s =>
  match p s with
  | .ok s' r =>
    (match P.not (offset pat) r with
     | .ok r' _ => .ok s' r'
     | .err => .err
     | .panic x => .panic x
     | .diverge => .diverge)
  | .err => .err
  | .panic x => .panic x
  | .diverge => .diverge

/-- `pos >= newline_pos` (bytes.rs:74-78). -/
def pastNewline (newline : Option Nat) (pos : Nat) : Bool :=
  match newline with
  | some nl => decide (pos ≥ nl)
  | none => false

/-- Loop of `surround_in_line1` (bytes.rs:71-101). `none` is the failure exit,
`some pos` the position of the right side. -/
def surroundLoop (right bytes : Str) (newline : Option Nat) : List Nat → Option Nat
  | [] => none
  | pos :: ps =>
    if pastNewline newline pos then none
    else if pos = 0 then surroundLoop right bytes newline ps
    else if bytes.length - pos < right.length then none
    else if matchesAt bytes pos right then some pos
    else surroundLoop right bytes newline ps

/-- `surround_in_line1` (bytes.rs:54-112). -/
def surroundInLine1 (left right : Str) : P Span := fun s =>
  match tag left s with
  | .ok s1 _ =>
    let bytes := s1.asRemaining
    (match surroundLoop right bytes (memchr (· == 10) bytes)
        (memchrIter (· == right.headD 0) bytes) with
     | some pos => .ok ((s1.sliceFrom pos).sliceFrom right.length) (s1.sliceTo pos)
     | none => .err)
  | .err => .err
  | .panic r => .panic r
  | .diverge => .diverge

/-- `if input.is_empty() { Ok } else { line_ending }` (character.rs:25-36). -/
def endOfLineOrInput : P Unit := fun s =>
  if s.isEmpty then .ok s () else P.value () lineEnding s

/-- `single_char` of `take_line_while` (bytes.rs:119-131). -/
def takeLineWhileStep {α} (p : P α) : P Byte := fun s =>
  match P.not endOfLineOrInput s with
  | .ok s1 _ =>
    (match p s1 with
     | .ok _ _ => anychar s1
     | .err => .err
     | .panic r => .panic r
     | .diverge => .diverge)
  | .err => .err
  | .panic r => .panic r
  | .diverge => .diverge

/-- `take_line_while` (bytes.rs:116-134). -/
def takeLineWhile {α} (p : P α) : P Span :=
  recognize (many0 (takeLineWhileStep p))

/-- `take_line_while1` (bytes.rs:138-145). -/
def takeLineWhile1 {α} (p : P α) : P Span :=
  verify (takeLineWhile p) (fun s => !s.isEmpty)

/-- Position of a line end: one earlier when preceded by `\r` (bytes.rs:159-163,
345-350). -/
def crAdjust (bytes : Str) (pos : Nat) : Nat :=
  if pos > 0 ∧ bytes[pos - 1]? = some 13 then pos - 1 else pos

/-- Loop of `take_line_until` (bytes.rs:155-180): the number of bytes taken. -/
def takeLineUntilLoop (pat bytes : Str) : List Nat → Nat
  | [] => bytes.length
  | pos :: ps =>
    if bytes[pos]? = some 10 then crAdjust bytes pos
    else if pos + pat.length > bytes.length then bytes.length
    else if matchesAt bytes pos pat then pos
    else takeLineUntilLoop pat bytes ps

/-- `take_line_until` (bytes.rs:150-184). -/
def takeLineUntil (pat : Str) : P Span := fun s =>
  let bytes := s.asRemaining
  takeSplit s (takeLineUntilLoop pat bytes
    (memchrIter (fun b => b == 10 || b == pat.headD 0) bytes))

/-- `take_line_until1` (bytes.rs:189-196). -/
def takeLineUntil1 (pat : Str) : P Span :=
  verify (takeLineUntil pat) (fun s => !s.isEmpty)

/-- Loop of `take_line_until_one_of_two` (bytes.rs:211-237). -/
def takeLineUntil2Loop (p1 p2 bytes : Str) : List Nat → Nat
  | [] => bytes.length
  | pos :: ps =>
    if bytes[pos]? = some 10 then crAdjust bytes pos
    else if (pos + p1.length ≤ bytes.length && matchesAt bytes pos p1)
        || (pos + p2.length ≤ bytes.length && matchesAt bytes pos p2) then pos
    else takeLineUntil2Loop p1 p2 bytes ps

/-- `take_line_until_one_of_two` (bytes.rs:201-241). -/
def takeLineUntil2 (p1 p2 : Str) : P Span := fun s =>
  let bytes := s.asRemaining
  takeSplit s (takeLineUntil2Loop p1 p2 bytes
    (memchrIter (fun b => b == 10 || b == p1.headD 0 || b == p2.headD 0) bytes))

/-- `take_line_until_one_of_two1` (bytes.rs:246-256). -/
def takeLineUntil21 (p1 p2 : Str) : P Span :=
  verify (takeLineUntil2 p1 p2) (fun s => !s.isEmpty)

/-- Loop of `take_line_until_one_of_three` (bytes.rs:285-318). -/
def takeLineUntil3Loop (p1 p2 p3 bytes : Str) (linePos : Option Nat) :
    List Nat → Nat
  | [] => linePos.getD bytes.length
  | pos :: ps =>
    match linePos with
    | some lp =>
      if lp ≤ pos then lp
      else if (pos + p1.length ≤ bytes.length && matchesAt bytes pos p1)
        || (pos + p2.length ≤ bytes.length && matchesAt bytes pos p2)
        || (pos + p3.length ≤ bytes.length && matchesAt bytes pos p3) then pos
      else takeLineUntil3Loop p1 p2 p3 bytes (some lp) ps
    | none =>
      if (pos + p1.length ≤ bytes.length && matchesAt bytes pos p1)
        || (pos + p2.length ≤ bytes.length && matchesAt bytes pos p2)
        || (pos + p3.length ≤ bytes.length && matchesAt bytes pos p3) then pos
      else takeLineUntil3Loop p1 p2 p3 bytes none ps

/-- `take_line_until_one_of_three` (bytes.rs:261-320). -/
def takeLineUntil3 (p1 p2 p3 : Str) : P Span := fun s =>
  let bytes := s.asRemaining
  takeSplit s (takeLineUntil3Loop p1 p2 p3 bytes
    ((memchr (· == 10) bytes).map (crAdjust bytes))
    (memchrIter (fun b => b == p1.headD 0 || b == p2.headD 0 || b == p3.headD 0) bytes))

/-- `take_line_until_one_of_three1` (bytes.rs:325-337). -/
def takeLineUntil31 (p1 p2 p3 : Str) : P Span :=
  verify (takeLineUntil3 p1 p2 p3) (fun s => !s.isEmpty)

/-- `take_until_end_of_line_or_input` (bytes.rs:340-357). -/
def takeUntilEol : P Span := fun s =>
  let bytes := s.asRemaining
  match memchr (· == 10) bytes with
  | some pos => takeSplit s (crAdjust bytes pos)
  | none => rest s

/-- `take_until` (bytes.rs:361-385); the loop is that of `offset`. -/
def takeUntil (pat : Str) : P Span := fun s =>
  let bytes := s.asRemaining
  match offsetLoop pat bytes (memchrIter (· == pat.headD 0) bytes) with
  | some pos => takeSplit s pos
  | none => .err

/-- `take_end` (bytes.rs:388-406). -/
def takeEnd (cnt : Nat) : P Span := fun s =>
  let len := s.asRemaining.length
  if cnt > len then .err else .ok (s.sliceTo (len - cnt)) (s.sliceFrom (len - cnt))

/-- `count_remaining_bytes` (bytes.rs:409-413). -/
def countRemainingBytes : P Nat := fun s => .ok s s.remainingLen

/-- `single_multispace` (whitespace.rs:13-18). -/
def singleMultispace : P Unit :=
  value () (alt (tag b!"\r\n") (alt (tag b!"\n") (alt (tag b!"\t") (tag b!" "))))

/-- `count_trailing_whitespace` (whitespace.rs:21-38). -/
def countTrailingWs (bytes : Str) : Nat := (bytes.reverse.takeWhile isSpace).length

/-- `trim_trailing_whitespace` (whitespace.rs:42-51). -/
def trimTrailingWhitespace : P Unit := fun s =>
  .ok (s.sliceTo (s.asRemaining.length - countTrailingWs s.asRemaining)) ()

/-- `trim_whitespace` (whitespace.rs:54-62). -/
def trimWhitespace : P Unit := P.bind space0 fun _ => trimTrailingWhitespace

/-- The last consumed byte is ASCII whitespace, or there is none
(character.rs:10-16). -/
def lastIsWs (consumed : Str) : Bool :=
  match consumed.getLast? with
  | some c => isAsciiWs c
  | none => true

/-- `whole_word` (character.rs:8-21). -/
def wholeWord : P Span := fun s =>
  if lastIsWs s.asConsumed then
    takeWhile1 (fun c => !isAsciiWs c) s
  else .err

/-- `beginning_of_line` (line.rs:11-28). -/
def beginningOfLine : P Unit := fun s =>
  if s.start = 0 ∨ s.asConsumed.getLast? = some 10 then .ok s () else .err

/-- `blank_line` (line.rs:32-43). -/
def blankLine : P Span :=
  preceded beginningOfLine
    (alt (terminated space1 endOfLineOrInput) (terminated space0 lineEnding))

/-- `rest_of_line` (line.rs:57-65). -/
def restOfLine : P Span :=
  P.bind takeUntilEol fun content => P.bind endOfLineOrInput fun _ => P.pure content

/-- `any_line` (line.rs:46-54). -/
def anyLine : P Span := P.bind beginningOfLine fun _ => restOfLine

/-- `deeper` (convert.rs:16-23). `u16` overflow of `depth + 1` panics. -/
def deeper {α} (p : P α) : P α := fun s =>
  if s.depth ≥ 65535 then .panic .depthOverflow
  else
    match p (s.withDepth (s.depth + 1)) with
    | .ok s' a => .ok s'.withShallowerDepth a
    | .err => .err
    | .panic r => .panic r
    | .diverge => .diverge

/-- `locate(capture(p))` (convert.rs:29-54). -/
def located {α} (p : P α) : P (Located α) := fun s =>
  match p s with
  | .ok s' a =>
    if s'.start < s.start then .panic .offsetUnderflow
    else .ok s' ⟨a, Region.ofSpan (s.withLength (s'.start - s.start))⟩
  | .err => .err
  | .panic r => .panic r
  | .diverge => .diverge

/-- `cow_str` (convert.rs:58-60): the bytes of the span; does not consume. -/
def cowStr : P Str := fun s => .ok s s.asRemaining

/-- `map_parser(p, cow_str)`. -/
def strOf (p : P Span) : P Str := mapParser p cowStr

end Scan
end Vw
