import Verif.Model.Span

/-!
# Parser results and nom combinators

Models `IResult` (`/repo/vimwiki-core/src/lang/parsers/mod.rs:14`) and the nom
6.1.2 combinators used by the vimwiki grammar, specialised to `Span` input
(span.rs:502-743). nom itself is not part of the repository; these definitions
are part of the trusted base.

`context` (timekeeper/`utils` wrapper) only adds text to errors and is omitted.
Error values are not modelled. The grammar never builds `Err::Failure` or
`Err::Incomplete`, so `err` stands for `Err::Error`.
-/

namespace Vw

/-- The places where the parser can panic (debug profile arithmetic). -/
inductive Reason where
  /-- `len -= ...` in `text` (typefaces.rs:110). -/
  | textUnderflow
  /-- `&x[cnt_to_remove..]` off a character boundary (code.rs:48, math.rs:48). -/
  | dedentBoundary
  /-- `.unwrap()` in `Link::new_diary_link` (elements links/mod.rs:173). -/
  | diaryUnwrap
  /-- `depth + 1` on a `u16` (span.rs:114). -/
  | depthOverflow
  /-- `snd - fst` in `Offset`, `capture` and `list_item`
  (span.rs:717, convert.rs:50, lists.rs:107). -/
  | offsetUnderflow
deriving DecidableEq, Repr

/-- Outcome of a parser. -/
inductive Res (α : Type) where
  /-- `Ok((rest, val))` -/
  | ok (rest : Span) (val : α)
  /-- `Err(nom::Err::Error(_))` -/
  | err
  /-- the thread panics -/
  | panic (r : Reason)
  /-- the fuel given to a loop or recursion ran out -/
  | diverge
deriving DecidableEq, Repr

/-- A parser: `impl FnMut(Span) -> IResult<T>`. All grammar closures are pure. -/
abbrev P (α : Type) := Span → Res α

namespace P

/-- `Ok((input, a))`. -/
def pure {α} (a : α) : P α := fun s => .ok s a

/-- `let (input, x) = p(input)?; f(x)(input)`. -/
def bind {α β} (p : P α) (f : α → P β) : P β := fun s =>
  match p s with
  | .ok s' a => f a s'
  | .err => .err
  | .panic r => .panic r
  | .diverge => .diverge

instance : Monad P where
  pure := P.pure
  bind := P.bind

/-- A parser that always fails. -/
def fail {α} : P α := fun _ => .err

/-- nom `map`. -/
def map {α β} (p : P α) (f : α → β) : P β := fun s =>
  match p s with
  | .ok s' a => .ok s' (f a)
  | .err => .err
  | .panic r => .panic r
  | .diverge => .diverge

/-- nom `value`. -/
def value {α β} (b : β) (p : P α) : P β := p.map (fun _ => b)

/-- nom `alt((p, q))`; longer tuples associate to the right. -/
def alt {α} (p q : P α) : P α := fun s =>
  match p s with
  | .err => q s
  | r => r

/-- nom `alt` over a list. -/
def alts {α} : List (P α) → P α
  | [] => fail
  | [p] => p
  | p :: q :: ps => alt p (alts (q :: ps))

/-- nom `not`. -/
def not {α} (p : P α) : P Unit := fun s =>
  match p s with
  | .ok _ _ => .err
  | .err => .ok s ()
  | .panic r => .panic r
  | .diverge => .diverge

/-- nom `peek`. -/
def peek {α} (p : P α) : P α := fun s =>
  match p s with
  | .ok _ a => .ok s a
  | .err => .err
  | .panic r => .panic r
  | .diverge => .diverge

/-- nom `opt`. -/
def opt {α} (p : P α) : P (Option α) := fun s =>
  match p s with
  | .ok s' a => .ok s' (some a)
  | .err => .ok s none
  | .panic r => .panic r
  | .diverge => .diverge

/-- nom `verify`. -/
def verify {α} (p : P α) (f : α → Bool) : P α := fun s =>
  match p s with
  | .ok s' a => if f a then .ok s' a else .err
  | .err => .err
  | .panic r => .panic r
  | .diverge => .diverge

/-- nom `map_opt` / `map_res` (errors are not distinguished). -/
def mapOpt {α β} (p : P α) (f : α → Option β) : P β := fun s =>
  match p s with
  | .ok s' a => (match f a with | some b => .ok s' b | none => .err)
  | .err => .err
  | .panic r => .panic r
  | .diverge => .diverge

/-- nom `map_parser`: run `q` on the output of `p`, drop what `q` leaves. -/
def mapParser {β} (p : P Span) (q : P β) : P β := fun s =>
  match p s with
  | .ok s' o =>
    (match q o with
     | .ok _ b => .ok s' b
     | .err => .err
     | .panic r => .panic r
     | .diverge => .diverge)
  | .err => .err
  | .panic r => .panic r
  | .diverge => .diverge

/-- nom `preceded`. -/
def preceded {α β} (p : P α) (q : P β) : P β := p.bind fun _ => q

/-- nom `terminated`. -/
def terminated {α β} (p : P α) (q : P β) : P α :=
  p.bind fun a => q.bind fun _ => P.pure a

/-- nom `delimited`. -/
def delimited {α β γ} (p : P α) (q : P β) (r : P γ) : P β :=
  p.bind fun _ => q.bind fun b => r.bind fun _ => P.pure b

/-- nom `pair`. -/
def pair {α β} (p : P α) (q : P β) : P (α × β) :=
  p.bind fun a => q.bind fun b => P.pure (a, b)

/-- nom `separated_pair`. -/
def separatedPair {α β γ} (p : P α) (sep : P β) (q : P γ) : P (α × γ) :=
  p.bind fun a => sep.bind fun _ => q.bind fun c => P.pure (a, c)

/-- nom `recognize`: `input.slice(..input.offset(&rest))`. -/
def recognize {α} (p : P α) : P Span := fun s =>
  match p s with
  | .ok s' _ =>
    if s'.start < s.start then .panic .offsetUnderflow
    else .ok s' (s.sliceTo (s'.start - s.start))
  | .err => .err
  | .panic r => .panic r
  | .diverge => .diverge

/-- nom `all_consuming`. -/
def allConsuming {α} (p : P α) : P α := fun s =>
  match p s with
  | .ok s' a => if s'.remainingLen = 0 then .ok s' a else .err
  | .err => .err
  | .panic r => .panic r
  | .diverge => .diverge

/-- Loop of nom `many0` (and of `fold_many0`, whose fold is applied to the
list). A successful iteration that returns the same span is an error. The first
argument is fuel. -/
def many0Loop {α} (p : P α) : Nat → P (List α)
  | 0 => fun _ => .diverge
  | n + 1 => fun s =>
    match p s with
    | .err => .ok s []
    | .panic r => .panic r
    | .diverge => .diverge
    | .ok s' a =>
      if s' = s then .err
      else
        match many0Loop p n s' with
        | .ok s'' as => .ok s'' (a :: as)
        | .err => .err
        | .panic r => .panic r
        | .diverge => .diverge

/-- nom `many0`. Each iteration consumes at least one byte (proved), so
`remaining + 1` rounds are enough. -/
def many0 {α} (p : P α) : P (List α) := fun s =>
  many0Loop p (s.remainingLen + 1) s

/-- nom `many1`. The first iteration is not checked for progress. -/
def many1 {α} (p : P α) : P (List α) :=
  p.bind fun a => P.bind (many0 p) fun as => P.pure (a :: as)

/-- Loop of nom `separated_list0/1` after the first element. -/
def sepLoop {α β} (sep : P β) (p : P α) : Nat → P (List α)
  | 0 => fun _ => .diverge
  | n + 1 => fun s =>
    match sep s with
    | .err => .ok s []
    | .panic r => .panic r
    | .diverge => .diverge
    | .ok s1 _ =>
      if s1 = s then .err
      else
        match p s1 with
        | .err => .ok s []
        | .panic r => .panic r
        | .diverge => .diverge
        | .ok s2 a =>
          match sepLoop sep p n s2 with
          | .ok s3 as => .ok s3 (a :: as)
          | .err => .err
          | .panic r => .panic r
          | .diverge => .diverge

/-- The part of nom `separated_list0/1` after the first element. -/
def sepTail {α β} (sep : P β) (p : P α) : P (List α) := fun s =>
  sepLoop sep p (s.remainingLen + 1) s

/-- nom `separated_list1`. -/
def separatedList1 {α β} (sep : P β) (p : P α) : P (List α) :=
  p.bind fun a => P.bind (sepTail sep p) fun as => P.pure (a :: as)

/-- nom `separated_list0`: only a failure of the first element gives the empty
list. -/
def separatedList0 {α β} (sep : P β) (p : P α) : P (List α) := fun s =>
  match p s with
  | .err => .ok s []
  | .panic r => .panic r
  | .diverge => .diverge
  | .ok s' a => P.map (sepTail sep p) (a :: ·) s'

/-- `take_split` (span.rs:628-630): rest and taken part, in nom order. -/
def takeSplit (s : Span) (n : Nat) : Res Span := .ok (s.sliceFrom n) (s.sliceTo n)

/-- nom `tag`. -/
def tag (t : Str) : P Span := fun s =>
  if t.isPrefixOf s.asRemaining then takeSplit s t.length else .err

/-- A byte satisfying a predicate; shape of nom `char`, `anychar`, `one_of` on
byte input (`SpanIterator`, span.rs:376-389; `AsChar for u8`). -/
def satisfy (f : Byte → Bool) : P Byte := fun s =>
  match s.asRemaining with
  | [] => .err
  | b :: _ => if f b then .ok (s.sliceFrom 1) b else .err

/-- nom `char` for an ASCII character. -/
def char (c : Byte) : P Byte := satisfy (· == c)

/-- nom `anychar` on byte input: one byte. -/
def anychar : P Byte := satisfy (fun _ => true)

/-- nom `one_of`. -/
def oneOf (cs : Str) : P Byte := satisfy (fun b => cs.contains b)

/-- `split_at_position_complete` with the negated predicate (span.rs:639-663):
take the longest prefix satisfying `f`. -/
def takeWhile0 (f : Byte → Bool) : P Span := fun s =>
  takeSplit s (s.asRemaining.takeWhile f).length

/-- `split_at_position1_complete` (span.rs:680-699). -/
def takeWhile1 (f : Byte → Bool) : P Span := fun s =>
  if (s.asRemaining.takeWhile f).length = 0 then .err
  else takeSplit s (s.asRemaining.takeWhile f).length

/-- nom `space0`. -/
def space0 : P Span := takeWhile0 isSpace

/-- nom `space1`. -/
def space1 : P Span := takeWhile1 isSpace

/-- nom `digit1`. -/
def digit1 : P Span := takeWhile1 isDigit

/-- nom `take` (complete). -/
def take (n : Nat) : P Span := fun s =>
  if s.asRemaining.length < n then .err else takeSplit s n

/-- nom `rest`. -/
def rest : P Span := fun s => .ok (s.sliceFrom s.asRemaining.length) s

/-- nom `rest_len`. -/
def restLen : P Nat := fun s => .ok s s.asRemaining.length

/-- nom `line_ending`: `"\n"` or `"\r\n"`. -/
def lineEnding : P Span := alt (tag b!"\n") (tag b!"\r\n")

/-- nom `not_line_ending`: up to the first `\n` or `\r`; a `\r` that is not
followed by `\n` is an error. -/
def notLineEnding : P Span := fun s =>
  let bytes := s.asRemaining
  match memchr (fun b => b == 10 || b == 13) bytes with
  | none => .ok (s.sliceFrom bytes.length) s
  | some i =>
    if matchesAt bytes i b!"\n" || matchesAt bytes i b!"\r\n" then
      .ok (s.sliceFrom i) (s.sliceTo i)
    else .err

end P
end Vw
