import Verif.Model.Bytes

/-!
# The parser input: `Span`

Models `/repo/vimwiki-core/src/lang/parsers/span.rs`.
-/

namespace Vw

/-- `struct Span` (span.rs:20-26). `stop` is the field `end`. `depth : u16` is a
`Nat` here; the overflow check is made where it is incremented. -/
structure Span where
  inner : Str
  start : Nat
  stop : Nat
  depth : Nat
deriving DecidableEq, Repr

namespace Span

/-- `From<&[u8]> for Span` / `From<&str>` (span.rs:445-457). -/
def ofStr (s : Str) : Span := ⟨s, 0, s.length, 0⟩

/-- `backtrack_start_by` (span.rs:47-55). -/
def backtrackStartBy (s : Span) (offset : Nat) : Span :=
  { s with start := if offset > s.start then 0 else s.start - offset }

/-- `advance_start_by` (span.rs:62-71): clamped to the end. -/
def advanceStartBy (s : Span) (n : Nat) : Span :=
  { s with start := if s.start + n > s.stop then s.stop else s.start + n }

/-- `advance_end_by` (span.rs:77-79): the end becomes `start + n`. -/
def advanceEndBy (s : Span) (n : Nat) : Span :=
  { s with stop := s.start + n }

/-- `at_end` (span.rs:85-87). -/
def atEnd (s : Span) : Span :=
  s.advanceStartBy (if s.stop > 0 then s.stop - 1 else 0)

/-- `remaining_len` (span.rs:214-220). -/
def remainingLen (s : Span) : Nat :=
  if s.start ≤ s.stop then s.stop - s.start else 0

/-- `with_length` (span.rs:94-100). -/
def withLength (s : Span) (len : Nat) : Span :=
  if len < s.remainingLen then { s with stop := s.start + len } else s

/-- `with_depth` (span.rs:108-110). -/
def withDepth (s : Span) (d : Nat) : Span := { s with depth := d }

/-- `with_shallower_depth` (span.rs:119-126). -/
def withShallowerDepth (s : Span) : Span :=
  s.withDepth (if s.depth > 0 then s.depth - 1 else 0)

/-- `as_consumed` (span.rs:167-169). -/
def asConsumed (s : Span) : Str := s.inner.take s.start

/-- `as_remaining` / `as_bytes` (span.rs:185-187): `&inner[start..end]`. The
slice panics unless `start ≤ end ≤ inner.len()`; that this always holds is
proved (`Span.WF` is an invariant of all parsers), so the totalised form below
is only ever used on well-formed spans. -/
def asRemaining (s : Span) : Str := (s.inner.take s.stop).drop s.start

/-- `is_empty` (span.rs:223-225). -/
def isEmpty (s : Span) : Bool := s.remainingLen == 0

/-- The loop of `is_only_whitespace` (span.rs:238-251) over the positions of
blanks. `none` models the early `return false`. -/
def onlyWsLoop : Nat → List Nat → Option Nat
  | last, [] => some last
  | last, pos :: ps => if pos - last > 1 then none else onlyWsLoop pos ps

/-- `is_only_whitespace` (span.rs:229-252). -/
def isOnlyWhitespace (s : Span) : Bool :=
  let len := s.remainingLen
  if len == 0 then true
  else
    match onlyWsLoop 0 (memchrIter isSpace s.asRemaining) with
    | none => false
    | some last => last == len - 1

/-- The loop of `trim_start` (span.rs:133-135): number of leading ASCII
whitespace bytes. -/
def trimStart (s : Span) : Span :=
  s.advanceStartBy (s.asRemaining.takeWhile isAsciiWs).length

/-- `line` (span.rs:275-282). -/
def line (s : Span) : Nat :=
  ((memchrIter (· == 10) s.inner).takeWhile (· < s.start)).length + 1

/-- `bytecount::num_chars`: bytes that are not UTF-8 continuation bytes. -/
def numChars (s : Str) : Nat := s.countP (fun b => !(128 ≤ b && b < 192))

/-- `column` (span.rs:293-308). -/
def column (s : Span) : Nat :=
  let startOfLine :=
    match memrchr (· == 10) s.asConsumed with
    | some pos => pos + 1
    | none => 0
  numChars ((s.inner.take s.start).drop startOfLine) + 1

/-- `slice(n..)` (span.rs:733-737). -/
def sliceFrom (s : Span) (n : Nat) : Span := s.advanceStartBy n

/-- `slice(..n)` (span.rs:727-731). -/
def sliceTo (s : Span) (n : Nat) : Span := s.advanceEndBy n

/-- `SpanIterator::next_back` (span.rs:391-402). -/
def nextBack (s : Span) : Option (Byte × Span) :=
  if s.start < s.stop ∧ s.stop < s.inner.length then
    match s.inner[s.stop]? with
    | some b => some (b, { s with stop := s.stop - 1 })
    | none => none
  else none

end Span
end Vw
