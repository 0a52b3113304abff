import Verif.Model.Text

/-!
# The text given to a macro

Models `/repo/vimwiki_macros/src/utils.rs` and `/repo/vimwiki_macros/src/formatter.rs`.
A token is its source text (`TokenTree::to_string`), an expression is a value of any
type `α`.
-/

namespace Vw

/-- Why a macro yields no code: a compile error it reports, or a panic of the macro. -/
inductive MacroErr where
  | reject
  | panic
deriving DecidableEq, Repr

/-- The outcome of a macro. -/
abbrev MRes := Except MacroErr

instance {α} [DecidableEq α] : DecidableEq (MRes α)
  | .ok a, .ok b => if h : a = b then isTrue (by rw [h]) else isFalse (fun e => h (Except.ok.inj e))
  | .error a, .error b => if h : a = b then isTrue (by rw [h]) else isFalse (fun e => h (Except.error.inj e))
  | .ok _, .error _ => isFalse (by simp)
  | .error _, .ok _ => isFalse (by simp)

/-- `str::lines`: lines end at a line feed or at a carriage return with a line feed; a
carriage return at the very end of the text stays (as in the current standard library). -/
def strLines : Str → List Str
  | [] => []
  | 10 :: r => [] :: strLines r
  | 13 :: 10 :: r => [] :: strLines r
  | b :: r =>
    match strLines r with
    | [] => [[b]]
    | l :: ls => (b :: l) :: ls

/-- `l.trim().is_empty()` (utils.rs:34). -/
def isBlankLine (l : Str) : Bool := (trim l).isEmpty

/-- `repr.starts_with('"') || repr.starts_with('r') || repr.starts_with("b\"") ||
repr.starts_with("br")` (utils.rs:13-14). -/
def looksLikeLiteral (repr : Str) : Bool :=
  b!"\"".isPrefixOf repr || b!"r".isPrefixOf repr || b!"b\"".isPrefixOf repr || b!"br".isPrefixOf repr

/-- The text between the first and the last quotation mark (utils.rs:24-26). The two
`unwrap`s panic without one, slicing panics with only one. -/
def betweenQuotes (repr : Str) : MRes Str :=
  match memchr (· == c!"\"") repr, memrchr (· == c!"\"") repr with
  | some b, some e => if b + 1 ≤ e then .ok ((repr.take e).drop (b + 1)) else .error .panic
  | _, _ => .error .panic

/-- `while end > 0 && end >= start && line_data[end].0 { end -= 1; }` with `start` zero
(utils.rs:49-51). -/
def moveBack (ls : List Str) : Nat → Nat
  | 0 => 0
  | e + 1 => if (ls[e + 1]?.map isBlankLine).getD false then moveBack ls e else e + 1

/-- `while start <= end && line_data[start].0 { start += 1; }` (utils.rs:55-57). The first
argument bounds the number of rounds. -/
def moveForward (ls : List Str) (e : Nat) : Nat → Nat → Nat
  | 0, s => s
  | n + 1, s =>
    if s ≤ e ∧ (ls[s]?.map isBlankLine).getD false then moveForward ls e n (s + 1) else s

/-- Dropping the blank lines at both ends (utils.rs:43-71). -/
def dropBlankEnds (ls : List Str) : MRes (List Str) :=
  if ls.isEmpty then .ok ls
  else
    let e := moveBack ls (ls.length - 1)
    let s := moveForward ls e ls.length 0
    if s ≤ e then .ok ((ls.take (e + 1)).drop s) else .error .reject

/-- `slice::join` of lines with `"\n"`. -/
def joinLines : List Str → Str
  | [] => []
  | [l] => l
  | l :: ls => l ++ 10 :: joinLines ls

/-- The smallest indentation, starting from `usize::MAX` (utils.rs:83-85). -/
def minIndent (ls : List Str) : Nat :=
  (ls.map leadingWs).foldl (fun acc x => if x < acc then x else acc) (usizeEnd - 1)

/-- `&x.2[min_indentation..]` (utils.rs:88): panics past the end of the line or within a
character. -/
def sliceFrom (n : Nat) (l : Str) : MRes Str :=
  if n ≤ l.length ∧ isCharBoundary l n then .ok (l.drop n) else .error .panic

/-- `input_to_string` (utils.rs:10-95). -/
def inputToString (raw : Bool) (token : Str) : MRes Str :=
  let repr := trim token
  if !looksLikeLiteral repr then .error .reject
  else
    (betweenQuotes repr).bind fun s =>
      (dropBlankEnds (strLines s)).bind fun ls =>
        if raw then .ok (joinLines ls)
        else (ls.mapM (sliceFrom (minIndent ls))).map joinLines

/-! ## Format strings -/

/-- A part of a text as the regular expression sees it: a byte outside of matches, or a
match with its groups `arg` and `spec` (formatter.rs:36). -/
inductive FPiece where
  | byte (b : Byte)
  | hole (arg : Str) (spec : Option Str)
deriving DecidableEq, Repr

/-- The matched text, `caps.get(0)`. -/
def FPiece.text : FPiece → Str
  | .byte b => [b]
  | .hole arg spec => b!"{" ++ arg ++ spec.getD [] ++ b!"}"

/-- `.*?\}` after the colon of a `spec`: the bytes up to the next `}`, none of which may be
a line feed. -/
def specEnd : Str → Option (Str × Str)
  | [] => none
  | 125 :: r => some ([], r)
  | 10 :: _ => none
  | b :: r => (specEnd r).map fun x => (b :: x.1, x.2)

/-- `(?P<arg>[^:]*?)(?P<spec>:.*?)?\}` after an opening brace: the shortest `arg` that lets
the rest match. It cannot pass a colon and need not pass a closing brace. -/
def holeEnd : Str → Option (Str × Option Str × Str)
  | [] => none
  | 125 :: r => some ([], none, r)
  | 58 :: r => (specEnd r).map fun x => ([], some (58 :: x.1), x.2)
  | b :: r => (holeEnd r).map fun x => (b :: x.1, x.2.1, x.2.2)

/-- The leftmost matches of the regular expression and the text between them. The first
argument bounds the number of parts. -/
def fpiecesF : Nat → Str → List FPiece
  | 0, _ => []
  | _, [] => []
  | n + 1, b :: r =>
    if b = c!"{" then
      match holeEnd r with
      | some (arg, spec, rest) => .hole arg spec :: fpiecesF n rest
      | none => .byte b :: fpiecesF n r
    else .byte b :: fpiecesF n r

/-- The parts of a text. -/
def fpieces (s : Str) : List FPiece := fpiecesF s.length s

/-- `HashSet::insert` on positions, kept sorted as `sort_unstable` leaves them
(formatter.rs:72-76). -/
def insertPos (p : Nat) : List Nat → List Nat
  | [] => [p]
  | q :: qs => if p < q then p :: q :: qs else if p = q then q :: qs else q :: insertPos p qs

/-- `HashSet::insert` on names; the order carries no meaning. -/
def insertName (n : Str) (ns : List Str) : List Str := if n ∈ ns then ns else ns ++ [n]

/-- What the first pass keeps: the shared counter, the positions and the names. -/
structure FState where
  next : Nat
  positions : List Nat
  names : List Str
deriving DecidableEq, Repr

/-- One replacement of the first pass (formatter.rs:43-66). -/
def firstPass (st : FState) : FPiece → FState × Str
  | .byte b => (st, [b])
  | .hole arg spec =>
    let a := trim arg
    if a.isEmpty then
      ({ st with next := st.next + 1, positions := insertPos st.next st.positions },
        b!"{" ++ decStr st.next ++ spec.getD [] ++ b!"}")
    else
      match parseUsize a with
      | some p => ({ st with positions := insertPos p st.positions }, (FPiece.hole arg spec).text)
      | none => ({ st with names := insertName a st.names }, (FPiece.hole arg spec).text)

/-- The first `replace_all`. -/
def firstPassAll (st : FState) : List FPiece → FState × Str
  | [] => (st, [])
  | p :: ps =>
    let r := firstPass st p
    let q := firstPassAll r.1 ps
    (q.1, r.2 ++ q.2)

/-- One replacement of the second pass (formatter.rs:117-130); `unwrap` panics on a position
the first pass did not see. -/
def secondPass (positions : List Nat) : FPiece → MRes Str
  | .byte b => .ok [b]
  | .hole arg spec =>
    match parseUsize (trim arg) with
    | some p =>
      match positions.idxOf? p with
      | some i => .ok (b!"{" ++ decStr i ++ spec.getD [] ++ b!"}")
      | none => .error .panic
    | none => .ok (FPiece.hole arg spec).text

/-- The second `replace_all`. -/
def secondPassAll (positions : List Nat) : List FPiece → MRes Str
  | [] => .ok []
  | p :: ps => (secondPass positions p).bind fun a => (secondPassAll positions ps).map (a ++ ·)

/-- The arguments after the first one of a macro (args.rs:14-18). -/
structure FormatArgs (α : Type) where
  positional : List α
  named : List (Str × α)

/-- `::std::format!(template, pos.., name = expr ..)`. -/
structure FormatCall (α : Type) where
  template : Str
  positional : List α
  named : List (Str × α)
deriving DecidableEq

/-- All elements at the given indexes, or an error (formatter.rs:80-94). -/
def pickPositional {α} (args : List α) : List Nat → MRes (List α)
  | [] => .ok []
  | p :: ps =>
    match args[p]? with
    | some e => (pickPositional args ps).map (e :: ·)
    | none => .error .reject

/-- All arguments with the given names, or an error (formatter.rs:97-111). -/
def pickNamed {α} (args : List (Str × α)) : List Str → MRes (List (Str × α))
  | [] => .ok []
  | n :: ns =>
    match args.find? (fun e => e.1 = n) with
    | some e => (pickNamed args ns).map (e :: ·)
    | none => .error .reject

/-- `Formatter::quote_format_str` (formatter.rs:33-140): from the counter `next_argument`,
the generated call and the counter afterwards. -/
def quoteFormat {α} (args : FormatArgs α) (next : Nat) (input : Str) : MRes (FormatCall α × Nat) :=
  let r := firstPassAll ⟨next, [], []⟩ (fpieces input)
  (pickPositional args.positional r.1.positions).bind fun pos =>
    (pickNamed args.named r.1.names).bind fun named =>
      (secondPassAll r.1.positions (fpieces r.2)).map fun t => (⟨t, pos, named⟩, r.1.next)

end Vw
