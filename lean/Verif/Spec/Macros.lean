import Verif.Spec.Elements
import Verif.Spec.Strings

/-!
# What macros should do with their text
-/

namespace Vw

/-- A string or byte string literal: its source text and the text between its quotation
marks. -/
inductive Literal : Str → Str → Prop where
  | plain (c : Str) : Literal (b!"\"" ++ c ++ b!"\"") c
  | bytes (c : Str) : Literal (b!"b\"" ++ c ++ b!"\"") c
  | raw (n : Nat) (c : Str) :
      Literal (b!"r" ++ List.replicate n c!"#" ++ b!"\"" ++ c ++ b!"\"" ++ List.replicate n c!"#") c
  | rawBytes (n : Nat) (c : Str) :
      Literal (b!"br" ++ List.replicate n c!"#" ++ b!"\"" ++ c ++ b!"\"" ++ List.replicate n c!"#") c

/-- The lines of a text, without their ends. -/
inductive TextLines : Str → List Str → Prop where
  | nil : TextLines [] []
  | last {l : Str} : l ≠ [] → 10 ∉ l → TextLines l [l]
  | lf {l s : Str} {ls : List Str} : 10 ∉ l → ¬ [13] <:+ l → TextLines s ls → TextLines (l ++ 10 :: s) (l :: ls)
  | crlf {l s : Str} {ls : List Str} : 10 ∉ l → TextLines s ls → TextLines (l ++ 13 :: 10 :: s) (l :: ls)

/-- `body` is `ls` without the blank lines at both ends. -/
def WithoutBlankEnds (ls body : List Str) : Prop :=
  ∃ pre post, ls = pre ++ body ++ post ∧ (∀ l ∈ pre, WsText l) ∧ (∀ l ∈ post, WsText l) ∧
    (∃ l, body.head? = some l ∧ ¬ WsText l) ∧ ∃ l, body.getLast? = some l ∧ ¬ WsText l

/-- The line starts with exactly `n` bytes of white space. -/
def Indent (l : Str) (n : Nat) : Prop :=
  ∃ w r, l = w ++ r ∧ WsText w ∧ w.length = n ∧ ∀ a b, r = a ++ b → WsText a → a = []

/-- `k` is the smallest indentation among the lines with `P`. -/
def LeastIndent (P : Str → Prop) (ls : List Str) (k : Nat) : Prop :=
  (∀ l ∈ ls, P l → ∃ n, Indent l n ∧ k ≤ n) ∧ ∃ l ∈ ls, P l ∧ Indent l k

/-- Byte `k` of the line is not the first one of a character. -/
def WithinChar (k : Nat) (l : Str) : Prop := ∃ b, l[k]? = some b ∧ 128 ≤ b ∧ b < 192

/-- The lines after taking the first `k` bytes off each. -/
def cutLines (k : Nat) (ls : List Str) : Str := List.intercalate [10] (ls.map fun l => l.drop k)

/-- A token that is no string literal and does not start like one. -/
def NoLiteral (t : Str) : Prop :=
  ∀ u r : Str, WsText u → t = u ++ r →
    ¬ (b!"\"" <+: r ∨ b!"r" <+: r ∨ b!"b\"" <+: r ∨ b!"br" <+: r)

/-! ## Format texts -/

/-- What a placeholder asks for: the next argument, the one with a number, the one with a
name. -/
inductive FArg where
  | next
  | num (digits : Str)
  | name (s : Str)
deriving DecidableEq, Repr

/-- A part of a format text, as `std::format!` reads it: text, or a placeholder with what
follows its colon. -/
inductive FPart where
  | lit (s : Str)
  | hole (arg : FArg) (spec : Option Str)
deriving DecidableEq, Repr

/-- The text of an argument. -/
def FArg.text : FArg → Str
  | .next => []
  | .num ds => ds
  | .name s => s

/-- A brace of the text is written twice. -/
def braceText (b : Byte) : Str := if b = c!"{" ∨ b = c!"}" then [b, b] else [b]

/-- The text of a part. -/
def FPart.text : FPart → Str
  | .lit s => s.flatMap braceText
  | .hole a spec => b!"{" ++ a.text ++ (spec.map (c!":" :: ·)).getD [] ++ b!"}"

/-- The text of all parts. -/
def formatText (ps : List FPart) : Str := ps.flatMap FPart.text

/-- A name of an argument. -/
def FormatName (s : Str) : Prop :=
  (∃ a r, s = a :: r ∧ ¬ (48 ≤ a ∧ a ≤ 57) ∧ a ≠ c!"+") ∧ c!"{" ∉ s ∧ c!"}" ∉ s ∧ c!":" ∉ s ∧
    (∀ w r, s = w ++ r → WsText w → w = []) ∧ ∀ w r, s = r ++ w → WsText w → w = []

/-- Digits are digits and names are names. -/
def FArg.Ok : FArg → Prop
  | .next => True
  | .num ds => ds ≠ [] ∧ ∀ b ∈ ds, 48 ≤ b ∧ b ≤ 57
  | .name s => FormatName s

/-- The text after the colon does not refer to arguments of its own (`$` and `.*`). -/
def SpecText (s : Str) : Prop :=
  c!"{" ∉ s ∧ c!"}" ∉ s ∧ 10 ∉ s ∧ c!"$" ∉ s ∧ ¬ b!".*" <:+: s

/-- A part without braces in its text and without further arguments after its colon. -/
def FPart.Simple : FPart → Prop
  | .lit s => c!"{" ∉ s ∧ c!"}" ∉ s
  | .hole a spec => a.Ok ∧ ∀ s ∈ spec, SpecText s

/-- What a part of a format text stands for. -/
inductive FOut (α : Type) where
  | lit (s : Str)
  | arg (e : α) (spec : Option Str)

/-- The argument a placeholder takes and the number of the next argument. -/
def FArg.pick {α} (positional : List α) (named : List (Str × α)) (n : Nat) : FArg → Option (α × Nat)
  | .next => positional[n]?.map fun e => (e, n + 1)
  | .num ds => positional[decValue ds]?.map fun e => (e, n)
  | .name s => (named.find? fun e => e.1 = s).map fun e => (e.2, n)

/-- What a format text stands for, and the number of the next argument; nothing if an
argument is missing. -/
def formatMeaning {α} (positional : List α) (named : List (Str × α)) :
    Nat → List FPart → Option (List (FOut α) × Nat)
  | n, [] => some ([], n)
  | n, .lit s :: ps => (formatMeaning positional named n ps).map fun r => (.lit s :: r.1, r.2)
  | n, .hole a spec :: ps =>
    (a.pick positional named n).bind fun e =>
      (formatMeaning positional named e.2 ps).map fun r => (.arg e.1 spec :: r.1, r.2)

end Vw
