import Lean.Elab.Term

/-!
# Bytes and byte strings

Rust `&[u8]` / `&str` values are modelled as lists of natural numbers. The
theorems quantify over all such lists, hence in particular over lists of bytes
below 256. `b!"..."` is the list of UTF-8 bytes of a literal and `c!"x"` is the
code of one character, both expanded at elaboration time.
-/

namespace Vw

/-- A byte. Models `u8`; no upper bound is imposed (the model accepts more). -/
macro "Byte" : term => `(Nat)

/-- A byte string. Models `&[u8]`, `&str`, `String`, `Cow<str>`. -/
abbrev Str := List Nat

open Lean in
/-- `b!"abc"` is the list of the UTF-8 bytes of the literal. -/
macro:max "b!" s:str : term => do
  let bytes := s.getString.toUTF8.toList
  let elems : List (TSyntax `term) :=
    bytes.map (fun b => Syntax.mkNumLit (toString b.toNat))
  `(([$(elems.toArray),*] : List Nat))

open Lean in
/-- `c!"x"` is the code point of the literal. -/
macro:max "c!" s:str : term => do
  match s.getString.toList with
  | [c] => `(($(Syntax.mkNumLit (toString c.toNat)) : Nat))
  | _ => Macro.throwError "c! expects one character"

/-- `b' '` or `b'\t'`: nom's `is_space` (nom 6.1.2 character/mod.rs) and the
predicate behind `space0` / `space1`. -/
def isSpace (b : Byte) : Bool := b == 32 || b == 9

/-- `u8::is_ascii_whitespace`: space, tab, LF, FF, CR. -/
def isAsciiWs (b : Byte) : Bool :=
  b == 32 || b == 9 || b == 10 || b == 12 || b == 13

/-- ASCII decimal digit. -/
def isDigit (b : Byte) : Bool := 48 ≤ b && b ≤ 57

/-- ASCII lowercase letter. -/
def isLower (b : Byte) : Bool := 97 ≤ b && b ≤ 122

/-- ASCII uppercase letter. -/
def isUpper (b : Byte) : Bool := 65 ≤ b && b ≤ 90

/-- Positions of a byte in a string in ascending order; models
`memchr::memchr_iter`. `base` is the index of the head. -/
def memchrIterFrom (base : Nat) (p : Byte → Bool) : Str → List Nat
  | [] => []
  | b :: bs =>
    if p b then base :: memchrIterFrom (base + 1) p bs
    else memchrIterFrom (base + 1) p bs

/-- `memchr_iter`, `memchr2_iter`, `memchr3_iter`: all positions whose byte
satisfies the predicate, ascending. -/
def memchrIter (p : Byte → Bool) (s : Str) : List Nat := memchrIterFrom 0 p s

/-- `memchr` (and `slice::iter().position`): first position satisfying the
predicate. -/
def memchr (p : Byte → Bool) (s : Str) : Option Nat := s.findIdx? p

/-- `memchr::memrchr`: last position of a byte. -/
def memrchr (p : Byte → Bool) (s : Str) : Option Nat :=
  (memchrIter p s).getLast?

/-- `&bytes[pos..pos+pat.len()] == pat` (with the bound check already made by
the caller or implied). -/
def matchesAt (bytes : Str) (pos : Nat) (pat : Str) : Bool :=
  (bytes.drop pos).take pat.length == pat

end Vw
