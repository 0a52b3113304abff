import Verif.Spec.Equality

/-!
# Windows line endings

A text with `\r\n` instead of `\n`, and where the places of the text are in it.
-/

namespace Vw

/-- The text with `\r\n` instead of `\n`. -/
def crlf (text : Str) : Str := text.flatMap fun b => if b = 10 then [13, 10] else [b]

/-- Where position `n` of a text is when line endings take two bytes: one byte further for every newline before. -/
def crlfPos (text : Str) (n : Nat) : Nat := n + (text.take n).count 10

/-- The region between the same places. -/
def Region.crlf (text : Str) (r : Region) : Region :=
  ⟨crlfPos text r.offset, crlfPos text (r.offset + r.len) - crlfPos text r.offset, r.depth⟩

end Vw
