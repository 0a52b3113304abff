import Verif.Spec.Inline
import Verif.Spec.Strings

/-!
# What elements look like in the source

Used to state which source text an element of a parsed page came from.
-/

namespace Vw

/-- The source text of a region. -/
def Region.source (text : Str) (r : Region) : Str := sub text r.offset (r.offset + r.len)

/-- `src` is `c` between the delimiters `L` and `R`: `c` is not empty, is on one
line, holds no comment opener, and `R` occurs in it at most at its first byte, so
no shorter non-empty body is followed by `R`. -/
structure Between (src L R c : Str) : Prop where
  eq : src = L ++ c ++ R
  ne : c ≠ []
  noNl : 10 ∉ c
  noComment : ¬ b!"%%" <:+: c
  shortest : ∀ c' rest, c' ≠ [] → c'.length < c.length → c ++ R ≠ c' ++ R ++ rest

/-- Blanks and line breaks recognised before a tag set. -/
def isGap (b : Byte) : Bool := b == 32 || b == 9 || b == 10 || b == 13 || b == 12

/-- Blank lines: each is spaces and tabs followed by a line terminator. -/
inductive BlankLines : Str → Prop where
  | nil : BlankLines []
  | cons {bs eol rest} : (∀ x ∈ bs, x = 32 ∨ x = 9) → eol = b!"\n" ∨ eol = b!"\r\n" →
      BlankLines rest → BlankLines (bs ++ eol ++ rest)

/-- Text that no element covers: blank lines, and at the end of the text a last
line of spaces and tabs without terminator. -/
def BlankTail (src : Str) : Prop :=
  ∃ ls bs, BlankLines ls ∧ (∀ x ∈ bs, x = 32 ∨ x = 9) ∧ src = ls ++ bs

/-- `Tiled text a xs`: the regions of `xs` cover `text` from `a` to its end except
for blank lines, and for the line terminator after a placeholder. -/
inductive Tiled (text : Str) : Nat → List (Located Block) → Prop where
  | nil {a} : a ≤ text.length → BlankTail (sub text a text.length) → Tiled text a []
  | cons {a x n xs} : a ≤ x.region.offset → BlankLines (sub text a x.region.offset) →
      0 < x.region.len → x.region.offset + x.region.len + n ≤ text.length →
      n = 0 ∨ ((∃ p, x.inner = .placeholder p) ∧
        (sub text (x.region.offset + x.region.len) (x.region.offset + x.region.len + n) = b!"\n" ∨
         sub text (x.region.offset + x.region.len) (x.region.offset + x.region.len + n) = b!"\r\n")) →
      Tiled text (x.region.offset + x.region.len + n) xs → Tiled text a (x :: xs)

end Vw
