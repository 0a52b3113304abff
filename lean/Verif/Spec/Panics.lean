import Verif.Spec.InlineText
import Verif.Spec.Strings

/-!
# What a text must contain for parsing to panic
-/

namespace Vw

/-- The white space characters of Unicode outside ASCII, in UTF-8: U+0085, U+00A0, U+1680,
U+2000 to U+200A, U+2028, U+2029, U+202F, U+205F and U+3000. -/
def wideBlanks : List Str :=
  [[0xC2, 0x85], [0xC2, 0xA0], [0xE1, 0x9A, 0x80], [0xE2, 0x80, 0x80], [0xE2, 0x80, 0x81],
    [0xE2, 0x80, 0x82], [0xE2, 0x80, 0x83], [0xE2, 0x80, 0x84], [0xE2, 0x80, 0x85],
    [0xE2, 0x80, 0x86], [0xE2, 0x80, 0x87], [0xE2, 0x80, 0x88], [0xE2, 0x80, 0x89],
    [0xE2, 0x80, 0x8A], [0xE2, 0x80, 0xA8], [0xE2, 0x80, 0xA9], [0xE2, 0x80, 0xAF],
    [0xE2, 0x81, 0x9F], [0xE3, 0x80, 0x80]]

/-- `w` is the text from the beginning of some word on. -/
def FromWord (text w : Str) : Prop := text = w ∨ ∃ a b, text = a ++ b :: w ∧ WsByte b

/-- A word begins with a link without brackets, and has a colon in it. -/
def LinkWord (env : Env) (text : Str) : Prop :=
  ∃ w, FromWord text w ∧ (∃ l u sc, l ≠ [] ∧ l <+: w ∧ env.uri l = some u ∧ u.scheme = some sc ∧
      sc ∈ linkSchemes) ∧ ∃ c r, c ≠ [] ∧ w = c ++ c!":" :: r ∧ ∀ b ∈ c, ¬ WsByte b

/-- There is the beginning of a diary link, and the URI library does not take the empty text
or a `#` with the parts of an anchor in the text. -/
def DiaryAnchor (env : Env) (text : Str) : Prop :=
  b!"[[diary:" <:+: text ∧ (env.uri [] = none ∨ ∃ a, a ≠ [] ∧
    (c!"#" :: joinWith b!"#" a) <:+: text ∧ env.uri (c!"#" :: joinWith b!"%23" a) = none)

/-- What a panic needs. -/
def PanicNeeds (env : Env) (text : Str) : Reason → Prop
  | .textUnderflow => LinkWord env text
  | .dedentBoundary => (∃ w ∈ wideBlanks, w <:+: text) ∨ ¬ ValidUtf8 text
  | .diaryUnwrap => DiaryAnchor env text
  | .depthOverflow => 65533 ≤ text.length
  | .offsetUnderflow => False

/-- Texts without all that: valid UTF-8 shorter than 65533 bytes, no white space outside ASCII,
no word beginning with a scheme of links and a colon, and no diary link with an anchor that
is not a URI. -/
structure Calm (env : Env) (text : Str) : Prop where
  utf8 : ValidUtf8 text
  short : text.length < 65533
  blanks : ∀ w ∈ wideBlanks, ¬ w <:+: text
  links : ∀ w, FromWord text w → ¬ SchemeStart w
  diary : ¬ DiaryAnchor env text

end Vw
