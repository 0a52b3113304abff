import Verif.Model.Ast

/-!
# Specifications for elements
-/

namespace Vw

/-- The maximal runs of non-empty lines of a list of lines. -/
inductive LineRuns : List Str → List (List Str) → Prop where
  | nil {e} : (∀ l ∈ e, l = []) → LineRuns e []
  | cons {e g rest gs} : (∀ l ∈ e, l = []) → g ≠ [] → (∀ l ∈ g, l ≠ []) →
      (rest = [] ∨ rest.head? = some []) → LineRuns rest gs → LineRuns (e ++ g ++ rest) (g :: gs)

/-- The number a word of letters stands for, counting a, b, …, z, aa, ab, … from 1.
`base` is the code of the first letter. -/
def wordValue (base : Nat) (w : Str) : Nat := w.foldl (fun v b => v * 26 + (b - base + 1)) 0

/-- Shorter words first, words of one length in dictionary order. -/
def Before (u v : Str) : Prop :=
  u.length < v.length ∨ (u.length = v.length ∧
    ∃ p a b s t, u = p ++ a :: s ∧ v = p ++ b :: t ∧ a < b)

/-- A word of letters. -/
def Letters (base : Nat) (w : Str) : Prop := w ≠ [] ∧ ∀ b ∈ w, base ≤ b ∧ b < base + 26

/-- The value of a roman digit. -/
def romanDigit (b : Byte) : Nat :=
  if b = c!"I" then 1 else if b = c!"V" then 5 else if b = c!"X" then 10
  else if b = c!"L" then 50 else if b = c!"C" then 100 else if b = c!"D" then 500
  else if b = c!"M" then 1000 else 0

/-- The value of a roman numeral: a digit before a greater one is subtracted. -/
def romanValue : Str → Int
  | [] => 0
  | [a] => romanDigit a
  | a :: b :: r =>
    (if romanDigit a < romanDigit b then -(romanDigit a : Int) else romanDigit a) + romanValue (b :: r)

/-- The numeral of a decimal digit, written with the signs for one, five and ten. -/
def romanPlace (one five ten : Byte) : Nat → Str
  | 0 => []
  | 1 => [one]
  | 2 => [one, one]
  | 3 => [one, one, one]
  | 4 => [one, five]
  | 5 => [five]
  | 6 => [five, one]
  | 7 => [five, one, one]
  | 8 => [five, one, one, one]
  | _ => [one, ten]

/-- The standard roman numeral of a number below 4000. -/
def romanNumeral (n : Nat) : Str :=
  romanPlace c!"M" c!"M" c!"M" (n / 1000 % 10) ++
  romanPlace c!"C" c!"D" c!"M" (n / 100 % 10) ++
  romanPlace c!"X" c!"L" c!"C" (n / 10 % 10) ++
  romanPlace c!"I" c!"V" c!"X" (n % 10)

/-- What is assumed of the rounding of `f32` operations: it is monotone and leaves
whole numbers up to 2^24 alone. -/
structure Rounding (rnd : Rat → Rat) : Prop where
  mono : ∀ a b, a ≤ b → rnd a ≤ rnd b
  exact : ∀ n : Nat, n ≤ 2 ^ 24 → rnd n = n

mutual
/-- The items of the lists in a block, at any depth. -/
def Block.items : Block → List (ItemF Block)
  | .list xs => Block.itemsOf xs
  | .blockquote _ => []
  | .code _ _ _ => []
  | .defs _ => []
  | .divider => []
  | .header _ _ _ => []
  | .math _ _ => []
  | .paragraph _ => []
  | .placeholder _ => []
  | .table _ => []
/-- The items of a list and those below them. -/
def Block.itemsOf : List (Located (ItemF Block)) → List (ItemF Block)
  | [] => []
  | ⟨⟨ty, su, po, cs, to⟩, _⟩ :: xs => ⟨ty, su, po, cs, to⟩ :: Block.itemsIn cs ++ Block.itemsOf xs
/-- The items in a sequence of blocks. -/
def Block.itemsIn : List (Located Block) → List (ItemF Block)
  | [] => []
  | ⟨x, _⟩ :: xs => Block.items x ++ Block.itemsIn xs
end

/-- An item and all items below it. -/
def ItemF.tree (i : ItemF Block) : List (ItemF Block) := i :: Block.itemsIn i.contents

/-- The encodings of the characters with the Unicode property `White_Space`. -/
def wsChars : List Str :=
  [[9], [10], [11], [12], [13], [32], [0xC2, 0x85], [0xC2, 0xA0], [0xE1, 0x9A, 0x80],
   [0xE2, 0x80, 0x80], [0xE2, 0x80, 0x81], [0xE2, 0x80, 0x82], [0xE2, 0x80, 0x83],
   [0xE2, 0x80, 0x84], [0xE2, 0x80, 0x85], [0xE2, 0x80, 0x86], [0xE2, 0x80, 0x87],
   [0xE2, 0x80, 0x88], [0xE2, 0x80, 0x89], [0xE2, 0x80, 0x8A], [0xE2, 0x80, 0xA8],
   [0xE2, 0x80, 0xA9], [0xE2, 0x80, 0xAF], [0xE2, 0x81, 0x9F], [0xE3, 0x80, 0x80]]

/-- A text of whitespace characters only. -/
def WsText (s : Str) : Prop := ∃ cs : List Str, (∀ c ∈ cs, c ∈ wsChars) ∧ s = cs.flatten

/-- The value of a text of decimal digits. -/
def decValue (s : Str) : Nat := s.foldl (fun v b => v * 10 + (b - 48)) 0

/-- `s` is a number, with an optional plus sign, between whitespace. -/
def NumText (s : Str) (n : Nat) : Prop :=
  ∃ u sg ds v, s = u ++ sg ++ ds ++ v ∧ WsText u ∧ WsText v ∧ (sg = [] ∨ sg = b!"+") ∧
    ds ≠ [] ∧ (∀ b ∈ ds, 48 ≤ b ∧ b ≤ 57) ∧ decValue ds = n ∧ n < 2 ^ 64

/-- One character: a byte that is not a continuation byte, then continuation bytes. -/
def CharBytes (c : Str) : Prop :=
  ∃ a r, c = a :: r ∧ ¬ (128 ≤ a ∧ a < 192) ∧ ∀ b ∈ r, 128 ≤ b ∧ b < 192

/-- A name that is not taken for one of the special placeholders. -/
def OtherName (name : Str) : Prop :=
  name ≠ [] ∧ (∀ x ∈ name, x ≠ 10 ∧ x ≠ 32 ∧ x ≠ 9 ∧ x ≠ c!"%") ∧
    ∀ k ∈ [b!"title", b!"nohtml", b!"template", b!"date"], ¬ k <+: name

/-- The first word of a placeholder line and the placeholder it makes of a value. -/
inductive PlaceholderHead : Str → (Str → Placeholder) → Prop where
  | title : PlaceholderHead b!"%title" .title
  | template : PlaceholderHead b!"%template" .template
  | other {name} : OtherName name → PlaceholderHead (b!"%" ++ name) (.other name)

/-! ## Exact progress -/

/-- The items of the lists directly inside an item. -/
def ItemF.subItems (i : ItemF Block) : List (ItemF Block) :=
  i.contents.flatMap fun x => match x.inner with
    | .list items => items.map (·.inner)
    | _ => []

/-- How many quarters of an item with a todo state are done; "rejected" does not count. -/
def Todo.quarters : Todo → Option Nat
  | .incomplete => some 0
  | .partial1 => some 1
  | .partial2 => some 2
  | .partial3 => some 3
  | .complete => some 4
  | .rejected => none

/-- The mean of some numbers. -/
def mean (ps : List Rat) : Rat := ps.sum / (ps.length : Rat)

/-- A character that stands for itself in a URI. -/
def UriPlain (b : Byte) : Prop := 32 < b ∧ b < 127 ∧ b ∉ b!"\"<>`#"

/-- A text and its percent encoded form: other characters become `%` and two upper case hexadecimal
digits. -/
inductive PercentEncoded : Str → Str → Prop where
  | nil : PercentEncoded [] []
  | plain {b s t} (h : UriPlain b) (hs : PercentEncoded s t) : PercentEncoded (b :: s) (b :: t)
  | escape {b s t h l} (hb : ¬ UriPlain b) (h1 : b!"0123456789ABCDEF"[b / 16]? = some h)
      (h2 : b!"0123456789ABCDEF"[b % 16]? = some l) (hs : PercentEncoded s t) :
      PercentEncoded (b :: s) (c!"%" :: h :: l :: t)

/-- A hexadecimal digit and its value. -/
def HexDigit (b : Byte) (v : Nat) : Prop := b!"0123456789ABCDEF"[v]? = some b ∨ b!"0123456789abcdef"[v]? = some b

/-- A text and its percent decoded form: `%` and two hexadecimal digits become one byte, all else
stays. -/
inductive PercentDecoded : Str → Str → Prop where
  | nil : PercentDecoded [] []
  | escape {a b x y s t} (h1 : HexDigit a x) (h2 : HexDigit b y) (hs : PercentDecoded s t) :
      PercentDecoded (c!"%" :: a :: b :: s) ((16 * x + y) :: t)
  | other {b s t} (h : ¬ ∃ a x c y r, b = c!"%" ∧ s = a :: c :: r ∧ HexDigit a x ∧ HexDigit c y)
      (hs : PercentDecoded s t) : PercentDecoded (b :: s) (b :: t)

end Vw
