import Verif.Model.Ast
import Verif.Spec.Pieces

/-!
# The syntax of list item prefixes
-/

namespace Vw

/-- `w` is the whole run of bytes of the class `f` at the start of `w ++ r`. -/
def RunOf (f : Byte → Prop) (w r : Str) : Prop :=
  w ≠ [] ∧ (∀ x ∈ w, f x) ∧ ∀ x, r.head? = some x → ¬ f x

/-- The letters taken for lower case roman digits. -/
def LowerRomanByte (x : Byte) : Prop := x ∈ b!"ivxlcdm"

/-- The letters taken for upper case roman digits. The code has `E` where `C` is
meant. -/
def UpperRomanByte (x : Byte) : Prop := x ∈ b!"IVXLEDM"

def DigitByte (x : Byte) : Prop := 48 ≤ x ∧ x ≤ 57
def LowerByte (x : Byte) : Prop := 97 ≤ x ∧ x ≤ 122
def UpperByte (x : Byte) : Prop := 65 ≤ x ∧ x ≤ 90

/-- `w`, followed by `r`, is the number word of an ordered item of the type. The
first byte decides the type; a word whose first letter is taken for a roman digit
ends at the first letter that is not. -/
def NumberWord (w r : Str) : ItemType → Prop
  | .number => RunOf DigitByte w r
  | .lowerRoman => RunOf LowerRomanByte w r
  | .upperRoman => RunOf UpperRomanByte w r
  | .lowerAlpha => RunOf LowerByte w r ∧ ∀ x, w.head? = some x → ¬ LowerRomanByte x
  | .upperAlpha => RunOf UpperByte w r ∧ ∀ x, w.head? = some x → ¬ UpperRomanByte x
  | _ => False

/-- The text of a list item prefix, with the blank that ends it. -/
inductive PrefixText : ItemType → Suffix → Str → Prop where
  | hyphen : PrefixText .hyphen .none b!"- "
  | asterisk : PrefixText .asterisk .none b!"* "
  | pound : PrefixText .pound .none b!"# "
  | period {ty w} : NumberWord w b!". " ty → PrefixText ty .period (w ++ b!". ")
  | paren {ty w} : NumberWord w b!") " ty → PrefixText ty .paren (w ++ b!") ")

/-- The character for a todo status that the parser knows (lists.rs:172-184). -/
def todoMark : Todo → Str
  | .incomplete => b!" "
  | .partial1 => b!"."
  | .partial2 => b!"o"
  | .partial3 => b!"O"
  | .complete => b!"X"
  | .rejected => b!"-"

/-- The todo status before the contents of an item. -/
def todoText : Option Todo → Str
  | none => []
  | some s => b!"[" ++ (todoMark s ++ b!"] ")

/-- The source of the item begins with a prefix of that type and of the suffix of
the item. -/
def ItemWritten (text : Str) (x : Located ListItem) (ty : ItemType) : Prop :=
  ∃ w r, x.region.source text = w ++ r ∧ PrefixText ty x.inner.suffix w

/-- The items are numbered from zero, have the type written before the first one
and the suffixes written before each. -/
structure ListForm (text : Str) (xs : List (Located ListItem)) : Prop where
  pos : ∀ i (x : Located ListItem), xs[i]? = some x → x.inner.pos = i
  ty : ∀ x ∈ xs, ∀ h : Located ListItem, xs.head? = some h → x.inner.ty = h.inner.ty
  first : ∀ h : Located ListItem, xs.head? = some h → ItemWritten text h h.inner.ty
  written : ∀ x ∈ xs, ∃ ty, ItemWritten text x ty

/-- The word does not mix: its first letter is outside the class, or all are in. -/
def WordOk (f : Byte → Prop) (w : Str) : Prop :=
  (∀ x, w.head? = some x → ¬ f x) ∨ ∀ x ∈ w, f x

/-- The items whose printed prefix, with number word `w`, is read back: unordered
items without suffix, ordered ones with a suffix and a word that does not mix
roman digits and other letters. -/
def Readable (w : Str) (su : Suffix) : ItemType → Prop
  | .hyphen | .asterisk | .pound => su = .none
  | .number | .lowerRoman => su ≠ .none
  | .lowerAlpha => su ≠ .none ∧ WordOk LowerRomanByte w
  | .upperAlpha | .upperRoman => su ≠ .none ∧ WordOk UpperRomanByte w
  | .other _ => False

end Vw
