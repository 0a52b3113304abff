import Verif.Spec.LineStarts
import Verif.Spec.Lists
import Verif.Spec.Tables

/-!
# Lines that look like quotes, list items and table rows
-/

namespace Vw

/-- The text begins with a line that has blanks, `> ` and a text without carriage returns. -/
def QuoteForm (text : Str) : Prop :=
  ∃ ws v r, text = ws ++ (b!"> " ++ (v ++ r)) ∧ AllBlank ws ∧ LineSplit v r ∧ 13 ∉ v

/-- The text begins with a line that has `n` blanks, the prefix of a list item and a content that
is not blank, nor is what is after a mark for what is to be done. -/
def ItemForm (text : Str) (n : Nat) : Prop :=
  ∃ ws ty su w v r, text = ws ++ (w ++ (v ++ r)) ∧ AllBlank ws ∧ ws.length = n ∧
    PrefixText ty su w ∧ LineSplit v r ∧
    ∀ td v', v = todoText td ++ v' → ∃ x ∈ v', ¬ (x = 32 ∨ x = 9)

/-- The block has an item that begins at `p`. -/
def ItemsHave (y : Located Block) (p : Nat) : Prop :=
  ∃ items, y.inner = .list items ∧ ∃ it ∈ items, it.region.offset = p

/-- How a cell of a table can be written: the mark of a cell that goes on from above or from the
left, hyphens for the alignment, or a text that does not begin like one of these. -/
def CellShape (w : Str) : Prop :=
  w ≠ [] ∧ c!"|" ∉ w ∧ 10 ∉ w ∧
    (AboveForm w ∨ LeftForm w ∨ (∃ l r, HyphenForm w l r) ∨
      ((∀ a v, w = a ++ v → AllBlank a → ¬ b!">" <+: v ∧ ¬ b!"\\/" <+: v) ∧ ¬ b!"-" <+: w ∧ ¬ b!":-" <+: w))

/-- The text begins with a line that has blanks and cells between bars, of which the first is not
an alignment. -/
def RowForm (text : Str) : Prop :=
  ∃ ws w xs r, text = ws ++ (b!"|" ++ ((w :: xs).flatMap (fun x => x ++ b!"|") ++ r)) ∧ AllBlank ws ∧
    (∀ x ∈ w :: xs, CellShape x) ∧ (∀ a b, ¬ HyphenForm w a b) ∧ EolHere r

/-- The line is inside a quote made of lines with four blanks. -/
def InQuote (text : Str) (bs : List (Located Block)) (q : Nat) : Prop :=
  ∃ y ∈ bs, y.region.offset ≤ q ∧ q < y.region.offset + y.region.len ∧
    (∃ ls, y.inner = .blockquote ls) ∧ DeepLine text q

end Vw
