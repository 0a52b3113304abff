import Verif.Spec.Lines
import Verif.Spec.Elements

/-!
# Where lines that look like headers and dividers are not taken for them
-/

namespace Vw

/-- `q` is the beginning of a line of the text. -/
def LineStart (text : Str) (q : Nat) : Prop := q = 0 ∨ text[q - 1]? = some 10

/-- `q` is inside the region, after its first byte. -/
def Region.Inside (r : Region) (q : Nat) : Prop := r.offset < q ∧ q < r.offset + r.len

/-- The line at `q` has two colons. -/
def ColonLine (text : Str) (q : Nat) : Prop :=
  ∃ w r, text.drop q = w ++ (b!"::" ++ r) ∧ 10 ∉ w

/-- The line at `q` begins with four or more blanks. -/
def DeepLine (text : Str) (q : Nat) : Prop :=
  ∃ w r, text.drop q = w ++ r ∧ AllBlank w ∧ 4 ≤ w.length

/-- A line at `q` is inside a code block, a math block or a comment over several lines. -/
def Verbatim (bs : List (Located Block)) (is : List (Located Inline)) (q : Nat) : Prop :=
  (∃ y ∈ bs, y.region.Inside q ∧ ((∃ l m ls, y.inner = .code l m ls) ∨ ∃ ls e, y.inner = .math ls e)) ∨
  ∃ y ∈ is, y.region.Inside q ∧ ∃ ls, y.inner = .comment (.multi ls)

/-- The reasons for which a line at `q` is not looked at for itself: it is inside a code block, a
math block or a comment, or it has two colons and belongs to a definition list, or it begins with
four blanks and continues a blockquote. -/
def Hidden (text : Str) (bs : List (Located Block)) (is : List (Located Inline)) (q : Nat) : Prop :=
  Verbatim bs is q ∨
  (∃ y ∈ bs, y.region.offset ≤ q ∧ q < y.region.offset + y.region.len ∧
    (∃ xs, y.inner = .defs xs) ∧ ColonLine text q) ∨
  ∃ y ∈ bs, y.region.Inside q ∧ (∃ ls, y.inner = .blockquote ls) ∧ DeepLine text q

/-- The text begins with a placeholder line for a title, a template or another name, with a value
of more than one byte. -/
def PlaceholderForm (text : Str) (p : Placeholder) : Prop :=
  ∃ head mk ws v r, text = head ++ (ws ++ (v ++ r)) ∧ PlaceholderHead head mk ∧ p = mk v ∧
    ws ≠ [] ∧ AllBlank ws ∧ LineSplit v r ∧ (∀ x, v.head? = some x → ¬ (x = 32 ∨ x = 9)) ∧
    ∃ b ∈ v.drop 1, ¬ (b = 32 ∨ b = 9)

end Vw
