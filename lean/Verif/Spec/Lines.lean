import Verif.Spec.Pieces

/-!
# The documented syntax of one-line elements
-/

namespace Vw

/-- Only spaces and tabs. -/
def AllBlank (w : Str) : Prop := ∀ x ∈ w, x = 32 ∨ x = 9

/-- A line end at the beginning of a text: nothing, `\n` or `\r\n`. -/
def EolHere (r : Str) : Prop := r = [] ∨ (∃ t, r = 10 :: t) ∨ ∃ t, r = 13 :: 10 :: t

/-- `w` is the rest of the first line of `w ++ r`. -/
def LineSplit (w r : Str) : Prop :=
  10 ∉ w ∧ (r = [] ∨ (∃ t, r = 10 :: t ∧ w.getLast? ≠ some 13) ∨ ∃ t, r = 13 :: 10 :: t)

/-- Length of the first line with its line feed. -/
def lineLen : Str → Nat
  | [] => 0
  | b :: t => if b = 10 then 1 else lineLen t + 1

/-- The text begins with a line of four or more hyphens and nothing else. -/
def DividerForm (text : Str) : Prop :=
  ∃ n r, 4 ≤ n ∧ text = List.replicate n c!"-" ++ r ∧ EolHere r

/-- The text begins with a header line of level `n` whose inner part, without the
blanks around it, is `mid`. -/
structure HeaderForm (text : Str) (n : Nat) (centered : Bool) (mid : Str) : Prop where
  level : 1 ≤ n ∧ n ≤ 6
  form : ∃ ws b1 b2 ws' r, text = ws ++ (List.replicate n c!"=" ++ (b1 ++ mid ++ b2 ++
      List.replicate n c!"=" ++ ws' ++ r)) ∧
    AllBlank ws ∧ AllBlank b1 ∧ AllBlank b2 ∧ AllBlank ws' ∧ EolHere r ∧ (centered ↔ ws ≠ []) ∧
    (b1 ++ mid).head? ≠ some c!"=" ∧ (mid ++ b2).getLast? ≠ some c!"="
  ne : mid ≠ []
  noNl : 10 ∉ mid
  first : ∀ x, mid.head? = some x → ¬ (x = 32 ∨ x = 9)
  last : ∀ x, mid.getLast? = some x → ¬ (x = 32 ∨ x = 9)

/-- In `c ++ pat ++ r`, the first occurrence of `pat` is the one after `c`. -/
def FirstAfter (pat c r : Str) : Prop :=
  ∀ c' r', c ++ (pat ++ r) = c' ++ (pat ++ r') → c.length ≤ c'.length

/-- In `c ++ pat ++ r`, no non-empty text shorter than `c` is followed by `pat`. -/
def ShortestBody (pat c r : Str) : Prop :=
  ∀ c' r', c' ≠ [] → c ++ (pat ++ r) = c' ++ (pat ++ r') → c.length ≤ c'.length

end Vw
