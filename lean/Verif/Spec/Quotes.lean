import Verif.Spec.Fences

/-!
# The source of quotes, code blocks and math blocks
-/

namespace Vw

/-- A line of a quote without line ends. -/
def NoBreak (l : Str) : Prop := 10 ∉ l ∧ 13 ∉ l

/-- `w` is the line `l` of a quote behind an arrow. -/
def ArrowRow (l w : Str) : Prop :=
  ∃ ws e, w = ws ++ b!"> " ++ l ++ e ∧ AllBlank ws ∧ NoBreak l ∧ (e = [] ∨ IsLineEnd e)

/-- `w` is the line `l` of a quote behind four or more blanks. -/
def IndentRow (l w : Str) : Prop :=
  ∃ ws e, w = ws ++ l ++ e ∧ AllBlank ws ∧ 4 ≤ ws.length ∧ l ≠ [] ∧
    (∀ x, l.head? = some x → ¬ (x = 32 ∨ x = 9)) ∧ NoBreak l ∧ (e = [] ∨ IsLineEnd e)

/-- `w` is a blank line, which is an empty line `l` of a quote. -/
def BlankRow (l w : Str) : Prop :=
  l = [] ∧ ∃ ws e, w = ws ++ e ∧ AllBlank ws ∧ (e = [] ∨ IsLineEnd e)

/-- The text `src` is the source of a quote of the lines `ls`: each line of the text is one line of
the quote. All lines are indented, or they begin with arrows and blank lines stand between them. -/
def QuoteSource (src : Str) (ls : List Str) : Prop :=
  ∃ rows : List (Str × Str), ls = rows.map (·.1) ∧ src = rows.flatMap (·.2) ∧ rows ≠ [] ∧
    (∀ p ∈ rows.dropLast, p.2.getLast? = some 10) ∧
    ((∀ p ∈ rows, IndentRow p.1 p.2) ∨
     ((∀ p ∈ rows, ArrowRow p.1 p.2 ∨ BlankRow p.1 p.2) ∧
      (∀ p, rows.head? = some p ∨ rows.getLast? = some p → ArrowRow p.1 p.2)))

/-- Metadata entries with blanks between them. -/
inductive PairList : List (Str × Str) → Str → Prop where
  | nil : PairList [] []
  | one {p} : PairList [p] (pairText p)
  | cons {p q ps b w} : b ≠ [] → AllBlank b → PairList (q :: ps) w →
      PairList (p :: q :: ps) (pairText p ++ b ++ w)

/-- The opening line of a code block after its mark: a language and entries `ps`. -/
def CodeHead (lang : Option Str) (ps : List (Str × Str)) (hd : Str) : Prop :=
  ∃ u w ws, hd = lang.getD [] ++ u ++ w ++ ws ∧ AllBlank u ∧ AllBlank ws ∧ PairList ps w ∧
    (∀ p ∈ ps, p.1 ≠ [] ∧ c!"=" ∉ p.1 ∧ c!"\"" ∉ p.2) ∧
    ∀ l, lang = some l → l ≠ [] ∧ 32 ∉ l ∧ c!"=" ∉ l

/-- The opening line of a math block after its mark: the environment. -/
def MathHead (en : Option Str) (hd : Str) : Prop :=
  ∃ ws, hd = envText en ++ ws ∧ AllBlank ws ∧ ∀ e, en = some e → e ≠ [] ∧ c!"%" ∉ e

/-- The text begins with blanks, the mark `op` and `hd`, and there the line ends. -/
def HeadLine (op hd src : Str) : Prop :=
  ∃ ws e r, src = ws ++ op ++ hd ++ e ++ r ∧ AllBlank ws ∧ IsLineEnd e ∧ 10 ∉ hd

/-- The text `src` is lines between fences, which without their indent are `ls`, and `P` is true of
what follows the opening mark. -/
def FencedText (op cl src : Str) (ls : List Str) (P : Str → Prop) : Prop :=
  (∃ hd, HeadLine op hd src ∧ P hd) ∧ ∃ raw a b, FencedSource op cl src raw a b ∧
    All2 (fun l l' => (∀ c ∈ l, c < 128) → l' = dedent (min a b) l) raw ls

end Vw
