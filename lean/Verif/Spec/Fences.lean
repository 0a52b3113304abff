import Verif.Spec.Lines

/-!
# Blocks of lines between fences
-/

namespace Vw

/-- A line ending. -/
def IsLineEnd (e : Str) : Prop := e = b!"\n" ∨ e = b!"\r\n"

/-- A line that closes a block: the marker between blanks. -/
def ClosingLine (cl l : Str) : Prop := ∃ u v, AllBlank u ∧ AllBlank v ∧ l = u ++ cl ++ v

/-- Number of leading whitespace bytes of an ASCII line. -/
def leadingBlanks (l : Str) : Nat := (l.takeWhile fun b => (9 ≤ b && b ≤ 13) || b == 32).length

/-- The line without its first `n` bytes, as far as these are whitespace. -/
def dedent (n : Nat) (l : Str) : Str := l.drop (min n (leadingBlanks l))

/-- `src` is an opening line indented by `a`, the lines `raw`, none of which closes
the block, and a closing line indented by `b`. -/
structure FencedSource (op cl src : Str) (raw : List Str) (a b : Nat) : Prop where
  form : ∃ ws1 hd e1 body ws2 ws3 e2,
    src = ws1 ++ op ++ hd ++ e1 ++ body ++ ws2 ++ cl ++ ws3 ++ e2 ∧
    AllBlank ws1 ∧ ws1.length = a ∧ 10 ∉ hd ∧ IsLineEnd e1 ∧
    LinesOf body raw ∧ (body = [] ∨ body.getLast? = some 10) ∧
    AllBlank ws2 ∧ ws2.length = b ∧ AllBlank ws3 ∧ (e2 = [] ∨ IsLineEnd e2)
  inner : ∀ l ∈ raw, ¬ ClosingLine cl l

/-- The environment in the opening line of a math block. -/
def envText : Option Str → Str
  | some e => b!"%" ++ e ++ b!"%"
  | none => []

/-- One metadata entry of an opening line. -/
def pairText (p : Str × Str) : Str := p.1 ++ b!"=\"" ++ p.2 ++ b!"\""

/-- A metadata entry that can be written. -/
def PairOk (p : Str × Str) : Prop :=
  p.1 ≠ [] ∧ 10 ∉ p.1 ∧ c!"=" ∉ p.1 ∧ (∀ x, p.1.head? = some x → ¬ (x = 32 ∨ x = 9)) ∧
    10 ∉ p.2 ∧ c!"\"" ∉ p.2

/-- The end of an opening line after the language. -/
def headTail (ps : List (Str × Str)) (ws : Str) : Str :=
  ps.flatMap (fun p => 32 :: pairText p) ++ ws

end Vw
