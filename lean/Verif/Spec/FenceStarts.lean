import Verif.Spec.Fences
import Verif.Spec.BlockStarts

/-!
# Blocks of code and of formulas in a text
-/

namespace Vw

/-- The text begins with a block of code in the language `lang` with the metadata `ps` and the lines
`ls`: an opening line, lines none of which closes the block and a closing line.  The lines have no
more than ASCII bytes if blanks are to be taken from them. -/
def CodeForm (text : Str) (lang : Option Str) (ps : List (Str × Str)) (ls : List Str) : Prop :=
  ∃ (ws1 ws ws2 ws3 r : Str) (raw : List Str),
    text = ws1 ++ (b!"{{{" ++ (lang.getD [] ++ (headTail ps ws ++ 10 ::
      (raw.flatMap (· ++ b!"\n") ++ (ws2 ++ (b!"}}}" ++ (ws3 ++ r))))))) ∧
    AllBlank ws1 ∧ AllBlank ws ∧ (ws = [] ∨ ws.head? = some 32) ∧
    (∀ l, lang = some l → l ≠ [] ∧ 10 ∉ l ∧ c!"=" ∉ l ∧ 32 ∉ l ∧ l.getLast? ≠ some 13) ∧
    (∀ p ∈ ps, PairOk p) ∧
    (∀ l ∈ raw, 10 ∉ l ∧ l.getLast? ≠ some 13 ∧ ¬ ClosingLine b!"}}}" l) ∧
    (min ws1.length ws2.length = 0 ∨ ∀ l ∈ raw, ∀ b ∈ l, b < 128) ∧
    AllBlank ws2 ∧ AllBlank ws3 ∧ EolHere r ∧ ls = raw.map (dedent (min ws1.length ws2.length))

/-- The text begins with a block of formulas in the environment `en` with the lines `ls`. -/
def MathForm (text : Str) (en : Option Str) (ls : List Str) : Prop :=
  ∃ (ws1 ws ws2 ws3 r : Str) (raw : List Str),
    text = ws1 ++ (b!"{{$" ++ (envText en ++ (ws ++ 10 ::
      (raw.flatMap (· ++ b!"\n") ++ (ws2 ++ (b!"}}$" ++ (ws3 ++ r))))))) ∧
    AllBlank ws1 ∧ AllBlank ws ∧ (∀ e, en = some e → e ≠ [] ∧ 10 ∉ e ∧ c!"%" ∉ e) ∧
    (∀ l ∈ raw, 10 ∉ l ∧ l.getLast? ≠ some 13 ∧ ¬ ClosingLine b!"}}$" l) ∧
    (min ws1.length ws2.length = 0 ∨ ∀ l ∈ raw, ∀ b ∈ l, b < 128) ∧
    AllBlank ws2 ∧ AllBlank ws3 ∧ EolHere r ∧ ls = raw.map (dedent (min ws1.length ws2.length))

/-- The block is code in that language with those lines, and its metadata has the last of the values
given for each name. -/
def CodeIs (b : Block) (lang : Option Str) (ps : List (Str × Str)) (ls : List Str) : Prop :=
  ∃ md, b = .code lang md ls ∧ ∀ k v, (k, v) ∈ md ↔ (ps.reverse.find? fun p => p.1 = k) = some (k, v)

/-- The line begins with a blank and is inside a list. -/
def InList (text : Str) (bs : List (Located Block)) (q : Nat) : Prop :=
  ∃ y ∈ bs, y.region.offset ≤ q ∧ q < y.region.offset + y.region.len ∧ (∃ items, y.inner = .list items) ∧
    (text[q]? = some 32 ∨ text[q]? = some 9)

end Vw
