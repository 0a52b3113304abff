import Verif.Spec.BlockText
import Verif.Spec.Lines

/-!
# Definitions in a text
-/

namespace Vw

/-- The text begins with a line that has blanks `ws`, a term `t` that does not begin like another
block, two colons, blanks `sp` and a definition `d`; `r` is the text after them. -/
def DefLine (text ws t sp d r : Str) : Prop :=
  text = ws ++ (t ++ (b!"::" ++ (sp ++ (d ++ r)))) ∧ AllBlank ws ∧ AllBlank sp ∧ sp ≠ [] ∧
    TermText t ∧ (∃ c, t.head? = some c ∧ 32 < c ∧ c ≠ c!"%" ∧ c ≠ c!"{" ∧ c ≠ c!">") ∧
    (∃ c, d.head? = some c ∧ ¬ (c = 32 ∨ c = 9)) ∧ LineSplit d r

/-- The text begins with a line that has a term and a definition. -/
def DefForm (text : Str) : Prop := ∃ ws t sp d r, DefLine text ws t sp d r

/-- The text begins with a line that has blanks `ws`, a term `t` that does not begin like another
block, two colons and blanks `sp`; `r` is the text from the end of the line. -/
def BareLine (text ws t sp r : Str) : Prop :=
  text = ws ++ (t ++ (b!"::" ++ (sp ++ r))) ∧ AllBlank ws ∧ AllBlank sp ∧
    TermText t ∧ (∃ c, t.head? = some c ∧ 32 < c ∧ c ≠ c!"%" ∧ c ≠ c!"{" ∧ c ≠ c!">") ∧ EolHere r

/-- The text begins with a line that has a term and no definition. -/
def BareForm (text : Str) : Prop := ∃ ws t sp r, BareLine text ws t sp r

/-- The text begins with blanks and two colons. -/
def ColonForm (text : Str) : Prop := ∃ ws r, text = ws ++ (b!"::" ++ r) ∧ AllBlank ws

/-- The text begins with a line that has blanks, two colons, blanks and a definition. -/
def MoreForm (text : Str) : Prop :=
  ∃ ws sp d r, text = ws ++ (b!"::" ++ (sp ++ (d ++ r))) ∧ AllBlank ws ∧ AllBlank sp ∧ sp ≠ [] ∧
    (∃ c, d.head? = some c ∧ ¬ (c = 32 ∨ c = 9)) ∧ LineSplit d r

/-- Definitions are on lines that follow each other, the first at `a`.  All of the lines begin with two
colons, and the next line, if it begins before `b`, is no further definition. -/
def MoreRows (text : Str) (b : Nat) : Nat → List (Located Inlines) → Prop
  | a, [] => a < b → ¬ MoreForm (text.drop a)
  | a, d :: ds => d.region.offset = a ∧ d.region.len = lineLen (text.drop a) ∧ ColonForm (text.drop a) ∧
      MoreRows text b (a + lineLen (text.drop a)) ds

/-- An entry with a term, then blanks and the first definition on the same line, and the definitions
on the lines after it. -/
def EntryAt (text : Str) (b q : Nat) (e : Located TermDefs) : Prop :=
  ∃ ws t sp d r, DefLine (text.drop q) ws t sp d r ∧
    e.inner.term.region.offset = q + ws.length ∧ e.inner.term.region.len = t.length + 2 ∧
    ∃ d0 ds, e.inner.defs.inner = d0 :: ds ∧
      d0.region.offset = q + ws.length + (t.length + 2) ∧ d0.region.len = sp.length + d.length ∧
      MoreRows text b (q + lineLen (text.drop q)) ds

/-- An entry with a term on a line of its own, and one or more definitions on the lines after it. -/
def BareEntryAt (text : Str) (b q : Nat) (e : Located TermDefs) : Prop :=
  ∃ ws t sp r, BareLine (text.drop q) ws t sp r ∧
    e.inner.term.region.offset = q + ws.length ∧ e.inner.term.region.len = t.length + 2 ∧
    e.inner.defs.inner ≠ [] ∧ MoreRows text b (q + lineLen (text.drop q)) e.inner.defs.inner

end Vw
