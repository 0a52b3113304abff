import Verif.Spec.Elements
import Verif.Spec.Equality
import Verif.Spec.Fences
import Verif.Spec.VimwikiOut

/-!
# Blocks that are read back as they were written
-/

namespace Vw

/-- No two colons in a row. -/
def NoTerm (s : Str) : Prop := ¬ b!"::" <:+: s

/-- A text that can be the rest of a line. -/
def RestOfLine (s : Str) : Prop := 10 ∉ s ∧ s.getLast? ≠ some 13

/-- A value of a placeholder: not starting with a blank, and more than one byte. -/
def ValueOk (v : Str) : Prop :=
  RestOfLine v ∧ NoTerm v ∧ (∀ x, v.head? = some x → ¬ (x = 32 ∨ x = 9)) ∧
    ∃ b ∈ v.drop 1, ¬ (b = 32 ∨ b = 9)

/-- Lines that can stand between fences. -/
def FenceLines (cl : Str) (ls : List Str) : Prop := ∀ l ∈ ls, RestOfLine l ∧ ¬ ClosingLine cl l

/-- A placeholder that can be written as a line. -/
def PlaceholderOk (L : OutLib) (env : Env) : Placeholder → Prop
  | .title v => ValueOk v
  | .template v => ValueOk v
  | .noHtml => True
  | .date d => env.date (L.dateStr d) = some d ∧ RestOfLine (L.dateStr d) ∧ NoTerm (L.dateStr d) ∧
      L.dateStr d ≠ [] ∧ ∀ x, (L.dateStr d).head? = some x → ¬ (x = 32 ∨ x = 9)
  | .other n v => OtherName n ∧ NoTerm n ∧ ValueOk v

/-- Language and metadata that can be written in the opening line of a code block. -/
def CodeHeadOk (lang : Option Str) (md : Map) : Prop :=
  (∀ l, lang = some l → l ≠ [] ∧ RestOfLine l ∧ c!"=" ∉ l ∧ 32 ∉ l ∧ NoTerm l) ∧ DistinctKeys md ∧
    ∀ p ∈ md, PairOk p ∧ (lang = none → 32 ∉ p.1) ∧ NoTerm p.1 ∧ NoTerm p.2

/-- Dividers, code and math blocks and placeholders whose parts can be written. -/
def LeafOk (L : OutLib) (env : Env) : Block → Prop
  | .divider => True
  | .code lang md ls => CodeHeadOk lang md ∧ FenceLines b!"}}}" ls
  | .math ls en => (∀ e, en = some e → e ≠ [] ∧ 10 ∉ e ∧ c!"%" ∉ e ∧ NoTerm e) ∧ FenceLines b!"}}$" ls
  | .placeholder p => PlaceholderOk L env p
  | _ => False

end Vw
