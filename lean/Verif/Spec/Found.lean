import Verif.Spec.InText

/-!
# What is written in a row of elements
-/

namespace Vw

/-- A link in square brackets. -/
def Link.Bracketed : Link → Prop
  | .raw _ | .transclusion _ => False
  | _ => True

/-- Something is written at `i` in a row of elements that goes to `b`: what the element has to be, and
how long it is. -/
inductive WrittenAt (env : Env) (text : Str) (i b : Nat) : (Inline → Nat → Prop) → Prop
  | code {c : Str} : BodyHere b!"`" b!"`" c (sub text i b) →
      WrittenAt env text i b fun x n => x = .code c ∧ n = c.length + 2
  | math {c : Str} : BodyHere b!"$" b!"$" c (sub text i b) → c!"$" ∉ c →
      WrittenAt env text i b fun x n => x = .math c ∧ n = c.length + 2
  | comment : b!"%%" <+: sub text i b → WrittenAt env text i b fun x _ => ∃ c, x = .comment c
  | keyword {k : Keyword} : k.display <+: sub text i b →
      WrittenAt env text i b fun x n => x = .keyword k ∧ n = k.display.length
  | wiki {c : Str} : BodyHere b!"[[" b!"]]" c (sub text i b) → TargetHere env c →
      WrittenAt env text i b fun x n => (∃ l : Link, x = .link l ∧ l.Bracketed) ∧ n = c.length + 4
  | transclusion {c : Str} : BodyHere b!"{{" b!"}}" c (sub text i b) → TargetHere env c →
      WrittenAt env text i b fun x n => (∃ d, x = .link (.transclusion d)) ∧ n = c.length + 4
  /-- Decorated text that does not begin with what decorations cannot hold. -/
  | deco {k : Deco} {c : Str} : BodyHere k.delim k.delim c (sub text i b) → ¬ MarkFirst c →
      WrittenAt env text i b fun x n => (∃ ys, x = .decorated k ys) ∧ n = c.length + 2 * k.delim.length
  /-- Tags between whitespace. -/
  | tags {j : Nat} {ts : List Str} : j ≤ b → sub text i j = b!":" ++ ts.flatMap (· ++ b!":") → ts ≠ [] →
      (∀ t ∈ ts, t ≠ [] ∧ c!":" ∉ t ∧ ∀ x ∈ t, ¬ WsByte x) →
      (∀ x, 0 < i → text[i - 1]? = some x → WsByte x) → (∀ x, text[j]? = some x → WsByte x) →
      WrittenAt env text i b fun x n => x = .tags ts ∧ n = j - i
  /-- A word that is an address. -/
  | raw {j : Nat} {u : Uri} {sc : Str} : i < j → j ≤ b →
      (∀ x, 0 < i → text[i - 1]? = some x → WsByte x) → (∀ x ∈ sub text i j, ¬ WsByte x) →
      (∀ x, text[j]? = some x → x = 32 ∨ x = 9 ∨ x = 10) →
      env.uri (sub text i j) = some u → u.scheme = some sc → sc ∈ linkSchemes →
      WrittenAt env text i b fun x n => x = .link (.raw ⟨u, none, none⟩) ∧ n = j - i

end Vw
