import Verif.Spec.Strings
import Verif.Spec.InlineText

/-!
# What begins inside of a row of elements
-/

namespace Vw

/-- The rows of elements in a block: the lines of a paragraph, the text of a header, terms and
definitions, and the contents of cells. -/
def Block.rows : Block → List Inlines
  | .paragraph ls => ls
  | .header xs _ _ => [xs]
  | .defs xs => xs.flatMap fun x => (x.inner.term :: x.inner.defs.inner).map (·.inner)
  | .table t => t.allCells.filterMap fun c =>
      match c.inner with
      | .content xs => some xs
      | _ => none
  | _ => []

/-- The rows of elements in a page: those in blocks, and what is inside of decorations. -/
def Page.Row (pg : Page) (xs : Inlines) : Prop :=
  (∃ y ∈ pg.blocks, xs ∈ y.inner.rows) ∨ ∃ y ∈ pg.inlines, ∃ k, y.inner = .decorated k xs

/-- `u` is `l`, a body `c` on one line without a comment, the first `r` behind it, and more. -/
def BodyHere (l r c u : Str) : Prop :=
  ∃ q, u = l ++ (c ++ (r ++ q)) ∧ c ≠ [] ∧ 10 ∉ c ∧ ¬ b!"%%" <:+: c ∧ ShortestBody r c q

/-- The body of a link begins with something that can be read as an address, up to a bar or the
end. -/
def TargetHere (env : Env) (c : Str) : Prop :=
  ∃ t q, c = t ++ q ∧ (q = [] ∨ q.head? = some c!"|") ∧ t ≠ [] ∧ c!"|" ∉ t ∧ ¬ b!"]]" <:+: t ∧
    ¬ b!"}}" <:+: t ∧ readUri env t ≠ none

/-- Text that begins with code or a formula. -/
def MarkFirst (w : Str) : Prop :=
  (∃ c r, c ≠ [] ∧ w = b!"`" ++ c ++ b!"`" ++ r) ∨ ∃ c r, c ≠ [] ∧ w = b!"$" ++ c ++ b!"$" ++ r

/-- An element begins at `i` in a row of elements that goes to `b`. -/
inductive BeginsAt (env : Env) (text : Str) (i b : Nat) : Prop
  | code {c : Str} : BodyHere b!"`" b!"`" c (sub text i b) → BeginsAt env text i b
  | math {c : Str} : BodyHere b!"$" b!"$" c (sub text i b) → c!"$" ∉ c → BeginsAt env text i b
  | comment : b!"%%" <+: sub text i b → BeginsAt env text i b
  | keyword {k : Keyword} : k.display <+: sub text i b → BeginsAt env text i b
  | wiki {c : Str} : BodyHere b!"[[" b!"]]" c (sub text i b) → TargetHere env c → BeginsAt env text i b
  | transclusion {c : Str} : BodyHere b!"{{" b!"}}" c (sub text i b) → TargetHere env c →
      BeginsAt env text i b
  /-- Decorated text that does not begin with what decorations cannot hold. -/
  | deco {k : Deco} {c : Str} : BodyHere k.delim k.delim c (sub text i b) → ¬ MarkFirst c →
      BeginsAt env text i b
  /-- Tags between whitespace. -/
  | tags {j : Nat} {ts : List Str} : j ≤ b → sub text i j = b!":" ++ ts.flatMap (· ++ b!":") → ts ≠ [] →
      (∀ t ∈ ts, t ≠ [] ∧ c!":" ∉ t ∧ ∀ x ∈ t, ¬ WsByte x) →
      (∀ x, 0 < i → text[i - 1]? = some x → WsByte x) → (∀ x, text[j]? = some x → WsByte x) →
      BeginsAt env text i b
  /-- The colon in a word that is an address. -/
  | raw {h j : Nat} {u : Uri} {sc : Str} : h ≤ i → i < j → j ≤ b → text[i]? = some c!":" →
      (∀ x, 0 < h → text[h - 1]? = some x → WsByte x) → (∀ x ∈ sub text h j, ¬ WsByte x) →
      (∀ x, text[j]? = some x → x = 32 ∨ x = 9 ∨ x = 10) →
      env.uri (sub text h j) = some u → u.scheme = some sc →
      sc ∈ [b!"http", b!"https", b!"ftp", b!"file", b!"local", b!"mailto"] → BeginsAt env text i b

end Vw
