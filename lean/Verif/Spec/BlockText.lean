import Verif.Spec.InlineText
import Verif.Spec.Lists

/-!
# Blocks of inline contents that are read back as they were written
-/

namespace Vw

/-- Not empty, and without whitespace at either end. -/
def Tight (t : Str) : Prop :=
  t ≠ [] ∧ (∀ w r, t = w ++ r → WsText w → w = []) ∧ ∀ w r, t = r ++ w → WsText w → w = []

/-- Inline contents that can be written to the end of a line, after the part `w` of a
word. -/
structure ContentOk (env : Env) (ue : Uri → Uri → Bool) (L : OutLib) (cfg : VwCfg) (w : Str)
    (xs : Inlines) : Prop where
  ne : xs ≠ []
  tight : Tight (Inline.textAll L cfg xs)
  ok : InlinesOk env ue L cfg w xs

/-- The first line of `t` has no `::`. -/
def NoTermLine (t : Str) : Prop := ∀ u v, t = u ++ (b!"::" ++ v) → 10 ∈ u

/-- No block but a paragraph begins with `t`. -/
structure PlainLine (t : Str) : Prop where
  header : t.head? ≠ some c!"="
  table : t.head? ≠ some c!"|"
  term : NoTermLine t
  item : ∀ ty su w, PrefixText ty su w → ¬ w <+: t
  code : ¬ b!"{{{" <+: t
  math : ¬ b!"{{$" <+: t
  quote : ¬ b!"> " <+: t
  divider : ¬ DividerForm t
  placeholder : t.head? = some c!"%" → b!"%%" <+: t

/-- The lines of a paragraph with `ind` in front; `b` says whether the first line has
it, too. -/
def paraText (L : OutLib) (cfg : VwCfg) (ind : Str) : Bool → List Inlines → Str
  | _, [] => []
  | b, l :: ls =>
    (if b then ind else []) ++ (Inline.textAll L cfg l ++ 10 :: paraText L cfg ind true ls)

/-- A paragraph that can be written. -/
def ParaOk (env : Env) (ue : Uri → Uri → Bool) (L : OutLib) (cfg : VwCfg) (ls : List Inlines) : Prop :=
  ls ≠ [] ∧ ∀ l ∈ ls, ContentOk env ue L cfg [] l ∧ PlainLine (Inline.textAll L cfg l)

/-- The text of a header. -/
def headerText (L : OutLib) (cfg : VwCfg) (c : Inlines) (n : Nat) (centered : Bool) : Str :=
  (if centered then b!"    " else []) ++ (rep c!"=" n ++
    ((if cfg.headerNoPadding then [] else b!" ") ++ Inline.textAll L cfg c ++
      (if cfg.headerNoPadding then [] else b!" ") ++ rep c!"=" n ++ [] ++ b!"\n"))

/-- A header that can be written. -/
def HeaderOk (env : Env) (ue : Uri → Uri → Bool) (L : OutLib) (cfg : VwCfg) (c : Inlines) (n : Nat) : Prop :=
  1 ≤ n ∧ n ≤ 6 ∧ ContentOk env ue L cfg (if cfg.headerNoPadding then rep c!"=" n else []) c ∧
    10 ∉ Inline.textAll L cfg c ∧
    (cfg.headerNoPadding = true → (Inline.textAll L cfg c).head? ≠ some c!"=" ∧
      (Inline.textAll L cfg c).getLast? ≠ some c!"=")

/-- The lines of a blockquote. -/
def quoteText (ind : Str) : Bool → List Str → Str
  | _, [] => []
  | b, l :: ls => (if b then ind else []) ++ (b!"> " ++ (l ++ 10 :: quoteText ind true ls))

/-- A blockquote that can be written. -/
def QuoteOk (cfg : VwCfg) (ls : List Str) : Prop :=
  ls ≠ [] ∧ cfg.preferIndentedQuote = false ∧ (∀ l, ls.head? = some l → NoTermLine l) ∧
    ∀ l ∈ ls, 10 ∉ l ∧ 13 ∉ l ∧ (cfg.trimQuote = true → Tight l)

/-- The lines of definitions. -/
def defLines (L : OutLib) (cfg : VwCfg) (ind : Str) : List (Located Inlines) → Str
  | [] => []
  | d :: ds => ind ++ (b!":: " ++ (Inline.textAll L cfg d.inner ++ 10 :: defLines L cfg ind ds))

/-- The text of a definition list. -/
def defsText (L : OutLib) (cfg : VwCfg) (ind : Str) : Bool → List (Located TermDefs) → Str
  | _, [] => []
  | b, x :: xs =>
    (if b then ind else []) ++ (Inline.textAll L cfg x.inner.term.inner ++ (b!"::" ++
      ((if cfg.termAlone then 10 :: defLines L cfg ind x.inner.defs.inner else
        match x.inner.defs.inner with
        | [] => []
        | d :: ds => b!" " ++ (Inline.textAll L cfg d.inner ++ 10 :: defLines L cfg ind ds)) ++
      defsText L cfg ind true xs)))

/-- A text that can be a term. -/
structure TermText (t : Str) : Prop where
  line : 10 ∉ t
  first : ¬ b!"::" <:+: t ++ b!":"
  comment : ¬ b!"%%" <+: t
  header : t.head? ≠ some c!"="
  table : t.head? ≠ some c!"|"
  quote : ¬ b!"> " <+: t
  item : ∀ ty su w, PrefixText ty su w → ¬ w <+: t

/-- A definition list that can be written at depth `d`. -/
def DefsOk (env : Env) (ue : Uri → Uri → Bool) (L : OutLib) (cfg : VwCfg) (d : Nat)
    (items : List (Located TermDefs)) : Prop :=
  items ≠ [] ∧ ∀ x ∈ items,
    ContentOk env ue L cfg [] x.inner.term.inner ∧ TermText (Inline.textAll L cfg x.inner.term.inner) ∧
    d + 2 + Inline.nestAll x.inner.term.inner ≤ 65535 ∧ x.inner.defs.inner ≠ [] ∧
    ∀ y ∈ x.inner.defs.inner, ContentOk env ue L cfg [] y.inner ∧ 10 ∉ Inline.textAll L cfg y.inner ∧
      d + 2 + Inline.nestAll y.inner ≤ 65535

end Vw
