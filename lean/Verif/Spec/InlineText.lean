import Verif.Spec.RoundTrip

/-!
# Inline texts that are read back as they were written
-/

namespace Vw

/-- The delimiters of inline elements. -/
def markPairs : List (Str × Str) :=
  [(b!"`", b!"`"), (b!"$", b!"$"), (b!"[[", b!"]]"), (b!"{{", b!"}}"), (b!"*", b!"*"), (b!"_", b!"_"),
    (b!"~~", b!"~~"), (b!"^", b!"^"), (b!",,", b!",,")]

/-- The text begins with `L`, a non-empty text on one line, and `R`. -/
def Opens (L R x : Str) : Prop := ∃ c r, c ≠ [] ∧ 10 ∉ c ∧ x = L ++ (c ++ (R ++ r))

/-- The keywords. -/
def keywords : List Str := [b!"TODO", b!"DONE", b!"STARTED", b!"FIXME", b!"FIXED", b!"XXX"]

/-- The schemes of links without brackets. -/
def linkSchemes : List Str := [b!"http", b!"https", b!"ftp", b!"file", b!"local", b!"mailto"]

/-- An ASCII letter in lower case. -/
def lowerByte (b : Byte) : Byte := if 65 ≤ b ∧ b ≤ 90 then b + 32 else b

/-- The text begins with one of these schemes and a colon. -/
def SchemeStart (x : Str) : Prop := ∃ sc ∈ linkSchemes, (sc ++ b!":") <+: x.map lowerByte

/-- The text begins with a tag. -/
def TagStart (x : Str) : Prop :=
  ∃ c r, c ≠ [] ∧ (∀ b ∈ c, b ≠ 58 ∧ b ≠ 32 ∧ b ≠ 9 ∧ b ≠ 10) ∧ x = b!":" ++ (c ++ (b!":" ++ r))

/-- ASCII whitespace. -/
def WsByte (b : Byte) : Prop := b = 32 ∨ b = 9 ∨ b = 10 ∨ b = 12 ∨ b = 13

instance (b : Byte) : Decidable (WsByte b) := by unfold WsByte; infer_instance

/-- The text after the last ASCII whitespace. -/
def lastWord (s : Str) : Str := (s.reverse.takeWhile fun b => !decide (WsByte b)).reverse

/-- No inline element begins where `x` begins; `w` is the part of the word before it. -/
structure Plain (w x : Str) : Prop where
  comment : ¬ b!"%%" <+: x
  pairs : ∀ p ∈ markPairs, ¬ Opens p.1 p.2 x
  tag : ¬ TagStart x
  keyword : ∀ k ∈ keywords, ¬ k <+: x
  link : x.head? = some c!":" → ¬ SchemeStart (w ++ x)

/-- A text in which no other inline element begins, when it stands between `w` and
`rest`. -/
def TextOk (w t rest : Str) : Prop :=
  t ≠ [] ∧ 10 ∉ t ∧ 13 ∉ t ∧ ¬ SchemeStart (t ++ rest) ∧
    ∀ u v, t = u ++ v → v ≠ [] → Plain (lastWord (w ++ u)) (v ++ rest)

/-- A text that can stand between delimiters, of which `R` is the right one. -/
def BodyOk (R c : Str) : Prop := c ≠ [] ∧ 10 ∉ c ∧ ShortestBody R c [] ∧ ¬ b!"%%" <:+: c

/-- Reading the URI of a link: as it is or, if that is no URI, percent encoded. -/
def readUri (env : Env) (t : Str) : Option Uri :=
  match env.uri t with
  | some u => some u
  | none => env.uri (encodeUri t)

/-- `t` can stand for the URI `u` in a link in brackets or braces. -/
def UriTextOk (env : Env) (ue : Uri → Uri → Bool) (t : Str) (u : Uri) : Prop :=
  t ≠ [] ∧ c!"|" ∉ t ∧ ¬ b!"]]" <:+: t ∧ ¬ b!"}}" <:+: t ∧ ∃ u', readUri env t = some u' ∧ ue u' u = true

/-- A description that can be written. Nested transclusions must have neither a
description nor properties. -/
def DescOk (env : Env) (ue : Uri → Uri → Bool) (L : OutLib) : Description → Prop
  | .text s => c!"|" ∉ s ∧ ¬ Opens b!"{{" b!"}}" s
  | .transclusion u none none =>
    UriTextOk env ue (decodedUri L u) u ∧ BodyOk b!"}}" (decodedUri L u)
  | _ => False

/-- The text between the brackets or braces of a link. -/
def Link.body (L : OutLib) : Link → Str
  | .wiki d => decodedUri L d.uri ++ descText L d.desc
  | .indexed i d => b!"wiki" ++ (decStr i ++ (b!":" ++ (decodedUri L d.uri ++ descText L d.desc)))
  | .named n d => b!"wn." ++ (n ++ (b!":" ++ (decodedUri L d.uri ++ descText L d.desc)))
  | .diary dt d =>
    b!"diary:" ++ (L.dateStr dt ++ ((d.toAnchor.map Anchor.display).getD [] ++ descText L d.desc))
  | .raw d => L.uriStr d.uri
  | .transclusion d =>
    decodedUri L d.uri ++ (descText L d.desc ++ propsText d.desc.isSome d.props)

/-- A property of a transclusion that can be written. -/
def PropOk (p : Str × Str) : Prop :=
  p.1 ≠ [] ∧ c!"=" ∉ p.1 ∧ (∀ x, p.1.head? = some x → ¬ (x = 32 ∨ x = 9)) ∧ c!"\"" ∉ p.2

/-- A link that can be written in front of `rest`. -/
def LinkOk (env : Env) (ue : Uri → Uri → Bool) (L : OutLib) (rest : Str) : Link → Prop
  | .wiki d =>
    BodyOk b!"]]" ((Link.wiki d).body L) ∧ UriTextOk env ue (decodedUri L d.uri) d.uri ∧
      (∀ x, d.desc = some x → DescOk env ue L x) ∧ d.props = none ∧
      (c!":" ∉ (Link.wiki d).body L ∨
        ∀ p ∈ [b!"diary:", b!"wiki", b!"wn."], ¬ p <+: decodedUri L d.uri)
  | .indexed i d =>
    BodyOk b!"]]" ((Link.indexed i d).body L) ∧ i < 4294967296 ∧
      UriTextOk env ue (decodedUri L d.uri) d.uri ∧
      (∀ x, d.desc = some x → DescOk env ue L x) ∧ d.props = none
  | .named n d =>
    BodyOk b!"]]" ((Link.named n d).body L) ∧ n ≠ [] ∧ c!":" ∉ n ∧
      UriTextOk env ue (decodedUri L d.uri) d.uri ∧
      (∀ x, d.desc = some x → DescOk env ue L x) ∧ d.props = none
  | .diary dt d =>
    BodyOk b!"]]" ((Link.diary dt d).body L) ∧
      (L.dateStr dt ≠ [] ∧ c!"|" ∉ L.dateStr dt ∧ c!"#" ∉ L.dateStr dt ∧
        env.date (L.dateStr dt) = some dt) ∧
      (∀ a, d.toAnchor = some a → ∀ x ∈ a, c!"|" ∉ x ∧ c!"#" ∉ x) ∧
      (∃ u, env.uri ((d.toAnchor.map Anchor.toEncodedUriFragment).getD []) = some u ∧ ue u d.uri = true) ∧
      (∀ x, d.desc = some x → DescOk env ue L x) ∧ d.props = none
  | .raw d =>
    (∀ b ∈ L.uriStr d.uri, ¬ WsByte b) ∧ (∀ b, rest.head? = some b → b = 32 ∨ b = 9) ∧
      (∃ u sc, env.uri (L.uriStr d.uri) = some u ∧ u.scheme = some sc ∧ sc ∈ linkSchemes ∧
        ue u d.uri = true) ∧ d.desc = none ∧ d.props = none
  | .transclusion d =>
    BodyOk b!"}}" ((Link.transclusion d).body L) ∧ UriTextOk env ue (decodedUri L d.uri) d.uri ∧
      (∀ x, d.desc = some x → DescOk env ue L x) ∧
      (∀ m, d.props = some m → d.desc.isSome ∧ m ≠ [] ∧ DistinctKeys m ∧ ∀ p ∈ m, PropOk p)

/-- A comment that can be written in front of `rest`. -/
def CommentOk (cfg : VwCfg) (rest : Str) : Comment → Prop
  | .line s =>
    Comment.textOf cfg (.line s) = b!"%%" ++ s ∧ RestOfLine s ∧ s.head? ≠ some c!"+" ∧ rest = []
  | .multi ls =>
    ∃ body, Comment.textOf cfg (.multi ls) = b!"%%+" ++ (body ++ b!"+%%") ∧
      FirstAfter b!"+%%" body [] ∧ LinesOf body ls

/-- The elements that decorated text can hold. -/
def Inline.InDeco : Inline → Prop
  | .text _ => True
  | .decorated _ _ => True
  | .keyword _ => True
  | .link _ => True
  | _ => False

/-- `x` can stand in front of the elements `xs`; `w` is the part of the word before `xs`. -/
def Inline.Joins (w : Str) : Inline → List (Located Inline) → Prop
  | .text _, ⟨.text _, _⟩ :: _ => False
  | .text _, ⟨.link (.raw _), _⟩ :: _ => w = []
  | _, _ => True

mutual
/-- The element can be written between `w` and `rest`. -/
def InlineOk (env : Env) (ue : Uri → Uri → Bool) (L : OutLib) (cfg : VwCfg) (w rest : Str) : Inline → Prop
  | .text t => TextOk w t rest
  | .decorated k cs =>
    cs ≠ [] ∧ BodyOk k.delim (Inline.textAll L cfg cs) ∧ (∀ c ∈ cs, c.inner.InDeco) ∧
      InlinesOk env ue L cfg (lastWord (w ++ k.delim)) cs
  | .keyword _ => True
  | .link l => LinkOk env ue L rest l
  | .tags ts => w = [] ∧ ts ≠ [] ∧ (∀ t ∈ ts, t ≠ [] ∧ c!":" ∉ t ∧ ∀ b ∈ t, ¬ WsByte b) ∧
      ∀ b, rest.head? = some b → WsByte b
  | .code c => BodyOk b!"`" c
  | .math c => BodyOk b!"$" c ∧ c!"$" ∉ c
  | .comment c => CommentOk cfg rest c
/-- The elements can be written one after the other behind `w`, at the end of a line. -/
def InlinesOk (env : Env) (ue : Uri → Uri → Bool) (L : OutLib) (cfg : VwCfg) : Str →
    List (Located Inline) → Prop
  | _, [] => True
  | w, ⟨x, _⟩ :: xs =>
    InlineOk env ue L cfg w (Inline.textAll L cfg xs) x ∧
      x.Joins (lastWord (w ++ Inline.textOf L cfg x)) xs ∧
      InlinesOk env ue L cfg (lastWord (w ++ Inline.textOf L cfg x)) xs
end

mutual
/-- How deep decorations are nested. -/
def Inline.nest : Inline → Nat
  | .decorated _ cs => Inline.nestAll cs + 1
  | _ => 0
/-- The same for a sequence of elements. -/
def Inline.nestAll : List (Located Inline) → Nat
  | [] => 0
  | ⟨x, _⟩ :: xs => max (Inline.nest x) (Inline.nestAll xs)
end

/-- A URI whose scheme is one of those of links without brackets begins with it. -/
def Env.SchemeSound (env : Env) : Prop :=
  ∀ t u sc, env.uri t = some u → u.scheme = some sc → sc ∈ linkSchemes →
    (sc ++ b!":") <+: t.map lowerByte

end Vw
