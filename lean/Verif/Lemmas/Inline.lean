import Verif.Lemmas.Scan2
import Verif.Spec.Strings

/-!
# Facts about the inline parsers
-/

namespace Vw
open P Scan

variable {C : Ctx} {k : Nat}

/-! ## Infixes -/

theorem at_sub {s : Str} {a b i : Nat} {pat : Str} (hb : b ≤ s.length) (hab : a ≤ b)
    (hp : pat ≠ []) : At (sub s a b) i pat ↔ AtIn s b (a + i) pat := by
  constructor
  · intro h
    have hle := h.le hp
    rw [sub_length _ _ _ hb] at hle
    have : 0 < pat.length := List.length_pos_iff.2 hp
    refine ⟨by omega, ?_⟩
    unfold At at h
    rw [sub_drop, sub_take _ _ _ _ (by omega)] at h
    exact at_iff_sub.2 h
  · rintro ⟨hle, h⟩
    unfold At
    rw [sub_drop, sub_take _ _ _ _ hle]
    exact at_iff_sub.1 h

theorem infix_iff_at {l pat : Str} : pat <:+: l ↔ ∃ i, At l i pat := by
  constructor
  · rintro ⟨u, v, rfl⟩
    exact ⟨u.length, by simp [At]⟩
  · rintro ⟨i, h⟩
    unfold At at h
    refine ⟨l.take i, (l.drop i).drop pat.length, ?_⟩
    calc l.take i ++ pat ++ (l.drop i).drop pat.length
        = l.take i ++ ((l.drop i).take pat.length ++ (l.drop i).drop pat.length) := by
          rw [h, List.append_assoc]
      _ = l := by rw [List.take_append_drop, List.take_append_drop]

theorem not_infix_sub {s : Str} {a b : Nat} {pat : Str} (hb : b ≤ s.length) (hab : a ≤ b)
    (hp : pat ≠ []) (h : ∀ i, a ≤ i → ¬ AtIn s b i pat) : ¬ pat <:+: sub s a b := by
  intro hi
  obtain ⟨i, hi⟩ := infix_iff_at.1 hi
  exact h (a + i) (by omega) ((at_sub hb hab hp).1 hi)

theorem at_infix {s : Str} {i : Nat} {pat : Str} (h : At s i pat) : pat <:+: s :=
  infix_iff_at.2 ⟨i, h⟩

/-! ## Payloads -/

/-- Conditions on the content of a link in brackets. -/
structure BracketOk (C : Ctx) (a b : Nat) (L R c : Str) : Prop where
  eq : sub C.inner a b = L ++ c ++ R
  ne : c ≠ []
  noNl : 10 ∉ c
  noComment : ¬ b!"%%" <:+: c
  first : ∀ i, 0 < i → i < c.length → ¬ At (c ++ R) i R

/-- `l` is a piece of the text between `a` and `b` cut at character
boundaries. -/
def IsStr (C : Ctx) (a b : Nat) (l : Str) : Prop :=
  ∃ i j, a ≤ i ∧ i ≤ j ∧ j ≤ b ∧ C.B i ∧ C.B j ∧ l = sub C.inner i j

theorem IsStr.mono {a b a' b' : Nat} {l : Str} (h : IsStr C a b l) (ha : a' ≤ a) (hb : b ≤ b') :
    IsStr C a' b' l := by
  obtain ⟨i, j, h1, h2, h3, h4⟩ := h
  exact ⟨i, j, by omega, h2, by omega, h4⟩

theorem IsStr.split {s s' o : Span} (hs : C.In k s) (h : Split C s s' o) :
    IsStr C s.start s'.start o.asRemaining :=
  ⟨s.start, s'.start, Nat.le_refl _, h.good.step.le, Nat.le_refl _, hs.bs, h.good.b, h.rem hs.wf⟩

/-- The strings are pieces of the text of a span. -/
def StrsIn (C : Ctx) (a b : Nat) (ws : List Str) : Prop := ∀ w ∈ ws, IsStr C a b w

theorem StrsIn.mono {a b a' b' : Nat} {ws : List Str} (h : StrsIn C a b ws) (ha : a' ≤ a)
    (hb : b ≤ b') : StrsIn C a' b' ws := fun w hw => (h w hw).mono ha hb

theorem StrsIn.nil {a b : Nat} : StrsIn C a b [] := by intro w hw; cases hw

theorem StrsIn.append {a b : Nat} {xs ys : List Str} (h : StrsIn C a b xs) (h' : StrsIn C a b ys) :
    StrsIn C a b (xs ++ ys) := by
  intro w hw
  rcases List.mem_append.1 hw with hw | hw
  · exact h w hw
  · exact h' w hw

theorem mem_insert {m : Map} {a b : Str} {e : Str × Str} (h : e ∈ Map.insert m a b) :
    e = (a, b) ∨ e ∈ m := by
  unfold Map.insert at h
  rcases List.mem_cons.1 h with h | h
  · exact .inl h
  · exact .inr (List.mem_filter.1 h).1

theorem mem_collect {ps : List (Str × Str)} {e : Str × Str} (h : e ∈ Map.collect ps) : e ∈ ps := by
  unfold Map.collect at h
  have : ∀ (m : Map), e ∈ ps.foldl (fun m e => Map.insert m e.1 e.2) m → e ∈ m ∨ e ∈ ps := by
    clear h
    induction ps with
    | nil => intro m h; exact .inl h
    | cons p ps ih =>
      intro m h
      rcases ih _ h with h | h
      · rcases mem_insert h with h | h
        · exact .inr (by simp [h])
        · exact .inl h
      · exact .inr (by simp [h])
  simpa using this [] h

/-- The parser of what stands between the brackets or braces of a link. -/
def linkBody (env : Env) : Link → P Inline
  | .indexed _ _ => P.bind indexedLinkIndex fun i =>
      P.bind (linkUriRef env) fun u =>
        P.bind (P.opt (linkDescription env)) fun d =>
          P.pure (Inline.link (.indexed i ⟨u, d, none⟩))
  | .named _ _ => P.bind namedLinkName fun n =>
      P.bind (linkUriRef env) fun u =>
        P.bind (P.opt (linkDescription env)) fun d =>
          P.pure (Inline.link (.named n ⟨u, d, none⟩))
  | .diary _ _ => P.bind (P.tag b!"diary:") fun _ =>
      P.bind (P.mapOpt (Scan.takeLineUntil21 b!"|" b!"#") (fun s => env.date s.asRemaining)) fun date =>
        P.bind (P.opt linkAnchor) fun anchor =>
          P.bind (P.opt (linkDescription env)) fun d => newDiaryLink env date d anchor
  | .transclusion _ => P.map (linkData env) (fun d => Inline.link (.transclusion d))
  | _ => P.map (linkData env) (fun d => Inline.link (.wiki d))

/-- The link was read from the text `c` between its brackets or braces. -/
def BodyRead (env : Env) (c : Str) (l : Link) : Prop :=
  ∃ o o' : Span, o.asRemaining = c ∧ o.start ≤ o.stop ∧ o.stop ≤ o.inner.length ∧
    linkBody env l o = .ok o' (.link l)

/-- What a link looks like in the text. -/
def LinkPayload (C : Ctx) (a b : Nat) : Link → Prop
  | .raw d => C.env.uri (sub C.inner a b) = some d.uri ∧
      (∃ sc, d.uri.scheme = some sc ∧ sc ∈ rawSchemes) ∧ d.desc = none ∧ d.props = none ∧
      (∀ x ∈ sub C.inner a b, x ≠ 32 ∧ x ≠ 9 ∧ x ≠ 10)
  | .transclusion d => (∃ c, BracketOk C a b b!"{{" b!"}}" c ∧ BodyRead C.env c (.transclusion d)) ∧
      StrsIn C a b d.strings
  | l => (∃ c, BracketOk C a b b!"[[" b!"]]" c ∧ BodyRead C.env c l) ∧ StrsIn C a b l.strings

/-- What a leaf element looks like in the text between `a` and `b`. -/
def Payload (C : Ctx) (a b : Nat) : Inline → Prop
  | .text t => t = sub C.inner a b ∧ 10 ∉ t
  | .keyword w => sub C.inner a b = w.bytes
  | .code c => BracketOk C a b b!"`" b!"`" c
  | .math c => BracketOk C a b b!"$" b!"$" c ∧ c!"$" ∉ c
  | .tags ts => ts ≠ [] ∧ AfterWs C a ∧ (∀ x ∈ sub C.inner a b, isAsciiWs x = false) ∧
      (b!":" ++ ts.flatMap (· ++ b!":")) <+: sub C.inner a b ∧
      ∀ t ∈ ts, t ≠ [] ∧ c!":" ∉ t
  | .comment (.line t) => sub C.inner a b = b!"%%" ++ t ∧ 10 ∉ t
  | .comment (.multi ls) => ∃ body, sub C.inner a b = b!"%%+" ++ body ++ b!"+%%" ∧
      ¬ b!"+%%" <:+: body ∧ LinesOf body ls
  | .link l => LinkPayload C a b l
  | .decorated _ _ => False

/-- The elements that decorations cannot hold, besides comments. -/
def Inline.Outside : Inline → Prop
  | .code _ | .math _ | .tags _ => True
  | _ => False

/-- Where the contents of a decoration can stop: at the end, or before an element that decorations
cannot hold. -/
def Stuck (C : Ctx) (e b : Nat) : Prop :=
  e = b ∨ ∃ n x, 0 < n ∧ e + n ≤ b ∧ Payload C e (e + n) x ∧ x.Outside

/-- The parser reads `x` from `a` to `a'`, when it sees the row up to its end `b` or further. -/
def ReadBy (C : Ctx) (p : P (Located Inline)) (a a' b : Nat) (x : Inline) : Prop :=
  ∃ e d s' r, b ≤ e ∧ e ≤ C.inner.length ∧ p ⟨C.inner, a, e, d⟩ = .ok s' ⟨x, r⟩ ∧ s'.start = a'

theorem ReadBy.mono {p : P (Located Inline)} {a a' b b' : Nat} {x : Inline} (h : ReadBy C p a a' b x)
    (hb : b' ≤ b) : ReadBy C p a a' b' x := by
  obtain ⟨e, d, s', r, h1, h2⟩ := h
  exact ⟨e, d, s', r, by omega, h2⟩

/-- What is known of the reading of an element from `a` to `a'` in a row that ends at `b`. At none of the
bytes of a text is there anything that ends text, reading up to the end of the row or further. Tags and
addresses are what their parsers read. -/
def Quiet (C : Ctx) (a a' b : Nat) : Inline → Prop
  | .text _ => ∃ e d k deco, b ≤ e ∧ C.Wf k ⟨C.inner, a, e, d⟩ ∧ C.B e ∧
      ∀ i, a ≤ i → i < a' → nonTextOf C.env deco ⟨C.inner, i, e, d⟩ = .err ∧
        ∃ n, e - i ≤ n ∧ deco ⟨C.inner, i, e, d⟩ = decoratedOf (decoContentsF C.env n) ⟨C.inner, i, e, d⟩
  | .tags ts => ReadBy C tags a a' b (.tags ts)
  | .link (.raw d) => ReadBy C (rawLink C.env) a a' b (.link (.raw d))
  | _ => True

theorem Quiet.mono {a a' b b' : Nat} {x : Inline} (h : Quiet C a a' b x) (hb : b' ≤ b) :
    Quiet C a a' b' x := by
  cases x with
  | text t =>
    obtain ⟨e, d, k, deco, h1, h2, h3, h4⟩ := h
    exact ⟨e, d, k, deco, by omega, h2, h3, h4⟩
  | tags ts => exact ReadBy.mono h hb
  | link l =>
    cases l with
    | raw d => exact ReadBy.mono h hb
    | _ => trivial
  | _ => trivial

/-- No text comes next if the element is a text. -/
def Lone (x : Inline) (xs : Inlines) : Prop :=
  ∀ t, x = .text t → ∀ y ∈ xs.head?, ∀ t', y.inner ≠ .text t'

/-- `Tile C d a xs b`: the elements `xs` at depth `d` cover the text from `a` to
`b` without gaps, and each matches the text. -/
inductive Tile (C : Ctx) : Nat → Nat → Inlines → Nat → Prop where
  | nil {d a} : Tile C d a [] a
  | leaf {d a n x xs b} : 0 < n → C.B a → C.B (a + n) → a + n ≤ C.inner.length →
      Payload C a (a + n) x → Tile C d (a + n) xs b → Quiet C a (a + n) b x → Lone x xs →
      Tile C d a (⟨x, ⟨a, n, d⟩⟩ :: xs) b
  | deco {d a n kind ys e xs b} : 0 < n → C.B a → C.B (a + n) → a + n ≤ C.inner.length →
      (∃ c, BracketOk C a (a + n) kind.delim kind.delim c) → ys ≠ [] →
      e + kind.delim.length ≤ a + n → Stuck C e (a + n - kind.delim.length) →
      Tile C (d + 1) (a + kind.delim.length) ys e →
      Tile C d (a + n) xs b → Tile C d a (⟨.decorated kind ys, ⟨a, n, d⟩⟩ :: xs) b

theorem Tile.le {d a b : Nat} {xs : Inlines} (h : Tile C d a xs b) : a ≤ b := by
  induction h with
  | nil => exact Nat.le_refl _
  | leaf => omega
  | deco => omega

theorem Tile.cons {d a b c : Nat} {x : Located Inline} {xs : Inlines} (h : Tile C d a [x] b)
    (h' : Tile C d b xs c) (hq : Quiet C a b c x.inner) (hl : Lone x.inner xs) : Tile C d a (x :: xs) c := by
  cases h with
  | leaf h1 h2 h3 h4 h5 h6 =>
    cases h6
    exact .leaf h1 h2 h3 h4 h5 h' hq hl
  | deco h1 h2 h3 h4 h5 h6 h7 h8 h9 h10 =>
    cases h10
    exact .deco h1 h2 h3 h4 h5 h6 h7 h8 h9 h'

/-- Outcome of a parser of one element. -/
structure Elem (C : Ctx) (s s' : Span) (x : Located Inline) : Prop where
  good : C.Good s s'
  lt : s.start < s'.start
  tile : Tile C s.depth s.start [x] s'.start
  quiet : Quiet C s.start s'.start s.stop x.inner

theorem Elem.offset {s s' : Span} {x : Located Inline} (h : Elem C s s' x) :
    x.region.offset = s.start := by
  cases h.tile <;> rfl

theorem elem_leaf {s s' : Span} (hs : C.In k s) (g : C.Good s s') (lt : s.start < s'.start)
    {x : Inline} (hp : Payload C s.start s'.start x) (hq : Quiet C s.start s'.start s.stop x) :
    Elem C s s' ⟨x, ⟨s.start, s'.start - s.start, s.depth⟩⟩ := by
  refine ⟨g, lt, ?_, hq⟩
  have e : s.start + (s'.start - s.start) = s'.start := by omega
  have hhi := g.step.hi
  have := hs.wf.hi
  have ht : Tile C s.depth (s.start + (s'.start - s.start)) [] s'.start := by rw [e]; exact .nil
  refine .leaf (by omega) hs.bs (by rw [e]; exact g.b) (by omega) (by rw [e]; exact hp) ht
    (by rw [e]; exact hq.mono (by have := g.step.stop; omega)) (fun _ _ y hy => by cases hy)

theorem located_leaf {s : Span} (hs : C.In k s) {p : P Inline}
    (h : C.Ok (p s) (fun s' x => C.Good s s' ∧ s.start < s'.start ∧
      Payload C s.start s'.start x ∧ Quiet C s.start s'.start s.stop x)) :
    C.Ok (located p s) (Elem C s) := by
  refine Ctx.Ok.located (h.mono ?_)
  rintro s' x ⟨g, lt, hp, hq⟩
  exact ⟨g.step, elem_leaf hs g lt hp hq⟩

theorem readBy_of {s s' : Span} (hs : C.In k s) {p : P Inline} {x : Inline} (h : p s = .ok s' x)
    (hle : s.start ≤ s'.start) : ReadBy C (located p) s.start s'.start s.stop x := by
  refine ⟨s.stop, s.depth, s', Region.ofSpan (s.withLength (s'.start - s.start)), Nat.le_refl _, hs.wf.hi, ?_, rfl⟩
  have e : (⟨C.inner, s.start, s.stop, s.depth⟩ : Span) = s := by rw [← hs.wf.inner]
  rw [e]
  unfold located
  rw [h]
  simp only
  rw [if_neg (by omega)]

theorem AtIn.sub_eq {s : Str} {stop i : Nat} {pat : Str} (h : AtIn s stop i pat) :
    sub s i (i + pat.length) = pat := at_iff_sub.1 h.2

theorem Surround.eq {L R : Str} {s s' o : Span} (h : Surround C L R s s' o) :
    Vw.sub C.inner s.start s'.start = L ++ Vw.sub C.inner o.start o.stop ++ R := by
  rw [h.send, h.ostart]
  have e2 := h.right.sub_eq
  have e1 := h.left.sub_eq
  have hn := h.nonempty
  have ho := h.ostart
  calc Vw.sub C.inner s.start (o.stop + R.length)
      = Vw.sub C.inner s.start (s.start + L.length) ++ Vw.sub C.inner (s.start + L.length) o.stop
          ++ Vw.sub C.inner o.stop (o.stop + R.length) := by
        rw [sub_append _ _ _ _ (by omega) (by omega), sub_append _ _ _ _ (by omega) (by omega)]
    _ = _ := by rw [e2, e1]

theorem Surround.bracket {L R : Str} {s s' o : Span} (h : Surround C L R s s' o)
    (hs : C.Wf k s) (hR : R ≠ []) (hno : ∀ i, o.start ≤ i → ¬ AtIn C.inner o.stop i b!"%%") :
    BracketOk C s.start s'.start L R (Vw.sub C.inner o.start o.stop) := by
  have hhi : o.stop ≤ C.inner.length := by have := h.sub.hi; have := hs.hi; omega
  have hne := h.nonempty
  refine ⟨h.eq, ?_, ?_, ?_, ?_⟩
  · intro he
    have := congrArg List.length he
    rw [sub_length _ _ _ hhi] at this
    simp at this
    omega
  · intro hm
    obtain ⟨i, h1, h2, h3⟩ := mem_sub.1 hm
    exact h.noNl i h1 h2 h3
  · exact not_infix_sub hhi (by omega) (by simp) hno
  · intro i h0 hlt ha
    rw [sub_length _ _ _ hhi] at hlt
    have hRle := h.right.1
    have hshi := hs.hi
    rw [← h.right.sub_eq, sub_append _ _ _ _ (by omega) (by omega), h.right.sub_eq] at ha
    obtain ⟨hl, ha⟩ := (at_sub (by omega) (by omega) hR).1 ha
    exact h.first (o.start + i) (by omega) (by omega) ⟨by omega, ha⟩

theorem surround_notContains {s : Span} (h : C.In k s) (L R : Str) (hl : L ≠ [] := by decide)
    (hla : ∀ b ∈ L, b < 128 := by decide) (hr : R ≠ [] := by decide)
    (hra : ∀ b ∈ R, b < 128 := by decide) :
    C.Ok (notContains b!"%%" (surroundInLine1 L R) s) (fun s' o => Surround C L R s s' o ∧
      BracketOk C s.start s'.start L R (sub C.inner o.start o.stop)) := by
  refine notContains_rule (k := k) (by simp) ((surround_good h L R hl hla hr hra).mono ?_)
  intro s' o hsu
  exact ⟨(hsu.in h).wf.mono (by omega), fun hno => ⟨hsu, hsu.bracket h.wf hr hno⟩⟩

theorem Surround.lt {L R : Str} {s s' o : Span} (h : Surround C L R s s' o) :
    s.start < s'.start := by
  have := h.send; have := h.ostart; have := h.nonempty; omega

/-! ## Leaves -/

theorem codeInline_ok {s : Span} (h : C.In k s) : C.Ok (codeInline s) (Elem C s) := by
  refine located_leaf h (Ctx.Ok.map (strOf_rule ((surround_notContains h _ _).mono ?_)))
  rintro s' o ⟨hsu, hbr⟩
  refine ⟨hsu.good, hsu.lt, ?_, trivial⟩
  rw [(hsu.in h).wf.rem]
  exact hbr

theorem patOk_1 (c : Byte) (hc : c < 128) : PatOk [c] := ⟨by simp, by simp, c, [], rfl, hc⟩
theorem patOk_2 (c d : Byte) (hc : c < 128) : PatOk [c, d] := ⟨by simp, by simp, c, [d], rfl, hc⟩

theorem mathInline_ok {s : Span} (h : C.In k s) : C.Ok (mathInline s) (Elem C s) := by
  refine located_leaf h (Ctx.Ok.map (strOf_rule (Ctx.Ok.delimited ((char_good h _).mono ?_))))
  rintro s1 _ ⟨g1, e1, _, hb1, _⟩
  have h1 := h.good g1
  refine notContains_rule (k := k) (by simp)
    ((takeLineUntil1_good h1 _ (patOk_1 _ (by decide))).mono ?_)
  rintro s2 o ⟨hsp, ⟨hcl, hex⟩, hlt⟩
  refine ⟨(hsp.in h1).wf, fun hno => (char_good (h1.good hsp.good) _).mono ?_⟩
  rintro s3 _ ⟨g3, e3, _, hb3, _⟩
  have hst1 := g1.step.stop
  have hst2 := hsp.good.step.stop
  have hl3 := g3.step.hi
  have hhi := h.wf.hi
  refine ⟨(g1.trans hsp.good).trans g3, by omega, ?_, trivial⟩
  rw [hsp.rem h1.wf]
  have ho : o.start = s1.start ∧ o.stop = s2.start := by rw [hsp.out]; exact ⟨rfl, rfl⟩
  have hclear : ∀ i, s1.start ≤ i → i < s2.start → C.inner[i]? ≠ some 10 ∧ C.inner[i]? ≠ some 36 := by
    intro i i1 i2
    obtain ⟨c1, c2⟩ := hcl i i1 i2
    refine ⟨c1, fun hb => c2 _ (by simp) ⟨by simp; omega, at_singleton.2 hb⟩⟩
  refine ⟨⟨?_, ?_, ?_, ?_, ?_⟩, ?_⟩
  · rw [e3, e1]
    have d1 : sub C.inner s.start (s.start + 1) = b!"$" :=
      at_iff_sub.1 (at_singleton.2 hb1)
    have d2 : sub C.inner s2.start (s2.start + 1) = b!"$" :=
      at_iff_sub.1 (at_singleton.2 hb3)
    calc sub C.inner s.start (s2.start + 1)
        = sub C.inner s.start (s.start + 1) ++ sub C.inner (s.start + 1) s2.start
          ++ sub C.inner s2.start (s2.start + 1) := by
          rw [sub_append _ _ _ _ (by omega) (by omega), sub_append _ _ _ _ (by omega) (by omega)]
      _ = _ := by rw [d1, d2]
  · intro he
    have := congrArg List.length he
    rw [sub_length _ _ _ (by omega)] at this
    simp at this
    omega
  · intro hm
    obtain ⟨i, i1, i2, i3⟩ := mem_sub.1 hm
    exact (hclear i i1 i2).1 i3
  · refine not_infix_sub (by omega) (by omega) (by simp) ?_
    rw [← ho.1, ← ho.2]
    exact hno
  · intro i _ hi ha
    have ha := at_singleton.1 ha
    rw [List.getElem?_append_left hi, sub_getElem?] at ha
    rw [sub_length _ _ _ (by omega)] at hi
    rw [if_pos (by omega)] at ha
    exact (hclear (s1.start + i) (by omega) (by omega)).2 ha
  · intro hm
    obtain ⟨i, i1, i2, i3⟩ := mem_sub.1 hm
    exact (hclear i i1 i2).2 i3

theorem tagsInner_ok {s : Span} (h : C.In k s) :
    C.Ok (tagsInner s) (fun s' ts => C.Good s s' ∧ ts ≠ [] ∧
      sub C.inner s.start s'.start = b!":" ++ ts.flatMap (· ++ b!":") ∧
      ∀ t ∈ ts, t ≠ [] ∧ c!":" ∉ t) := by
  unfold tagsInner
  refine Ctx.Ok.bind' (char_good h _) ?_
  rintro s1 _ ⟨g1, e1, _, hb1, _⟩
  have h1 := h.good g1
  refine (Ctx.Ok.many1 (I := fun t => C.In k t) (T := fun t as t' => t.start ≤ t'.start ∧
      sub C.inner t.start t'.start = as.flatMap (· ++ b!":") ∧ ∀ x ∈ as, x ≠ [] ∧ c!":" ∉ x)
    ?_ ?_ h1).mono ?_
  · intro t ht
    refine Ctx.Ok.terminated (strOf_rule ((takeLineUntil31_good ht _ _ _ (patOk_1 _ (by decide))
      (patOk_1 _ (by decide)) (patOk_1 _ (by decide))).mono ?_))
    rintro t1 o ⟨hsp, ⟨hcl, _⟩, hlt⟩
    refine (char_good (ht.good hsp.good) _).mono ?_
    rintro t2 _ ⟨g2, e2, _, hb2, _⟩
    have hst := hsp.good.step.stop
    have hh := g2.step.hi
    have hhi := ht.wf.hi
    refine ⟨(hsp.good.trans g2).step, by omega, ht.good (hsp.good.trans g2), ?_⟩
    rintro as t3 ⟨hle, hsub, hall⟩
    rw [hsp.rem ht.wf]
    have d2 : sub C.inner t1.start (t1.start + 1) = b!":" := at_iff_sub.1 (at_singleton.2 hb2)
    refine ⟨by omega, ?_, ?_⟩
    · rw [List.flatMap_cons, ← hsub, ← d2, ← e2, sub_append _ _ _ _ (by omega) (by omega),
        sub_append _ _ _ _ (by omega) (by omega)]
    · intro x hx
      rcases List.mem_cons.1 hx with rfl | hx
      · refine ⟨fun he => ?_, fun hm => ?_⟩
        · have := congrArg List.length he
          rw [sub_length _ _ _ (by omega)] at this
          simp at this
          omega
        · obtain ⟨i, i1, i2, i3⟩ := mem_sub.1 hm
          exact (hcl i i1 i2).2 b!":" (by simp) ⟨by simp; omega, at_singleton.2 i3⟩
      · exact hall x hx
  · intro t ht _
    exact ⟨Nat.le_refl _, by simp [sub_self], by simp⟩
  · rintro s2 ts ⟨st, hlt, hin, _, ⟨hle, hsub, hall⟩, hne⟩
    refine ⟨g1.trans ⟨st, hin.bs⟩, hne, ?_, hall⟩
    have d1 : sub C.inner s.start (s.start + 1) = b!":" := at_iff_sub.1 (at_singleton.2 hb1)
    rw [← hsub, ← d1, ← e1, sub_append _ _ _ _ (by omega) (by omega)]

theorem sub_prefix {s : Str} {a b c : Nat} (h1 : a ≤ b) (h2 : b ≤ c) :
    sub s a b <+: sub s a c := by
  rw [← sub_append s a b c h1 h2]
  exact List.prefix_append _ _

theorem tags_ok {s : Span} (h : C.In k s) : C.Ok (tags s) (Elem C s) := by
  have base : C.Ok (P.map (mapParser wholeWord tagsInner) Inline.tags s) (fun s' x => C.Good s s' ∧
      s.start < s'.start ∧ Payload C s.start s'.start x ∧ ∃ ts, x = .tags ts) := by
    refine Ctx.Ok.map (Ctx.Ok.mapParser ((wholeWord_good h).mono ?_))
    rintro s' o ⟨hsp, htk, hlt, haf⟩
    refine (tagsInner_ok (hsp.in h)).mono ?_
    rintro o' ts ⟨g, hne, hsub, hall⟩
    have ho : o.start = s.start ∧ o.stop = s'.start := by rw [hsp.out]; exact ⟨rfl, rfl⟩
    refine ⟨hsp.good, hlt, ⟨hne, haf, ?_, ?_, hall⟩, ts, rfl⟩
    · intro x hx
      obtain ⟨i, i1, i2, i3⟩ := mem_sub.1 hx
      simpa using htk.all i x i1 i2 i3
    · rw [← hsub, ho.1]
      have := g.step.hi
      have := g.step.le
      exact sub_prefix (by omega) (by omega)
  refine located_leaf h (base.self.mono ?_)
  rintro s' _ ⟨⟨g, hlt, hp, ts, rfl⟩, e⟩
  exact ⟨g, hlt, hp, readBy_of h e (by omega)⟩

theorem Clear.noNl {pats : List Str} {s s' : Span} (h : Clear C pats s s') :
    10 ∉ sub C.inner s.start s'.start := by
  intro hm
  obtain ⟨i, i1, i2, i3⟩ := mem_sub.1 hm
  exact (h i i1 i2).1 i3

theorem lineComment_ok {s : Span} (h : C.In k s) : C.Ok (lineComment s) (Elem C s) := by
  refine located_leaf h (Ctx.Ok.bind' (tag_good h _) ?_)
  rintro s1 _ ⟨hsp1, e1, ha⟩
  have h1 := h.good hsp1.good
  simp only [List.length_cons, List.length_nil] at e1
  refine Ctx.Ok.map (strOf_rule ((takeUntilEol_good h1).mono ?_))
  rintro s2 o ⟨hsp, hcl, _⟩
  have := hsp.good.step.le
  refine ⟨hsp1.good.trans hsp.good, by omega, ?_, trivial⟩
  rw [hsp.rem h1.wf]
  refine ⟨?_, hcl.noNl⟩
  have d := ha.sub_eq
  simp only [List.length_cons, List.length_nil] at d
  rw [← d, e1, sub_append _ _ _ _ (by omega) (by omega)]

theorem terminated_err {α β} {p : P α} {q : P β} {s s1 : Span} {a : α}
    (h : P.terminated p q s = .err) (hp : p s = .ok s1 a) : q s1 = .err := by
  unfold P.terminated at h
  rcases bind_err h with h | ⟨s', a', h1, h2⟩
  · rw [hp] at h; cases h
  · rw [hp] at h1
    cases h1
    rcases bind_err h2 with h2 | ⟨_, _, _, h2⟩
    · exact h2
    · cases h2

theorem getLast?_sub {s : Str} {a b : Nat} (hab : a < b) (hb : b ≤ s.length) :
    (sub s a b).getLast? = s[b - 1]? := by
  rw [List.getLast?_eq_getElem?, sub_length _ _ _ hb, sub_getElem?, if_pos (by omega)]
  congr 1; omega

/-- `take_until_end_of_line_or_input` stops before a `\r` that precedes `\n`. -/
theorem takeUntilEol_lf {s s' o : Span} (h : C.In k s) (he : takeUntilEol s = .ok s' o)
    (hb : C.inner[s'.start]? = some 10) (hlt : s'.start < s.stop) :
    (sub C.inner s.start s'.start).getLast? ≠ some 13 := by
  intro hl
  have hgood := takeUntilEol_good h
  rw [he] at hgood
  obtain ⟨hsp, hcl, hex⟩ := hgood
  have hle := hsp.good.step.le
  have hhi := h.wf.hi
  by_cases h0 : s.start = s'.start
  · rw [h0, sub_self] at hl; cases hl
  rw [getLast?_sub (by omega) (by omega)] at hl
  unfold takeUntilEol at he
  simp only at he
  cases hm : memchr (fun x => x == 10) s.asRemaining with
  | none =>
    rw [hm] at he
    simp only at he
    rw [rest_eq h.wf] at he
    cases he
    simp at hlt
  | some pos =>
    rw [hm] at he
    simp only [takeSplit, Res.ok.injEq] at he
    have hf := memchr_facts (fun x => x == 10) s.asRemaining
    rw [hm] at hf
    simp only at hf
    obtain ⟨⟨b, hb', hb''⟩, hf2⟩ := hf
    have hpos : s.start + pos < s.stop := (h.wf.rem_some.1 hb').1
    have hle2 : crAdjust s.asRemaining pos ≤ pos := by unfold crAdjust; split <;> omega
    have hs' : s'.start = s.start + crAdjust s.asRemaining pos := by
      rw [← he.1]
      simp only [Span.sliceFrom, Span.advanceStartBy]
      rw [if_neg (by omega)]
    have hpe : crAdjust s.asRemaining pos = pos := by
      rcases Nat.lt_or_ge (crAdjust s.asRemaining pos) pos with hlt' | hge
      · have := hf2 (crAdjust s.asRemaining pos) 10 hlt'
          (h.wf.rem_some.2 ⟨by omega, by rw [← hs']; exact hb⟩)
        simp at this
      · omega
    have : ¬ (pos > 0 ∧ s.asRemaining[pos - 1]? = some 13) := by
      intro hc
      have : crAdjust s.asRemaining pos = pos - 1 := by unfold crAdjust; rw [if_pos hc]
      omega
    apply this
    refine ⟨by omega, h.wf.rem_some.2 ⟨by omega, ?_⟩⟩
    rw [← hl]; congr 1; omega

theorem commentLines_ok {s : Span} (h : C.In k s) :
    C.Ok (commentLines s) (fun _ ls => LinesOf (sub C.inner s.start s.stop) ls) := by
  unfold commentLines
  refine Ctx.Ok.bind' (Ctx.Ok.many0 (I := fun t => C.In k t ∧ t.stop = s.stop)
    (T := fun t as t' => t.start ≤ t'.start ∧ ∀ rest ls, LinesOf rest ls →
      LinesOf (sub C.inner t.start t'.start ++ rest) (as ++ ls)) ?_ ?_ ⟨h, rfl⟩ h.wf.le) ?_
  · rintro t ⟨ht, hts⟩
    refine Ctx.Ok.terminated (strOf_rule ((takeUntilEol_good ht).self.mono ?_))
    rintro t1 o ⟨⟨hsp, hcl, _⟩, hrun⟩
    refine (lineEnding_good (ht.good hsp.good)).self.mono ?_
    rintro t2 w2 ⟨⟨g2, hlt, hle, hend⟩, hrun2⟩
    have hst := hsp.good.step.stop
    have hl1 := hsp.good.step.le
    have hl2 := g2.step.hi
    have hhi := ht.wf.hi
    refine ⟨(hsp.good.trans g2).step, fun _ => ⟨⟨ht.good (hsp.good.trans g2), ?_⟩, ?_⟩⟩
    · rw [g2.step.stop, hst, hts]
    rintro as t3 ⟨hle3, hT⟩
    rw [hsp.rem ht.wf]
    refine ⟨by omega, fun rest ls hls => ?_⟩
    have hrec := hT rest ls hls
    have e : sub C.inner t.start t3.start ++ rest = sub C.inner t.start t1.start ++
        sub C.inner t1.start t2.start ++ (sub C.inner t2.start t3.start ++ rest) := by
      rw [← sub_append _ t.start t2.start t3.start (by omega) (by omega),
        ← sub_append _ t.start t1.start t2.start (by omega) (by omega)]
      simp
    rw [e, List.cons_append]
    have hleAt : LineEndAt C.inner t1.stop t1.start := hle
    unfold lineEnding at hrun2
    have hin1 := ht.good hsp.good
    cases htag : tag b!"\n" t1 with
    | ok a b =>
      have := tag_good hin1 b!"\n"
      rw [htag] at this
      obtain ⟨_, ea, haa⟩ := this
      have e2 : t2 = a := by
        unfold P.alt at hrun2; rw [htag] at hrun2; cases hrun2; rfl
      subst e2
      have hs1 : C.inner[t1.start]? = some 10 := at_singleton.1 haa.2
      have hl := haa.1
      simp only [List.length_cons, List.length_nil] at hl ea
      rw [ea, show sub C.inner t1.start (t1.start + (0 + 1)) = b!"\n" from
        at_iff_sub.1 haa.2, ← ea]
      exact .lf hcl.noNl (takeUntilEol_lf ht hrun hs1 (by omega)) hrec
    | err =>
      have hrun2 : tag b!"\r\n" t1 = .ok t2 w2 := by
        unfold P.alt at hrun2; rw [htag] at hrun2; exact hrun2
      have := tag_good hin1 b!"\r\n"
      rw [hrun2] at this
      obtain ⟨_, ea, haa⟩ := this
      simp only [List.length_cons, List.length_nil] at ea
      rw [ea, show sub C.inner t1.start (t1.start + (0 + 1 + 1)) = b!"\r\n" from
        at_iff_sub.1 haa.2, ← ea]
      exact .crlf hcl.noNl hrec
    | panic r => unfold P.alt at hrun2; rw [htag] at hrun2; cases hrun2
    | diverge => unfold P.alt at hrun2; rw [htag] at hrun2; cases hrun2
  · intro t _ _
    refine ⟨Nat.le_refl _, fun rest ls hls => ?_⟩
    rw [sub_self]; exact hls
  · rintro s1 lines ⟨st, ⟨hin, hts⟩, hperr, hle, hT⟩
    have hlast : 10 ∉ sub C.inner s1.start s.stop := by
      obtain ⟨t1, o, hrun⟩ := takeUntilEol_total s1
      have hgood := takeUntilEol_good hin
      rw [hrun] at hgood
      obtain ⟨hsp, hcl, hex⟩ := hgood
      have hq := terminated_err hperr (s1 := t1) (a := o.asRemaining)
        (by unfold strOf P.mapParser; rw [hrun]; rfl)
      have := lineEnding_err (hin.good hsp.good).wf hq
      rcases hex with he | he | ⟨_, hm, _⟩
      · have := hcl.noNl
        rw [he, hts] at this
        exact this
      · rw [hsp.good.step.stop] at this
        exact absurd he this
      · simp at hm
    have hle1 := st.le
    have hhi1 := st.hi
    have hhi := h.wf.hi
    unfold P.bind restLen
    simp only [hin.wf.remLen, hts]
    split
    · rename_i hgt
      refine Ctx.Ok.map (strOf_rule ?_)
      rw [rest_eq hin.wf]
      show LinesOf _ (lines ++ [s1.asRemaining])
      rw [hin.wf.rem, hts]
      have := hT (sub C.inner s1.start s.stop) [sub C.inner s1.start s.stop] (.last ?_ hlast)
      · rw [sub_append _ _ _ _ (by omega) (by omega)] at this
        exact this
      · intro he
        have := congrArg List.length he
        rw [sub_length _ _ _ (by omega)] at this
        simp at this
        omega
    · refine Ctx.Ok.pure ?_
      have := hT [] [] .nil
      simp only [List.append_nil] at this
      rw [show s.stop = s1.start by omega]
      exact this

theorem multiLineComment_ok {s : Span} (h : C.In k s) : C.Ok (multiLineComment s) (Elem C s) := by
  refine located_leaf h (Ctx.Ok.bind' (tag_good h _) ?_)
  rintro s1 _ ⟨hsp1, e1, ha⟩
  have h1 := h.good hsp1.good
  simp only [List.length_cons, List.length_nil] at e1
  refine Ctx.Ok.bind' (Ctx.Ok.mapParser (Q := fun s2 ls => C.Good s1 s2 ∧
      ¬ b!"+%%" <:+: sub C.inner s1.start s2.start ∧
      LinesOf (sub C.inner s1.start s2.start) ls)
    ((takeUntil_good h1 b!"+%%" ⟨_, _, rfl, by decide⟩).mono ?_)) ?_
  · rintro s2 o ⟨hsp, hat, hno⟩
    refine (commentLines_ok (hsp.in h1)).mono ?_
    intro _ ls hls
    have := hsp.good.step.hi
    have := hsp.good.step.le
    have hhi := h1.wf.hi
    refine ⟨hsp.good, not_infix_sub (by omega) (by omega) (by simp) ?_, ?_⟩
    · rintro i i1 ⟨i2, i3⟩
      simp only [List.length_cons, List.length_nil] at i2
      exact hno i i1 (by omega) ⟨by simp only [List.length_cons, List.length_nil]; omega, i3⟩
    · rw [hsp.out] at hls; exact hls
  · rintro s2 ls ⟨g2, hno, hls⟩
    refine Ctx.Ok.bind' (tag_good (h1.good g2) _) ?_
    rintro s3 _ ⟨hsp3, e3, ha3⟩
    simp only [List.length_cons, List.length_nil] at e3
    have := g2.step.le
    refine Ctx.Ok.pure ⟨(hsp1.good.trans g2).trans hsp3.good, by omega, ⟨_, ?_, hno, hls⟩, trivial⟩
    have d1 := ha.sub_eq
    have d3 := ha3.sub_eq
    simp only [List.length_cons, List.length_nil] at d1 d3
    calc sub C.inner s.start s3.start
        = sub C.inner s.start s1.start ++ sub C.inner s1.start s2.start
          ++ sub C.inner s2.start s3.start := by
          rw [sub_append _ _ _ _ (by omega) (by omega), sub_append _ _ _ _ (by omega) (by omega)]
      _ = _ := by rw [e1, e3, d1, d3]

theorem comment_ok {s : Span} (h : C.In k s) : C.Ok (comment s) (Elem C s) :=
  Ctx.Ok.alt (multiLineComment_ok h) fun _ => lineComment_ok h

theorem keyword_tag {s : Span} (h : C.In k s) (w : Keyword) :
    C.Ok (P.value (Inline.keyword w) (tag w.bytes) s) (fun s' x => C.Good s s' ∧
      s.start < s'.start ∧ Payload C s.start s'.start x ∧ Quiet C s.start s'.start s.stop x) := by
  refine Ctx.Ok.value ((tag_good h _ (by cases w <;> decide) (by cases w <;> decide)).mono ?_)
  rintro s' _ ⟨hsp, e, ha⟩
  have : 0 < w.bytes.length := by cases w <;> decide
  refine ⟨hsp.good, by omega, ?_, trivial⟩
  show sub _ _ _ = _
  rw [e]; exact ha.sub_eq

theorem keyword_ok {s : Span} (h : C.In k s) : C.Ok (keyword s) (Elem C s) := by
  refine located_leaf h ?_
  refine Ctx.Ok.alts_cons (keyword_tag h .done) (Ctx.Ok.alts_cons (keyword_tag h .fixed)
    (Ctx.Ok.alts_cons (keyword_tag h .fixme) (Ctx.Ok.alts_cons (keyword_tag h .started)
    (Ctx.Ok.alts_cons (keyword_tag h .todo) (Ctx.Ok.alts_cons (keyword_tag h .xxx)
    Ctx.Ok.alts_nil)))))

end Vw
