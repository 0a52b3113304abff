import Verif.Lemmas.RunPage
import Verif.Lemmas.CostLow
import Verif.Lemmas.Pieces
import Verif.Lemmas.Tiled
import Verif.Spec.LineStarts

/-!
# Which beginnings of lines are inside blocks
-/

namespace Vw
open P Scan

variable {C : Ctx} {k : Nat}

/-! ## Lines -/

/-- All beginnings of lines from `a` up to `b` satisfy `R`. -/
def On (C : Ctx) (R : Nat → Prop) (a b : Nat) : Prop := ∀ q, Bol C q → a ≤ q → q < b → R q

theorem On.trans {R : Nat → Prop} {a b c : Nat} (h1 : On C R a b) (h2 : On C R b c) :
    On C R a c := by
  intro q hq ha hc
  rcases Nat.lt_or_ge q b with h | h
  · exact h1 q hq ha h
  · exact h2 q hq h hc

theorem On.refl {R : Nat → Prop} {a : Nat} : On C R a a := fun q _ h1 h2 => by omega

/-- There is no line feed before the last byte from `a` to `b`. -/
def OneLine (C : Ctx) (a b : Nat) : Prop := ∀ i, a ≤ i → i + 1 < b → C.inner[i]? ≠ some 10

theorem OneLine.only {a b q : Nat} (h : OneLine C a b) (hq : Bol C q) (h1 : a ≤ q) (h2 : q < b) :
    q = a := by
  rcases hq with rfl | hq
  · omega
  · rcases Nat.lt_or_ge a q with h3 | h3
    · exact absurd hq (h (q - 1) (by omega) (by omega))
    · omega

theorem OneLine.on {R : Nat → Prop} {a b : Nat} (h : OneLine C a b) (ha : R a) : On C R a b := by
  intro q hq h1 h2
  rw [h.only hq h1 h2]
  exact ha

theorem EolAt.oneLine {t t' : Span} {a : Nat} (ht : C.In k t) (h : EolAt C t t')
    (hn : NoNl C a t.start) : OneLine C a t'.start := by
  intro i i1 i2 hx
  rcases Nat.lt_or_ge i t.start with h1 | h1
  · exact hn i i1 h1 hx
  rcases h.eol with ⟨_, e⟩ | ⟨_, _, e⟩
  · rw [e] at i2; omega
  · have hl : (sub C.inner t.start t'.start).length = t'.start - t.start :=
      sub_length _ _ _ (by have := h.good.step.hi; have := ht.wf.hi; omega)
    rcases e with e | e
    · rw [e] at hl; simp at hl; omega
    · rw [e] at hl
      simp at hl
      have hi : i = t.start := by omega
      have h0 : (sub C.inner t.start t'.start)[0]? = some 13 := by rw [e]; rfl
      rw [sub_getElem?] at h0
      simp only [Nat.add_zero] at h0
      rw [if_pos (by omega), ← hi, hx] at h0
      cases h0

/-- The first byte after the blanks at `q` is `x`. -/
def FirstByte (C : Ctx) (q j : Nat) (x : Byte) : Prop :=
  q ≤ j ∧ Blanks C q j ∧ C.inner[j]? = some x ∧ isSpace x = false

theorem FirstByte.uniq {q j j' : Nat} {x x' : Byte} (h : FirstByte C q j x)
    (h' : FirstByte C q j' x') : j = j' ∧ x = x' := by
  obtain ⟨h1, h2, h3, h4⟩ := h
  obtain ⟨h1', h2', h3', h4'⟩ := h'
  have e : j = j' := by
    rcases Nat.lt_trichotomy j j' with h | h | h
    · have := h2' j x h1 h h3; rw [this] at h4; cases h4
    · exact h
    · have := h2 j' x' h1' h h3'; rw [this] at h4'; cases h4'
  refine ⟨e, ?_⟩
  rw [← e, h3] at h3'
  exact Option.some.inj h3'

/-! ## Kinds of lines -/

/-- The span ends at the end of the text or after a line feed. -/
def Full (C : Ctx) (s : Span) : Prop := s.stop = C.inner.length ∨ C.inner[s.stop - 1]? = some 10

/-- The item is read from the line at `q`. -/
def ItemAt (C : Ctx) (q : Nat) (it : Located (ItemF Block)) : Prop :=
  q ≤ it.region.offset ∧ Blanks C q it.region.offset ∧
    ∃ ty su w, PrefixText ty su w ∧ At C.inner it.region.offset w

/-- The parser is that for lists, with fuel enough for the span. -/
def IsList (C : Ctx) (list : P (Located Block)) (s : Span) : Prop :=
  ∃ n, s.stop - s.start < n + 2 ∧ list s = listOf (nestedF C.env n) s

/-- The byte at `q` is a blank. -/
def Indented (C : Ctx) (q : Nat) : Prop := ∃ b, C.inner[q]? = some b ∧ isSpace b = true

/-- Every list is what the indented lines in it are for. -/
def InLists (C : Ctx) (E : Nat → Located Block → Prop) : Prop :=
  ∀ q y items, y.inner = .list items → y.region.offset ≤ q → q < y.region.offset + y.region.len →
    Indented C q → E q y

/-- What is needed of a set of beginnings of lines: after blanks there is a byte that begins no
line end, and a paragraph does not go on with the line.  `E q y` says that the block `y` is what the
line at `q` is for; it must hold of the tables, quotes, lists and fenced blocks that are read from
the line. -/
structure LineKind (C : Ctx) (K : Nat → Prop) (E : Nat → Located Block → Prop) : Prop where
  bol : ∀ q, K q → Bol C q
  mark : ∀ q, K q → ∃ j x, FirstByte C q j x ∧ x ≠ 10 ∧ x ≠ 13
  fence : ∀ k s s' y, C.In k s → Full C s → (InLists C E → s.stop = C.inner.length) → K s.start →
    codeBlock s = .ok s' y ∨ mathBlock s = .ok s' y → y.region.offset = s.start → E s.start y
  bar : ∀ q j, K q → FirstByte C q j c!"|" → ∀ y t, y.inner = .table t → y.region.offset ≤ q →
    q < y.region.offset + y.region.len → E q y
  arrow : ∀ q j, K q → FirstByte C q j c!">" → ∀ y ls, y.inner = .blockquote ls →
    y.region.offset ≤ q → q < y.region.offset + y.region.len → E q y
  item : ∀ q it, K q → ItemAt C q it → ∀ y items, y.inner = .list items →
    (∃ it' ∈ items, it'.region = it.region) → E q y
  para : (∀ k s list, C.In (k + 2) s → Full C s → (InLists C E → s.stop = C.inner.length) →
      s.start < s.stop → K s.start → IsList C list s → ∀ s' u, continueParagraphOf C.env list s ≠ .ok s' u) ∨
    ∀ q y rows, K q → y.inner = .paragraph rows → y.region.offset ≤ q →
      q < y.region.offset + y.region.len → E q y

/-- The part of this that lists and lines of paragraphs need. -/
structure LineBase (C : Ctx) (K : Nat → Prop) (E : Nat → Located Block → Prop) : Prop where
  bol : ∀ q, K q → Bol C q
  item : ∀ q it, K q → ItemAt C q it → ∀ y items, y.inner = .list items →
    (∃ it' ∈ items, it'.region = it.region) → E q y

theorem LineKind.base {K : Nat → Prop} {E : Nat → Located Block → Prop} (hK : LineKind C K E) : LineBase C K E :=
  ⟨hK.bol, hK.item⟩

/-- A line at `q` is hidden or it is shown by one of the blocks. -/
def Hd (C : Ctx) (E : Nat → Located Block → Prop) (bs : List (Located Block))
    (is : List (Located Inline)) (q : Nat) : Prop := Hidden C.inner bs is q ∨ ∃ y ∈ bs, E q y

/-- A line at `q` is hidden in the block or shown by it. -/
def Hid (C : Ctx) (E : Nat → Located Block → Prop) (q : Nat) (x : Located Block) : Prop :=
  Hd C E (Block.allBlocks [x]) (Block.allInlines [x]) q

/-- All lines of the kind from the beginning of the span are hidden in the block or shown by it. -/
def Shown (C : Ctx) (K : Nat → Prop) (E : Nat → Located Block → Prop) (s s' : Span)
    (x : Located Block) : Prop := ∀ q, K q → s.start ≤ q → q < s'.start → Hid C E q x

theorem Hidden.mono {text : Str} {bs bs' : List (Located Block)} {is is' : List (Located Inline)}
    {q : Nat} (h : Hidden text bs is q) (hb : ∀ y ∈ bs, y ∈ bs') (hi : ∀ y ∈ is, y ∈ is') :
    Hidden text bs' is' q := by
  rcases h with (⟨y, hy, h⟩ | ⟨y, hy, h⟩) | ⟨y, hy, h⟩ | ⟨y, hy, h⟩
  · exact .inl (.inl ⟨y, hb y hy, h⟩)
  · exact .inl (.inr ⟨y, hi y hy, h⟩)
  · exact .inr (.inl ⟨y, hb y hy, h⟩)
  · exact .inr (.inr ⟨y, hb y hy, h⟩)

theorem Hd.mono {E : Nat → Located Block → Prop} {bs bs' : List (Located Block)}
    {is is' : List (Located Inline)} {q : Nat} (h : Hd C E bs is q) (hb : ∀ y ∈ bs, y ∈ bs')
    (hi : ∀ y ∈ is, y ∈ is') : Hd C E bs' is' q := by
  rcases h with h | ⟨y, hy, h⟩
  · exact .inl (h.mono hb hi)
  · exact .inr ⟨y, hb y hy, h⟩

theorem LineKind.no_first {K : Nat → Prop} {E : Nat → Located Block → Prop} (hK : LineKind C K E)
    {q j : Nat} {x : Byte} (hq : K q)
    (h : FirstByte C q j x) (hx : x = 10 ∨ x = 13) : False := by
  obtain ⟨j', x', h', h1, h2⟩ := hK.mark q hq
  obtain ⟨_, rfl⟩ := h.uniq h'
  rcases hx with h | h <;> contradiction

/-! ## Elements of a line -/

theorem sub_last {text : Str} {a b : Nat} {w : Str} {x : Byte} (h : sub text a b = w ++ [x])
    (hb : b ≤ text.length) : text[b - 1]? = some x := by
  have hl := congrArg List.length h
  rw [sub_length _ _ _ hb] at hl
  simp at hl
  have h0 : (sub text a b)[w.length]? = some x := by rw [h]; simp
  rw [sub_getElem?, if_pos (by omega), show a + w.length = b - 1 by omega] at h0
  exact h0

/-- The only elements with line feeds are comments over several lines. -/
theorem Payload.noNl {a b : Nat} {x : Inline} (h : Payload C a b x)
    (hm : ¬ ∃ ls, x = .comment (.multi ls)) : 10 ∉ sub C.inner a b := by
  have br : ∀ {L R c : Str}, BracketOk C a b L R c → 10 ∉ L → 10 ∉ R → 10 ∉ sub C.inner a b := by
    intro L R c hb hL hR
    rw [hb.eq]
    simp only [List.mem_append]
    rintro ((h | h) | h)
    · exact hL h
    · exact hb.noNl h
    · exact hR h
  cases x with
  | text t => rw [← h.1]; exact h.2
  | keyword w => rw [show sub C.inner a b = w.bytes from h]; cases w <;> decide
  | code c => exact br h (by decide) (by decide)
  | math c => exact br h.1 (by decide) (by decide)
  | tags ts =>
    intro h10
    have := h.2.2.1 10 h10
    simp [isAsciiWs] at this
  | comment c =>
    cases c with
    | line t => rw [h.1]; simp only [List.mem_append]; rintro (h' | h'); · exact absurd h' (by decide)
                exact h.2 h'
    | multi ls => exact absurd ⟨ls, rfl⟩ hm
  | link l =>
    cases l with
    | raw d => intro h10; exact (h.2.2.2.2 10 h10).2.2 rfl
    | transclusion d => obtain ⟨⟨c, hc, _⟩, _⟩ := h; exact br hc (by decide) (by decide)
    | wiki d => obtain ⟨⟨c, hc, _⟩, _⟩ := h; exact br hc (by decide) (by decide)
    | indexed i d => obtain ⟨⟨c, hc, _⟩, _⟩ := h; exact br hc (by decide) (by decide)
    | named i d => obtain ⟨⟨c, hc, _⟩, _⟩ := h; exact br hc (by decide) (by decide)
    | diary i d => obtain ⟨⟨c, hc, _⟩, _⟩ := h; exact br hc (by decide) (by decide)
  | decorated _ _ => exact h.elim

/-- A line feed among elements is inside a comment. -/
theorem Tile.nl {d a b : Nat} {xs : Inlines} (h : Tile C d a xs b) {i : Nat} (h1 : a ≤ i)
    (h2 : i < b) (hx : C.inner[i]? = some 10) : ∃ y ∈ Inline.all xs, y.region.Inside (i + 1) ∧
      ∃ ls, y.inner = .comment (.multi ls) := by
  induction h with
  | nil => omega
  | @leaf d a n x xs b hn b1 b2 b3 hp _ _ _ ih =>
    rcases Nat.lt_or_ge i (a + n) with h | h
    · by_cases hm : ∃ ls, x = .comment (.multi ls)
      · obtain ⟨ls, rfl⟩ := hm
        refine ⟨_, by simp [Inline.all]; exact .inl rfl, ⟨by simp only; omega, ?_⟩, ls, rfl⟩
        obtain ⟨body, e, _⟩ := hp
        have hl := sub_last (w := b!"%%+" ++ body ++ b!"+%") (x := c!"%") (by rw [e]; simp) b3
        rcases Nat.lt_or_ge (i + 1) (a + n) with h' | h'
        · exact h'
        · rw [show a + n - 1 = i by omega, hx] at hl
          cases hl
      · exact absurd (mem_sub.2 ⟨i, h1, h, hx⟩) (hp.noNl hm)
    · obtain ⟨y, hy, h⟩ := ih h h2
      exact ⟨y, by simp [Inline.all, hy], h⟩
  | @deco d a n kind ys e xs b hn _ _ _ h4 _ _ _ _ _ _ ih =>
    rcases Nat.lt_or_ge i (a + n) with h | h
    · exfalso
      obtain ⟨c, hc⟩ := h4
      have hm := mem_sub.2 ⟨i, h1, h, hx⟩
      rw [hc.eq] at hm
      simp only [List.mem_append] at hm
      rcases hm with (hm | hm) | hm
      · exact absurd hm (by cases kind <;> decide)
      · exact hc.noNl hm
      · exact absurd hm (by cases kind <;> decide)
    · obtain ⟨y, hy, h⟩ := ih h h2
      exact ⟨y, by simp [Inline.all, hy], h⟩

/-! ## Quoted lines -/

theorem noNl_nil {a : Nat} : NoNl C a a := fun i i1 i2 => by omega

theorem firstByte_eol {s s1 : Span} (g : C.Good s s1) (tk : Took C isSpace s s1)
    (h : LineEndAt C.inner s1.stop s1.start) :
    ∃ j x, FirstByte C s.start j x ∧ (x = 10 ∨ x = 13) := by
  rcases h with ⟨_, h⟩ | ⟨_, h, _⟩
  · exact ⟨s1.start, 10, ⟨g.step.le, tk.all, h, by decide⟩, .inl rfl⟩
  · exact ⟨s1.start, 13, ⟨g.step.le, tk.all, h, by decide⟩, .inr rfl⟩

/-- The line at `q` is blank up to its end or the end of the span, or it is a quoted line. -/
def QuoteLine (C : Ctx) (stop q : Nat) : Prop :=
  (∃ j x, FirstByte C q j x ∧ (x = 10 ∨ x = 13 ∨ x = c!">")) ∨ Blanks C q stop

theorem blankLine_lines {s : Span} (h : C.In k s) : C.Ok (blankLine s) (fun s' _ => C.Good s s' ∧
    On C (QuoteLine C s.stop) s.start s'.start) := by
  unfold blankLine
  refine Ctx.Ok.preceded ((beginningOfLine_good h).mono ?_)
  rintro s' _ ⟨rfl, hbol⟩
  refine Ctx.Ok.alt ?_ fun _ => ?_
  · refine Ctx.Ok.terminated ((space1_good h).mono ?_)
    rintro s1 o ⟨hsp, tk, hlt⟩
    have h1 := h.good hsp.good
    refine (endOfLine_full h1).mono ?_
    intro s2 _ he
    refine ⟨hsp.good.trans he.good, (he.oneLine h1 (tk.noNl (by decide))).on ?_⟩
    rcases he.eol with ⟨e, _⟩ | ⟨_, e, _⟩
    · refine .inr ?_
      rw [← hsp.good.step.stop, ← e]
      exact tk.all
    · obtain ⟨j, x, hf, hx⟩ := firstByte_eol hsp.good tk e
      exact .inl ⟨j, x, hf, by rcases hx with h | h <;> simp [h]⟩
  · refine Ctx.Ok.terminated ((space0_good h).mono ?_)
    rintro s1 o ⟨hsp, tk⟩
    have h1 := h.good hsp.good
    refine (lineEnding_full h1).mono ?_
    rintro s2 _ ⟨hg, hlt, hl, h3, h4⟩
    have he : EolAt C s1 s2 := ⟨hg, .inr h3, .inr ⟨hlt, hl, h4⟩⟩
    refine ⟨hsp.good.trans hg, (he.oneLine h1 (tk.noNl (by decide))).on ?_⟩
    obtain ⟨j, x, hf, hx⟩ := firstByte_eol hsp.good tk hl
    exact .inl ⟨j, x, hf, by rcases hx with h | h <;> simp [h]⟩

theorem arrowLine_lines {s : Span} (h : C.In k s) : C.Ok (arrowBlockquoteLine s) (fun s' _ =>
    C.Good s s' ∧ On C (QuoteLine C s.stop) s.start s'.start) := by
  refine Ctx.Ok.bind' (space0_good h) ?_
  rintro s1 _ ⟨hsp1, tk1⟩
  have h1 := h.good hsp1.good
  refine Ctx.Ok.bind' (tag_good h1 _) ?_
  rintro s2 _ ⟨hsp2, hst2, hat⟩
  have h2 := h1.good hsp2.good
  refine Ctx.Ok.bind' (strOf_rule ((notLineEnding_good h2).mono (Q' := fun s3 o =>
    C.Good s2 s3 ∧ NoNl C s2.start s3.start) ?_))
    (Q1 := fun s3 l => C.Good s2 s3 ∧ NoNl C s2.start s3.start) ?_
  · rintro s3 o ⟨hsp, hn, _⟩
    exact ⟨hsp.good, fun i i1 i2 => (hn i i1 i2).1⟩
  rintro s3 l ⟨g3, hn⟩
  have h3 := h2.good g3
  refine Ctx.Ok.bind' (endOfLine_full h3) ?_
  intro s4 _ he
  refine Ctx.Ok.pure ⟨((hsp1.good.trans hsp2.good).trans g3).trans he.good,
    (he.oneLine h3 ?_).on ?_⟩
  · exact ((tk1.noNl (by decide)).trans (noNl_tag hat (by decide) hst2)).trans hn
  · refine .inl ⟨s1.start, c!">", ⟨hsp1.good.step.le, tk1.all, ?_, by decide⟩, by simp⟩
    have := hat.2.getElem? 0 (by simp)
    simpa using this

/-- Repeating a parser of lines. -/
theorem many0_on {α} {p : P α} {R : Nat → Prop} {s : Span} (h : C.In k s)
    (hp : ∀ t, C.In k t → t.stop = s.stop → C.Ok (p t) (fun t' _ => C.Good t t' ∧
      On C R t.start t'.start)) :
    C.Ok (many0 p s) (fun s' _ => C.Good s s' ∧ On C R s.start s'.start) := by
  refine (Ctx.Ok.many0 (I := fun t => C.In k t ∧ t.stop = s.stop) (T := fun t _ t' => C.Good t t' ∧
    On C R t.start t'.start) ?_ ?_ ⟨h, rfl⟩ h.wf.le).mono ?_
  · rintro t ⟨ht, hst⟩
    refine (hp t ht hst).mono fun t' l hl => ⟨hl.1.step, fun _ => ⟨⟨ht.good hl.1, ?_⟩, ?_⟩⟩
    · rw [hl.1.step.stop]; exact hst
    · intro ls t'' hT
      exact ⟨hl.1.trans hT.1, hl.2.trans hT.2⟩
  · rintro t ⟨ht, _⟩ _
    exact ⟨Ctx.Good.refl ht, .refl⟩
  · rintro s' ls ⟨_, _, _, hT⟩
    exact hT

theorem many1_on {α} {p : P α} {R : Nat → Prop} {s : Span} (h : C.In k s)
    (hp : ∀ t, C.In k t → t.stop = s.stop → C.Ok (p t) (fun t' _ => C.Good t t' ∧
      On C R t.start t'.start)) :
    C.Ok (many1 p s) (fun s' _ => C.Good s s' ∧ On C R s.start s'.start) := by
  unfold P.many1
  refine Ctx.Ok.bind' (hp s h rfl) ?_
  rintro s1 a ⟨g1, o1⟩
  refine Ctx.Ok.bind' (many0_on (R := R) (h.good g1) fun t ht hst => hp t ht ?_) ?_
  · rw [hst]; exact g1.step.stop
  rintro s2 as ⟨g2, o2⟩
  exact Ctx.Ok.pure ⟨g1.trans g2, o1.trans o2⟩

theorem pair_on {α β} {p : P α} {p' : P β} {R : Nat → Prop} {s : Span} (h : C.In k s)
    (hp : C.Ok (p s) (fun t' _ => C.Good s t' ∧ On C R s.start t'.start))
    (hp' : ∀ t, C.In k t → t.stop = s.stop → C.Ok (p' t) (fun t' _ => C.Good t t' ∧
      On C R t.start t'.start)) :
    C.Ok (P.pair p p' s) (fun s' _ => C.Good s s' ∧ On C R s.start s'.start) := by
  refine Ctx.Ok.pair (hp.mono ?_)
  rintro s1 a ⟨g1, o1⟩
  refine (hp' s1 (h.good g1) g1.step.stop).mono ?_
  rintro s2 b ⟨g2, o2⟩
  exact ⟨g1.trans g2, o1.trans o2⟩

theorem arrow_lines {s : Span} (h : C.In k s) : C.Ok (arrowBlockquote s) (fun s' _ =>
    C.Good s s' ∧ On C (QuoteLine C s.stop) s.start s'.start) := by
  have ha : ∀ t, C.In k t → t.stop = s.stop → C.Ok (arrowBlockquoteLine t) (fun t' _ =>
      C.Good t t' ∧ On C (QuoteLine C s.stop) t.start t'.start) := by
    intro t ht e
    have := arrowLine_lines ht
    rw [e] at this
    exact this
  refine Ctx.Ok.located (Ctx.Ok.map ((pair_on h (many1_on h ha) fun t ht e =>
    many0_on ht fun u hu e' => pair_on hu (many0_on hu fun v hv e'' => ?_) fun v hv e'' =>
      ha v hv (by omega)).mono ?_))
  · have := blankLine_lines hv
    rw [show v.stop = s.stop by omega] at this
    exact Ctx.Ok.value (this.mono fun _ _ h => h)
  · rintro s' _ ⟨g, o⟩
    exact ⟨g.step, g, o⟩

theorem LineKind.no_quote {K : Nat → Prop} {E : Nat → Located Block → Prop} (hK : LineKind C K E) {s : Span} {q : Nat} (hs : Full C s)
    (hq : K q) (hlt : q < s.stop) (h : QuoteLine C s.stop q) : ∃ j, FirstByte C q j c!">" := by
  rcases h with ⟨j, x, hf, hx⟩ | h
  · rcases hx with h | h | h
    · exact (hK.no_first hq hf (by simp [h])).elim
    · exact (hK.no_first hq hf (by simp [h])).elim
    · exact ⟨j, h ▸ hf⟩
  · exfalso
    obtain ⟨j, x, ⟨h1, h2, h3, h4⟩, _⟩ := hK.mark q hq
    have hj : s.stop ≤ j := by
      rcases Nat.lt_or_ge j s.stop with h' | h'
      · have := h j x h1 h' h3
        rw [this] at h4; cases h4
      · exact h'
    rcases hs with hs | hs
    · rw [List.getElem?_eq_none (by omega)] at h3; cases h3
    · have := h (s.stop - 1) 10 (by omega) (by omega) hs
      exact absurd this (by decide)

theorem indented_lines {s : Span} (h : C.In k s) : C.Ok (indentedBlockquote s) (fun s' _ =>
    C.Good s s' ∧ On C (DeepLine C.inner) s.start s'.start) := by
  refine Ctx.Ok.located (Ctx.Ok.map ((many1_on (R := DeepLine C.inner) h fun t ht _ => ?_).mono ?_))
  rotate_left
  · rintro s' _ ⟨g, o⟩
    exact ⟨g.step, g, o⟩
  refine Ctx.Ok.bind' (Ctx.Ok.verify ((space0_good ht).mono (Q' := fun s1 o =>
    decide (o.remainingLen ≥ 4) = true → C.Good t s1 ∧ Took C isSpace t s1 ∧
      t.start + 4 ≤ s1.start) ?_)) ?_
  · rintro s1 o ⟨hsp, tk⟩ hv
    refine ⟨hsp.good, tk, ?_⟩
    have := of_decide_eq_true hv
    rw [remainingLen_eq, hsp.out] at this
    simp only at this
    omega
  rintro s1 _ ⟨g1, tk1, hlt⟩
  have h1 := ht.good g1
  refine Ctx.Ok.bind' (strOf_rule (Ctx.Ok.verify ((notLineEnding_good h1).mono (Q' := fun s2 o =>
    (!o.isOnlyWhitespace) = true → C.Good s1 s2 ∧ NoNl C s1.start s2.start) ?_)))
    (Q1 := fun s2 l => C.Good s1 s2 ∧ NoNl C s1.start s2.start) ?_
  · rintro s2 o ⟨hsp, hn, _⟩ _
    exact ⟨hsp.good, fun i i1 i2 => (hn i i1 i2).1⟩
  rintro s2 l ⟨g2, hn⟩
  have h2 := h1.good g2
  refine Ctx.Ok.bind' (endOfLine_full h2) ?_
  intro s3 _ he
  refine Ctx.Ok.pure ⟨(g1.trans g2).trans he.good,
    (he.oneLine h2 ((tk1.noNl (by decide)).trans hn)).on ?_⟩
  refine ⟨sub C.inner t.start s1.start, C.inner.drop s1.start, ?_, ?_, ?_⟩
  · unfold sub
    rw [List.drop_take]
    have : t.start ≤ s1.start := g1.step.le
    calc C.inner.drop t.start = (C.inner.drop t.start).take (s1.start - t.start) ++
          (C.inner.drop t.start).drop (s1.start - t.start) := (List.take_append_drop _ _).symm
      _ = _ := by rw [List.drop_drop]; congr 2; omega
  · intro x hx
    obtain ⟨i, i1, i2, i3⟩ := mem_sub.1 hx
    exact isSpace_iff.1 (tk1.all i x i1 i2 i3)
  · rw [sub_length _ _ _ (by have := g1.step.hi; have := ht.wf.hi; omega)]
    omega

/-! ## Definition lists -/

theorem drop_split {text : Str} {a b : Nat} (h : a ≤ b) :
    text.drop a = sub text a b ++ text.drop b := by
  unfold sub
  rw [List.drop_take]
  calc text.drop a = (text.drop a).take (b - a) ++ (text.drop a).drop (b - a) :=
        (List.take_append_drop _ _).symm
    _ = _ := by rw [List.drop_drop]; congr 2; omega

theorem colonLine_of {a j : Nat} (haj : a ≤ j) (hn : NoNl C a j) (h : At C.inner j b!"::") :
    ColonLine C.inner a := by
  refine ⟨sub C.inner a j, C.inner.drop (j + 2), ?_, ?_⟩
  · rw [drop_split haj, drop_split (text := C.inner) (a := j) (b := j + 2) (by omega)]
    rw [show sub C.inner j (j + 2) = b!"::" from at_iff_sub.1 h]
  · intro h10
    obtain ⟨i, i1, i2, i3⟩ := mem_sub.1 h10
    exact hn i i1 i2 i3

theorem lineInlines {s : Span} (h : C.In (k + 1) s) : C.Ok (mapParser takeUntilEol
    (P.map (inlineContainer C.env) (·.inner)) s) (fun s' _ => C.Good s s' ∧
      NoNl C s.start s'.start) :=
  (restInlines_ok h (Q := fun s' => NoNl C s.start s'.start) ((takeUntilEol_good h).mono fun _ _ h =>
    ⟨h.1, h.2.1.noNl', fun i i1 i2 => (h.2.1 i i1 i2).1⟩)).mono fun _ _ h => ⟨h.1, h.2.2.2.1⟩

theorem termLine_lines {s : Span} (h : C.In (k + 1) s) : C.Ok (termLine C.env s) (fun s' _ =>
    C.Good s s' ∧ On C (ColonLine C.inner) s.start s'.start ∧ OneLine C s.start s'.start) := by
  refine Ctx.Ok.bind' (space0_good h) ?_
  rintro s1 _ ⟨hsp1, tk1⟩
  have h1 := h.good hsp1.good
  refine Ctx.Ok.bind' (Q1 := fun s3 _ => C.Good s1 s3 ∧ ∃ j, s1.start ≤ j ∧ s3.start = j + 2 ∧
    NoNl C s1.start s3.start ∧ At C.inner j b!"::")
    (Ctx.Ok.located (Ctx.Ok.terminated
    ((restInlines_ok h1 (Q := fun s' => NoNl C s1.start s'.start) (Ctx.Ok.verify
      ((takeLineUntil1_good h1 _ (patOk_2 _ _ (by decide))).mono
        fun _ _ h _ => ⟨h.1, h.2.1.1.noNl', fun i i1 i2 => (h.2.1.1 i i1 i2).1⟩))).mono ?_))) ?_
  · rintro s2 xs ⟨g2, lt2, hne, hn, ht⟩
    refine (tag_good (h1.good g2) _).mono ?_
    rintro s3 _ ⟨hsp3, hs3, hat⟩
    have g := g2.trans hsp3.good
    exact ⟨g.step, g, s2.start, g2.step.le, hs3, hn.trans (noNl_tag hat (by decide) hs3), hat.2⟩
  rintro s3 term ⟨g3, j, hj, hj2, hn, hat⟩
  have h3 := h1.good g3
  refine Ctx.Ok.bind' (Q1 := fun s4 _ => C.Good s3 s4 ∧ NoNl C s3.start s4.start)
    (Ctx.Ok.opt (Ctx.Ok.located (Ctx.Ok.preceded ((space1_good h3).mono ?_))) ?_) ?_
  · rintro t1 _ ⟨hsp, tk, hlt⟩
    have ht1 := h3.good hsp.good
    refine (lineInlines ht1).mono ?_
    rintro t2 xs ⟨g2, hn2⟩
    have g := hsp.good.trans g2
    exact ⟨g.step, g, (tk.noNl (by decide)).trans hn2⟩
  · intro _
    exact ⟨Ctx.Good.refl h3, noNl_nil⟩
  rintro s4 d ⟨g4, hn4⟩
  have h4 := h3.good g4
  refine Ctx.Ok.bind' (Q1 := fun s6 _ => C.Good s s6 ∧ OneLine C s.start s6.start)
    (Ctx.Ok.pair ((space0_good h4).mono ?_)) ?_
  · rintro s5 _ ⟨hsp5, tk5⟩
    have h5 := h4.good hsp5.good
    refine (endOfLine_full h5).mono ?_
    intro s6 _ he
    exact ⟨(((hsp1.good.trans g3).trans g4).trans hsp5.good).trans he.good, he.oneLine h5
      ((((tk1.noNl (by decide)).trans hn).trans hn4).trans (tk5.noNl (by decide)))⟩
  rintro s6 _ ⟨g6, ho⟩
  refine Ctx.Ok.pure ⟨g6, ho.on (colonLine_of (j := j) (by have := hsp1.good.step.le; omega) ?_ hat), ho⟩
  intro i i1 i2
  exact ((tk1.noNl (by decide)).trans hn) i i1 (by omega)

/-- Blanks and two colons. -/
def ColonsAt (C : Ctx) (q : Nat) : Prop := ∃ j, q ≤ j ∧ Blanks C q j ∧ At C.inner j b!"::"

theorem definitionLine_lines {s : Span} (h : C.In (k + 1) s) : C.Ok (definitionLine C.env s)
    (fun s' _ => C.Good s s' ∧ On C (ColonLine C.inner) s.start s'.start ∧ ColonsAt C s.start ∧
      OneLine C s.start s'.start) := by
  refine Ctx.Ok.located ?_
  refine Ctx.Ok.bind' (space0_good h) ?_
  rintro s1 _ ⟨hsp1, tk1⟩
  have h1 := h.good hsp1.good
  refine Ctx.Ok.bind' (tag_good h1 _) ?_
  rintro s2 _ ⟨hsp2, hs2, hat⟩
  have h2 := h1.good hsp2.good
  refine Ctx.Ok.bind' (space1_good h2) ?_
  rintro s3 _ ⟨hsp3, tk3, _⟩
  have h3 := h2.good hsp3.good
  refine Ctx.Ok.bind' (lineInlines h3) ?_
  rintro s4 xs ⟨g4, hn4⟩
  have h4 := h3.good g4
  refine Ctx.Ok.bind' (endOfLine_full h4) ?_
  intro s5 _ he
  have g := (((hsp1.good.trans hsp2.good).trans hsp3.good).trans g4).trans he.good
  have ho := he.oneLine (a := s.start) h4 ?_
  · exact Ctx.Ok.pure ⟨g.step, g, ho.on (colonLine_of hsp1.good.step.le (tk1.noNl (by decide)) hat.2),
      ⟨s1.start, hsp1.good.step.le, fun i x h1 h2 hx => tk1.all i x h1 h2 hx, hat.2⟩, ho⟩
  exact (((tk1.noNl (by decide)).trans (noNl_tag hat (by decide) hs2)).trans
    (tk3.noNl (by decide))).trans hn4

theorem definitionList_lines {s : Span} (h : C.In (k + 2) s) : C.Ok (definitionList C.env s)
    (fun s' _ => C.Good s s' ∧ On C (ColonLine C.inner) s.start s'.start) := by
  refine Ctx.Ok.located (Ctx.Ok.map ((many1_on (R := ColonLine C.inner) h fun t ht _ => ?_).mono ?_))
  rotate_left
  · rintro s' _ ⟨g, o⟩
    exact ⟨g.step, g, o⟩
  refine (deeper_rule ht (Q := fun t1 r => On C (ColonLine C.inner) t.start t1.start) ?_)
  have ht' : C.In (k + 1) (t.withDepth (t.depth + 1)) := withDepth_in ht
  refine Ctx.Ok.bind' (termLine_lines ht') ?_
  rintro s1 ⟨term, d⟩ ⟨g1, o1, -⟩
  refine Ctx.Ok.bind' (Q1 := fun s2 _ => C.Good s1 s2 ∧ On C (ColonLine C.inner) s1.start s2.start)
    (Ctx.Ok.located (Ctx.Ok.verify ((many0_on (ht'.good g1) fun u hu _ =>
      (definitionLine_lines hu).mono fun _ _ h => ⟨h.1, h.2.1⟩).mono ?_))) ?_
  · rintro s2 _ ⟨g2, o2⟩ _
    exact ⟨g2.step, g2, o2⟩
  rintro s2 _ ⟨g2, o2⟩
  exact Ctx.Ok.pure ⟨g1.trans g2, o1.trans o2⟩

/-! ## Blocks without other blocks -/

theorem BlockRes.whole {s s' : Span} {x : Located Block} (h : BlockRes C s s' x)
    (hx : ∀ p, x.inner ≠ .placeholder p) :
    x.region.offset = s.start ∧ x.region.offset + x.region.len = s'.start := by
  have ho : x.region.offset = s.start := by rw [h.region]
  refine ⟨ho, ?_⟩
  rw [ho]
  rcases h.gap with e | ⟨_, ⟨p, hp⟩, _⟩
  · exact e
  · exact absurd hp (hx p)

theorem mem_self (x : Located Block) : x ∈ Block.allBlocks [x] := by
  obtain ⟨x, r⟩ := x
  simp [Block.allBlocks]

theorem defs_shown {K : Nat → Prop} {E : Nat → Located Block → Prop} (hK : LineKind C K E) {s : Span} (h : C.In (k + 2) s) :
    C.Ok (definitionList C.env s) (Shown C K E s) := by
  refine (((definitionList_ok h).and (definitionList_lines h)).self).mono ?_
  rintro s' x ⟨⟨hb, -, ho⟩, hr⟩
  intro q hq h1 h2
  obtain ⟨xs, hx⟩ := defs_shape hr
  obtain ⟨e1, e2⟩ := hb.whole (by simp [hx])
  exact .inl (.inr (.inl ⟨x, mem_self x, by omega, by omega, ⟨xs, hx⟩, ho q (hK.bol q hq) h1 h2⟩))

theorem arrow_shape {s s' : Span} {x : Located Block} (h : arrowBlockquote s = .ok s' x) :
    ∃ ls, x.inner = .blockquote ls := by
  obtain ⟨h, -⟩ := located_inv h
  obtain ⟨a, -, h⟩ := map_inv h
  exact ⟨_, h⟩

theorem arrow_shown {K : Nat → Prop} {E : Nat → Located Block → Prop} (hK : LineKind C K E) {s : Span} (h : C.In k s)
    (hs : Full C s) : C.Ok (arrowBlockquote s) (Shown C K E s) := by
  refine (((arrowBlockquote_ok h).and (arrow_lines h)).self).mono ?_
  rintro s' x ⟨⟨hb, g, ho⟩, hr⟩ q hq h1 h2
  have := g.step.hi
  obtain ⟨j, hj⟩ := hK.no_quote hs hq (by omega) (ho q (hK.bol q hq) h1 h2)
  obtain ⟨ls, hx⟩ := arrow_shape hr
  obtain ⟨e1, e2⟩ := hb.whole (by simp [hx])
  exact .inr ⟨x, mem_self x, hK.arrow q j hq hj x ls hx (by omega) (by omega)⟩

theorem BarCells.noNl {a b : Nat} {xs : List (Located Cell)} (h : BarCells C.inner a xs b) :
    a ≤ b ∧ NoNl C a b := by
  have one : ∀ {a : Nat}, C.inner[a]? = some c!"|" → NoNl C a (a + 1) := by
    intro a ha i i1 i2 hx
    rw [show i = a by omega, ha] at hx
    exact absurd hx (by decide)
  induction h with
  | nil h => exact ⟨by omega, one h⟩
  | @cons a x xs b h1 h2 h3 h4 h5 h6 h7 ih =>
    refine ⟨by omega, ((one h1).trans ?_).trans ih.2⟩
    intro i i1 i2 hx
    exact h5 (mem_sub.2 ⟨i, by omega, by omega, hx⟩)

theorem BarRows.first {a b : Nat} {rows : List (List (Located Cell))} (h : BarRows C.inner a rows b)
    (hb : b ≤ C.inner.length) : a ≤ b ∧ On C (fun q => ∃ j, FirstByte C q j c!"|") a b := by
  induction h with
  | nil => exact ⟨by omega, .refl⟩
  | @cons a i xs j m rows b h1 h2 h3 h4 h5 h6 ih =>
    obtain ⟨ih1, ih2⟩ := ih hb
    have hbar : C.inner[i]? = some c!"|" := by cases h4 <;> assumption
    obtain ⟨hij, hn⟩ := h4.noNl
    have hbl : Blanks C a i := fun l x l1 l2 hx => isSpace_iff.2 (h2 x (mem_sub.2 ⟨l, l1, l2, hx⟩))
    have hn' : NoNl C a j := by
      refine NoNl.trans (b := i) ?_ hn
      intro l l1 l2 hx
      exact absurd (hbl l 10 l1 l2 hx) (by decide)
    have hj : j ≤ m := by rcases h5 with ⟨h, _⟩ | ⟨h, _⟩ <;> omega
    refine ⟨by omega, On.trans (b := m) (OneLine.on ?_ ⟨i, h1, hbl, hbar, by decide⟩) ih2⟩
    intro l l1 l2 hx
    rcases Nat.lt_or_ge l j with h | h
    · exact hn' l l1 h hx
    rcases h5 with ⟨e, _⟩ | ⟨_, e⟩
    · omega
    have hl : (sub C.inner j m).length = m - j := sub_length _ _ _ (by omega)
    rcases e with e | e
    · rw [e] at hl; simp at hl; omega
    · rw [e] at hl
      simp at hl
      have h0 : (sub C.inner j m)[0]? = some 13 := by rw [e]; rfl
      rw [sub_getElem?] at h0
      simp only [Nat.add_zero] at h0
      rw [if_pos (by omega), show j = l by omega, hx] at h0
      cases h0

theorem BlockRes.table_shown {K : Nat → Prop} {E : Nat → Located Block → Prop} (hK : LineKind C K E) {s s' : Span} (h : C.In k s)
    {x : Located Block} (hb : BlockRes C s s' x) {t : Table} (hx : x.inner = .table t) :
    Shown C K E s s' x := by
  intro q hq h1 h2
  obtain ⟨e1, e2⟩ := hb.whole (by simp [hx])
  have hbl := hb.block
  rw [hx, ← e1, e2] at hbl
  have := hb.good.step.hi
  have := h.wf.hi
  cases hbl with
  | table _ _ hr =>
    obtain ⟨j, hj⟩ := (hr.first (by omega)).2 q (hK.bol q hq) (by omega) h2
    exact .inr ⟨x, mem_self x, hK.bar q j hq hj x _ hx (by omega) (by omega)⟩

theorem table_shown {K : Nat → Prop} {E : Nat → Located Block → Prop} (hK : LineKind C K E) {s : Span} (h : C.In (k + 2) s) :
    C.Ok (table C.env s) (Shown C K E s) := by
  refine ((table_ok h).self).mono ?_
  rintro s' x ⟨hb, hr⟩
  obtain ⟨t, hx⟩ := table_shape hr
  exact hb.table_shown hK h hx

theorem nestedTable_shown {K : Nat → Prop} {E : Nat → Located Block → Prop} (hK : LineKind C K E) {s : Span} (h : C.In (k + 2) s) :
    C.Ok (nestedTable C.env s) (Shown C K E s) := by
  refine ((nestedTable_ok h).self).mono ?_
  rintro s' x ⟨hb, hr⟩
  obtain ⟨a, -, hx⟩ := map_inv hr
  exact hb.table_shown hK h (congrArg Located.inner hx)

theorem FenceStart.brace {op : Str} {s s' : Span} {n e : Nat} (h : FenceStart C (c!"{" :: op) s s' n e) :
    FirstByte C s.start (s.start + n) c!"{" := by
  refine ⟨by omega, h.blanks, ?_, by decide⟩
  have := h.mark.2.getElem? 0 (by simp)
  simpa using this

theorem code_shown {K : Nat → Prop} {E : Nat → Located Block → Prop} (hK : LineKind C K E) {s : Span} (h : C.In k s)
    (hs : Full C s) (hT : InLists C E → s.stop = C.inner.length) :
    C.Ok (codeBlock s) (Shown C K E s) := by
  refine ((codeBlock_full h).self).mono ?_
  rintro s' x ⟨⟨hb, l, m, ls, raw, a, b, n, n', hx, -⟩, hr⟩ q hq h1 h2
  obtain ⟨e1, e2⟩ := hb.whole (by simp [hx])
  rcases Nat.lt_or_ge s.start q with hlt | hlt
  · exact .inl (.inl (.inl ⟨x, mem_self x, ⟨by omega, by omega⟩, .inl ⟨l, m, ls, hx⟩⟩))
  · obtain rfl : q = s.start := by omega
    exact .inr ⟨x, mem_self x, hK.fence k s s' x h hs hT hq (.inl hr) e1⟩

theorem math_shown {K : Nat → Prop} {E : Nat → Located Block → Prop} (hK : LineKind C K E) {s : Span} (h : C.In k s)
    (hs : Full C s) (hT : InLists C E → s.stop = C.inner.length) :
    C.Ok (mathBlock s) (Shown C K E s) := by
  refine ((mathBlock_full h).self).mono ?_
  rintro s' x ⟨⟨hb, ls, en, raw, a, b, n, n', hx, -⟩, hr⟩ q hq h1 h2
  obtain ⟨e1, e2⟩ := hb.whole (by simp [hx])
  rcases Nat.lt_or_ge s.start q with hlt | hlt
  · exact .inl (.inl (.inl ⟨x, mem_self x, ⟨by omega, by omega⟩, .inr ⟨ls, en, hx⟩⟩))
  · obtain rfl : q = s.start := by omega
    exact .inr ⟨x, mem_self x, hK.fence k s s' x h hs hT hq (.inr hr) e1⟩

/-- Lines that begin with another byte are no beginnings of fenced blocks. -/
theorem fence_of_mark {K : Nat → Prop} {E : Nat → Located Block → Prop}
    (hm : ∀ q, K q → ∃ j x, FirstByte C q j x ∧ x ≠ c!"{") :
    ∀ k s s' y, C.In k s → Full C s → (InLists C E → s.stop = C.inner.length) → K s.start →
      codeBlock s = .ok s' y ∨ mathBlock s = .ok s' y → y.region.offset = s.start → E s.start y := by
  intro k s s' y h _ _ hq hr _
  exfalso
  obtain ⟨j, x, hj, hx⟩ := hm _ hq
  rcases hr with hr | hr
  · obtain ⟨hb, l, m, ls, raw, a, b, n, n', hx', -, -, -, -, -, hf⟩ := ok_of_run (codeBlock_full h) hr
    obtain ⟨e, he⟩ := hf.open_
    exact hx (hj.uniq he.brace).2
  · obtain ⟨hb, ls, en, raw, a, b, n, n', hx', -, -, -, -, -, hf⟩ := ok_of_run (mathBlock_full h) hr
    obtain ⟨e, he⟩ := hf.open_
    exact hx (hj.uniq he.brace).2

/-- Kinds of lines that begin with another byte than fences. -/
theorem LineKind.unfenced {K : Nat → Prop} {E : Nat → Located Block → Prop} (hb : ∀ q, K q → Bol C q)
    (hm : ∀ q, K q → ∃ j x, FirstByte C q j x ∧ x ≠ 10 ∧ x ≠ 13 ∧ x ≠ c!"{")
    (h1 : ∀ q j, K q → FirstByte C q j c!"|" → ∀ y t, y.inner = .table t → y.region.offset ≤ q →
      q < y.region.offset + y.region.len → E q y)
    (h2 : ∀ q j, K q → FirstByte C q j c!">" → ∀ y ls, y.inner = .blockquote ls →
      y.region.offset ≤ q → q < y.region.offset + y.region.len → E q y)
    (h3 : ∀ q it, K q → ItemAt C q it → ∀ y items, y.inner = .list items →
      (∃ it' ∈ items, it'.region = it.region) → E q y)
    (h4 : ∀ k s list, C.In (k + 2) s → Full C s → s.start < s.stop → K s.start →
      IsList C list s → ∀ s' u, continueParagraphOf C.env list s ≠ .ok s' u) : LineKind C K E :=
  ⟨hb, fun q hq => by
      obtain ⟨j, x, h1, h2, h3, -⟩ := hm q hq
      exact ⟨j, x, h1, h2, h3⟩,
    fence_of_mark fun q hq => by
      obtain ⟨j, x, h1, h2, h3, h4⟩ := hm q hq
      exact ⟨j, x, h1, h4⟩,
    h1, h2, h3, .inl fun k s list a b _ c d => h4 k s list a b c d⟩

/-! ## Paragraphs -/

/-- All lines of the kind are inside comments of the elements. -/
def InComments (K : Nat → Prop) (a b : Nat) (is : List (Located Inline)) : Prop :=
  ∀ q, K q → a ≤ q → q < b → ∃ y ∈ is, y.region.Inside q ∧ ∃ ls, y.inner = .comment (.multi ls)

theorem paragraphRow_shown {K : Nat → Prop} {E : Nat → Located Block → Prop} (hK : LineBase C K E) {s : Span} (h : C.In (k + 2) s)
    {list : P (Located Block)} (hl : C.Ok (list s) (BlockRes C s))
    (hp : s.start < s.stop → K s.start → ∀ s' u, continueParagraphOf C.env list s ≠ .ok s' u) :
    C.Ok (delimited (continueParagraphOf C.env list) (paragraphLine C.env) endOfLineOrInput s)
      (fun s' xs => C.Good s s' ∧ s.start < s'.start ∧
        InComments K s.start s'.start (Inline.all xs)) := by
  refine Ctx.Ok.delimited (((continueParagraph_ok h hl).self).mono ?_)
  rintro s' u ⟨e, hrun⟩
  rw [e]
  refine Ctx.Ok.bind' (space0_good h) ?_
  rintro s1 _ ⟨hsp1, tk1⟩
  have h1 : C.In (k + 1) s1 := (h.good hsp1.good).mono (by omega)
  refine Ctx.Ok.map ((inlineContainer_ok h1).mono ?_)
  rintro s2 x ⟨hc, _⟩
  have h2 := h1.good hc.good
  refine (endOfLine_full h2).mono ?_
  intro s3 _ he
  have g := hsp1.good.trans hc.good
  have l1 := hsp1.good.step.le
  have l2 := hc.lt
  have l3 := he.good.step.le
  have l4 := (g.trans he.good).step.hi
  refine ⟨g.trans he.good, by omega, ?_⟩
  intro q hq q1 q2
  rcases Nat.eq_or_lt_of_le q1 with q1 | q1
  · rw [← q1] at hq
    exact absurd hrun (hp (by omega) hq s' u)
  have hnl : C.inner[q - 1]? = some 10 := by
    rcases hK.bol q hq with h | h
    · omega
    · exact h
  rcases Nat.lt_or_ge (q - 1) s1.start with a1 | a1
  · exact absurd hnl (tk1.noNl (by decide) (q - 1) (by omega) a1)
  rcases Nat.lt_or_ge (q - 1) s2.start with a2 | a2
  · have := hc.tile.nl a1 a2 hnl
    rw [show q - 1 + 1 = q by omega] at this
    exact this
  · exact absurd hnl (he.oneLine h2 noNl_nil (q - 1) a2 (by omega))

/-- Lines that do not go on with the paragraph are inside of comments. -/
theorem paragraphOf_comments {K : Nat → Prop} {E : Nat → Located Block → Prop} (hK : LineBase C K E) {s : Span} (h : C.In (k + 2) s)
    {list : P (Located Block)}
    (hl : ∀ t, C.In (k + 2) t → t.stop - t.start ≤ s.stop - s.start → C.Ok (list t) (BlockRes C t))
    (hp : ∀ t, C.In (k + 2) t → Step s t → t.start < t.stop → K t.start →
      ∀ s' u, continueParagraphOf C.env list t ≠ .ok s' u) :
    C.Ok (paragraphOf C.env list s) (Shown C K E s) := by
  refine Ctx.Ok.located (Ctx.Ok.map ((Ctx.Ok.many1 (I := fun t => C.In (k + 2) t ∧ Step s t)
    (T := fun t rows t' => InComments K t.start t'.start (rows.flatMap Inline.all))
    ?_ ?_ ⟨h, Step.refl h.wf.le⟩).mono ?_))
  · rintro t ⟨ht, hst⟩
    have h1 := hst.le
    have h2 := hst.stop
    refine (paragraphRow_shown hK ht (hl t ht (by omega)) (hp t ht hst)).mono ?_
    rintro t1 xs ⟨g, lt, hx⟩
    refine ⟨g.step, lt, ⟨ht.good g, hst.trans g.step⟩, ?_⟩
    intro as t2 hT q hq q1 q2
    rcases Nat.lt_or_ge q t1.start with h | h
    · obtain ⟨y, hy, h⟩ := hx q hq q1 h
      exact ⟨y, by simp [hy], h⟩
    · obtain ⟨y, hy, h⟩ := hT q hq h q2
      exact ⟨y, by rw [List.flatMap_cons]; exact List.mem_append_right _ hy, h⟩
  · intro t _ _ q _ q1 q2
    omega
  · rintro s' rows ⟨st, lt, _, _, hT, hne⟩
    refine ⟨st, ?_⟩
    intro q hq q1 q2
    obtain ⟨y, hy, h⟩ := hT q hq q1 q2
    refine .inl (.inl (.inr ⟨y, ?_, h⟩))
    simpa [Block.allInlines, Block.inlines] using hy

theorem paragraphOf_shown {K : Nat → Prop} {E : Nat → Located Block → Prop} (hK : LineKind C K E) {s : Span} (h : C.In (k + 2) s)
    (hs : Full C s) (hT : InLists C E → s.stop = C.inner.length) {list : P (Located Block)}
    (hl : ∀ t, C.In (k + 2) t → t.stop - t.start ≤ s.stop - s.start →
      C.Ok (list t) (BlockRes C t) ∧ IsList C list t) :
    C.Ok (paragraphOf C.env list s) (Shown C K E s) := by
  rcases hK.para with hp | hp
  rotate_left
  · refine (((paragraphOf_ok h fun t a b => (hl t a b).1).self).mono ?_)
    rintro s' x ⟨hb, hrun⟩ q hq q1 q2
    obtain ⟨rows, hr⟩ : ∃ rows, x.inner = .paragraph rows := by
      obtain ⟨rows, -, hm⟩ := map_inv (located_inv hrun).1
      exact ⟨rows, hm⟩
    obtain ⟨e1, e2⟩ := hb.whole (by simp [hr])
    exact .inr ⟨_, mem_self x, hp q x rows hq hr (by omega) (by omega)⟩
  refine paragraphOf_comments hK.base h (fun t ht hle => (hl t ht hle).1) ?_
  intro t ht hst a b
  have h1 := hst.le
  have h2 := hst.stop
  have hft : Full C t := by unfold Full; rw [h2]; exact hs
  exact hp k t list ht hft (by rw [h2]; exact hT) a b (hl t ht (by omega)).2

/-! ## Lists -/

/-- What is known of nested blocks on short enough spans. -/
def NestedShown (C : Ctx) (K : Nat → Prop) (E : Nat → Located Block → Prop) (nested : P (Located Block)) (n : Nat) : Prop :=
  ∀ k t, C.In (k + 2) t → Full C t → t.stop - t.start < n → C.Ok (nested t) (Shown C K E t)

theorem allBlocks_cons (x : Located Block) (xs : List (Located Block)) :
    Block.allBlocks (x :: xs) = Block.allBlocks [x] ++ Block.allBlocks xs := by
  obtain ⟨x, r⟩ := x
  simp [Block.allBlocks]

theorem allInlines_cons (x : Located Block) (xs : List (Located Block)) :
    Block.allInlines (x :: xs) = Block.allInlines [x] ++ Block.allInlines xs := by
  obtain ⟨x, r⟩ := x
  simp [Block.allInlines]

theorem todoText_noNl (t : Option Todo) : 10 ∉ todoText t := by
  cases t with
  | none => simp [todoText]
  | some t => cases t <;> decide

theorem noNl_sub {a b : Nat} {w : Str} (h : sub C.inner a b = w) (hw : 10 ∉ w) : NoNl C a b :=
  fun i i1 i2 hx => hw (h ▸ mem_sub.2 ⟨i, i1, i2, hx⟩)

theorem listItemTail_shown {K : Nat → Prop} {E : Nat → Located Block → Prop} (hK : LineBase C K E) {s : Span} {n : Nat}
    (h : C.In (k + 3) s) (hs : Full C s) {nested : P (Located Block)} (hn : NestedOk C nested n)
    (hN : NestedShown C K E nested n) (hsn : s.stop - s.start < n) (ind : Nat) :
    C.Ok (listItemTailOf nested ind s) (fun s' r => ∀ q, K q → s.start < q → q < s'.start →
      Hd C E (Block.allBlocks r.2) (Block.allInlines r.2) q) := by
  have nest : ∀ t, C.In (k + 3) t → Step s t →
      C.Ok (Scan.deeper nested t) (fun t' x => C.Good t t' ∧ Shown C K E t t' x) := by
    intro t ht hst
    have h1 := hst.le
    have h2 := hst.stop
    have ht' : C.In (k + 2) (t.withDepth (t.depth + 1)) := withDepth_in (k := k + 2) ht
    have hlt : (t.withDepth (t.depth + 1)).stop - (t.withDepth (t.depth + 1)).start < n := by
      show t.stop - t.start < n; omega
    refine deeper_rule (ht.mono (j := k + 2 + 1) (by omega)) ?_
    refine ((hn k _ ht' hlt).and (hN k _ ht' ?_ hlt)).mono ?_
    · show Full C t
      unfold Full; rw [h2]; exact hs
    · rintro t' x ⟨hb, hx⟩
      exact ⟨hb.good, hx⟩
  refine Ctx.Ok.bind' (Q1 := fun s' t => C.Good s s' ∧ sub C.inner s.start s'.start = todoText t)
    (Ctx.Ok.opt ((todoStatus_ok h).mono fun _ _ h => h)
      fun _ => ⟨Ctx.Good.refl h, by rw [sub_self]; rfl⟩) ?_
  rintro s1 todo ⟨g1, e1⟩
  have h1 := h.good g1
  refine Ctx.Ok.bind' (nest s1 h1 g1.step) ?_
  rintro s2 x ⟨g2, hx⟩
  have h2 := h1.good g2
  refine Ctx.Ok.bind' (Ctx.Ok.many0 (I := fun t => C.In (k + 3) t ∧ Step s t)
    (T := fun t xs t' => ∀ q, K q → t.start ≤ q → q < t'.start →
      Hd C E (Block.allBlocks xs) (Block.allInlines xs) q) ?_ ?_
    ⟨h2, (g1.trans g2).step⟩ h2.wf.le) ?_
  · rintro t ⟨ht, hst⟩
    refine Ctx.Ok.preceded ((indentVerify_ok ht _).mono ?_)
    intro t0 _ e
    rw [e]
    refine (nest t ht hst).mono ?_
    rintro t1 y ⟨gt1, hy⟩
    refine ⟨gt1.step, fun _ => ⟨⟨ht.good gt1, hst.trans gt1.step⟩, ?_⟩⟩
    intro as t2 hT q hq q1 q2
    rw [allBlocks_cons, allInlines_cons]
    rcases Nat.lt_or_ge q t1.start with h | h
    · exact (hy q hq q1 h).mono (by simp +contextual) (by simp +contextual)
    · exact (hT q hq h q2).mono (by simp +contextual) (by simp +contextual)
  · intro t _ _ q _ q1 q2
    omega
  rintro s3 xs ⟨_, _, _, hT⟩
  refine Ctx.Ok.pure ?_
  intro q hq q1 q2
  show Hd C E (Block.allBlocks (x :: xs)) (Block.allInlines (x :: xs)) q
  rw [allBlocks_cons, allInlines_cons]
  have hnl : C.inner[q - 1]? = some 10 := by
    rcases hK.bol q hq with h | h
    · omega
    · exact h
  rcases Nat.lt_or_ge (q - 1) s1.start with a1 | a1
  · exact absurd hnl (noNl_sub e1 (todoText_noNl _) (q - 1) (by omega) a1)
  rcases Nat.lt_or_ge q s2.start with h | h
  · exact (hx q hq (by omega) h).mono (by simp +contextual) (by simp +contextual)
  · exact (hT q hq h q2).mono (by simp +contextual) (by simp +contextual)

theorem listItemOf_shown {K : Nat → Prop} {E : Nat → Located Block → Prop} (hK : LineBase C K E) {s : Span} {n : Nat}
    (h : C.In (k + 1) s) (hs : Full C s) {nested : P (Located Block)} (hn : NestedOk C nested n)
    (hN : NestedShown C K E nested n) (hsn : s.stop - s.start < n + 2) :
    C.Ok (listItemOf nested s) (fun s' r => ∀ q, K q → s.start ≤ q → q < s'.start →
      Hd C E (Block.allBlocks r.2.inner.contents) (Block.allInlines r.2.inner.contents) q ∨
        ItemAt C q r.2) := by
  refine bol_rule h fun _ => ?_
  refine Ctx.Ok.bind' (Q1 := fun s1 _ => C.Good s s1 ∧ Took C isSpace s s1)
    (Ctx.Ok.map ((space0_good h).mono fun _ _ h => ⟨h.1.good, h.2⟩)) ?_
  rintro s1 ind ⟨g1, tk1⟩
  have h1 := h.good g1
  have l1 := g1.step.le
  have st1 := g1.step.stop
  have hil := itemLines_ok h1 ind
  simp only
  cases hrun : itemLines ind s1 with
  | err => trivial
  | panic r => rw [hrun] at hil; exact hil
  | diverge => rw [hrun] at hil; exact hil
  | ok s2 o =>
    rw [hrun] at hil
    obtain ⟨g2, he2, ho⟩ := hil
    simp only
    have hsub : Sub s1 o := by
      rw [ho]; exact ⟨rfl, rfl, Nat.le_refl _, g2.step.le, g2.step.hi⟩
    have hoin : C.In (k + 1) o := h1.sub hsub (by rw [ho]; exact h1.bs) (by rw [ho]; exact g2.b)
    have hio := hsub.hi
    have hos : o.start = s1.start := by rw [ho]
    have hmid := hsub.mid
    have hfo : Full C o := by
      unfold Full
      rw [show o.stop = s2.start by rw [ho]]
      rcases he2 with e | e
      · rw [e, st1]; exact hs
      · exact .inr e
    have hitem : C.Ok (located (P.map (P.pair listItemPrefix (listItemTailOf nested ind))
          (fun ((ty, suffix), (todo, contents)) =>
            (⟨ty, suffix, 0, contents, todo⟩ : ListItem))) o) (fun o' x => C.Good o o' ∧
        ∀ q, K q → s.start ≤ q → q < o'.start → Hd C E
          (Block.allBlocks x.inner.contents) (Block.allInlines x.inner.contents) q ∨ ItemAt C q x) := by
      refine Ctx.Ok.located (Ctx.Ok.map (Ctx.Ok.pair ((listItemPrefix_ok hoin).self.mono ?_)))
      rintro o1 ⟨ty, suffix⟩ ⟨⟨go1, lto1⟩, hpre⟩
      have ho1 : C.In (k + 3) o1 := (hoin.good_lt go1 (by omega)).mono (by omega)
      have hst := go1.step.stop
      have hle1 := ho1.wf.le
      have hf1 : Full C o1 := by unfold Full; rw [hst]; exact hfo
      refine ((listItemTail_ok ho1 hn (by omega) ind).and
        (listItemTail_shown hK ho1 hf1 hn hN (by omega) ind)).mono ?_
      rintro o2 ⟨todo, cs⟩ ⟨⟨go2, -⟩, hsh⟩
      obtain ⟨w, r, er, eo, hw⟩ := listItemPrefix_inv
        (In.sub_view hoin go1.step.le go1.step.hi) hpre
      have ew : sub C.inner o.start o1.start = w := by
        refine (List.append_inj er ?_).1
        rw [sub_length _ _ _ (by have := hoin.wf.hi; have := go1.step.hi; omega), eo]
        simp
      refine ⟨(go1.trans go2).step, go1.trans go2, ?_⟩
      intro q hq q1 q2
      have hat : At C.inner s1.start w := by
        rw [at_iff_sub, ← hos]
        rw [show o.start + w.length = o1.start by rw [eo]; rfl]
        exact ew
      rcases Nat.eq_or_lt_of_le q1 with q1 | q1
      · refine .inr ⟨?_, ?_, ty, suffix, w, hw, ?_⟩
        · show q ≤ o.start; omega
        · show Blanks C q o.start
          rw [← q1, hos]; exact tk1.all
        · show At C.inner o.start w
          rw [hos]; exact hat
      have hnl : C.inner[q - 1]? = some 10 := by
        rcases hK.bol q hq with h | h
        · omega
        · exact h
      rcases Nat.lt_or_ge (q - 1) s1.start with a1 | a1
      · exact absurd hnl (tk1.noNl (by decide) (q - 1) (by omega) a1)
      rcases Nat.lt_or_ge (q - 1) o1.start with a2 | a2
      · exact absurd hnl (noNl_sub ew hw.no10 (q - 1) (by omega) a2)
      · exact .inl (hsh q hq (by omega) q2)
    cases hrun2 : located (P.map (P.pair listItemPrefix (listItemTailOf nested ind))
          (fun ((ty, suffix), (todo, contents)) =>
            (⟨ty, suffix, 0, contents, todo⟩ : ListItem))) o with
    | err => trivial
    | panic r => rw [hrun2] at hitem; exact hitem
    | diverge => rw [hrun2] at hitem; exact hitem
    | ok o' x =>
      rw [hrun2] at hitem
      obtain ⟨go, hsh⟩ := hitem
      simp only
      have hle := go.step.le
      rw [if_neg (by omega)]
      have hhi := go.step.hi
      have hadv : s1.advanceStartBy (o'.start - s1.start) = { s1 with start := o'.start } := by
        unfold Span.advanceStartBy
        rw [if_neg (by omega)]
        congr 1
        omega
      rw [hadv]
      exact hsh

theorem itemBlocks_same {f : Located (ItemF Block) → Located (ItemF Block)}
    (hf : ∀ x, (f x).inner.contents = x.inner.contents) (xs : List (Located (ItemF Block))) :
    Block.itemBlocks (xs.map f) = Block.itemBlocks xs ∧
      Block.itemInlines (xs.map f) = Block.itemInlines xs := by
  have c1 : ∀ (y : Located (ItemF Block)) ys, Block.itemBlocks (y :: ys) =
      Block.allBlocks y.inner.contents ++ Block.itemBlocks ys := by
    rintro ⟨⟨_, _, _, _, _⟩, _⟩ ys; simp [Block.itemBlocks]
  have c2 : ∀ (y : Located (ItemF Block)) ys, Block.itemInlines (y :: ys) =
      Block.allInlines y.inner.contents ++ Block.itemInlines ys := by
    rintro ⟨⟨_, _, _, _, _⟩, _⟩ ys; simp [Block.itemInlines]
  induction xs with
  | nil => exact ⟨rfl, rfl⟩
  | cons x xs ih => simp only [List.map_cons, c1, c2, hf, ih.1, ih.2, and_self]

theorem itemBlocks_cons (y : Located (ItemF Block)) (ys : List (Located (ItemF Block))) :
    Block.itemBlocks (y :: ys) = Block.allBlocks y.inner.contents ++ Block.itemBlocks ys := by
  obtain ⟨⟨_, _, _, _, _⟩, _⟩ := y; simp [Block.itemBlocks]

theorem itemInlines_cons (y : Located (ItemF Block)) (ys : List (Located (ItemF Block))) :
    Block.itemInlines (y :: ys) = Block.allInlines y.inner.contents ++ Block.itemInlines ys := by
  obtain ⟨⟨_, _, _, _, _⟩, _⟩ := y; simp [Block.itemInlines]

theorem itemBlocks_assign (i : Nat) (xs : List (Located ListItem)) :
    Block.itemBlocks (assignPos i xs) = Block.itemBlocks xs ∧
      Block.itemInlines (assignPos i xs) = Block.itemInlines xs := by
  induction xs generalizing i with
  | nil => exact ⟨rfl, rfl⟩
  | cons x xs ih =>
    simp only [assignPos, itemBlocks_cons, itemInlines_cons, (ih (i + 1)).1, (ih (i + 1)).2, and_self]

theorem itemBlocks_normalize (xs : List (Located ListItem)) :
    Block.itemBlocks (normalizeItems xs) = Block.itemBlocks xs ∧
      Block.itemInlines (normalizeItems xs) = Block.itemInlines xs := by
  cases xs with
  | nil => exact ⟨rfl, rfl⟩
  | cons x xs =>
    have := itemBlocks_same (f := fun y => ⟨{ y.inner with ty := x.inner.ty }, y.region⟩)
      (fun _ => rfl) xs
    simp only [normalizeItems, itemBlocks_cons, itemInlines_cons]
    exact ⟨by rw [this.1], by rw [this.2]⟩

theorem assignPos_regions (i : Nat) (xs : List (Located ListItem)) :
    (assignPos i xs).map (·.region) = xs.map (·.region) := by
  induction xs generalizing i with
  | nil => rfl
  | cons x xs ih => simp [assignPos, ih]

theorem normalizeItems_regions (xs : List (Located ListItem)) :
    (normalizeItems xs).map (·.region) = xs.map (·.region) := by
  cases xs with
  | nil => rfl
  | cons x xs => simp [normalizeItems, Function.comp_def]

theorem numbered_regions {it x : Located ListItem} {xs : List (Located ListItem)} (h : it ∈ x :: xs) :
    ∃ it' ∈ normalizeItems (x :: assignPos 1 xs), it'.region = it.region := by
  have : it.region ∈ (normalizeItems (x :: assignPos 1 xs)).map (·.region) := by
    rw [normalizeItems_regions, List.map_cons, assignPos_regions, ← List.map_cons]
    exact List.mem_map_of_mem h
  obtain ⟨y, hy, e⟩ := List.mem_map.1 this
  exact ⟨y, hy, e⟩

theorem listOf_shown {K : Nat → Prop} {E : Nat → Located Block → Prop} (hK : LineBase C K E) {s : Span} {n : Nat}
    (h : C.In (k + 2) s) (hs : Full C s) {nested : P (Located Block)} (hn : NestedOk C nested n)
    (hN : NestedShown C K E nested n) (hsn : s.stop - s.start < n + 2) :
    C.Ok (listOf nested s) (Shown C K E s) := by
  have item : ∀ t, C.In (k + 2) t → Step s t → C.Ok (Scan.deeper (listItemOf nested) t)
      (fun t' r => C.Good t t' ∧ ∀ q, K q → t.start ≤ q → q < t'.start →
        Hd C E (Block.allBlocks r.2.inner.contents)
          (Block.allInlines r.2.inner.contents) q ∨ ItemAt C q r.2) := by
    intro t ht hst
    have h1 := hst.le
    have h2 := hst.stop
    have ht' : C.In (k + 1) (t.withDepth (t.depth + 1)) := withDepth_in ht
    have hlt : (t.withDepth (t.depth + 1)).stop - (t.withDepth (t.depth + 1)).start < n + 2 := by
      show t.stop - t.start < n + 2; omega
    refine deeper_rule ht (((listItemOf_ok ht' hn hlt).and
      (listItemOf_shown hK ht' ?_ hn hN hlt)).mono ?_)
    · show Full C t
      unfold Full; rw [h2]; exact hs
    · rintro t' r ⟨hb, hx⟩
      exact ⟨hb.good, hx⟩
  refine Ctx.Ok.located ?_
  refine Ctx.Ok.bind' (item s h (Step.refl h.wf.le)) ?_
  rintro s1 ⟨ind, x⟩ ⟨g1, hx⟩
  have h1 := h.good g1
  refine Ctx.Ok.bind' (Ctx.Ok.many0 (I := fun t => C.In (k + 2) t ∧ Step s t)
    (T := fun t xs t' => ∀ q, K q → t.start ≤ q → q < t'.start →
      Hd C E (Block.itemBlocks xs) (Block.itemInlines xs) q ∨ ∃ it ∈ xs, ItemAt C q it) ?_ ?_
    ⟨h1, g1.step⟩ h1.wf.le) ?_
  · rintro t ⟨ht, hst⟩
    refine Ctx.Ok.preceded ((indentVerify_ok ht _).mono ?_)
    intro t0 _ e
    rw [e]
    refine Ctx.Ok.map ((item t ht hst).mono ?_)
    rintro t1 r ⟨gt1, hr⟩
    refine ⟨gt1.step, fun _ => ⟨⟨ht.good gt1, hst.trans gt1.step⟩, ?_⟩⟩
    intro as t2 hT q hq q1 q2
    rw [itemBlocks_cons, itemInlines_cons]
    rcases Nat.lt_or_ge q t1.start with h | h
    · rcases hr q hq q1 h with h | h
      · exact .inl (h.mono (by simp +contextual) (by simp +contextual))
      · exact .inr ⟨_, List.mem_cons_self, h⟩
    · rcases hT q hq h q2 with h | ⟨it, hi, h⟩
      · exact .inl (h.mono (by simp +contextual) (by simp +contextual))
      · exact .inr ⟨it, List.mem_cons_of_mem _ hi, h⟩
  · intro t _ _ q _ q1 q2
    omega
  rintro s2 xs ⟨st2, _, _, hT⟩
  refine Ctx.Ok.pure ⟨g1.step.trans st2, ?_⟩
  intro q hq q1 q2
  obtain ⟨n1, n2⟩ := itemBlocks_normalize (x :: assignPos 1 xs)
  obtain ⟨a1, a2⟩ := itemBlocks_assign 1 xs
  rw [itemBlocks_cons, a1] at n1
  rw [itemInlines_cons, a2] at n2
  have key : Hd C E (Block.allBlocks x.inner.contents ++ Block.itemBlocks xs)
      (Block.allInlines x.inner.contents ++ Block.itemInlines xs) q ∨ ∃ it ∈ x :: xs, ItemAt C q it := by
    rcases Nat.lt_or_ge q s1.start with h | h
    · rcases hx q hq q1 h with h | h
      · exact .inl (h.mono (by simp +contextual) (by simp +contextual))
      · exact .inr ⟨_, List.mem_cons_self, h⟩
    · rcases hT q hq h q2 with h | ⟨it, hi, h⟩
      · exact .inl (h.mono (by simp +contextual) (by simp +contextual))
      · exact .inr ⟨it, List.mem_cons_of_mem _ hi, h⟩
  rcases key with key | ⟨it, hi, h⟩
  rotate_left
  · exact .inr ⟨_, mem_self _, hK.item q it hq h _ _ rfl (numbered_regions hi)⟩
  refine key.mono ?_ ?_
  · intro y hy
    simp only [Block.allBlocks, Block.inside, n1, List.append_nil, List.mem_cons]
    exact .inr hy
  · intro y hy
    simp only [Block.allInlines, Block.inlines, n2, List.append_nil]
    exact hy

theorem nestedOf_shown {K : Nat → Prop} {E : Nat → Located Block → Prop} (hK : LineKind C K E) {t : Span} (ht : C.In (k + 2) t)
    (hs : Full C t) (hT : ¬ InLists C E) {list : P (Located Block)}
    (hl : ∀ u, C.In (k + 2) u → u.stop - u.start ≤ t.stop - t.start →
      C.Ok (list u) (BlockRes C u) ∧ IsList C list u) (hL : C.Ok (list t) (Shown C K E t)) :
    C.Ok (nestedOf C.env list t) (Shown C K E t) := by
  refine Ctx.Ok.alts ?_
  intro p hp
  simp only [List.mem_cons, List.not_mem_nil, or_false] at hp
  rcases hp with rfl | rfl | rfl | rfl | rfl | rfl | rfl
  · exact defs_shown hK ht
  · exact hL
  · exact nestedTable_shown hK ht
  · exact code_shown hK ht hs fun h => absurd h hT
  · exact math_shown hK ht hs fun h => absurd h hT
  · exact arrow_shown hK ht hs
  · exact paragraphOf_shown hK ht hs (fun h => absurd h hT) hl

theorem nestedF_shown {K : Nat → Prop} {E : Nat → Located Block → Prop} (hK : LineKind C K E)
    (hT : ¬ InLists C E) (n : Nat) :
    NestedShown C K E (nestedF C.env n) n := by
  induction n with
  | zero => intro k t _ _ hn; omega
  | succ n ih =>
    intro k t ht hs hn
    exact nestedOf_shown hK ht hs hT (fun u hu hut => ⟨listOf_ok hu (nestedF_ok n) (by omega), n, by omega, rfl⟩)
      (listOf_shown hK.base ht hs (nestedF_ok n) ih (by omega))

theorem restOfLine_one {s : Span} (h : C.In k s) :
    C.Ok (restOfLine s) (fun s' _ => C.Good s s' ∧ OneLine C s.start s'.start) := by
  refine Ctx.Ok.bind' (takeUntilEol_good h) ?_
  rintro s1 o ⟨hsp, hcl, -⟩
  have h1 := h.good hsp.good
  refine Ctx.Ok.bind' (endOfLine_full h1) ?_
  intro s2 _ he
  exact Ctx.Ok.pure ⟨hsp.good.trans he.good, he.oneLine h1 fun i i1 i2 => (hcl i i1 i2).1⟩

theorem itemLines_deep {s : Span} (h : C.In k s) (ind : Nat) :
    C.Ok (itemLines ind s) (fun s' _ => On C (fun q => q = s.start ∨ Indented C q) s.start s'.start) := by
  refine Ctx.Ok.recognize ((pair_on (R := fun q => q = s.start ∨ Indented C q) h
    ((restOfLine_one h).mono fun s1 _ h1 => ⟨h1.1, h1.2.on (.inl rfl)⟩) ?_).mono ?_)
  · intro t ht _
    refine many0_on ht fun u hu _ => ?_
    refine Ctx.Ok.preceded (Ctx.Ok.mono (Q := fun u' _ => u' = u ∧ Indented C u.start) ?_ ?_)
    · refine Ctx.Ok.verify (Ctx.Ok.map (Ctx.Ok.peek ((space0_good hu).mono ?_)))
      rintro u1 o ⟨hsp, tk⟩ hv
      refine ⟨rfl, ?_⟩
      have := of_decide_eq_true hv
      rw [remainingLen_eq, hsp.out] at this
      simp only at this
      obtain ⟨b, hb⟩ := Wf_get hu.wf (i := u.start) (by have := hsp.good.step.hi; omega)
      exact ⟨b, hb, tk.all u.start b (Nat.le_refl _) (by omega) hb⟩
    · rintro u' _ ⟨rfl, hd⟩
      exact (restOfLine_one hu).mono fun s1 _ h1 => ⟨h1.1, h1.2.on (.inr hd)⟩
  · rintro s' _ ⟨g, o⟩
    exact ⟨g.step, o⟩

theorem listItemOf_deep {s : Span} {n : Nat}
    (h : C.In (k + 1) s) {nested : P (Located Block)} (hn : NestedOk C nested n)
    (hsn : s.stop - s.start < n + 2) :
    C.Ok (listItemOf nested s) (fun s' r =>
      On C (fun q => Indented C q ∨ ItemAt C q r.2) s.start s'.start) := by
  refine bol_rule h fun _ => ?_
  refine Ctx.Ok.bind' (Q1 := fun s1 _ => C.Good s s1 ∧ Took C isSpace s s1)
    (Ctx.Ok.map ((space0_good h).mono fun _ _ h => ⟨h.1.good, h.2⟩)) ?_
  rintro s1 ind ⟨g1, tk1⟩
  have h1 := h.good g1
  have l1 := g1.step.le
  have st1 := g1.step.stop
  have hil := (itemLines_ok h1 ind).and (itemLines_deep h1 ind)
  simp only
  cases hrun : itemLines ind s1 with
  | err => trivial
  | panic r => rw [hrun] at hil; exact hil
  | diverge => rw [hrun] at hil; exact hil
  | ok s2 o =>
    rw [hrun] at hil
    obtain ⟨⟨g2, he2, ho⟩, hon⟩ := hil
    simp only
    have hsub : Sub s1 o := by
      rw [ho]; exact ⟨rfl, rfl, Nat.le_refl _, g2.step.le, g2.step.hi⟩
    have hoin : C.In (k + 1) o := h1.sub hsub (by rw [ho]; exact h1.bs) (by rw [ho]; exact g2.b)
    have hio := hsub.hi
    have hos : o.start = s1.start := by rw [ho]
    have hstop : o.stop = s2.start := by rw [ho]
    have hmid := hsub.mid
    have hitem : C.Ok (located (P.map (P.pair listItemPrefix (listItemTailOf nested ind))
          (fun ((ty, suffix), (todo, contents)) =>
            (⟨ty, suffix, 0, contents, todo⟩ : ListItem))) o) (fun o' x => C.Good o o' ∧
        On C (fun q => Indented C q ∨ ItemAt C q x) s.start o'.start) := by
      refine Ctx.Ok.located (Ctx.Ok.map (Ctx.Ok.pair ((listItemPrefix_ok hoin).self.mono ?_)))
      rintro o1 ⟨ty, suffix⟩ ⟨⟨go1, lto1⟩, hpre⟩
      have ho1 : C.In (k + 3) o1 := (hoin.good_lt go1 (by omega)).mono (by omega)
      have hst := go1.step.stop
      have hle1 := ho1.wf.le
      refine (listItemTail_ok ho1 hn (by omega) ind).mono ?_
      rintro o2 ⟨todo, cs⟩ ⟨go2, -⟩
      obtain ⟨w, r, er, eo, hw⟩ := listItemPrefix_inv
        (In.sub_view hoin go1.step.le go1.step.hi) hpre
      have ew : sub C.inner o.start o1.start = w := by
        refine (List.append_inj er ?_).1
        rw [sub_length _ _ _ (by have := hoin.wf.hi; have := go1.step.hi; omega), eo]
        simp
      refine ⟨(go1.trans go2).step, go1.trans go2, ?_⟩
      intro q hq q1 q2
      have hat : At C.inner s1.start w := by
        rw [at_iff_sub, ← hos]
        rw [show o.start + w.length = o1.start by rw [eo]; rfl]
        exact ew
      rcases Nat.eq_or_lt_of_le q1 with q1 | q1
      · refine .inr ⟨?_, ?_, ty, suffix, w, hw, ?_⟩
        · show q ≤ o.start; omega
        · show Blanks C q o.start
          rw [← q1, hos]; exact tk1.all
        · show At C.inner o.start w
          rw [hos]; exact hat
      have hnl : C.inner[q - 1]? = some 10 := by
        rcases hq with h | h
        · omega
        · exact h
      rcases Nat.lt_or_ge (q - 1) s1.start with a1 | a1
      · exact absurd hnl (tk1.noNl (by decide) (q - 1) (by omega) a1)
      have e2 := (go1.trans go2).step.hi
      have e3 : q < o2.start := q2
      rcases hon q hq (by omega) (by omega) with e | e
      · omega
      · exact .inl e
    cases hrun2 : located (P.map (P.pair listItemPrefix (listItemTailOf nested ind))
          (fun ((ty, suffix), (todo, contents)) =>
            (⟨ty, suffix, 0, contents, todo⟩ : ListItem))) o with
    | err => trivial
    | panic r => rw [hrun2] at hitem; exact hitem
    | diverge => rw [hrun2] at hitem; exact hitem
    | ok o' x =>
      rw [hrun2] at hitem
      obtain ⟨go, hsh⟩ := hitem
      simp only
      have hle := go.step.le
      rw [if_neg (by omega)]
      have hhi := go.step.hi
      have hadv : s1.advanceStartBy (o'.start - s1.start) = { s1 with start := o'.start } := by
        unfold Span.advanceStartBy
        rw [if_neg (by omega)]
        congr 1
        omega
      rw [hadv]
      exact hsh

/-- Every line of a list begins an item or is indented. -/
theorem listOf_deep {s : Span} {n : Nat} (h : C.In (k + 2) s) {nested : P (Located Block)}
    (hn : NestedOk C nested n) (hsn : s.stop - s.start < n + 2) :
    C.Ok (listOf nested s) (fun s' x => ∃ items, x.inner = .list items ∧
      On C (fun q => Indented C q ∨ ∃ it, ItemAt C q it ∧ ∃ it' ∈ items, it'.region = it.region)
        s.start s'.start) := by
  have item : ∀ t, C.In (k + 2) t → Step s t → C.Ok (Scan.deeper (listItemOf nested) t)
      (fun t' r => C.Good t t' ∧ On C (fun q => Indented C q ∨ ItemAt C q r.2) t.start t'.start) := by
    intro t ht hst
    have h1 := hst.le
    have h2 := hst.stop
    have ht' : C.In (k + 1) (t.withDepth (t.depth + 1)) := withDepth_in ht
    have hlt : (t.withDepth (t.depth + 1)).stop - (t.withDepth (t.depth + 1)).start < n + 2 := by
      show t.stop - t.start < n + 2; omega
    refine deeper_rule ht (((listItemOf_ok ht' hn hlt).and (listItemOf_deep ht' hn hlt)).mono ?_)
    rintro t' r ⟨hb, hx⟩
    exact ⟨hb.good, hx⟩
  refine Ctx.Ok.located ?_
  refine Ctx.Ok.bind' (item s h (Step.refl h.wf.le)) ?_
  rintro s1 ⟨ind, x⟩ ⟨g1, hx⟩
  have h1 := h.good g1
  refine Ctx.Ok.bind' (Ctx.Ok.many0 (I := fun t => C.In (k + 2) t ∧ Step s t)
    (T := fun t xs t' => On C (fun q => Indented C q ∨ ∃ it ∈ xs, ItemAt C q it) t.start t'.start) ?_ ?_
    ⟨h1, g1.step⟩ h1.wf.le) ?_
  · rintro t ⟨ht, hst⟩
    refine Ctx.Ok.preceded ((indentVerify_ok ht _).mono ?_)
    intro t0 _ e
    rw [e]
    refine Ctx.Ok.map ((item t ht hst).mono ?_)
    rintro t1 r ⟨gt1, hr⟩
    refine ⟨gt1.step, fun _ => ⟨⟨ht.good gt1, hst.trans gt1.step⟩, ?_⟩⟩
    intro as t2 hT q hq q1 q2
    rcases Nat.lt_or_ge q t1.start with h | h
    · rcases hr q hq q1 h with h | h
      · exact .inl h
      · exact .inr ⟨_, List.mem_cons_self, h⟩
    · rcases hT q hq h q2 with h | ⟨it, hi, h⟩
      · exact .inl h
      · exact .inr ⟨it, List.mem_cons_of_mem _ hi, h⟩
  · intro t _ _ q _ q1 q2
    omega
  rintro s2 xs ⟨st2, _, _, hT⟩
  refine Ctx.Ok.pure ⟨g1.step.trans st2, _, rfl, ?_⟩
  intro q hq q1 q2
  rcases Nat.lt_or_ge q s1.start with h | h
  · rcases hx q hq q1 h with h | h
    · exact .inl h
    · exact .inr ⟨x, h, numbered_regions List.mem_cons_self⟩
  · rcases hT q hq h q2 with h | ⟨it, hi, h⟩
    · exact .inl h
    · exact .inr ⟨it, h, numbered_regions (List.mem_cons_of_mem _ hi)⟩

theorem list_shown {K : Nat → Prop} {E : Nat → Located Block → Prop} (hK : LineKind C K E) {s : Span} (h : C.In (k + 2) s)
    (hs : Full C s) : C.Ok (list C.env s) (Shown C K E s) := by
  by_cases hT : InLists C E
  · refine ((list_ok h).and (listOf_deep h (nestedF_ok _) (by rw [remainingLen_eq]; omega))).mono ?_
    rintro s' x ⟨hb, items, hx, hon⟩ q hq h1 h2
    obtain ⟨e1, e2⟩ := hb.whole (by simp [hx])
    rcases hon q (hK.bol q hq) h1 h2 with hd | ⟨it, hi, hr⟩
    · exact .inr ⟨x, mem_self x, hT q x items hx (by omega) (by omega) hd⟩
    · exact .inr ⟨x, mem_self x, hK.item q it hq hi x items hx hr⟩
  · exact listOf_shown hK.base h hs (nestedF_ok _) (nestedF_shown hK hT _) (by rw [remainingLen_eq]; omega)

theorem paragraph_shown {K : Nat → Prop} {E : Nat → Located Block → Prop} (hK : LineKind C K E) {s : Span} (h : C.In (k + 2) s)
    (hs : Full C s) (hT : InLists C E → s.stop = C.inner.length) :
    C.Ok (paragraph C.env s) (Shown C K E s) :=
  paragraphOf_shown hK h hs hT fun t ht _ => ⟨list_ok ht, t.remainingLen, by rw [remainingLen_eq]; omega, rfl⟩

end Vw
