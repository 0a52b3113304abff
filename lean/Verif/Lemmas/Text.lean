import Verif.Lemmas.Links
import Verif.Lemmas.TextStop

/-!
# Facts about decorated text, text and inline elements
-/

namespace Vw
open P Scan

variable {C : Ctx} {k : Nat}

theorem peek_char_head {α} {f : Byte → Bool} {p : P α} {s : Span} (h : C.Wf k s)
    {Q : Span → α → Prop}
    (hp : ∀ b, s.start < s.stop → C.inner[s.start]? = some b → f b = true → C.Ok (p s) Q) :
    C.Ok (P.preceded (P.peek (satisfy f)) p s) Q := by
  refine Ctx.Ok.preceded (Ctx.Ok.peek ((satisfy_ok h f).mono ?_))
  rintro _ b ⟨_, h1, h2, h3⟩
  exact hp b h1 h2 h3

theorem Ctx.Wf.in_of_lt {s : Span} (h : C.Wf k s) (be : C.B s.stop) {b : Byte}
    (hb : C.inner[s.start]? = some b) (hlt : b < 128) : C.In k s :=
  ⟨h, Ctx.B_of_lt hb hlt, be⟩

/-- Where the contents of a decoration stop in any text. -/
def Halts (C : Ctx) (e b : Nat) : Prop :=
  e = b ∨ LineEndAt C.inner b e ∨
    ∃ n x, 0 < n ∧ e + n ≤ b ∧ Payload C e (e + n) x ∧ (x.Outside ∨ ∃ c, x = .comment c)

theorem Halts.stuck {a b e : Nat} (h : Halts C e b) (ha : a ≤ e) (hb : b ≤ C.inner.length)
    (hnl : 10 ∉ sub C.inner a b) (hco : ¬ b!"%%" <:+: sub C.inner a b) : Stuck C e b := by
  have inf : ∀ n, e + n ≤ b → sub C.inner e (e + n) <:+: sub C.inner a b := by
    intro n hn
    refine ⟨sub C.inner a e, sub C.inner (e + n) b, ?_⟩
    rw [List.append_assoc, sub_append _ e (e + n) b (by omega) hn, sub_append _ a e b ha (by omega)]
  rcases h with h | h | ⟨n, x, hn, hle, hp, h | ⟨c, rfl⟩⟩
  · exact .inl h
  · exfalso
    rcases h with ⟨h1, h2⟩ | ⟨h1, h2, h3⟩
    · exact hnl (mem_sub.2 ⟨e, ha, h1, h2⟩)
    · exact hnl (mem_sub.2 ⟨e + 1, by omega, h1, h3⟩)
  · exact .inr ⟨n, x, hn, hle, hp, h⟩
  · exfalso
    have hi := inf n hle
    apply hco
    cases c with
    | line t =>
      rw [hp.1] at hi
      exact List.IsInfix.trans ⟨[], t, by simp⟩ hi
    | multi ls =>
      obtain ⟨body, he, -⟩ := hp
      rw [he] at hi
      exact List.IsInfix.trans ⟨[], [43] ++ body ++ b!"+%%", by simp⟩ hi

/-- The hypothesis on the contents of decorated text. -/
def ContentsOk (C : Ctx) (k bound : Nat) (contents : P Inlines) : Prop :=
  ∀ o, C.In k o → o.stop - o.start < bound →
    C.Ok (contents o) (fun o' ys => C.Good o o' ∧ ys ≠ [] ∧ Tile C o.depth o.start ys o'.start ∧
      Halts C o'.start o.stop)

theorem withDepth_in {s : Span} (h : C.In (k + 1) s) : C.In k (s.withDepth (s.depth + 1)) := by
  refine ⟨⟨h.wf.inner, h.wf.le, h.wf.hi, ?_⟩, h.bs, h.be⟩
  have := h.wf.depth
  show s.depth + 1 + (s.stop - s.start) + k ≤ C.D
  omega

theorem decorated1_ok {s : Span} (h : C.In k s) {contents : P Inlines} (kind : Deco)
    (hc : ContentsOk C k (s.stop - s.start) contents) :
    C.Ok (located (decorated1 contents kind kind.delim) s) (Elem C s) := by
  have hL : 0 < kind.delim.length := by cases kind <;> decide
  refine Ctx.Ok.located (Ctx.Ok.map (Ctx.Ok.mapParser ((surround_notContains h _ _
    (by cases kind <;> decide) (by cases kind <;> decide) (by cases kind <;> decide)
    (by cases kind <;> decide)).mono ?_)))
  rintro s' o ⟨hsu, hbr⟩
  have ho := (hsu.in h).mono (show k + 1 ≤ k + kind.delim.length by omega)
  have h1 := hsu.ostart
  have h2 := hsu.sub.hi
  have h3 := hsu.nonempty
  have h4 := hsu.send
  have h5 := hsu.right.1
  refine Ctx.Ok.deeper ho.wf ?_
  refine (hc _ (withDepth_in ho) ?_).mono ?_
  · show o.stop - o.start < _; omega
  rintro o' ys ⟨g, hne, ht, hh⟩
  refine ⟨g.step.depth, hsu.good.step, hsu.good, hsu.lt, ?_, trivial⟩
  have e : s.start + (s'.start - s.start) = s'.start := by have := hsu.lt; omega
  have hhi : o'.start ≤ o.stop := g.step.hi
  have := h.wf.hi
  refine .deco (e := o'.start) (by have := hsu.lt; omega) h.bs (by rw [e]; exact hsu.good.b)
    (by omega) (by rw [e]; exact ⟨_, hbr⟩) hne (by omega) ?_ ?_ ?_
  · rw [e, show s'.start - kind.delim.length = o.stop by omega]
    have hsub : o.stop ≤ s.stop := hsu.sub.hi
    exact (show Halts C o'.start o.stop from hh).stuck (a := o.start) g.step.le (by omega) hbr.noNl hbr.noComment
  · have hd := hsu.sub.depth
    have : Tile C (o.depth + 1) o.start ys o'.start := ht
    rw [hd, h1] at this
    exact this
  · rw [e]; exact .nil

theorem located_alt {α} {p q : P α} {s : Span} {Q : Span → Located α → Prop}
    (hp : C.Ok (located p s) Q) (hq : C.Ok (located q s) Q) : C.Ok (located (P.alt p q) s) Q := by
  unfold located P.alt at *
  cases h : p s <;> simp_all

theorem decoratedOf_ok {s : Span} (h : C.In k s) {contents : P Inlines}
    (hc : ContentsOk C k (s.stop - s.start) contents) :
    C.Ok (decoratedOf contents s) (Elem C s) := by
  unfold decoratedOf
  exact located_alt (decorated1_ok h .bold hc) (located_alt (decorated1_ok h .italic hc)
    (located_alt (decorated1_ok h .strikeout hc) (located_alt (decorated1_ok h .superscript hc)
      (decorated1_ok h .subscript hc))))

/-! ## Text -/

theorem backtrackLen_facts (l : Str) :
    backtrackLen l ≤ l.length ∧
    (∀ i, l.length - backtrackLen l ≤ i → i < l.length → ∀ b, l[i]? = some b → isAsciiWs b = false) ∧
    (backtrackLen l = l.length ∨ ∃ b, l[l.length - backtrackLen l - 1]? = some b ∧
      isAsciiWs b = true ∧ backtrackLen l < l.length) := by
  obtain ⟨h1, h2, h3⟩ := takeWhile_facts (fun c => !isAsciiWs c) l.reverse
  rw [List.length_reverse] at h1
  unfold backtrackLen
  generalize (l.reverse.takeWhile (fun c => !isAsciiWs c)).length = n at h1 h2 h3
  refine ⟨h1, ?_, ?_⟩
  · intro i i1 i2 b hb
    have := h2 (l.length - 1 - i) b (by omega) ?_
    · simpa using this
    · rw [List.getElem?_reverse (by omega), show l.length - 1 - (l.length - 1 - i) = i by omega]
      exact hb
  rcases Nat.lt_or_ge n l.length with h | h
  · right
    have hlt : l.length - n - 1 < l.length := by omega
    refine ⟨l[l.length - n - 1], List.getElem?_eq_getElem hlt, ?_, h⟩
    have := h3 l[l.length - n - 1] ?_
    · simpa using this
    · rw [List.getElem?_reverse (by omega), show l.length - 1 - n = l.length - n - 1 by omega]
      exact List.getElem?_eq_getElem hlt
  · left; omega

/-- The start of the span after going back for a raw link. -/
theorem backtrack_eq {s : Span} (h : C.Wf k s) :
    ∃ p, s.backtrackStartBy (backtrackLen s.asConsumed) = { s with start := p } ∧
      p ≤ s.start ∧ C.B p ∧ C.WordFrom p ∧
      ∀ i, p ≤ i → i < s.start → ∀ b, C.inner[i]? = some b → isAsciiWs b = false := by
  obtain ⟨h1, hno, h2⟩ := backtrackLen_facts s.asConsumed
  have hl : s.asConsumed.length = s.start := by
    have := h.le; have := h.hi
    unfold Span.asConsumed
    rw [List.length_take, h.inner]; omega
  rw [hl] at h1 h2 hno
  have hc : ∀ i, i < s.start → s.asConsumed[i]? = C.inner[i]? := by
    intro i hi
    rw [← h.inner]
    show (List.take s.start s.inner)[_]? = _
    rw [List.getElem?_take, if_pos hi]
  refine ⟨s.start - backtrackLen s.asConsumed, ?_, by omega, ?_, ?_, ?_⟩
  · unfold Span.backtrackStartBy
    rw [if_neg (by omega)]
  · rcases h2 with h2 | ⟨b, hb, hws, hlt⟩
    · rw [h2, Nat.sub_self]
      exact fun hu => hu.zero
    · have hb' : C.inner[s.start - backtrackLen s.asConsumed - 1]? = some b := by
        rw [← h.inner, ← hb]
        show _ = (List.take s.start s.inner)[_]?
        rw [List.getElem?_take, if_pos (by omega)]
      have := Ctx.B_succ (C := C) hb' (isAsciiWs_lt hws)
      rw [show s.start - backtrackLen s.asConsumed - 1 + 1
        = s.start - backtrackLen s.asConsumed by omega] at this
      exact this
  · rcases h2 with h2 | ⟨b, hb, hws, hlt⟩
    · exact .inl (by omega)
    · exact .inr ⟨b, by rw [← hc _ (by omega)]; exact hb, hws⟩
  · intro i i1 i2 b hb
    exact hno i i1 i2 b (by rw [hc i i2]; exact hb)

/-- What `non_text` finds: either an element at the start, or a raw link which
starts earlier. -/
structure NonText (C : Ctx) (s : Span) (x : Located Inline) : Prop where
  le : x.region.offset ≤ s.start
  b : C.B x.region.offset
  lt : s.start < s.stop
  colon : x.region.offset < s.start → (C.WordFrom x.region.offset ∧ C.RawFrom x.region.offset ∧
      C.inner[s.start]? = some c!":" ∧
      ∀ i, x.region.offset ≤ i → i < s.start → ∀ b, C.inner[i]? = some b → isAsciiWs b = false) ∧
    ∃ s' y, rawLink C.env { s with start := x.region.offset } = .ok s' y

theorem nonTextOf_ok {s : Span} (h : C.Wf k s) (be : C.B s.stop) {deco : P (Located Inline)}
    (hd : C.In k s → C.Ok (deco s) (Elem C s)) :
    C.Ok (nonTextOf C.env deco s) (fun _ x => NonText C s x) := by
  have lift : ∀ {p : P (Located Inline)} (b : Byte), s.start < s.stop → C.inner[s.start]? = some b →
      b < 128 → (C.In k s → C.Ok (p s) (Elem C s)) → C.Ok (p s) (fun _ x => NonText C s x) := by
    intro p b hlt hb hb128 hp
    have hin := h.in_of_lt be hb hb128
    refine (hp hin).mono ?_
    intro s' x hx
    have ho := hx.offset
    exact ⟨by omega, by rw [ho]; exact hin.bs, hlt, by omega⟩
  have one : ∀ (c : Byte) {b : Byte}, (b == c) = true → c < 128 → b < 128 := by
    intro c b hb hc
    have : b = c := by simpa using hb
    omega
  unfold nonTextOf
  refine Ctx.Ok.alts_cons ?_ (Ctx.Ok.alts_cons ?_ (Ctx.Ok.alts_cons ?_ (Ctx.Ok.alts_cons ?_
    (Ctx.Ok.alts_cons ?_ (Ctx.Ok.alts_cons ?_ (Ctx.Ok.alts_cons ?_ (Ctx.Ok.alts_cons ?_
    Ctx.Ok.alts_nil)))))))
  · exact peek_char_head h fun b h1 h2 h3 => lift b h1 h2 (one _ h3 (by decide)) comment_ok
  · exact peek_char_head h fun b h1 h2 h3 => lift b h1 h2 (one _ h3 (by decide)) codeInline_ok
  · exact peek_char_head h fun b h1 h2 h3 => lift b h1 h2 (one _ h3 (by decide)) mathInline_ok
  · exact peek_char_head h fun b h1 h2 h3 => lift b h1 h2 (one _ h3 (by decide)) tags_ok
  · refine Ctx.Ok.preceded (Ctx.Ok.peek (Ctx.Ok.alt ((satisfy_ok h _).mono ?_)
      fun _ => (satisfy_ok h _).mono ?_))
    · rintro _ b ⟨_, h1, h2, h3⟩
      exact lift b h1 h2 (one _ h3 (by decide)) link_ok
    · rintro _ b ⟨_, h1, h2, h3⟩
      exact lift b h1 h2 (one _ h3 (by decide)) link_ok
  · refine peek_char_head h fun b h1 h2 h3 => lift b h1 h2 ?_ hd
    simp at h3
    omega
  · -- keyword
    by_cases hb : ∃ b, s.start < s.stop ∧ C.inner[s.start]? = some b ∧ b < 128
    · obtain ⟨b, h1, h2, h3⟩ := hb
      exact lift b h1 h2 h3 keyword_ok
    · have tagErr : ∀ w : Keyword, tag w.bytes s = .err := by
        intro w
        have := tag_wf h w.bytes (by cases w <;> decide)
        unfold tag at this ⊢
        split
        · rename_i hp
          rw [if_pos hp] at this
          obtain ⟨_, _, ha⟩ := this
          exfalso
          apply hb
          have hl : 0 < w.bytes.length := by cases w <;> decide
          have h0 := ha.2.getElem? 0 hl
          rw [Nat.add_zero] at h0
          have := ha.1
          rw [List.getElem?_eq_getElem hl] at h0
          refine ⟨_, by omega, h0, ?_⟩
          clear hb this ha h0 hp
          cases w <;> simp [Keyword.bytes]
        · rfl
      have kerr : keyword s = .err := by
        have e := tagErr .done
        have e1 := tagErr .fixed
        have e2 := tagErr .fixme
        have e3 := tagErr .started
        have e4 := tagErr .todo
        have e5 := tagErr .xxx
        simp only [Keyword.bytes] at e e1 e2 e3 e4 e5
        simp [keyword, located, P.alts, P.alt, P.value, P.map, e, e1, e2, e3, e4, e5]
      rw [kerr]
      simp [Ctx.Ok]
  · refine peek_char_head h fun b h1 h2 h3 => ?_
    obtain ⟨p, he, hp, hB, hword, hno⟩ := backtrack_eq h
    unfold rawLinkBack
    rw [he]
    refine (rawLink_anyDepth (s := { s with start := p }) h.inner
      (by have := h.le; simp only; omega) h.hi hB be).self.mono ?_
    rintro s' x ⟨⟨ho, hraw⟩, hr⟩
    simp only at ho hraw
    have : b = 58 := by simpa using h3
    subst this
    exact ⟨by omega, by rw [ho]; exact hB, h1, fun _ => ⟨by rw [ho]; exact ⟨hword, hraw, h2, hno⟩,
      s', x, by rw [ho]; exact hr⟩⟩

theorem atLineEnd_iff {s : Span} (h : C.Wf k s) :
    atLineEnd s.asRemaining = true ↔ LineEndAt C.inner s.stop s.start := by
  have e0 := h.getElem? 0
  have e1 := h.getElem? 1
  rw [Nat.add_zero] at e0
  unfold LineEndAt
  constructor
  · intro ha
    unfold atLineEnd at ha
    split at ha
    · rename_i hr
      rw [hr] at e0
      simp at e0
      exact .inl ⟨e0.1, e0.2.symm⟩
    · rename_i hr
      rw [hr] at e0 e1
      simp at e0 e1
      exact .inr ⟨e1.1, e0.2.symm, e1.2.symm⟩
    · cases ha
  · rintro (⟨hl, hb⟩ | ⟨hl, hb, hb'⟩)
    · rw [if_pos hl, hb] at e0
      cases hr : s.asRemaining with
      | nil => rw [hr] at e0; cases e0
      | cons x xs => rw [hr] at e0; simp at e0; subst e0; simp [atLineEnd]
    · rw [if_pos (by omega), hb] at e0
      rw [if_pos (by omega), hb'] at e1
      cases hr : s.asRemaining with
      | nil => rw [hr] at e0; cases e0
      | cons x xs =>
        rw [hr] at e0 e1
        simp at e0
        subst e0
        cases xs with
        | nil => simp at e1
        | cons y ys => simp at e1; subst e1; simp [atLineEnd]

/-- Result of the loop of `text`, started at `s0` and now at `s`. -/
structure TextRes (C : Ctx) (nonText : P (Located Inline)) (s0 : Span) (len : Nat) : Prop where
  le : s0.start + len ≤ s0.stop
  b : C.B (s0.start + len)
  noNl : ∀ i, s0.start ≤ i → i < s0.start + len → C.inner[i]? ≠ some 10
  quiet : ∀ i, s0.start ≤ i → i < s0.start + len → nonText { s0 with start := i } = .err
  zero : len = 0 → s0.start = s0.stop ∨ LineEndAt C.inner s0.stop s0.start ∨
    (∃ s' x, nonText s0 = .ok s' x ∧ x.region.offset = s0.start) ∨
    ∃ s' x, rawLink C.env s0 = .ok s' x

theorem textLoop_ok {nonText : P (Located Inline)} {s0 : Span} (h0 : C.In k s0)
    (hnt : ∀ s, C.Wf k s → Step s0 s → C.Ok (nonText s) (fun _ x => NonText C s x))
    (n : Nat) (s : Span) (len : Nat) (hst : Step s0 s) (hlen : s.start = s0.start + len)
    (hnl : ∀ i, s0.start ≤ i → i < s.start → C.inner[i]? ≠ some 10)
    (hqt : ∀ i, s0.start ≤ i → i < s.start → nonText { s0 with start := i } = .err)
    (hn : s.stop - s.start < n) :
    C.Ok (textLoop nonText n s len) (fun _ l => TextRes C nonText s0 l) := by
  induction n generalizing s len with
  | zero => omega
  | succ n ih =>
    have hw := h0.wf.step hst
    have hstop := hst.stop
    have hle := hw.le
    have hself : len = 0 → s = s0 := fun hz => hst.eq_of_start (by omega)
    unfold textLoop
    rw [remainingLen_eq]
    split
    · rename_i hpos
      split
      · rename_i hae
        have hae := (atLineEnd_iff hw).1 hae
        obtain ⟨b, hb, hlt⟩ := hae.byte
        refine ⟨by omega, ?_, ?_, ?_, ?_⟩
        · rw [← hlen]; exact Ctx.B_of_lt hb hlt
        · intro i i1 i2; exact hnl i i1 (by omega)
        · intro i i1 i2; exact hqt i i1 (by omega)
        · intro hz
          have := hself hz
          subst this
          exact .inr (.inl hae)
      · rename_i hae
        have hae : ¬ LineEndAt C.inner s.stop s.start := fun h => hae ((atLineEnd_iff hw).2 h)
        have hN := hnt s hw hst
        cases hr : nonText s with
        | ok s' x =>
          rw [hr] at hN
          simp only [Ctx.Ok] at hN
          simp only
          split
          · rename_i hoff
            split
            · obtain ⟨c1, c2, c3, c4⟩ := (hN.colon hoff).1
              exact ⟨_, _, c1, c2, hoff, c3, c4⟩
            · rename_i hlenge
              have e : s0.start + (len - (s.start - x.region.offset)) = x.region.offset := by omega
              refine ⟨by omega, by rw [e]; exact hN.b, ?_, ?_, ?_⟩
              · intro i i1 i2; exact hnl i i1 (by omega)
              · intro i i1 i2; exact hqt i i1 (by omega)
              · intro hz
                obtain ⟨_, s'', y, hraw⟩ := hN.colon hoff
                have e2 : ({ s with start := x.region.offset } : Span) = s0 := by
                  have h1 := hst.inner
                  have h2 := hst.depth
                  have h3 : x.region.offset = s0.start := by omega
                  cases s; cases s0; simp_all
                rw [e2] at hraw
                exact .inr (.inr (.inr ⟨s'', y, hraw⟩))
          · rename_i hoff
            have hoe : x.region.offset = s.start := by have := hN.le; omega
            refine ⟨by omega, ?_, ?_, ?_, ?_⟩
            · rw [← hlen, ← hoe]; exact hN.b
            · intro i i1 i2; exact hnl i i1 (by omega)
            · intro i i1 i2; exact hqt i i1 (by omega)
            · intro hz
              have := hself hz
              subst this
              exact .inr (.inr (.inl ⟨s', x, hr, hoe⟩))
        | err =>
          simp only
          have ea : s.advanceStartBy 1 = { s with start := s.start + 1 } := by
            unfold Span.advanceStartBy
            rw [if_neg (by omega)]
          rw [ea]
          have st1 : Step s { s with start := s.start + 1 } :=
            ⟨rfl, rfl, rfl, by simp, by simp; omega⟩
          refine ih _ (len + 1) (hst.trans st1) (by simp only; omega) ?_ ?_
            (by simp only; omega)
          · intro i i1 i2
            simp only at i2
            rcases Nat.lt_or_ge i s.start with h' | h'
            · exact hnl i i1 h'
            · have : i = s.start := by omega
              subst this
              intro hb
              exact hae (.inl ⟨by omega, hb⟩)
          · intro i i1 i2
            simp only at i2
            rcases Nat.lt_or_ge i s.start with h' | h'
            · exact hqt i i1 h'
            · have : i = s.start := by omega
              subst this
              have e2 : ({ s0 with start := s.start } : Span) = s := by
                have h1 := hst.inner
                have h2 := hst.depth
                cases s; cases s0; simp_all
              rw [e2]
              exact hr
        | panic r => rw [hr] at hN; exact hN
        | diverge => rw [hr] at hN; exact hN
    · rename_i hz
      refine ⟨by omega, ?_, ?_, ?_, ?_⟩
      · rw [← hlen, show s.start = s0.stop by omega]; exact h0.be
      · intro i i1 i2; exact hnl i i1 (by omega)
      · intro i i1 i2; exact hqt i i1 (by omega)
      · intro hz; left; omega

theorem textRun_ok {deco : P (Located Inline)} {s : Span} (h : C.In k s)
    (hd : ∀ t, C.In k t → Step s t → C.Ok (deco t) (Elem C t)) :
    C.Ok (textLoop (nonTextOf C.env deco) (s.remainingLen + 1) s 0)
      (fun _ l => TextRes C (nonTextOf C.env deco) s l) := by
  refine textLoop_ok h ?_ _ s 0 (Step.refl h.wf.le) (by omega) ?_ ?_
    (by rw [remainingLen_eq]; omega)
  · intro t ht hst
    exact nonTextOf_ok ht (by rw [hst.stop]; exact h.be) fun hin => hd t hin hst
  · intro i i1 i2; omega
  · intro i i1 i2; omega

theorem textOf_ok {deco : P (Located Inline)} {s : Span} (h : C.In k s)
    (hd : ∀ t, C.In k t → Step s t → C.Ok (deco t) (Elem C t))
    (hde : ∀ t, Step s t → ∃ n, t.stop - t.start ≤ n ∧ deco t = decoratedOf (decoContentsF C.env n) t) :
    C.Ok (textOf C.env deco s) (Elem C s) := by
  refine located_leaf h ?_
  have hr := textRun_ok h hd
  cases hl : textLoop (nonTextOf C.env deco) (s.remainingLen + 1) s 0 with
  | ok s' len =>
    rw [hl] at hr
    simp only [Ctx.Ok] at hr
    simp only
    split
    · rename_i hpos
      have hle := hr.le
      have ea : s.advanceStartBy len = { s with start := s.start + len } := by
        unfold Span.advanceStartBy
        rw [if_neg (by omega)]
      have ew : (s.withLength len).asRemaining = sub C.inner s.start (s.start + len) := by
        unfold Span.withLength
        rw [remainingLen_eq]
        split
        · rw [asRemaining_eq, h.wf.inner]
        · rw [h.wf.rem, show s.stop = s.start + len by omega]
      rw [ea, ew]
      refine ⟨⟨⟨rfl, rfl, rfl, by simp, hle⟩, hr.b⟩, by simp only; omega, ⟨rfl, ?_⟩,
        s.stop, s.depth, k, deco, Nat.le_refl _, ?_, h.be, ?_⟩
      rotate_left
      · have := h.wf
        rw [← h.wf.inner]
        exact this
      · intro i i1 i2
        have h1 := hr.quiet i i1 i2
        have h2 := hde { s with start := i } ⟨rfl, rfl, rfl, i1, by simp only at i2 ⊢; omega⟩
        rw [h.wf.inner] at h1 h2
        exact ⟨h1, h2⟩
      intro hm
      obtain ⟨i, i1, i2, i3⟩ := mem_sub.1 hm
      exact hr.noNl i i1 i2 i3
    · simp [Ctx.Ok]
  | err => simp [Ctx.Ok]
  | panic r => rw [hl] at hr; exact hr
  | diverge => rw [hl] at hr; exact hr

theorem preceded_peek_ok {α β} {q : P β} {p : P α} {s s' : Span} {x : α}
    (h : P.preceded (P.peek q) p s = .ok s' x) : p s = .ok s' x := by
  unfold P.preceded P.bind P.peek at h
  cases hq : q s <;> rw [hq] at h <;> simp at h
  exact h

/-- `text` only fails at the end of the input or of a line, or before another element. -/
theorem textOf_err {deco : P (Located Inline)} {s : Span} (h : C.In k s)
    (hd : ∀ t, C.In k t → Step s t → C.Ok (deco t) (Elem C t)) (eraw : rawLink C.env s = .err)
    (e8 : textOf C.env deco s = .err) :
    s.start = s.stop ∨ LineEndAt C.inner s.stop s.start ∨ ∃ s' x, comment s = .ok s' x ∨
      codeInline s = .ok s' x ∨ mathInline s = .ok s' x ∨ tags s = .ok s' x ∨
      link C.env s = .ok s' x ∨ deco s = .ok s' x ∨ keyword s = .ok s' x := by
  unfold textOf at e8
  have e8 := located_err e8
  have hr := textRun_ok h hd
  cases hl : textLoop (nonTextOf C.env deco) (s.remainingLen + 1) s 0 with
  | ok s' len =>
    rw [hl] at e8 hr
    simp only at e8
    split at e8
    · cases e8
    · rename_i hz
      have hr : TextRes C _ s len := hr
      rcases hr.zero (by omega) with hz | hz | ⟨t, x, hz, ho⟩ | ⟨t, x, hz⟩
      · exact .inl hz
      · exact .inr (.inl hz)
      · refine .inr (.inr ⟨t, x, ?_⟩)
        obtain ⟨p, hp, hps⟩ := alts_ok hz
        simp only [List.mem_cons, List.not_mem_nil, or_false] at hp
        rcases hp with rfl | rfl | rfl | rfl | rfl | rfl | rfl | rfl
        · simp [preceded_peek_ok hps]
        · simp [preceded_peek_ok hps]
        · simp [preceded_peek_ok hps]
        · simp [preceded_peek_ok hps]
        · simp [preceded_peek_ok hps]
        · simp [preceded_peek_ok hps]
        · simp [hps]
        · exfalso
          have hps := preceded_peek_ok hps
          unfold rawLinkBack at hps
          obtain ⟨p, hpe, hple, hB, -, -⟩ := backtrack_eq h.wf
          rw [hpe] at hps
          have := rawLink_anyDepth (C := C) (s := { s with start := p }) h.wf.inner
            (by have := h.wf.le; simp only; omega) h.wf.hi hB h.be
          rw [hps] at this
          have : x.region.offset = p := this.1
          have e : ({ s with start := p } : Span) = s := by
            rw [← this, ho]
          rw [e, eraw] at hps
          cases hps
      · rw [eraw] at hz; cases hz
  | err =>
    exfalso
    have : ∀ (nt : P (Located Inline)) n t l, textLoop nt n t l ≠ .err := by
      intro nt n
      induction n with
      | zero => intro t l hh; simp [textLoop] at hh
      | succ n ih =>
        intro t l hh
        unfold textLoop at hh
        split at hh
        · split at hh
          · cases hh
          · split at hh
            · split at hh
              · split at hh <;> cases hh
              · cases hh
            · cases hh
            · cases hh
            · exact ih _ _ hh
        · cases hh
    exact this _ _ _ _ hl
  | panic r => rw [hl] at e8; cases e8
  | diverge => rw [hl] at e8; cases e8

theorem kind_of_located {α} {p : P α} {f : α → Inline} {s s' : Span} {x : Located Inline}
    (h : located (P.map p f) s = .ok s' x) : ∃ a, x.inner = f a := by
  unfold located P.map at h
  cases hp : p s with
  | ok s1 a =>
    rw [hp] at h
    simp only at h
    split at h
    · cases h
    · cases h; exact ⟨a, rfl⟩
  | _ => rw [hp] at h; cases h

theorem bind_some {α β} {p : P α} {f : α → P β} {s s' : Span} {b : β} (h : P.bind p f s = .ok s' b) :
    ∃ s1 a, f a s1 = .ok s' b := by
  unfold P.bind at h
  cases hp : p s with
  | ok s1 a => rw [hp] at h; exact ⟨s1, a, h⟩
  | _ => rw [hp] at h; cases h

theorem located_some {p : P Inline} {s s' : Span} {x : Located Inline} (h : located p s = .ok s' x) :
    p s = .ok s' x.inner := by
  unfold located at h
  cases hp : p s with
  | ok s1 a =>
    rw [hp] at h
    simp only at h
    split at h
    · cases h
    · cases h; rfl
  | _ => rw [hp] at h; cases h

theorem comment_kind {s s' : Span} {x : Located Inline} (h : comment s = .ok s' x) :
    ∃ c, x.inner = .comment c := by
  unfold comment P.alt at h
  cases hm : multiLineComment s with
  | err =>
    rw [hm] at h
    obtain ⟨_, _, h⟩ := bind_some (located_some h)
    unfold P.map at h
    split at h
    · simp only [Res.ok.injEq] at h; exact ⟨_, h.2.symm⟩
    all_goals cases h
  | ok s1 a =>
    rw [hm] at h
    cases h
    obtain ⟨_, _, h⟩ := bind_some (located_some hm)
    obtain ⟨_, _, h⟩ := bind_some h
    obtain ⟨_, _, h⟩ := bind_some h
    simp only [P.pure, Res.ok.injEq] at h
    exact ⟨_, h.2.symm⟩
  | _ => rw [hm] at h; cases h

/-- An element that was read is what its kind looks like in the text. -/
theorem Elem.payload {s s' : Span} {x : Located Inline} (h : Elem C s s' x)
    (hx : ∀ k ys, x.inner ≠ .decorated k ys) :
    ∃ n, 0 < n ∧ s.start + n ≤ s.stop ∧ Payload C s.start (s.start + n) x.inner := by
  have ht := h.tile
  have h1 := h.good.step.hi
  have h2 := h.good.step.stop
  generalize hb : s'.start = b at ht
  generalize s.start = a at ht ⊢
  cases ht with
  | leaf hn _ _ _ hp ht => cases ht; exact ⟨_, hn, by omega, hp⟩
  | deco => exact absurd rfl (hx _ _)

theorem decoContents_err {deco : P (Located Inline)} {s : Span} (h : C.In k s)
    (hd : ∀ t, C.In k t → Step s t → C.Ok (deco t) (Elem C t))
    (he : P.alts [link C.env, keyword, deco, textOf C.env deco] s = .err) :
    Halts C s.start s.stop := by
  have he := alts_err he
  have e5 := he (link C.env) (by simp)
  have e6 := he deco (by simp)
  have e7 := he keyword (by simp)
  have e8 := he (textOf C.env deco) (by simp)
  rcases textOf_err h hd (alts_err e5 _ (by simp)) e8 with h0 | h0 | ⟨s', x, h0 | h0 | h0 | h0 | h0 | h0 | h0⟩
  · exact .inl h0
  · exact .inr (.inl h0)
  · have hk : ∃ c, x.inner = .comment c := by
      exact comment_kind h0
    have hE := comment_ok h
    rw [h0] at hE
    obtain ⟨c, hc⟩ := hk
    obtain ⟨n, h1, h2, h3⟩ := Elem.payload hE (by rw [hc]; simp)
    exact .inr (.inr ⟨n, _, h1, h2, h3, .inr ⟨c, hc⟩⟩)
  · have hE := codeInline_ok h
    rw [h0] at hE
    obtain ⟨c, hc⟩ := kind_of_located h0
    obtain ⟨n, h1, h2, h3⟩ := Elem.payload hE (by rw [hc]; simp)
    exact .inr (.inr ⟨n, _, h1, h2, h3, .inl (by rw [hc]; trivial)⟩)
  · have hE := mathInline_ok h
    rw [h0] at hE
    obtain ⟨c, hc⟩ := kind_of_located h0
    obtain ⟨n, h1, h2, h3⟩ := Elem.payload hE (by rw [hc]; simp)
    exact .inr (.inr ⟨n, _, h1, h2, h3, .inl (by rw [hc]; trivial)⟩)
  · have hE := tags_ok h
    rw [h0] at hE
    obtain ⟨c, hc⟩ := kind_of_located h0
    obtain ⟨n, h1, h2, h3⟩ := Elem.payload hE (by rw [hc]; simp)
    exact .inr (.inr ⟨n, _, h1, h2, h3, .inl (by rw [hc]; trivial)⟩)
  · rw [h0] at e5; cases e5
  · rw [h0] at e6; cases e6
  · rw [h0] at e7; cases e7

theorem decoContentsF_ok (n : Nat) : ContentsOk C k n (decoContentsF C.env n) := by
  induction n with
  | zero => intro o _ hlt; omega
  | succ n ih =>
    intro o ho hlt
    have hdeco : ∀ t, C.In k t → t.stop - t.start ≤ n →
        C.Ok (decoratedOf (decoContentsF C.env n) t) (Elem C t) := by
      intro t ht hle
      exact decoratedOf_ok ht fun q hq hql => ih q hq (by omega)
    unfold decoContentsF
    refine (Ctx.Ok.many1 (I := fun t => C.In k t ∧ Step o t) (T := fun t as t' =>
      Tile C o.depth t.start as t'.start ∧ t'.start ≤ o.stop ∧
      TextAhead (textOf C.env (decoratedOf (decoContentsF C.env n))) t as) ?_ ?_ ⟨ho, Step.refl ho.wf.le⟩).mono ?_
    · rintro t ⟨ht, hst⟩
      have hb : t.stop - t.start ≤ n := by have := hst.le; have := hst.stop; omega
      refine Ctx.Ok.mono (Ctx.Ok.self (Q := Elem C t) ?_) ?_
      · refine Ctx.Ok.alts_cons (link_ok ht) (Ctx.Ok.alts_cons (keyword_ok ht)
          (Ctx.Ok.alts_cons (hdeco t ht hb) (Ctx.Ok.alts_cons (textOf_ok ht ?_ ?_)
          Ctx.Ok.alts_nil)))
        · intro t' ht' hst'
          exact hdeco t' ht' (by have := hst'.le; have := hst'.stop; omega)
        · intro t' hst'
          exact ⟨n, by have := hst'.le; have := hst'.stop; omega, rfl⟩
      · rintro t' x ⟨he, hrun⟩
        refine ⟨he.good.step, he.lt, ⟨ht.good he.good, hst.trans he.good.step⟩, ?_⟩
        intro as t'' hT
        have := he.tile
        rw [hst.depth] at this
        have hx : ∀ tx, x.inner = .text tx → textOf C.env (decoratedOf (decoContentsF C.env n)) t = .ok t' x :=
          fun tx e => decoContents_text (decoratedOf_noText _) hrun e
        exact ⟨this.cons hT.1 (he.quiet.mono (by rw [hst.stop]; exact hT.2.1)) (lone_of hx hT.2.2), hT.2.1,
          textAhead_cons hx⟩
    · rintro t ⟨_, hst⟩ _
      exact ⟨.nil, hst.hi, textAhead_nil⟩
    · rintro o' ys ⟨st, _, ⟨hin, _⟩, herr, ⟨hT, _⟩, hne⟩
      refine ⟨⟨st, hin.bs⟩, hne, hT, ?_⟩
      rw [← st.stop]
      refine decoContents_err hin (fun t' ht' hst' => hdeco t' ht' ?_) herr
      have := hst'.le; have := hst'.stop; have := st.le; have := st.stop; omega

theorem decoratedText_ok {s : Span} (h : C.In k s) : C.Ok (decoratedText C.env s) (Elem C s) := by
  unfold decoratedText
  rw [remainingLen_eq]
  exact decoratedOf_ok h (decoContentsF_ok _)

theorem text_ok {s : Span} (h : C.In k s) : C.Ok (text C.env s) (Elem C s) :=
  textOf_ok h (fun _ ht _ => decoratedText_ok ht) fun t _ => ⟨t.remainingLen, by rw [remainingLen_eq]; exact Nat.le_refl _, rfl⟩

theorem inlineElement_ok {s : Span} (h : C.In k s) : C.Ok (inlineElement C.env s) (Elem C s) := by
  refine Ctx.Ok.alts_cons (comment_ok h) (Ctx.Ok.alts_cons (mathInline_ok h)
    (Ctx.Ok.alts_cons (codeInline_ok h) (Ctx.Ok.alts_cons (tags_ok h)
    (Ctx.Ok.alts_cons (link_ok h) (Ctx.Ok.alts_cons (decoratedText_ok h)
    (Ctx.Ok.alts_cons (keyword_ok h) (Ctx.Ok.alts_cons (text_ok h) Ctx.Ok.alts_nil)))))))

/-- `inline_element` only fails at the end of the input or of a line. -/
theorem inlineElement_err {s : Span} (h : C.In k s) (he : inlineElement C.env s = .err) :
    s.start = s.stop ∨ LineEndAt C.inner s.stop s.start := by
  have he := alts_err he
  have e1 := he comment (by simp)
  have e2 := he mathInline (by simp)
  have e3 := he codeInline (by simp)
  have e4 := he tags (by simp)
  have e5 := he (link C.env) (by simp)
  have e6 := he (decoratedText C.env) (by simp)
  have e7 := he keyword (by simp)
  have e8 := he (text C.env) (by simp)
  rcases textOf_err h (fun t ht _ => decoratedText_ok ht) (alts_err e5 _ (by simp)) e8 with
    h | h | ⟨s', x, h | h | h | h | h | h | h⟩
  · exact .inl h
  · exact .inr h
  · rw [h] at e1; cases e1
  · rw [h] at e3; cases e3
  · rw [h] at e2; cases e2
  · rw [h] at e4; cases e4
  · rw [h] at e5; cases e5
  · rw [h] at e6; cases e6
  · rw [h] at e7; cases e7

/-! ## Containers -/

/-- Outcome of the parser of a container of inline elements. -/
structure Cont (C : Ctx) (s s' : Span) (xs : Inlines) : Prop where
  good : C.Good s s'
  lt : s.start < s'.start
  tile : Tile C (s.depth + 1) s.start xs s'.start
  ne : xs ≠ []
  exit : s'.start = s.stop ∨ LineEndAt C.inner s.stop s'.start

theorem deeper_err {α} {p : P α} {s : Span} (h : Scan.deeper p s = .err) :
    p (s.withDepth (s.depth + 1)) = .err := by
  unfold Scan.deeper at h
  split at h
  · cases h
  · cases hp : p (s.withDepth (s.depth + 1)) with
    | err => rfl
    | _ => rw [hp] at h; cases h

theorem deeper_inline_ok {s : Span} (h : C.In (k + 1) s) :
    C.Ok (Scan.deeper (inlineElement C.env) s) (fun s' x => C.Good s s' ∧ s.start < s'.start ∧
      Tile C (s.depth + 1) s.start [x] s'.start ∧
      Quiet C s.start s'.start s.stop x.inner ∧ ∀ t, x.inner = .text t →
        text C.env (s.withDepth (s.depth + 1)) = .ok (s'.withDepth (s.depth + 1)) x) := by
  refine Ctx.Ok.deeper h.wf ((inlineElement_ok (withDepth_in h)).self.mono ?_)
  rintro s' x ⟨he, hrun⟩
  have g := he.good.step
  have hi : s'.inner = s.inner := g.inner
  have hst : s'.stop = s.stop := g.stop
  have hd : s'.depth = s.depth + 1 := g.depth
  exact ⟨hd, ⟨⟨hi, hst, rfl, g.le, g.hi⟩, he.good.b⟩, he.lt, he.tile, he.quiet,
    fun t ht => by rw [inlineElement_text hrun ht, ← hd]; rfl⟩

theorem inlineContainer_ok {s : Span} (h : C.In (k + 1) s) :
    C.Ok (inlineContainer C.env s) (fun s' x => Cont C s s' x.inner ∧
      x.region = ⟨s.start, s'.start - s.start, s.depth⟩) := by
  refine Ctx.Ok.located ((Ctx.Ok.many1 (I := fun t => C.In (k + 1) t ∧ Step s t)
    (T := fun t as t' => Tile C (s.depth + 1) t.start as t'.start ∧ t'.start ≤ s.stop ∧
      TextAhead (text C.env) (t.withDepth (s.depth + 1)) as) ?_ ?_
    ⟨h, Step.refl h.wf.le⟩).mono ?_)
  · rintro t ⟨ht, hst⟩
    refine (deeper_inline_ok ht).mono ?_
    rintro t' x ⟨g, hlt, htile, hq, hx⟩
    refine ⟨g.step, hlt, ⟨ht.good g, hst.trans g.step⟩, ?_⟩
    intro as t'' hT
    rw [hst.depth] at htile hx
    exact ⟨htile.cons hT.1 (hq.mono (by rw [hst.stop]; exact hT.2.1)) (lone_of hx hT.2.2), hT.2.1,
      textAhead_cons hx⟩
  · rintro t ⟨_, hst⟩ _
    exact ⟨.nil, hst.hi, textAhead_nil⟩
  · rintro s' xs ⟨st, hlt, ⟨hin, _⟩, hperr, ⟨hT, _⟩, hne⟩
    refine ⟨st, ⟨⟨st, hin.bs⟩, hlt, hT, hne, ?_⟩, rfl⟩
    have := inlineElement_err (withDepth_in hin) (deeper_err hperr)
    simp only [Span.withDepth] at this
    rw [st.stop] at this
    exact this

end Vw
