import Verif.Lemmas.InlineElem

/-!
# Reading back sequences of inline elements
-/

namespace Vw
open P Scan

variable {s : Span} {r w t x : Str} {env : Env} {ue : Uri → Uri → Bool} {L : OutLib} {cfg : VwCfg}

/-- The end of the text that holds inline elements. -/
def LineStop (r : Str) : Prop := r = [] ∨ r.head? = some 10

theorem Deco.marks_eq (k : Deco) : k.marks = k.delim := by cases k <;> rfl

/-- `D` fails where no decorated text begins. -/
def DecoErr (D : P (Located Inline)) : Prop :=
  ∀ s y, View s y → (∀ k : Deco, ¬ Opens k.delim k.delim y) → D s = .err

/-- `D` reads decorated texts in inputs of at most `m` bytes. -/
def DecoOk (env : Env) (ue : Uri → Uri → Bool) (L : OutLib) (cfg : VwCfg) (m : Nat)
    (D : P (Located Inline)) : Prop :=
  ∀ s k cs y z, View s (Inline.textOf L cfg (.decorated k cs) ++ z) →
    InlineOk env ue L cfg (lastWord s.asConsumed) y (.decorated k cs) → s.remainingLen ≤ m →
    s.depth + Inline.nest (.decorated k cs) ≤ 65535 →
    Reads1 ue D s (Inline.textOf L cfg (.decorated k cs)).length (.decorated k cs)

/-- `c` reads the contents of decorated texts of fewer than `m` bytes. -/
def DecoContentsOk (env : Env) (ue : Uri → Uri → Bool) (L : OutLib) (cfg : VwCfg) (m : Nat)
    (c : P Inlines) : Prop :=
  ∀ s cs, cs ≠ [] → (∀ x ∈ cs, x.inner.InDeco) → View s (Inline.textAll L cfg cs) →
    InlinesOk env ue L cfg (lastWord s.asConsumed) cs → (Inline.textAll L cfg cs).length < m →
    s.depth + Inline.nestAll cs ≤ 65535 →
    ∃ ys, c s = .ok (adv s (Inline.textAll L cfg cs).length) ys ∧ Inline.eqvs false ue ys cs = true

theorem deeper_ok {α : Type} {p : P α} {a : α} {n : Nat} (hd : s.depth < 65535)
    (h : p (s.withDepth (s.depth + 1)) = .ok (adv (s.withDepth (s.depth + 1)) n) a) :
    deeper p s = .ok (adv s n) a := by
  unfold deeper
  rw [if_neg (by omega), h]
  simp [adv, Span.withDepth, Span.withShallowerDepth]

theorem deeper_er {α : Type} {p : P α} (hd : s.depth < 65535) (h : p (s.withDepth (s.depth + 1)) = .err) :
    deeper p s = .err := by
  unfold deeper
  rw [if_neg (by omega), h]

theorem decoErr_decoratedOf (c : P Inlines) : DecoErr (decoratedOf c) := fun _ _ h hn => decoratedOf_err h hn

theorem decoOk_decoratedOf {c : P Inlines} {m : Nat} (hc : DecoContentsOk env ue L cfg m c) :
    DecoOk env ue L cfg m (decoratedOf c) := by
  intro s k cs y z h hok hm hn
  unfold InlineOk at hok
  obtain ⟨h1, h2, h3, h4⟩ := hok
  have hmk := k.marks_eq
  simp only [Inline.textOf, hmk] at h ⊢
  have hv : View s (k.delim ++ (Inline.textAll L cfg cs ++ (k.delim ++ z))) := by simpa using h
  have hdl : k.delim ≠ [] := by cases k <;> decide
  have hd2 : k.delim.length ≤ 2 := by cases k <;> decide
  have hd0 : 0 < k.delim.length := List.length_pos_iff.2 hdl
  have e := h2.run (lft := k.delim) hdl hd2 (by cases k <;> decide) hv
  have ho : View (cut (adv s k.delim.length) (Inline.textAll L cfg cs).length) (Inline.textAll L cfg cs) := hv.adv.cut
  have hcon : (cut (adv s k.delim.length) (Inline.textAll L cfg cs).length).asConsumed = s.asConsumed ++ k.delim :=
    (View.consumed hv)
  have hdep : (cut (adv s k.delim.length) (Inline.textAll L cfg cs).length).depth = s.depth := rfl
  generalize hoo : cut (adv s k.delim.length) (Inline.textAll L cfg cs).length = o at e ho hcon hdep
  simp only [Inline.nest] at hn
  obtain ⟨ys, ec, hys⟩ := hc (o.withDepth (o.depth + 1)) cs h1 h3 (ho.withDepth _) (by
    show InlinesOk env ue L cfg (lastWord o.asConsumed) cs
    rw [hcon, ← lastWord_lastWord]; exact h4) (by
    rw [hv.remLen] at hm
    simp at hm
    omega) (by
    show o.depth + 1 + _ ≤ _
    rw [hdep]; omega)
  have hk : decorated1 c k k.delim s =
      .ok (adv s (k.delim ++ (Inline.textAll L cfg cs ++ k.delim)).length) (.decorated k ys) := by
    refine map_ok (mapParser_ok (e.trans (ok_congr ?_)) (deeper_ok (by rw [hdep]; omega) ec))
    simp; omega
  have her : ∀ k' : Deco, k' ≠ k → decorated1 c k' k'.delim s = .err := by
    intro k' hne
    refine map_er (mapParser_er (notContains_er (surround_err hv (by cases k' <;> decide) ?_)))
    refine not_opens_of_head (b := k.delim.headD 0) ?_ (by cases k' <;> decide) ?_
    · cases k <;> rfl
    · cases k <;> cases k' <;> first | exact absurd rfl hne | decide
  refine ⟨.decorated k ys, ?_, by simp [Inline.eqv, hys]⟩
  refine located_run h (by simp) ?_
  cases k
  case bold => exact alts_fst hk
  case italic =>
    rw [alts_er (show decorated1 c .bold b!"*" s = .err from her .bold (by simp))]
    exact alts_fst hk
  case strikeout =>
    rw [alts_er (show decorated1 c .bold b!"*" s = .err from her .bold (by simp)),
      alts_er (show decorated1 c .italic b!"_" s = .err from her .italic (by simp))]
    exact alts_fst hk
  case superscript =>
    rw [alts_er (show decorated1 c .bold b!"*" s = .err from her .bold (by simp)),
      alts_er (show decorated1 c .italic b!"_" s = .err from her .italic (by simp)),
      alts_er (show decorated1 c .strikeout b!"~~" s = .err from her .strikeout (by simp))]
    exact alts_fst hk
  case subscript =>
    rw [alts_er (show decorated1 c .bold b!"*" s = .err from her .bold (by simp)),
      alts_er (show decorated1 c .italic b!"_" s = .err from her .italic (by simp)),
      alts_er (show decorated1 c .strikeout b!"~~" s = .err from her .strikeout (by simp)),
      alts_er (show decorated1 c .superscript b!"^" s = .err from her .superscript (by simp))]
    exact hk

/-! ## First bytes -/

/-- The first byte of the text of an element that is neither a text nor a link without brackets. -/
def leadByte : Inline → Option Byte
  | .decorated k _ => k.delim.head?
  | .keyword k => k.display.head?
  | .link (.raw _) => none
  | .link (.transclusion _) => some c!"{"
  | .link _ => some c!"["
  | .tags _ => some c!":"
  | .code _ => some c!"`"
  | .math _ => some c!"$"
  | .comment _ => some c!"%"
  | .text _ => none

theorem lead_head {e : Inline} {b : Byte} (h : leadByte e = some b) : (Inline.textOf L cfg e).head? = some b := by
  cases e with
  | text => simp [leadByte] at h
  | decorated k cs => cases k <;> simpa [leadByte, Inline.textOf, Deco.marks, Deco.delim] using h
  | keyword k => simpa [leadByte, Inline.textOf] using h
  | link l => cases l <;> simp [leadByte] at h <;> simp [Inline.textOf, Link.textOf, h]
  | tags ts => simpa [leadByte, Inline.textOf] using h
  | code c => simpa [leadByte, Inline.textOf] using h
  | math c => simpa [leadByte, Inline.textOf] using h
  | comment c => cases c <;> simpa [leadByte, Inline.textOf, Comment.textOf] using h

theorem lead_some {e : Inline} (h : ∀ t, e ≠ .text t) (h' : ∀ d, e ≠ .link (.raw d)) : ∃ b, leadByte e = some b := by
  cases e with
  | text t => exact absurd rfl (h t)
  | decorated k cs => cases k <;> exact ⟨_, rfl⟩
  | keyword k => cases k <;> exact ⟨_, rfl⟩
  | link l => cases l with
    | raw d => exact absurd rfl (h' d)
    | _ => exact ⟨_, rfl⟩
  | _ => exact ⟨_, rfl⟩

theorem view_head {b : Byte} {y : Str} (h : y.head? = some b) : (y ++ r).head? = some b := by
  cases y with
  | nil => simp at h
  | cons a y => simpa using h

section heads
variable {b : Byte}

theorem comment_head (h : View s x) (hx : x.head? = some b) (hb : b ≠ c!"%") : comment s = .err :=
  comment_err h (fun ⟨q, e⟩ => hb (by rw [← e] at hx; simpa using hx.symm))

theorem mathInline_head (h : View s x) (hx : x.head? = some b) (hb : b ≠ c!"$") : mathInline s = .err :=
  mathInline_err h (not_opens_of_head hx (by simp) (by simpa using fun e => hb e.symm))

theorem codeInline_head (h : View s x) (hx : x.head? = some b) (hb : b ≠ c!"`") : codeInline s = .err :=
  codeInline_err h (not_opens_of_head hx (by simp) (by simpa using fun e => hb e.symm))

theorem tags_head (h : View s x) (hx : x.head? = some b) (hb : b ≠ c!":") : tags s = .err :=
  tags_err h (fun ⟨c, q, _, _, e⟩ => hb (by rw [e] at hx; simpa using hx.symm))

theorem not_scheme_head (hx : x.head? = some b) (hb : lowerByte b ∉ [104, 102, 108, 109]) : ¬ SchemeStart x := by
  intro h
  obtain ⟨c, y, rfl, hc⟩ := schemeStart_head h
  simp at hx
  subst hx
  exact hb hc

theorem link_head (hs : env.SchemeSound) (h : View s x) (hx : x.head? = some b) (hb : b ≠ c!"[" ∧ b ≠ c!"{")
    (hl : ¬ SchemeStart x) : link env s = .err :=
  link_err hs h (not_opens_of_head hx (by simp) (by simpa using fun e => hb.1 e.symm))
    (not_opens_of_head hx (by simp) (by simpa using fun e => hb.2 e.symm)) hl

theorem deco_head {D : P (Located Inline)} (hD : DecoErr D) (h : View s x) (hx : x.head? = some b)
    (hb : b ∉ [c!"*", c!"_", c!"~", c!"^", c!","]) : D s = .err := by
  refine hD s x h fun k => not_opens_of_head hx (by cases k <;> decide) ?_
  intro e
  cases k <;> simp [Deco.delim] at e <;> subst e <;> simp at hb

theorem keyword_head (h : View s x) (hx : x.head? = some b) (hb : b ∉ [68, 70, 83, 84, 88]) : keyword s = .err := by
  refine keyword_err h fun k hk ⟨q, e⟩ => hb ?_
  rw [← e] at hx
  simp only [keywords, List.mem_cons, List.not_mem_nil, or_false] at hk
  rcases hk with rfl | rfl | rfl | rfl | rfl | rfl <;> simp at hx <;> subst hx <;> decide

end heads

theorem keyword_not_scheme (k : Keyword) : ¬ SchemeStart (k.display ++ r) := by
  rintro ⟨sc, hsc, q, e⟩
  simp only [linkSchemes, List.mem_cons, List.not_mem_nil, or_false] at hsc
  rcases hsc with rfl | rfl | rfl | rfl | rfl | rfl <;> cases k <;> simp [Keyword.display, lowerByte] at e

/-! ## One element that is not a text -/

/-- What the parsers need to know about the element `e` written at `s` in front of `xs` and `r`. -/
structure Here (env : Env) (ue : Uri → Uri → Bool) (L : OutLib) (cfg : VwCfg) (r : Str) (s : Span) (e : Inline)
    (xs : List (Located Inline)) : Prop where
  view : View s (Inline.textOf L cfg e ++ (Inline.textAll L cfg xs ++ r))
  ok : InlineOk env ue L cfg (lastWord s.asConsumed) (Inline.textAll L cfg xs) e
  depth : s.depth + Inline.nest e ≤ 65535

variable {e : Inline} {xs : List (Located Inline)} {D : P (Located Inline)} {m : Nat}

theorem raw_next {d : LinkData} (hl : LinkOk env ue L x (.raw d)) (hr : LineStop r) :
    x ++ r = [] ∨ (x ++ r).head? = some 32 ∨ (x ++ r).head? = some 9 ∨ (x ++ r).head? = some 10 := by
  have := hl.2.1
  cases x with
  | nil =>
    rcases hr with rfl | hr
    · exact .inl rfl
    · exact .inr (.inr (.inr (by simpa using hr)))
  | cons b x =>
    rcases this b rfl with rfl | rfl <;> simp

theorem Here.link {l : Link} (h : Here env ue L cfg r s (.link l) xs) (hs : env.SchemeSound) (hr : LineStop r) :
    Reads1 ue (link env) s (Inline.textOf L cfg (.link l)).length (.link l) := by
  have hv := h.view
  have hok := h.ok
  simp only [InlineOk, Inline.textOf] at hv hok ⊢
  refine link_run hs hv hok ?_
  rintro d rfl
  exact raw_next hok hr

theorem Here.keyword {k : Keyword} (h : Here env ue L cfg r s (.keyword k) xs) :
    Reads1 ue keyword s (Inline.textOf L cfg (.keyword k)).length (.keyword k) := by
  have hv := h.view
  simp only [Inline.textOf] at hv ⊢
  exact ⟨_, keyword_run hv, by simp [Inline.eqv]⟩

theorem Here.tags {ts : List Str} (h : Here env ue L cfg r s (.tags ts) xs) (hr : LineStop r) :
    Reads1 ue tags s (Inline.textOf L cfg (.tags ts)).length (.tags ts) := by
  have hv := h.view
  have hok := h.ok
  simp only [InlineOk, Inline.textOf] at hv hok ⊢
  obtain ⟨h1, h2, h3, h4⟩ := hok
  refine ⟨_, tags_run hv h1 h2 h3 ?_, by simp [Inline.eqv]⟩
  intro b hb
  cases hx : Inline.textAll L cfg xs with
  | nil =>
    rw [hx] at hb
    rcases hr with rfl | hr
    · simp at hb
    · rw [List.nil_append, hr] at hb; simp at hb; subst hb; decide
  | cons a y =>
    rw [hx] at hb h4
    exact h4 b hb

theorem Here.code {c : Str} (h : Here env ue L cfg r s (.code c) xs) :
    Reads1 ue codeInline s (Inline.textOf L cfg (.code c)).length (.code c) := by
  have hv := h.view
  have hok := h.ok
  simp only [InlineOk, Inline.textOf] at hv hok ⊢
  obtain ⟨h1, h2, h3, h4⟩ := hok
  refine ⟨.code c, (codeInline_run (by simpa using hv) h1 h2 (h3.append (by simp)) h4).trans ?_, by simp [Inline.eqv]⟩
  rw [show (b!"`" ++ (c ++ b!"`")).length = c.length + 2 by simp]

theorem Here.math {c : Str} (h : Here env ue L cfg r s (.math c) xs) :
    Reads1 ue mathInline s (Inline.textOf L cfg (.math c)).length (.math c) := by
  have hv := h.view
  have hok := h.ok
  simp only [InlineOk, Inline.textOf] at hv hok ⊢
  obtain ⟨⟨h1, h2, h3, h4⟩, h5⟩ := hok
  refine ⟨.math c, (mathInline_run (by simpa using hv) h1 h2 h5 h4).trans ?_, by simp [Inline.eqv]⟩
  rw [show (b!"$" ++ (c ++ b!"$")).length = c.length + 2 by simp]

theorem Here.comment {c : Comment} (h : Here env ue L cfg r s (.comment c) xs) (hr : LineStop r) :
    Reads1 ue comment s (Inline.textOf L cfg (.comment c)).length (.comment c) := by
  have hv := h.view
  have hok := h.ok
  simp only [InlineOk, Inline.textOf] at hv hok ⊢
  exact comment_run hv hr hok

theorem Here.deco {k : Deco} {cs : List (Located Inline)} (h : Here env ue L cfg r s (.decorated k cs) xs)
    (hD : DecoOk env ue L cfg m D) (hm : s.remainingLen ≤ m) :
    Reads1 ue D s (Inline.textOf L cfg (.decorated k cs)).length (.decorated k cs) :=
  hD s k cs _ _ h.view h.ok hm h.depth

theorem Reads1.at {p : P (Located Inline)} {n : Nat} (h : Reads1 ue p s n e) :
    ∃ s' y, p s = .ok s' y ∧ y.region.offset = s.start := by
  obtain ⟨y, hy, -⟩ := h
  exact ⟨_, _, hy, rfl⟩

theorem Reads1.congr {p q : P (Located Inline)} {n : Nat} (h : Reads1 ue p s n e) (he : q s = p s) :
    Reads1 ue q s n e := by
  obtain ⟨y, hy, h2⟩ := h
  exact ⟨y, by rw [he, hy], h2⟩

theorem Reads1.ok {p q : P (Located Inline)} {n : Nat} (h : Reads1 ue p s n e)
    (he : ∀ s' a, p s = .ok s' a → q s = .ok s' a) : Reads1 ue q s n e := by
  obtain ⟨y, hy, h2⟩ := h
  exact ⟨y, he _ _ hy, h2⟩

/-- The scan for the end of a text finds the element. -/
theorem Here.nonText (h : Here env ue L cfg r s e xs) (hs : env.SchemeSound) (hr : LineStop r)
    (hD : DecoOk env ue L cfg m D) (hm : s.remainingLen ≤ m)
    (ht : ∀ t, e ≠ .text t) (hraw : ∀ d, e ≠ .link (.raw d)) :
    Reads1 ue (nonTextOf env D) s (Inline.textOf L cfg e).length e := by
  obtain ⟨b, hb⟩ := lead_some ht hraw
  have hv := h.view
  have hh : (Inline.textOf L cfg e ++ (Inline.textAll L cfg xs ++ r)).head? = some b := view_head (lead_head hb)
  have pe : ∀ {c : Byte} {q : P (Located Inline)}, b ≠ c → preceded (peek (char c)) q s = .err := by
    intro c q hc
    refine peeked_er hv ?_
    intro a ha
    rw [hh] at ha
    simp at ha
    subst ha
    simpa using hc
  obtain ⟨y, hy⟩ : ∃ y, Inline.textOf L cfg e ++ (Inline.textAll L cfg xs ++ r) = b :: y := by
    cases hx : Inline.textOf L cfg e ++ (Inline.textAll L cfg xs ++ r) with
    | nil => rw [hx] at hh; simp at hh
    | cons a y => rw [hx] at hh; simp at hh; subst hh; exact ⟨y, rfl⟩
  have hvb : View s (b :: y) := by rw [← hy]; exact hv
  have po : ∀ {c : Byte} {q : P (Located Inline)}, b = c → preceded (peek (char c)) q s = q s := by
    rintro c q rfl
    exact peeked_ok hvb (by simp)
  cases e with
  | text t => exact absurd rfl (ht t)
  | comment c =>
    simp [leadByte] at hb
    refine (h.comment hr).ok fun s' a ha => ?_
    exact alts_fst ((po hb.symm).trans ha)
  | code c =>
    simp [leadByte] at hb
    refine h.code.ok fun s' a ha => ?_
    unfold nonTextOf
    rw [alts_er (pe (by rw [← hb]; decide))]
    exact alts_fst ((po hb.symm).trans ha)
  | math c =>
    simp [leadByte] at hb
    refine h.math.ok fun s' a ha => ?_
    unfold nonTextOf
    rw [alts_er (pe (by rw [← hb]; decide)), alts_er (pe (by rw [← hb]; decide))]
    exact alts_fst ((po hb.symm).trans ha)
  | tags c =>
    simp [leadByte] at hb
    refine (h.tags hr).ok fun s' a ha => ?_
    unfold nonTextOf
    rw [alts_er (pe (by rw [← hb]; decide)), alts_er (pe (by rw [← hb]; decide)), alts_er (pe (by rw [← hb]; decide))]
    exact alts_fst ((po hb.symm).trans ha)
  | link l =>
    have hb' : b = c!"[" ∨ b = c!"{" := by
      cases l <;> simp [leadByte] at hb <;> simp [← hb]
    refine (h.link hs hr).ok fun s' a ha => ?_
    have pk : ∃ s1 a1, alt (char c!"[") (char c!"{") s = .ok s1 a1 := by
      rcases hb' with rfl | rfl
      · exact ⟨_, _, alt_ok (satisfy_run hvb (by simp))⟩
      · rw [alt_er (show char c!"[" s = .err from satisfy_run_err hvb (by simp))]
        exact ⟨_, _, satisfy_run hvb (by simp)⟩
    obtain ⟨s1, a1, pk⟩ := pk
    unfold nonTextOf
    rw [alts_er (pe (by rcases hb' with rfl | rfl <;> decide)), alts_er (pe (by rcases hb' with rfl | rfl <;> decide)),
      alts_er (pe (by rcases hb' with rfl | rfl <;> decide)), alts_er (pe (by rcases hb' with rfl | rfl <;> decide))]
    refine alts_fst ?_
    unfold preceded
    rw [bind_ok (peek_ok pk), ha]
  | decorated k cs =>
    have hb' : b ∈ [c!"*", c!"_", c!"~", c!"^", c!","] := by
      cases k <;> simp [leadByte, Deco.delim] at hb <;> simp [← hb]
    refine (h.deco hD hm).ok fun s' a ha => ?_
    have hne : ∀ c ∈ [c!"%", c!"`", c!"$", c!":", c!"[", c!"{"], b ≠ c := by
      intro c hc e
      subst e
      revert hb' hc
      simp only [List.mem_cons, List.not_mem_nil, or_false]
      omega
    unfold nonTextOf
    rw [alts_er (pe (hne _ (by simp))), alts_er (pe (hne _ (by simp))), alts_er (pe (hne _ (by simp))),
      alts_er (pe (hne _ (by simp)))]
    have hlk : preceded (peek (alt (char c!"[") (char c!"{"))) (Vw.link env) s = .err := by
      refine bind_er (peek_er ?_)
      rw [alt_er (show char c!"[" s = .err from satisfy_run_err hvb (by simpa using hne c!"[" (by simp)))]
      exact satisfy_run_err hvb (by simpa using hne c!"{" (by simp))
    rw [alts_er hlk]
    exact alts_fst ((peeked_ok hvb (by simpa using hb')).trans ha)
  | keyword k =>
    have hb' : b ∈ [68, 70, 83, 84, 88] := by
      cases k <;> simp [leadByte, Keyword.display] at hb <;> simp [← hb]
    refine h.keyword.ok fun s' a ha => ?_
    have hne : ∀ c ∈ [c!"%", c!"`", c!"$", c!":", c!"[", c!"{", c!"*", c!"_", c!"~", c!"^", c!","], b ≠ c := by
      intro c hc e
      subst e
      revert hb' hc
      simp only [List.mem_cons, List.not_mem_nil, or_false]
      omega
    unfold nonTextOf
    rw [alts_er (pe (hne _ (by simp))), alts_er (pe (hne _ (by simp))), alts_er (pe (hne _ (by simp))),
      alts_er (pe (hne _ (by simp)))]
    have hlk : preceded (peek (alt (char c!"[") (char c!"{"))) (Vw.link env) s = .err := by
      refine bind_er (peek_er ?_)
      rw [alt_er (show char c!"[" s = .err from satisfy_run_err hvb (by simpa using hne c!"[" (by simp)))]
      exact satisfy_run_err hvb (by simpa using hne c!"{" (by simp))
    rw [alts_er hlk]
    have hdk : preceded (peek (oneOf b!"*_~^,")) D s = .err := by
      refine peeked_er hvb ?_
      simp
      exact ⟨hne _ (by simp), hne _ (by simp), hne _ (by simp), hne _ (by simp), hne _ (by simp)⟩
    rw [alts_er hdk]
    exact alts_fst ha

end Vw
