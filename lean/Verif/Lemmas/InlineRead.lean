import Verif.Lemmas.InlineChain

/-!
# Reading back inline contents
-/

namespace Vw
open P Scan

variable {s : Span} {r w t x : Str} {env : Env} {ue : Uri → Uri → Bool} {L : OutLib} {cfg : VwCfg}
  {e : Inline} {xs : List (Located Inline)} {D : P (Located Inline)} {m : Nat}

/-! ## Links without brackets behind a text -/

theorem letters_plain {a : Byte} (ha : 65 ≤ a ∧ a ≤ 122 ∧ a ≠ c!"_" ∧ a ≠ c!"^" ∧ a ≠ c!"`" ∧ a ≠ c!"[")
    (hk : ∀ k ∈ keywords, ¬ k <+: a :: x) : Plain w (a :: x) where
  comment := by
    simp [List.cons_prefix_cons]; omega
  pairs := by
    intro p hp
    refine not_opens_of_head (b := a) rfl ((by decide : ∀ p ∈ markPairs, p.1 ≠ []) p hp) ?_
    intro hx
    simp only [markPairs, List.mem_cons, List.not_mem_nil, or_false] at hp
    rcases hp with rfl | rfl | rfl | rfl | rfl | rfl | rfl | rfl | rfl <;> simp at hx <;> omega
  tag := by
    rintro ⟨c, q, -, -, e⟩
    simp at e
    omega
  keyword := hk
  link := by
    intro hx
    simp at hx
    omega

theorem lower_letter {b : Byte} (h : 97 ≤ lowerByte b ∧ lowerByte b ≤ 122) :
    65 ≤ b ∧ b ≤ 122 ∧ b ≠ c!"_" ∧ b ≠ c!"^" ∧ b ≠ c!"`" ∧ b ≠ c!"[" ∧ b ≠ 58 ∧ ¬ WsByte b := by
  unfold lowerByte at h
  unfold WsByte
  split at h <;> omega

theorem scheme_split (h : SchemeStart x) : ∃ sc y, x = sc ++ 58 :: y ∧ sc.map lowerByte ∈ linkSchemes := by
  obtain ⟨sc, hsc, q, e⟩ := h
  refine ⟨x.take sc.length, x.drop (sc.length + 1), ?_, ?_⟩
  · have hl : sc.length < x.length := by
      have := congrArg List.length e
      simp at this
      omega
    have h58 : lowerByte (x[sc.length]'hl) = 58 := by
      have := congrArg (fun l => l[sc.length]?) e
      simp at this
      rw [List.getElem?_eq_getElem hl] at this
      simpa using this.symm
    have h58' : x[sc.length]'hl = 58 := by
      unfold lowerByte at h58
      split at h58 <;> omega
    conv => lhs; rw [← List.take_append_drop sc.length x]
    congr 1
    rw [List.drop_eq_getElem_cons hl, h58']
  · have := congrArg (List.take sc.length) e
    simp at this
    rw [← List.map_take] at this
    rw [← this]
    exact hsc

theorem scheme_letters {sc : Str} (h : sc.map lowerByte ∈ linkSchemes) :
    sc ≠ [] ∧ (∀ b ∈ sc, 97 ≤ lowerByte b ∧ lowerByte b ≤ 122) ∧
      ∀ k ∈ keywords, ¬ k.map lowerByte <:+: sc.map lowerByte := by
  refine ⟨?_, ?_, ?_⟩
  · rintro rfl
    exact absurd h (by decide)
  · intro b hb
    have : ∀ sc ∈ linkSchemes, ∀ b ∈ sc, 97 ≤ b ∧ b ≤ 122 := by decide
    exact this _ h _ (List.mem_map_of_mem hb)
  · have : ∀ sc ∈ linkSchemes, ∀ k ∈ keywords, ¬ k.map lowerByte <:+: sc := by decide
    exact this _ h

theorem scheme_plain {sc u v : Str} (h : sc.map lowerByte ∈ linkSchemes) (hv : sc = u ++ v) (hne : v ≠ []) :
    Plain w (v ++ 58 :: x) := by
  obtain ⟨-, h2, h3⟩ := scheme_letters h
  cases v with
  | nil => exact absurd rfl hne
  | cons a v =>
    have ha := lower_letter (h2 a (by rw [hv]; simp))
    refine letters_plain ⟨ha.1, ha.2.1, ha.2.2.1, ha.2.2.2.1, ha.2.2.2.2.1, ha.2.2.2.2.2.1⟩ ?_
    intro k hk ⟨q, e⟩
    refine h3 k hk ?_
    have h58 : 58 ∉ k := (by decide : ∀ k ∈ keywords, 58 ∉ k) k hk
    have : k <+: a :: v := by
      rcases List.append_eq_append_iff.1 (show k ++ q = (a :: v) ++ 58 :: x from e) with ⟨c, e1, -⟩ | ⟨c, rfl, e2⟩
      · exact ⟨c, e1.symm⟩
      · cases c with
        | nil => exact ⟨[], by simp⟩
        | cons b c =>
          simp at e2
          rw [← e2.1] at h58
          simp at h58
    obtain ⟨c, hc⟩ := this
    exact ⟨u.map lowerByte, c.map lowerByte, by rw [hv, ← hc]; simp⟩

/-- Reading a text whose next element is a link without brackets. -/
theorem text_before_raw {d : LinkData} (hs : env.SchemeSound) (hE : DecoErr D)
    (h : View s (t ++ (L.uriStr d.uri ++ x))) (ht : TextOk (lastWord s.asConsumed) t (L.uriStr d.uri ++ x))
    (hw : lastWord (s.asConsumed ++ t) = []) {y : Str} (hl : LinkOk env ue L y (.raw d))
    (hx : x = [] ∨ x.head? = some 32 ∨ x.head? = some 9 ∨ x.head? = some 10) :
    textOf env D s = .ok (adv s t.length) ⟨.text t, ⟨s.start, t.length, s.depth⟩⟩ := by
  obtain ⟨sc, z, hu, hsc⟩ := scheme_split (raw_scheme hs hl)
  obtain ⟨hne, hlet, -⟩ := scheme_letters hsc
  have hclean : ∀ b ∈ sc, ¬ WsByte b := fun b hb => (lower_letter (hlet b hb)).2.2.2.2.2.2.2
  have hx' : L.uriStr d.uri ++ x = sc ++ 58 :: (z ++ x) := by rw [hu]; simp
  rw [hx'] at h ht
  refine textOf_run_raw hs h ht hE ?_ ?_ ?_
  · intro u v e hv
    exact scheme_plain hsc e hv
  · exact ⟨fun hm => hclean _ hm (by decide), fun hm => hclean _ hm (by decide)⟩
  · have hS : View s ((t ++ sc) ++ (58 :: (z ++ x))) := by simpa using h
    have hcon := View.consumed hS
    have hv := hS.adv
    rw [List.length_append] at hv hcon
    have hq0 : (adv s (t.length + sc.length)).start = s.start + (t.length + sc.length) := adv_start ..
    generalize adv s (t.length + sc.length) = q at hv hcon hq0
    have hlw : lastWord q.asConsumed = sc := by
      rw [hcon, ← List.append_assoc, lastWord_append_clean hclean, hw]
      rfl
    obtain ⟨hb1, hb2⟩ := View.back hv
    rw [hlw] at hb1 hb2
    have hraw : ∃ s' y, rawLinkBack env q = .ok s' y ∧ y.region.offset = s.start + t.length := by
      unfold rawLinkBack
      generalize q.backtrackStartBy (backtrackLen q.asConsumed) = p at hb1 hb2
      have hvp : View p (Link.textOf L (.raw d) ++ x) := by
        simp only [Link.textOf]
        rw [hx']
        exact hb1
      obtain ⟨y, hy, -⟩ := rawLink_run (ue := ue) hs hvp hx hl
      refine ⟨_, _, hy, ?_⟩
      have := congrArg Span.start hb2
      rw [adv_start, hq0] at this
      show p.start = _
      omega
    obtain ⟨s', y, hy, ho⟩ := hraw
    refine ⟨s', y, ?_, ho⟩
    have pe : ∀ {c : Byte} {p : P (Located Inline)}, c ≠ 58 → preceded (peek (char c)) p q = .err := by
      intro c p hc
      refine peeked_er hv ?_
      simp
      exact fun e => hc e.symm
    have htag : tags q = .err := by
      refine located_er (map_er (mapParser_er ?_))
      unfold wholeWord
      rw [if_neg]
      intro hx
      rw [lastIsWs_iff, hlw] at hx
      exact hne hx
    have hlk : preceded (peek (alt (char c!"[") (char c!"{"))) (Vw.link env) q = .err := by
      refine bind_er (peek_er ?_)
      rw [alt_er (show char c!"[" q = .err from satisfy_run_err hv (by simp))]
      exact satisfy_run_err hv (by simp)
    have hdk : preceded (peek (oneOf b!"*_~^,")) D q = .err := peeked_er hv (by simp)
    unfold nonTextOf
    rw [alts_er (pe (by decide)), alts_er (pe (by decide)), alts_er (pe (by decide)),
      alts_er (p := preceded (peek (char c!":")) tags) (peeked_er' hv htag), alts_er hlk, alts_er hdk,
      alts_er (keyword_head hv rfl (by decide))]
    exact (peeked_ok hv (by simp)).trans hy

/-! ## One element -/

theorem text_run (h : Here env ue L cfg r s (.text t) xs) (hs : env.SchemeSound) (hr : LineStop r)
    (hD : DecoOk env ue L cfg m D) (hE : DecoErr D) (hm : s.remainingLen ≤ m)
    (hj : (Inline.text t).Joins (lastWord (s.asConsumed ++ t)) xs)
    (hx : InlinesOk env ue L cfg (lastWord (s.asConsumed ++ t)) xs)
    (hn : s.depth + Inline.nestAll xs ≤ 65535) :
    textOf env D s = .ok (adv s t.length) ⟨.text t, ⟨s.start, t.length, s.depth⟩⟩ := by
  have hv := h.view
  have hok := h.ok
  simp only [InlineOk, Inline.textOf] at hv hok
  have hok' := hok.line hr
  cases xs with
  | nil =>
    simp only [Inline.textAll, List.nil_append] at hv hok'
    refine textOf_run hs hv hok' hE ?_
    rcases hr with rfl | hr
    · exact .inl rfl
    · exact .inr (.inl hr)
  | cons y ys =>
    obtain ⟨y, ry⟩ := y
    simp only [InlinesOk] at hx
    simp only [Inline.nestAll] at hn
    have hcon := View.consumed hv
    by_cases hraw : ∃ d, y = .link (.raw d)
    · obtain ⟨d, rfl⟩ := hraw
      have hl := hx.1
      simp only [InlineOk] at hl
      simp only [Inline.textAll, Inline.textOf, Link.textOf, List.append_assoc] at hv hok'
      exact text_before_raw hs hE hv hok' hj hl (raw_next hl hr)
    · have hh : Here env ue L cfg r (adv s t.length) y ys := by
        refine ⟨?_, ?_, ?_⟩
        · have := hv.adv
          simpa [Inline.textAll] using this
        · rw [hcon]; exact hx.1
        · show s.depth + _ ≤ _
          omega
      refine textOf_run hs hv hok' hE (.inr (.inr ?_))
      have hm' : (adv s t.length).remainingLen ≤ m := by
        rw [hv.adv.remLen]
        rw [hv.remLen] at hm
        simp at hm ⊢
        omega
      have ht : ∀ t', y ≠ .text t' := by
        rintro t' rfl
        exact hj
      obtain ⟨s', a, ha, ho⟩ := (hh.nonText hs hr hD hm' ht (fun d e => hraw ⟨d, e⟩)).at
      exact ⟨s', a, ha, by rw [ho, adv_start]⟩

theorem textOf_stop (h : View s r) (hr : LineStop r) : textOf env D s = .err := by
  refine located_er ?_
  unfold textLoop
  have hl : (s.remainingLen > 0 → atLineEnd s.asRemaining = true) := by
    rw [h.remLen, h.rem]
    rcases hr with rfl | hr
    · simp
    · cases r with
      | nil => simp at hr
      | cons b r => simp at hr; subst hr; intro _; rfl
  by_cases hp : s.remainingLen > 0
  · rw [if_pos hp, if_pos (hl hp)]
    simp
  · rw [if_neg hp]
    simp

/-- The alternatives inside decorated text. -/
def decoAlts (env : Env) (D : P (Located Inline)) : P (Located Inline) :=
  alts [link env, keyword, D, textOf env D]

theorem text_plain (h : TextOk w t x) : Plain (lastWord w) (t ++ x) := by
  obtain ⟨h1, -, -, -, h5⟩ := h
  have := h5 [] t rfl h1
  simpa using this

theorem decoAlts_run (h : Here env ue L cfg r s e xs) (hin : e.InDeco) (hs : env.SchemeSound) (hr : LineStop r)
    (hD : DecoOk env ue L cfg m D) (hE : DecoErr D) (hm : s.remainingLen ≤ m)
    (hj : e.Joins (lastWord (s.asConsumed ++ Inline.textOf L cfg e)) xs)
    (hx : InlinesOk env ue L cfg (lastWord (s.asConsumed ++ Inline.textOf L cfg e)) xs)
    (hn : s.depth + Inline.nestAll xs ≤ 65535) :
    Reads1 ue (decoAlts env D) s (Inline.textOf L cfg e).length e := by
  have hv := h.view
  cases e with
  | comment => exact hin.elim
  | code => exact hin.elim
  | math => exact hin.elim
  | tags => exact hin.elim
  | link l => exact (h.link hs hr).ok fun s' a ha => alts_fst ha
  | keyword k =>
    refine h.keyword.ok fun s' a ha => ?_
    unfold decoAlts
    simp only [Inline.textOf] at hv
    have hh : ∃ b, (k.display ++ (Inline.textAll L cfg xs ++ r)).head? = some b ∧ b ≠ c!"[" ∧ b ≠ c!"{" := by
      cases k <;> exact ⟨_, rfl, by decide⟩
    obtain ⟨b, hb, hb1⟩ := hh
    rw [alts_er (link_head hs hv hb hb1 (keyword_not_scheme k))]
    exact alts_fst ha
  | decorated k cs =>
    refine (h.deco hD hm).ok fun s' a ha => ?_
    unfold decoAlts
    have hb : leadByte (.decorated k cs) = k.delim.head? := rfl
    have hh : ∃ b, k.delim.head? = some b ∧ b ∈ [c!"*", c!"_", c!"~", c!"^", c!","] := by
      cases k <;> exact ⟨_, rfl, by decide⟩
    obtain ⟨b, hb1, hb2⟩ := hh
    rw [hb1] at hb
    have hb3 : (Inline.textOf L cfg (.decorated k cs) ++ (Inline.textAll L cfg xs ++ r)).head? = some b :=
      view_head (lead_head hb)
    have hns : lowerByte b ∉ [104, 102, 108, 109] ∧ b ≠ c!"[" ∧ b ≠ c!"{" ∧ b ∉ [68, 70, 83, 84, 88] := by
      simp only [List.mem_cons, List.not_mem_nil, or_false] at hb2
      rcases hb2 with rfl | rfl | rfl | rfl | rfl <;> decide
    rw [alts_er (link_head hs hv hb3 ⟨hns.2.1, hns.2.2.1⟩ (not_scheme_head hb3 hns.1)),
      alts_er (keyword_head hv hb3 hns.2.2.2)]
    exact alts_fst ha
  | text t =>
    simp only [Inline.textOf] at hj hx hv ⊢
    have hok := h.ok
    simp only [InlineOk] at hok
    have hp := text_plain (hok.line hr)
    have hsch := (hok.line hr).2.2.2.1
    refine ⟨.text t, ?_, by simp [Inline.eqv]⟩
    unfold decoAlts
    rw [alts_er (link_err hs hv (hp.pairs (b!"[[", b!"]]") (by decide)) (hp.pairs (b!"{{", b!"}}") (by decide)) hsch),
      alts_er (keyword_err hv hp.keyword), alts_er (hE s _ hv hp.deco)]
    exact text_run h hs hr hD hE hm hj hx hn

theorem decoAlts_stop (hs : env.SchemeSound) (h : View s r) (hr : LineStop r) (hE : DecoErr D) :
    decoAlts env D s = .err := by
  have ho : ∀ A B : Str, A ≠ [] → A.head? ≠ some 10 → ¬ Opens A B r := by
    intro A B hA h10
    rcases hr with rfl | hr
    · rintro ⟨c, q, -, -, e⟩
      have e1 := congrArg List.length e
      have := List.length_pos_iff.2 hA
      simp only [List.length_append, List.length_nil] at e1
      omega
    · exact not_opens_of_head hr hA h10
  have hsc : ¬ SchemeStart r := by
    intro hx
    obtain ⟨b, y, rfl, hb⟩ := schemeStart_head hx
    rcases hr with hr | hr
    · simp at hr
    · simp at hr; subst hr; simp [lowerByte] at hb
  have hk : ∀ k ∈ keywords, ¬ k <+: r := by
    intro k hk hp
    have := prefix_line (p := k) (x := []) (by simpa using hp) ((by decide : ∀ k ∈ keywords, 10 ∉ k) k hk) hr
    simp at this
    subst this
    exact absurd hk (by decide)
  unfold decoAlts
  rw [alts_er (link_err hs h (ho _ _ (by simp) (by simp)) (ho _ _ (by simp) (by simp)) hsc),
    alts_er (keyword_err h hk), alts_er (hE s _ h (fun k => ho _ _ (by cases k <;> decide) (by cases k <;> decide)))]
  exact textOf_stop h hr

theorem elem_pos (hs : env.SchemeSound) (h : InlineOk env ue L cfg w x e) : 0 < (Inline.textOf L cfg e).length := by
  by_cases ht : ∃ t, e = .text t
  · obtain ⟨t, rfl⟩ := ht
    simp only [InlineOk] at h
    exact List.length_pos_iff.2 h.1
  · by_cases hr : ∃ d, e = .link (.raw d)
    · obtain ⟨d, rfl⟩ := hr
      simp only [InlineOk] at h
      obtain ⟨b, y, e, -⟩ := schemeStart_head (raw_scheme hs h)
      simp [Inline.textOf, Link.textOf, e]
    · obtain ⟨b, hb⟩ := lead_some (fun t e => ht ⟨t, e⟩) (fun d e => hr ⟨d, e⟩)
      have := lead_head (L := L) (cfg := cfg) hb
      cases hx : Inline.textOf L cfg e with
      | nil => rw [hx] at this; simp at this
      | cons => simp

theorem chain_run {p : P (Located Inline)} {A : Inline → Prop} {B m d : Nat} (hs : env.SchemeSound)
    (hstep : ∀ (s : Span) (e : Inline) (xs : List (Located Inline)),
      View s (Inline.textOf L cfg e ++ (Inline.textAll L cfg xs ++ r)) → A e →
      InlineOk env ue L cfg (lastWord s.asConsumed) (Inline.textAll L cfg xs) e →
      e.Joins (lastWord (s.asConsumed ++ Inline.textOf L cfg e)) xs →
      InlinesOk env ue L cfg (lastWord (s.asConsumed ++ Inline.textOf L cfg e)) xs →
      s.depth = d → d + max (Inline.nest e) (Inline.nestAll xs) ≤ B → s.remainingLen ≤ m →
      ∃ y reg, p s = .ok (adv s (Inline.textOf L cfg e).length) ⟨y, reg⟩ ∧ Inline.eqv false ue y e = true)
    (hend : ∀ s, View s r → s.depth = d → p s = .err) :
    ∀ (xs : List (Located Inline)) (s : Span), View s (Inline.textAll L cfg xs ++ r) → (∀ x ∈ xs, A x.inner) →
      InlinesOk env ue L cfg (lastWord s.asConsumed) xs → s.depth = d → d + Inline.nestAll xs ≤ B →
      s.remainingLen ≤ m →
      ∃ ys, Chain p s ys (Inline.textAll L cfg xs).length ∧ Inline.eqvs false ue ys xs = true := by
  intro xs
  induction xs with
  | nil =>
    intro s h _ _ hd _ _
    exact ⟨[], .nil (hend s (by simpa [Inline.textAll] using h) hd), rfl⟩
  | cons x xs ih =>
    intro s h hA hok hd hB hm
    obtain ⟨e, re⟩ := x
    simp only [Inline.textAll, List.append_assoc] at h ⊢
    simp only [InlinesOk, lastWord_lastWord] at hok
    simp only [Inline.nestAll] at hB
    obtain ⟨h1, h2, h3⟩ := hok
    obtain ⟨y, reg, hy, hye⟩ := hstep s e xs h (hA ⟨e, re⟩ (by simp)) h1 h2 h3 hd hB hm
    have hv := h.adv
    obtain ⟨ys, hc, hys⟩ := ih (adv s (Inline.textOf L cfg e).length) hv (fun z hz => hA z (by simp [hz]))
      (by rw [View.consumed h]; exact h3) hd (by omega) (by
        rw [hv.remLen]
        rw [h.remLen] at hm
        simp at hm ⊢
        omega)
    refine ⟨⟨y, reg⟩ :: ys, ?_, by simp [Inline.eqvs, hye, hys]⟩
    rw [List.length_append]
    exact .cons hy (elem_pos hs h1) hc

theorem contents_run (hs : env.SchemeSound) : ∀ n, DecoContentsOk env ue L cfg n (decoContentsF env n) := by
  intro n
  induction n with
  | zero => intro s cs _ _ _ _ h; omega
  | succ n ih =>
    intro s cs h1 h2 h3 h4 h5 h6
    have hD : DecoOk env ue L cfg n (decoratedOf (decoContentsF env n)) := decoOk_decoratedOf ih
    have hE := decoErr_decoratedOf (decoContentsF env n)
    have hr : LineStop [] := .inl rfl
    have h3' : View s (Inline.textAll L cfg cs ++ []) := by simpa using h3
    obtain ⟨ys, hc, hys⟩ := chain_run (r := []) (A := Inline.InDeco) (B := 65535) (m := n) (d := s.depth) (ue := ue)
      (L := L) (cfg := cfg) (p := decoAlts env (decoratedOf (decoContentsF env n))) hs (by
        intro s' e xs a1 a2 a3 a4 a5 a6 a7 a8
        obtain ⟨y, hy, he⟩ := decoAlts_run (r := []) ⟨a1, a3, by rw [a6]; omega⟩ a2 hs hr hD hE a8 a4 a5
          (by rw [a6]; omega)
        exact ⟨y, _, hy, he⟩) (fun s' hv _ => decoAlts_stop hs hv hr hE) cs s h3' h2 h4 rfl h6
        (by rw [h3.remLen]; omega)
    refine ⟨ys, ?_, hys⟩
    have hys0 : ys ≠ [] := by
      rintro rfl
      cases cs with
      | nil => exact h1 rfl
      | cons => simp [Inline.eqvs] at hys
    exact hc.many1 hys0 h3 (Nat.le_refl _)

theorem decoErr_decoratedText : DecoErr (decoratedText env) := fun _ _ h hn => decoratedOf_err h hn

theorem decoOk_decoratedText (hs : env.SchemeSound) (m : Nat) : DecoOk env ue L cfg m (decoratedText env) := by
  intro s k cs y z h hok _ hn
  exact decoOk_decoratedOf (contents_run hs s.remainingLen) s k cs y z h hok (Nat.le_refl _) hn

/-- One inline element is read back. -/
theorem inlineElement_run (h : Here env ue L cfg r s e xs) (hs : env.SchemeSound) (hr : LineStop r)
    (hj : e.Joins (lastWord (s.asConsumed ++ Inline.textOf L cfg e)) xs)
    (hx : InlinesOk env ue L cfg (lastWord (s.asConsumed ++ Inline.textOf L cfg e)) xs)
    (hn : s.depth + Inline.nestAll xs ≤ 65535) :
    Reads1 ue (inlineElement env) s (Inline.textOf L cfg e).length e := by
  have hD := decoOk_decoratedText (ue := ue) (L := L) (cfg := cfg) hs s.remainingLen
  have hE := decoErr_decoratedText (env := env)
  have hv := h.view
  by_cases ht : ∃ t, e = .text t
  · obtain ⟨t, rfl⟩ := ht
    simp only [Inline.textOf] at hj hx hv ⊢
    have hok := h.ok
    simp only [InlineOk] at hok
    have hp := text_plain (hok.line hr)
    have hsch := (hok.line hr).2.2.2.1
    refine ⟨.text t, ?_, by simp [Inline.eqv]⟩
    unfold inlineElement
    rw [alts_er (comment_err hv hp.comment), alts_er (mathInline_err hv (hp.pairs (b!"$", b!"$") (by decide))),
      alts_er (codeInline_err hv (hp.pairs (b!"`", b!"`") (by decide))), alts_er (tags_err hv hp.tag),
      alts_er (link_err hs hv (hp.pairs (b!"[[", b!"]]") (by decide)) (hp.pairs (b!"{{", b!"}}") (by decide)) hsch),
      alts_er (hE s _ hv hp.deco), alts_er (keyword_err hv hp.keyword)]
    exact text_run h hs hr hD hE (Nat.le_refl _) hj hx hn
  by_cases hraw : ∃ d, e = .link (.raw d)
  · obtain ⟨d, rfl⟩ := hraw
    have hl := h.ok
    simp only [InlineOk] at hl
    obtain ⟨b, y, e, hb⟩ := schemeStart_head (raw_scheme hs hl)
    have hh : (Inline.textOf L cfg (.link (.raw d)) ++ (Inline.textAll L cfg xs ++ r)).head? = some b := by
      simp [Inline.textOf, Link.textOf, e]
    have hne : b ≠ c!"%" ∧ b ≠ c!"$" ∧ b ≠ c!"`" ∧ b ≠ c!":" := by
      refine ⟨?_, ?_, ?_, ?_⟩ <;> rintro rfl <;> simp [lowerByte] at hb
    refine (h.link hs hr).ok fun s' a ha => ?_
    unfold inlineElement
    rw [alts_er (comment_head hv hh hne.1), alts_er (mathInline_head hv hh hne.2.1),
      alts_er (codeInline_head hv hh hne.2.2.1), alts_er (tags_head hv hh hne.2.2.2)]
    exact alts_fst ha
  obtain ⟨b, hb⟩ := lead_some (fun t e => ht ⟨t, e⟩) (fun d e => hraw ⟨d, e⟩)
  have hh : (Inline.textOf L cfg e ++ (Inline.textAll L cfg xs ++ r)).head? = some b := view_head (lead_head hb)
  cases e with
  | text t => exact absurd ⟨t, rfl⟩ ht
  | comment c => exact (h.comment hr).ok fun s' a ha => alts_fst ha
  | math c =>
    simp [leadByte] at hb
    refine h.math.ok fun s' a ha => ?_
    unfold inlineElement
    rw [alts_er (comment_head hv hh (by rw [← hb]; decide))]
    exact alts_fst ha
  | code c =>
    simp [leadByte] at hb
    refine h.code.ok fun s' a ha => ?_
    unfold inlineElement
    rw [alts_er (comment_head hv hh (by rw [← hb]; decide)), alts_er (mathInline_head hv hh (by rw [← hb]; decide))]
    exact alts_fst ha
  | tags ts =>
    simp [leadByte] at hb
    refine (h.tags hr).ok fun s' a ha => ?_
    unfold inlineElement
    rw [alts_er (comment_head hv hh (by rw [← hb]; decide)), alts_er (mathInline_head hv hh (by rw [← hb]; decide)),
      alts_er (codeInline_head hv hh (by rw [← hb]; decide))]
    exact alts_fst ha
  | link l =>
    have hb' : b = c!"[" ∨ b = c!"{" := by
      cases l <;> simp [leadByte] at hb <;> simp [← hb]
    refine (h.link hs hr).ok fun s' a ha => ?_
    unfold inlineElement
    rw [alts_er (comment_head hv hh (by rcases hb' with rfl | rfl <;> decide)),
      alts_er (mathInline_head hv hh (by rcases hb' with rfl | rfl <;> decide)),
      alts_er (codeInline_head hv hh (by rcases hb' with rfl | rfl <;> decide)),
      alts_er (tags_head hv hh (by rcases hb' with rfl | rfl <;> decide))]
    exact alts_fst ha
  | decorated k cs =>
    have hb2 : b ∈ [c!"*", c!"_", c!"~", c!"^", c!","] := by
      cases k <;> simp [leadByte, Deco.delim] at hb <;> simp [← hb]
    have hns : lowerByte b ∉ [104, 102, 108, 109] ∧ (b ≠ c!"[" ∧ b ≠ c!"{") ∧ b ≠ c!"%" ∧ b ≠ c!"$" ∧ b ≠ c!"`" ∧ b ≠ c!":" := by
      simp only [List.mem_cons, List.not_mem_nil, or_false] at hb2
      rcases hb2 with rfl | rfl | rfl | rfl | rfl <;> decide
    refine (h.deco hD (Nat.le_refl _)).ok fun s' a ha => ?_
    unfold inlineElement
    rw [alts_er (comment_head hv hh hns.2.2.1), alts_er (mathInline_head hv hh hns.2.2.2.1),
      alts_er (codeInline_head hv hh hns.2.2.2.2.1), alts_er (tags_head hv hh hns.2.2.2.2.2),
      alts_er (link_head hs hv hh hns.2.1 (not_scheme_head hh hns.1))]
    exact alts_fst ha
  | keyword k =>
    have hb2 : b ∈ [68, 70, 83, 84, 88] := by
      cases k <;> simp [leadByte, Keyword.display] at hb <;> simp [← hb]
    have hns : (b ≠ c!"[" ∧ b ≠ c!"{") ∧ b ≠ c!"%" ∧ b ≠ c!"$" ∧ b ≠ c!"`" ∧ b ≠ c!":" ∧
        b ∉ [c!"*", c!"_", c!"~", c!"^", c!","] := by
      simp only [List.mem_cons, List.not_mem_nil, or_false] at hb2
      rcases hb2 with rfl | rfl | rfl | rfl | rfl <;> decide
    refine h.keyword.ok fun s' a ha => ?_
    have hv' := hv
    simp only [Inline.textOf] at hv'
    have hh' := hh
    simp only [Inline.textOf] at hh'
    unfold inlineElement
    rw [alts_er (comment_head hv hh hns.2.1), alts_er (mathInline_head hv hh hns.2.2.1),
      alts_er (codeInline_head hv hh hns.2.2.2.1), alts_er (tags_head hv hh hns.2.2.2.2.1),
      alts_er (link_head hs hv' hh' hns.1 (keyword_not_scheme k)), alts_er (deco_head hE hv hh hns.2.2.2.2.2)]
    exact alts_fst ha

theorem inlineElement_stop (hs : env.SchemeSound) (h : View s r) (hr : LineStop r) : inlineElement env s = .err := by
  have hpre : ∀ p : Str, p ≠ [] → 10 ∉ p → ¬ p <+: r := by
    intro p hp h10 hx
    have := prefix_line (p := p) (x := []) (by simpa using hx) h10 hr
    simp at this
    exact hp this
  have ho : ∀ A B : Str, A ≠ [] → 10 ∉ A → ¬ Opens A B r := by
    rintro A B hA h10 ⟨c, q, -, -, e⟩
    exact hpre A hA h10 ⟨_, e.symm⟩
  have hsc : ¬ SchemeStart r := by
    intro hx
    obtain ⟨b, y, rfl, hb⟩ := schemeStart_head hx
    rcases hr with hr | hr
    · simp at hr
    · simp at hr; subst hr; simp [lowerByte] at hb
  unfold inlineElement
  rw [alts_er (comment_err h (hpre _ (by simp) (by decide))),
    alts_er (mathInline_err h (ho _ _ (by simp) (by decide))),
    alts_er (codeInline_err h (ho _ _ (by simp) (by decide))),
    alts_er (tags_err h (fun ⟨c, q, _, _, e⟩ => hpre b!":" (by simp) (by decide) ⟨_, e.symm⟩)),
    alts_er (link_err hs h (ho _ _ (by simp) (by decide)) (ho _ _ (by simp) (by decide)) hsc),
    alts_er (decoErr_decoratedText s _ h (fun k => ho _ _ (by cases k <;> decide) (by cases k <;> decide))),
    alts_er (keyword_err h (fun k hk => hpre k ((by decide : ∀ k ∈ keywords, k ≠ []) k hk)
      ((by decide : ∀ k ∈ keywords, 10 ∉ k) k hk)))]
  exact textOf_stop h hr

/-- Inline contents are read back up to the end of the line. -/
theorem inlines_run (hs : env.SchemeSound) (hr : LineStop r) (h : View s (Inline.textAll L cfg xs ++ r))
    (hne : xs ≠ []) (hok : InlinesOk env ue L cfg (lastWord s.asConsumed) xs)
    (hn : s.depth + 1 + Inline.nestAll xs ≤ 65535) :
    ∃ ys, inlineContainer env s = .ok (adv s (Inline.textAll L cfg xs).length)
        ⟨ys, ⟨s.start, (Inline.textAll L cfg xs).length, s.depth⟩⟩ ∧
      Inline.eqvs false ue ys xs = true := by
  obtain ⟨ys, hc, hys⟩ := chain_run (r := r) (A := fun _ => True) (B := 65534) (m := s.remainingLen) (d := s.depth)
    (ue := ue) (L := L) (cfg := cfg) (p := deeper (inlineElement env)) hs (by
      intro s' e xs a1 _ a3 a4 a5 a6 a7 a8
      have h' : Here env ue L cfg r (s'.withDepth (s'.depth + 1)) e xs :=
        ⟨a1.withDepth _, a3, by show s'.depth + 1 + _ ≤ _; omega⟩
      obtain ⟨y, hy, he⟩ := inlineElement_run h' hs hr a4 a5 (by show s'.depth + 1 + _ ≤ _; omega)
      exact ⟨y, _, deeper_ok (by omega) hy, he⟩)
    (fun s' hv hd => deeper_er (by omega) (inlineElement_stop hs (hv.withDepth _) hr)) xs s h (fun _ _ => trivial)
    hok rfl (by omega) (Nat.le_refl _)
  have hys0 : ys ≠ [] := by
    rintro rfl
    cases xs with
    | nil => exact hne rfl
    | cons => simp [Inline.eqvs] at hys
  exact ⟨ys, located_run h (by simp) (hc.many1 hys0 h (by simp)), hys⟩

end Vw
