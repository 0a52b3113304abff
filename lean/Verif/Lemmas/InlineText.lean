import Verif.Lemmas.InlineErr

/-!
# Text between inline elements
-/

namespace Vw
open P Scan

variable {s : Span} {r w t x : Str} {env : Env}

/-! ## The word before a position -/

theorem isAsciiWs_iff (b : Byte) : isAsciiWs b = true ↔ WsByte b := by
  simp [isAsciiWs, WsByte]
  omega

theorem View.consumed (h : View s (w ++ r)) : (Vw.adv s w.length).asConsumed = s.asConsumed ++ w := by
  have h1 := h.rem
  have h2 := h.len
  simp at h2
  simp only [Span.asConsumed, Vw.adv, Span.asRemaining] at h1 ⊢
  rw [List.take_add]
  congr 1
  have h3 : (List.drop s.start (s.inner.take s.stop)).take w.length = w := by rw [h1]; simp
  rw [List.drop_take, List.take_take, Nat.min_eq_left (by omega)] at h3
  exact h3

theorem View.consumedLen (h : View s r) : s.asConsumed.length = s.start := by
  have := h.le; have := h.hi
  simp [Span.asConsumed]; omega

theorem takeWhile_append_stop {f : Byte → Bool} {a b : Str} (h : ∃ y ∈ a, f y = false) :
    (a ++ b).takeWhile f = a.takeWhile f := by
  induction a with
  | nil => simp at h
  | cons y a ih =>
    by_cases hy : f y = true
    · simp only [List.cons_append, List.takeWhile_cons, hy, if_true]
      rw [ih]
      obtain ⟨z, hz, hf⟩ := h
      rcases List.mem_cons.1 hz with rfl | hz
      · rw [hy] at hf; cases hf
      · exact ⟨z, hz, hf⟩
    · simp [hy]

theorem lastWord_split (c : Str) : ∃ p, c = p ++ lastWord c := by
  refine ⟨(c.reverse.dropWhile fun b => !decide (WsByte b)).reverse, ?_⟩
  unfold lastWord
  rw [← List.reverse_append, List.takeWhile_append_dropWhile, List.reverse_reverse]

theorem lastWord_noWs (c : Str) : ∀ b ∈ lastWord c, ¬ WsByte b := by
  intro b hb
  unfold lastWord at hb
  have := List.all_eq_true.1 (List.all_takeWhile (l := c.reverse) (p := fun b => !decide (WsByte b))) b
    (List.mem_reverse.1 hb)
  simpa using this

theorem lastWord_clean {c : Str} (h : ∀ b ∈ c, ¬ WsByte b) : lastWord c = c := by
  unfold lastWord
  have : (c.reverse.takeWhile fun b => !decide (WsByte b)) = c.reverse := by
    have := takeWhile_run (f := fun b => !decide (WsByte b)) (w := c.reverse) (r := []) (by simpa using h) (by simp)
    simpa using this
  rw [this, List.reverse_reverse]

theorem lastWord_append_ws {a b : Str} (h : ∃ y ∈ b, WsByte y) : lastWord (a ++ b) = lastWord b := by
  unfold lastWord
  rw [List.reverse_append, takeWhile_append_stop]
  obtain ⟨y, hy, hw⟩ := h
  exact ⟨y, by simpa using hy, by simpa using hw⟩

theorem lastWord_append_clean {a b : Str} (h : ∀ y ∈ b, ¬ WsByte y) :
    lastWord (a ++ b) = lastWord a ++ b := by
  unfold lastWord
  rw [List.reverse_append, List.takeWhile_append_of_pos (by simpa using h)]
  simp

theorem lastWord_lastWord (a b : Str) : lastWord (lastWord a ++ b) = lastWord (a ++ b) := by
  by_cases h : ∃ y ∈ b, WsByte y
  · rw [lastWord_append_ws h, lastWord_append_ws h]
  · have h' : ∀ y ∈ b, ¬ WsByte y := fun y hy hw => h ⟨y, hy, hw⟩
    rw [lastWord_append_clean h', lastWord_append_clean h', lastWord_clean (lastWord_noWs a)]

theorem lastWord_nil_of_ws {a : Str} {b : Byte} (h : WsByte b) : lastWord (a ++ [b]) = [] := by
  unfold lastWord
  simp [h]

theorem backtrackLen_eq (c : Str) : backtrackLen c = (lastWord c).length := by
  unfold backtrackLen lastWord
  rw [List.length_reverse]
  congr 2
  funext b
  have := isAsciiWs_iff b
  by_cases h : WsByte b
  · simp [h, this.2 h]
  · have : isAsciiWs b = false := by
      cases hb : isAsciiWs b
      · rfl
      · exact absurd (this.1 hb) h
    simp [h, this]

theorem lastIsWs_iff (c : Str) : lastIsWs c = true ↔ lastWord c = [] := by
  rcases List.eq_nil_or_concat c with rfl | ⟨p, b, rfl⟩
  · simp [lastIsWs, lastWord]
  · unfold lastIsWs
    simp only [List.concat_eq_append, List.getLast?_append, List.getLast?_singleton, Option.some_or]
    rw [isAsciiWs_iff]
    constructor
    · exact lastWord_nil_of_ws
    · intro h
      apply Classical.byContradiction
      intro hn
      rw [lastWord_append_clean (by simpa using hn)] at h
      simp at h

theorem View.back (h : View s x) :
    View (s.backtrackStartBy (backtrackLen s.asConsumed)) (lastWord s.asConsumed ++ x) ∧
      Vw.adv (s.backtrackStartBy (backtrackLen s.asConsumed)) (lastWord s.asConsumed).length = s := by
  obtain ⟨p, hp⟩ := lastWord_split s.asConsumed
  have hl := h.consumedLen
  have hle : (lastWord s.asConsumed).length ≤ s.start := by
    have := congrArg List.length hp
    simp at this; omega
  have h1 := h.le
  have h2 := h.hi
  have h3 := h.rem
  unfold Span.backtrackStartBy
  rw [backtrackLen_eq, if_neg (by omega)]
  have hc : (s.inner.take s.start).drop (s.start - (lastWord s.asConsumed).length) = lastWord s.asConsumed := by
    have hp' : s.inner.take s.start = p ++ lastWord s.asConsumed := hp
    rw [hp']
    have : s.start - (lastWord s.asConsumed).length = p.length := by
      have := congrArg List.length hp'
      rw [List.length_take] at this
      simp at this; omega
    rw [this]; simp
  refine ⟨⟨?_, by dsimp only; omega, h2⟩, ?_⟩
  · simp only [Span.asRemaining] at h3 ⊢
    have e : s.inner.take s.stop = s.inner.take s.start ++ x := by
      rw [← h3]
      have := List.take_append_drop s.start (s.inner.take s.stop)
      rw [List.take_take, Nat.min_eq_left h1] at this
      exact this.symm
    rw [e, List.drop_append_of_le_length, hc]
    rw [List.length_take]; omega
  · simp only [Vw.adv]
    cases s
    simp at hle ⊢
    omega

/-! ## Texts that end before a line end -/

theorem prefix_line {p x r : Str} (h : p <+: x ++ r) (h10 : 10 ∉ p) (hr : r = [] ∨ r.head? = some 10) :
    p <+: x := by
  rcases hr with rfl | hr
  · simpa using h
  · cases r with
    | nil => simp at hr
    | cons a r =>
      simp at hr
      subst hr
      obtain ⟨q, e⟩ := h
      rcases List.append_eq_append_iff.1 e with ⟨a, h1, -⟩ | ⟨c, h1, h2⟩
      · exact ⟨a, h1.symm⟩
      · cases c with
        | nil => rw [h1]; simp
        | cons b c =>
          simp only [List.cons_append, List.cons.injEq] at h2
          exact absurd (by rw [h1, ← h2.1]; simp) h10

theorem Opens.line {L R : Str} (h : Opens L R (x ++ r)) (hL : 10 ∉ L) (hR : 10 ∉ R)
    (hr : r = [] ∨ r.head? = some 10) : Opens L R x := by
  obtain ⟨c, q, hc, h10, e⟩ := h
  have : L ++ (c ++ R) <+: x := by
    refine prefix_line ⟨q, ?_⟩ (by simp [hL, hR, h10]) hr
    rw [e]; simp
  obtain ⟨q', e'⟩ := this
  exact ⟨c, q', hc, h10, by rw [← e']; simp⟩

theorem TagStart.line (h : TagStart (x ++ r)) (hr : r = [] ∨ r.head? = some 10) : TagStart x := by
  obtain ⟨c, q, hc, h10, e⟩ := h
  have : b!":" ++ (c ++ b!":") <+: x := by
    refine prefix_line ⟨q, ?_⟩ ?_ hr
    · rw [e]; simp
    · have : 10 ∉ c := fun hm => (h10 10 hm).2.2.2 rfl
      simp [this]
  obtain ⟨q', e'⟩ := this
  exact ⟨c, q', hc, h10, by rw [← e']; simp⟩

theorem SchemeStart.line (h : SchemeStart (x ++ r)) (hr : r = [] ∨ r.head? = some 10) : SchemeStart x := by
  obtain ⟨sc, hsc, h⟩ := h
  refine ⟨sc, hsc, prefix_line (r := r.map lowerByte) (by simpa using h) ?_ ?_⟩
  · have : ∀ sc ∈ linkSchemes, 10 ∉ sc ++ b!":" := by decide
    exact this sc hsc
  · rcases hr with rfl | hr
    · exact .inl rfl
    · right
      rw [List.head?_map, hr]; rfl

theorem Plain.line (h : Plain w x) (hx : x ≠ []) (hr : r = [] ∨ r.head? = some 10) : Plain w (x ++ r) where
  comment := fun hp => h.comment (prefix_line hp (by decide) hr)
  pairs := fun p hp ho => h.pairs p hp (ho.line
    ((by decide : ∀ p ∈ markPairs, 10 ∉ p.1) p hp) ((by decide : ∀ p ∈ markPairs, 10 ∉ p.2) p hp) hr)
  tag := fun ht => h.tag (ht.line hr)
  keyword := fun k hk hp => h.keyword k hk (prefix_line hp ((by decide : ∀ k ∈ keywords, 10 ∉ k) k hk) hr)
  link := by
    intro hh hs
    have hh : x.head? = some c!":" := by
      cases x with
      | nil => exact absurd rfl hx
      | cons => exact hh
    rw [← List.append_assoc] at hs
    exact h.link hh (hs.line hr)

theorem TextOk.line (h : TextOk w t x) (hr : r = [] ∨ r.head? = some 10) : TextOk w t (x ++ r) := by
  obtain ⟨h1, h2, h3, h4, h5⟩ := h
  refine ⟨h1, h2, h3, ?_, ?_⟩
  · intro hs
    rw [← List.append_assoc] at hs
    exact h4 (hs.line hr)
  · intro u v e hv
    have := (h5 u v e hv).line (by simp [hv]) hr
    simpa using this

theorem schemeStart_head (h : SchemeStart x) :
    ∃ b y, x = b :: y ∧ lowerByte b ∈ [104, 102, 108, 109] := by
  obtain ⟨sc, hsc, q, h⟩ := h
  cases x with
  | nil => simp at h
  | cons b y =>
    refine ⟨b, y, rfl, ?_⟩
    have key : ∀ sc ∈ linkSchemes, sc ≠ [] ∧ sc.headD 0 ∈ [104, 102, 108, 109] := by decide
    obtain ⟨h0, ha⟩ := key sc hsc
    cases sc with
    | nil => exact absurd rfl h0
    | cons a sc =>
      simp only [List.cons_append, List.map_cons, List.cons.injEq] at h
      rw [← h.1]
      exact ha

/-! ## Where text goes on -/

theorem peeked_ok {α : Type} {f : Byte → Bool} {q : P α} {b : Byte} (h : View s (b :: x)) (hb : f b = true) :
    preceded (peek (satisfy f)) q s = q s := by
  unfold preceded
  rw [bind_ok (peek_ok (satisfy_run h hb))]

theorem peeked_er {α : Type} {f : Byte → Bool} {q : P α} (h : View s x)
    (hb : ∀ b, x.head? = some b → f b = false) : preceded (peek (satisfy f)) q s = .err :=
  bind_er (peek_er (satisfy_run_err h hb))

theorem peeked_er' {α : Type} {f : Byte → Bool} {q : P α} (h : View s x) (hq : q s = .err) :
    preceded (peek (satisfy f)) q s = .err := by
  cases x with
  | nil => exact peeked_er h (by simp)
  | cons b x =>
    cases hb : f b
    · exact peeked_er h (by simpa using hb)
    · rw [peeked_ok h hb, hq]

theorem rawLinkBack_err (hs : env.SchemeSound) (h : View s x) (hn : ¬ SchemeStart (lastWord s.asConsumed ++ x)) :
    rawLinkBack env s = .err := rawLink_err hs h.back.1 hn

theorem nonText_err {deco : P (Located Inline)} (hs : env.SchemeSound) (h : View s x) (hd : deco s = .err)
    (hp : Plain (lastWord s.asConsumed) x) : nonTextOf env deco s = .err := by
  unfold nonTextOf
  rw [alts_er (p := preceded (peek (char c!"%")) comment) (peeked_er' h (comment_err h hp.comment)),
    alts_er (p := preceded (peek (char c!"`")) codeInline)
      (peeked_er' h (codeInline_err h (hp.pairs (b!"`", b!"`") (by decide)))),
    alts_er (p := preceded (peek (char c!"$")) mathInline)
      (peeked_er' h (mathInline_err h (hp.pairs (b!"$", b!"$") (by decide)))),
    alts_er (p := preceded (peek (char c!":")) tags) (peeked_er' h (tags_err h hp.tag))]
  have hl : preceded (peek (alt (char c!"[") (char c!"{"))) (link env) s = .err := by
    by_cases hh : x.head? = some 91 ∨ x.head? = some 123
    · have hsch : ¬ SchemeStart x := by
        intro hs
        obtain ⟨b, y, rfl, hb⟩ := schemeStart_head hs
        simp at hh
        rcases hh with rfl | rfl <;> simp [lowerByte] at hb
      have hb := link_err hs h (hp.pairs (b!"[[", b!"]]") (by decide))
        (hp.pairs (b!"{{", b!"}}") (by decide)) hsch
      have : ∃ s' a, alt (char c!"[") (char c!"{") s = .ok s' a := by
        cases x with
        | nil => simp at hh
        | cons b y =>
          simp at hh
          rcases hh with rfl | rfl
          · exact ⟨_, _, alt_ok (satisfy_run h (by simp))⟩
          · rw [alt_er (show char c!"[" s = .err from satisfy_run_err h (by simp))]
            exact ⟨_, _, satisfy_run h (by simp)⟩
      obtain ⟨s', a, e⟩ := this
      unfold preceded
      rw [bind_ok (peek_ok e), hb]
    · refine bind_er (peek_er ?_)
      rw [alt_er (show char c!"[" s = .err from satisfy_run_err h _)]
      · refine satisfy_run_err h ?_
        intro b hb
        simp
        rintro rfl
        exact hh (.inr hb)
      · intro b hb
        simp
        rintro rfl
        exact hh (.inl hb)
  rw [alts_er hl, alts_er (p := preceded (peek (oneOf b!"*_~^,")) deco) (peeked_er' h hd),
    alts_er (keyword_err h hp.keyword)]
  by_cases hc : x.head? = some 58
  · exact peeked_er' h (rawLinkBack_err hs h (hp.link hc))
  · refine peeked_er h ?_
    intro b hb
    simp
    rintro rfl
    exact hc hb

theorem Plain.deco (h : Plain w x) (k : Deco) : ¬ Opens k.delim k.delim x := by
  refine h.pairs (k.delim, k.delim) ?_
  cases k <;> decide

theorem textLoop_skip {nt : P (Located Inline)} : ∀ (t : Str) (s : Span) (fuel len : Nat), View s (t ++ x) →
    t.length ≤ fuel → (∀ u v, t = u ++ v → v ≠ [] → nt (adv s u.length) = .err ∧ atLineEnd (v ++ x) = false) →
    textLoop nt fuel s len = textLoop nt (fuel - t.length) (adv s t.length) (len + t.length) := by
  intro t
  induction t with
  | nil => intros; simp
  | cons b t ih =>
    intro s fuel len h hf hn
    obtain ⟨n, rfl⟩ : ∃ n, fuel = n + 1 := ⟨fuel - 1, by simp at hf; omega⟩
    have h1 : View (adv s 1) (t ++ x) := View.adv (w := [b]) h
    obtain ⟨he, hl⟩ := hn [] (b :: t) rfl (by simp)
    simp only [List.length_nil, adv_zero] at he
    conv => lhs; unfold textLoop
    have e1 : s.advanceStartBy 1 = adv s 1 := sliceFrom_run (w := [b]) h
    rw [if_pos (by rw [h.remLen]; simp), h.rem, hl]
    simp only [he, e1]
    rw [if_neg (by simp), ih (adv s 1) n (len + 1) h1 (by simp at hf; omega)]
    · simp only [adv_adv, List.length_cons]
      congr 1 <;> first | omega | rfl | (congr 1; omega)
    · intro u v e hv
      have := hn (b :: u) v (by rw [e]; rfl) hv
      simpa [Nat.add_comm] using this

theorem atLineEnd_false {t x : Str} (h10 : 10 ∉ t) (h13 : 13 ∉ t) (ht : t ≠ []) :
    atLineEnd (t ++ x) = false := by
  cases t with
  | nil => exact absurd rfl ht
  | cons b t =>
    simp only [List.mem_cons, not_or] at h10 h13
    unfold atLineEnd
    split
    · rename_i e; simp at e; exact absurd e.1.symm h10.1
    · rename_i e; simp at e; exact absurd e.1.symm h13.1
    · rfl

/-- What makes the text stop after `t`: the end of the line or an element. -/
def Stops (nt : P (Located Inline)) (s : Span) (n : Nat) (x : Str) : Prop :=
  x = [] ∨ x.head? = some 10 ∨ ∃ s' y, nt (adv s n) = .ok s' y ∧ y.region.offset = s.start + n

theorem textOf_run {deco : P (Located Inline)} (hs : env.SchemeSound) (h : View s (t ++ x))
    (ht : TextOk (lastWord s.asConsumed) t x) (hd : ∀ s y, View s y → (∀ k : Deco, ¬ Opens k.delim k.delim y) → deco s = .err)
    (hstop : Stops (nonTextOf env deco) s t.length x) :
    textOf env deco s = .ok (adv s t.length) ⟨.text t, ⟨s.start, t.length, s.depth⟩⟩ := by
  obtain ⟨h1, h2, h3, h4, h5⟩ := ht
  have hl : ∃ s', textLoop (nonTextOf env deco) (s.remainingLen + 1) s 0 = .ok s' t.length := by
    rw [textLoop_skip t s _ 0 h (by rw [h.remLen]; simp; omega)]
    · have hv := h.adv
      obtain ⟨n, hn⟩ : ∃ n, s.remainingLen + 1 - t.length = n + 1 := by
        refine ⟨x.length, ?_⟩
        rw [h.remLen]; simp; omega
      rw [hn]
      unfold textLoop
      rw [hv.remLen, hv.rem, Nat.zero_add]
      rcases hstop with rfl | hx | ⟨s', y, hy, ho⟩
      · exact ⟨_, by rw [if_neg (by simp)]⟩
      · cases x with
        | nil => simp at hx
        | cons b x =>
          simp at hx
          subst hx
          refine ⟨adv s t.length, ?_⟩
          rw [if_pos (by simp), if_pos (by rfl)]
      · by_cases hx : x.length > 0
        · rw [if_pos hx]
          by_cases hle : atLineEnd x = true
          · exact ⟨_, by rw [if_pos hle]⟩
          · rw [if_neg hle, hy]
            dsimp only
            rw [if_neg (by rw [adv_start]; omega)]
            exact ⟨_, rfl⟩
        · exact ⟨_, by rw [if_neg hx]⟩
    · intro u v e hv
      subst e
      have hv' : View (adv s u.length) (v ++ x) := View.adv (w := u) (by simpa using h)
      have hp := h5 u v rfl hv
      rw [lastWord_lastWord, ← View.consumed (w := u) (r := v ++ x) (by simpa using h)] at hp
      refine ⟨nonText_err hs hv' (hd _ _ hv' hp.deco) hp, ?_⟩
      simp at h2 h3
      exact atLineEnd_false h2.2 h3.2 hv
  obtain ⟨s', hl⟩ := hl
  unfold textOf
  refine located_run h (by simp) ?_
  have hpos : 0 < t.length := List.length_pos_iff.2 h1
  have hlen := h.len
  simp at hlen
  simp only [hl]
  rw [if_pos hpos]
  have e1 : s.advanceStartBy t.length = adv s t.length := sliceFrom_run h
  have e2 : (s.withLength t.length).asRemaining = t := by
    unfold Span.withLength
    split
    · exact h.cut.rem
    · rename_i hn
      rw [h.remLen] at hn
      simp at hn
      cases x with
      | nil => rw [h.rem]; simp
      | cons => simp at hn
  rw [e1, e2]

/-- Text in front of a link without brackets: the scan goes past the beginning of the link and back. -/
theorem textOf_run_raw {deco : P (Located Inline)} {sc : Str} (hs : env.SchemeSound) (h : View s (t ++ (sc ++ (58 :: x))))
    (ht : TextOk (lastWord s.asConsumed) t (sc ++ (58 :: x)))
    (hd : ∀ s y, View s y → (∀ k : Deco, ¬ Opens k.delim k.delim y) → deco s = .err)
    (hsc : ∀ u v, sc = u ++ v → v ≠ [] → Plain (lastWord (s.asConsumed ++ (t ++ u))) (v ++ (58 :: x)))
    (hws : 10 ∉ sc ∧ 13 ∉ sc)
    (hstop : ∃ s' y, nonTextOf env deco (adv s (t.length + sc.length)) = .ok s' y ∧ y.region.offset = s.start + t.length) :
    textOf env deco s = .ok (adv s t.length) ⟨.text t, ⟨s.start, t.length, s.depth⟩⟩ := by
  obtain ⟨h1, h2, h3, h4, h5⟩ := ht
  have hts : View s ((t ++ sc) ++ (58 :: x)) := by simpa using h
  have hl : ∃ s', textLoop (nonTextOf env deco) (s.remainingLen + 1) s 0 = .ok s' t.length := by
    rw [textLoop_skip (t ++ sc) s _ 0 hts (by rw [h.remLen]; simp; omega)]
    · have hv := hts.adv
      obtain ⟨n, hn⟩ : ∃ n, s.remainingLen + 1 - (t ++ sc).length = n + 1 := by
        refine ⟨x.length + 1, ?_⟩
        rw [hts.remLen]; simp; omega
      obtain ⟨s', y, hy, ho⟩ := hstop
      rw [hn]
      unfold textLoop
      rw [hv.remLen, hv.rem, Nat.zero_add, if_pos (by simp), if_neg (by simp [atLineEnd])]
      rw [List.length_append, hy]
      dsimp only
      by_cases hz : sc.length = 0
      · rw [if_neg (by rw [adv_start]; omega)]
        exact ⟨_, by rw [hz]; rfl⟩
      · rw [if_pos (by rw [adv_start]; omega), if_neg (by rw [adv_start]; omega), ho]
        refine ⟨adv s (t.length + sc.length), ?_⟩
        rw [adv_start]
        congr 1
        omega
    · intro u v e hv
      have e' : View s (u ++ (v ++ 58 :: x)) := by
        have := hts; rw [e] at this; simpa using this
      have hv' : View (adv s u.length) (v ++ 58 :: x) := View.adv e'
      have hp : Plain (lastWord (s.asConsumed ++ u)) (v ++ 58 :: x) := by
        rcases List.append_eq_append_iff.1 e with ⟨a, rfl, ha⟩ | ⟨c, hc, rfl⟩
        · exact hsc a v ha hv
        · cases c with
          | nil =>
            simp at hc
            subst hc
            have := hsc [] sc rfl (by simpa using hv)
            simpa using this
          | cons a c =>
            have := h5 u (a :: c) hc (by simp)
            rw [lastWord_lastWord] at this
            simpa using this
      rw [← View.consumed e'] at hp
      refine ⟨nonText_err hs hv' (hd _ _ hv' hp.deco) hp, ?_⟩
      have h10 : 10 ∉ t ++ sc := by simp [h2, hws.1]
      have h13 : 13 ∉ t ++ sc := by simp [h3, hws.2]
      rw [e] at h10 h13
      simp at h10 h13
      exact atLineEnd_false h10.2 h13.2 hv
  obtain ⟨s', hl⟩ := hl
  unfold textOf
  refine located_run h (by simp) ?_
  have hpos : 0 < t.length := List.length_pos_iff.2 h1
  have hlen := h.len
  simp at hlen
  simp only [hl]
  rw [if_pos hpos]
  have e1 : s.advanceStartBy t.length = adv s t.length := sliceFrom_run h
  have e2 : (s.withLength t.length).asRemaining = t := by
    unfold Span.withLength
    rw [h.remLen, if_pos (by simp; omega)]
    exact h.cut.rem
  rw [e1, e2]

end Vw
