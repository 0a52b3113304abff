import Verif.Lemmas.InlineRun
import Verif.Lemmas.Placeholder
import Verif.Spec.InlineText

/-!
# Where no inline element begins
-/

namespace Vw
open P Scan

variable {s : Span} {r w t x : Str} {env : Env}

theorem surround_err {L R : Str} (h : View s x) (hR : R ≠ []) (hn : ¬ Opens L R x) :
    surroundInLine1 L R s = .err := by
  unfold surroundInLine1
  by_cases hp : L <+: x
  · obtain ⟨y, rfl⟩ := hp
    rw [tag_run h]
    have h1 := h.adv
    simp only [h1.rem]
    cases hm : surroundLoop R y (memchr (· == 10) y) (memchrIter (fun b => b == R.headD 0) y) with
    | none => rfl
    | some n =>
      exfalso
      obtain ⟨h0, ha, -, h10⟩ := surroundLoop_res R y hR _ rfl 0 _ (memchrIter_pos _ _)
        (by intro i hi; omega) n hm
      obtain ⟨c, r, e, hc⟩ := ha.split (by have := ha.le hR; omega)
      subst e
      refine hn ⟨c, r, by rintro rfl; simp at hc; omega, ?_, rfl⟩
      intro hm
      obtain ⟨i, hi, he⟩ := List.mem_iff_getElem.1 hm
      exact h10 i (by omega) (by rw [List.getElem?_append_left hi, List.getElem?_eq_getElem hi, he])
  · rw [tag_run_err h hp]

theorem notContains_er {pat : Str} {p : P Span} (h : p s = .err) : notContains pat p s = .err := by
  unfold notContains
  rw [h]

theorem brackets_err (h : View s x) (hn : ¬ Opens b!"[[" b!"]]" x) : brackets s = .err :=
  notContains_er (surround_err h (by simp) hn)

theorem braces_err (h : View s x) (hn : ¬ Opens b!"{{" b!"}}" x) : braces s = .err :=
  notContains_er (surround_err h (by simp) hn)

theorem codeInline_err (h : View s x) (hn : ¬ Opens b!"`" b!"`" x) : codeInline s = .err :=
  located_er (map_er (strOf_er (notContains_er (surround_err h (by simp) hn))))

theorem mathInline_err (h : View s x) (hn : ¬ Opens b!"$" b!"$" x) : mathInline s = .err := by
  refine located_er (map_er (strOf_er ?_))
  unfold delimited
  by_cases hp : b!"$" <+: x
  · obtain ⟨y, rfl⟩ := hp
    have h1 : View (adv s 1) y := h.adv
    have c1 : char c!"$" s = .ok (adv s 1) c!"$" := satisfy_run h (by simp)
    rw [bind_ok c1]
    obtain ⟨w, r, rfl, hr, hs⟩ := takeLineUntil_view (pat := b!"$")
      ⟨by simp, by simp, 36, [], rfl, by decide⟩ h1
    have h2 := h1.adv
    by_cases hw : w = []
    · refine bind_er (notContains_er ?_)
      unfold takeLineUntil1
      rw [verify_ok hr, h1.cut.isEmpty, if_neg (by simp [hw])]
    · have e : takeLineUntil1 b!"$" (adv s 1) = .ok (adv (adv s 1) w.length) (cut (adv s 1) w.length) := by
        unfold takeLineUntil1
        rw [verify_ok hr, h1.cut.isEmpty, if_pos (by simpa using hw)]
      by_cases hi : b!"%%" <:+: w
      · refine bind_er ?_
        unfold notContains
        rw [e]
        simp only
        have := offset_res b!"%%" w (by simp)
        have ho : ∃ n, offset b!"%%" (cut (adv s 1) w.length) = .ok (cut (adv s 1) w.length) n := by
          unfold offset
          simp only [h1.cut.rem]
          cases hm : offsetLoop b!"%%" w (memchrIter (fun b => b == (b!"%%" : Str).headD 0) w) with
          | none =>
            rw [hm] at this
            obtain ⟨a, b, e⟩ := hi
            subst e
            exact absurd (at_append a b!"%%" b) (by simpa using this a.length)
          | some n => exact ⟨n, rfl⟩
        obtain ⟨n, ho⟩ := ho
        rw [not_ok ho]
      · rw [bind_ok (notContains_run e h1.cut (by simp) hi)]
        refine bind_er (satisfy_run_err h2 ?_)
        intro b hb
        cases r with
        | nil => simp at hb
        | cons a r =>
          simp at hb
          subst hb
          simp
          rintro rfl
          exact hn ⟨w, r, hw, hs.noNl, rfl⟩
  · refine bind_er (satisfy_run_err h ?_)
    intro b hb
    cases x with
    | nil => simp at hb
    | cons a x =>
      simp at hb
      subst hb
      simp
      rintro rfl
      exact hp ⟨x, rfl⟩

theorem comment_err (h : View s x) (hn : ¬ b!"%%" <+: x) : comment s = .err := by
  unfold comment
  have h1 : ¬ b!"%%+" <+: x := fun ⟨r, e⟩ => hn ⟨43 :: r, by simpa using e⟩
  rw [alt_er (show multiLineComment s = .err from located_er (bind_er (tag_run_err h h1)))]
  exact located_er (bind_er (tag_run_err h hn))

theorem keyword_err (h : View s x) (hn : ∀ k ∈ keywords, ¬ k <+: x) : keyword s = .err := by
  have key : ∀ (k : Str) (v : Inline), k ∈ keywords → P.value v (tag k) s = .err :=
    fun k v hk => map_er (tag_run_err h (hn k hk))
  refine located_er ?_
  rw [alts_er (key _ _ (by decide)), alts_er (key _ _ (by decide)), alts_er (key _ _ (by decide)),
    alts_er (key _ _ (by decide)), alts_er (key _ _ (by decide))]
  exact key _ _ (by decide)

theorem decoratedOf_err {c : P Inlines} (h : View s x) (hn : ∀ k : Deco, ¬ Opens k.delim k.delim x) :
    decoratedOf c s = .err := by
  have key : ∀ (k : Deco), decorated1 c k k.delim s = .err :=
    fun k => map_er (mapParser_er (notContains_er (surround_err h (by cases k <;> decide) (hn k))))
  refine located_er ?_
  rw [alts_er (show decorated1 c .bold b!"*" s = .err from key .bold),
    alts_er (show decorated1 c .italic b!"_" s = .err from key .italic),
    alts_er (show decorated1 c .strikeout b!"~~" s = .err from key .strikeout),
    alts_er (show decorated1 c .superscript b!"^" s = .err from key .superscript)]
  exact key .subscript

theorem ScanRes.exists {pats : List Str} {n : Nat} (h : ScanRes pats t n) :
    ∃ w r, t = w ++ r ∧ w.length = n ∧ ScanRes pats (w ++ r) w.length := by
  have hl : (t.take n).length = n := by rw [List.length_take]; have := h.le; omega
  refine ⟨t.take n, t.drop n, by simp, hl, ?_⟩
  rw [hl, List.take_append_drop]
  exact h

theorem takeLineUntil3_view {p1 p2 p3 : Str} (h1 : p1 ≠ []) (h2 : p2 ≠ []) (h3 : p3 ≠ []) (h : View s t) :
    ∃ w r, t = w ++ r ∧ takeLineUntil3 p1 p2 p3 s = .ok (adv s w.length) (cut s w.length) ∧
      ScanRes [p1, p2, p3] (w ++ r) w.length := by
  obtain ⟨w, r, rfl, e, hs⟩ := (takeLineUntil3Loop_res p1 p2 p3 t h1 h2 h3 _ rfl 0 _ (by omega)
    (memchrIter_pos _ _) (by intros; omega) (by intro i hi; omega)).exists
  refine ⟨w, r, rfl, ?_, hs⟩
  unfold takeLineUntil3
  simp only [h.rem]
  rw [← e, takeSplit_run h]

theorem takeLineUntil2_view {p1 p2 : Str} (h1 : p1 ≠ []) (h2 : p2 ≠ []) (h : View s t) :
    ∃ w r, t = w ++ r ∧ takeLineUntil2 p1 p2 s = .ok (adv s w.length) (cut s w.length) ∧
      ScanRes [p1, p2] (w ++ r) w.length := by
  obtain ⟨w, r, rfl, e, hs⟩ := (takeLineUntil2Loop_res p1 p2 t h1 h2 0 _ (by omega)
    (memchrIter_pos _ _) (by intro i hi; omega)).exists
  refine ⟨w, r, rfl, ?_, hs⟩
  unfold takeLineUntil2
  simp only [h.rem]
  rw [← e, takeSplit_run h]

/-- The scan stops exactly where the text says. -/
theorem ScanRes.unique {pats : List Str} {n : Nat} (h : ScanRes pats (w ++ r) n) (h10 : 10 ∉ w)
    (h13 : w.getLast? ≠ some 13 ∨ r.head? ≠ some 10)
    (hc : ∀ p ∈ pats, ∀ i, i < w.length → ¬ At (w ++ r) i p)
    (hr : r = [] ∨ r.head? = some 10 ∨ ∃ p ∈ pats, p <+: r) : n = w.length := by
  rcases Nat.lt_trichotomy n w.length with hlt | he | hgt
  · exfalso
    rcases h.exit with hx | hx | ⟨p, hp, hx⟩
    · simp at hx; omega
    · rcases hx with ⟨_, hx⟩ | ⟨_, hx, hy⟩
      · rw [List.getElem?_append_left hlt] at hx
        exact h10 (List.mem_of_getElem? hx)
      · rcases Nat.lt_or_ge (n + 1) w.length with h' | h'
        · rw [List.getElem?_append_left h'] at hy
          exact h10 (List.mem_of_getElem? hy)
        · have : n + 1 = w.length := by omega
          rw [this] at hy
          rw [List.getElem?_append_left hlt] at hx
          rw [List.getElem?_append_right (Nat.le_refl _)] at hy
          rcases h13 with h13 | h13
          · apply h13
            rw [List.getLast?_eq_getElem?, ← this]
            exact hx
          · apply h13
            rw [List.head?_eq_getElem?]
            simpa using hy
    · exact hc p hp n hlt hx
  · exact he
  · exfalso
    obtain ⟨h1, h2⟩ := h.clear w.length hgt
    rcases hr with rfl | hr | ⟨p, hp, q, rfl⟩
    · have := h.le; simp at this; omega
    · apply h1
      rw [List.getElem?_append_right (Nat.le_refl _)]
      rw [List.head?_eq_getElem?] at hr
      simpa using hr
    · exact h2 p hp (at_append _ _ _)

theorem wordTake_run (h : View s x) (hw : lastIsWs s.asConsumed = true) :
    ∃ w r, x = w ++ r ∧ (∀ b ∈ w, isAsciiWs b = false) ∧ (∀ b, r.head? = some b → isAsciiWs b = true) ∧
      wholeWord s = if w = [] then .err else .ok (adv s w.length) (cut s w.length) := by
  obtain ⟨w, r, rfl, h1, h2⟩ := while_exists (fun c => !isAsciiWs c) x
  refine ⟨w, r, rfl, by simpa using h1, by simpa using h2, ?_⟩
  unfold wholeWord
  rw [if_pos hw]
  by_cases hn : w = []
  · subst hn
    simp only [if_pos]
    exact takeWhile1_run_err (by simpa using h) h2
  · rw [if_neg hn]
    exact takeWhile1_run h hn h1 h2

theorem tags_err (h : View s x) (hn : ¬ TagStart x) : tags s = .err := by
  refine located_er (map_er ?_)
  by_cases hw : lastIsWs s.asConsumed = true
  · obtain ⟨w, r, rfl, h1, h2, hr⟩ := wordTake_run h hw
    by_cases hwn : w = []
    · rw [if_pos hwn] at hr
      exact mapParser_er hr
    rw [if_neg hwn] at hr
    have hc := h.cut
    have he : tagsInner (cut s w.length) = .err := by
      unfold tagsInner
      cases w with
      | nil => exact absurd rfl hwn
      | cons a u =>
        by_cases ha : a = 58
        · subst ha
          have c1 : char c!":" (cut s (58 :: u).length) = .ok (adv (cut s (58 :: u).length) 1) c!":" :=
            satisfy_run hc (by simp)
          rw [bind_ok c1]
          have v1 : View (adv (cut s (58 :: u).length) 1) u := View.adv (w := b!":") hc
          unfold many1 terminated tagContent
          obtain ⟨p, q, rfl, hr', hs⟩ := takeLineUntil3_view (p1 := b!":") (p2 := b!" ") (p3 := b!"\t")
            (by simp) (by simp) (by simp) v1
          refine bind_er ?_
          by_cases hp : p = []
          · refine bind_er (strOf_er ?_)
            unfold takeLineUntil31
            rw [verify_ok hr', v1.cut.isEmpty, if_neg (by simp [hp])]
          · have e : takeLineUntil31 b!":" b!" " b!"\t" (adv (cut s (58 :: (p ++ q)).length) 1) =
                .ok (adv (adv (cut s (58 :: (p ++ q)).length) 1) p.length)
                  (cut (adv (cut s (58 :: (p ++ q)).length) 1) p.length) := by
              unfold takeLineUntil31
              rw [verify_ok hr', v1.cut.isEmpty, if_pos (by simpa using hp)]
            rw [bind_ok (strOf_ok e)]
            refine bind_er (satisfy_run_err v1.adv ?_)
            intro b hb
            cases q with
            | nil => simp at hb
            | cons a q =>
              simp at hb
              subst hb
              simp
              rintro rfl
              refine hn ⟨p, q ++ r, hp, ?_, by simp⟩
              intro b hb
              have hws := h1 b (by simp [hb])
              obtain ⟨i, hi, rfl⟩ := List.mem_iff_getElem.1 hb
              have := (hs.clear i hi).2 b!":" (by simp)
              refine ⟨fun e => this (at_singleton.2 ?_), ?_, ?_, ?_⟩
              · rw [List.getElem?_append_left hi, List.getElem?_eq_getElem hi, e]
              all_goals
                intro e; rw [e] at hws; exact absurd hws (by decide)
        · refine bind_er (satisfy_run_err hc ?_)
          simp [ha]
    unfold mapParser
    rw [hr]
    simp only [he]
  · unfold mapParser wholeWord
    rw [if_neg hw]

/-! ## Links without brackets -/

theorem uriStep_run {b : Byte} (h : View s (b :: x)) (hb : b ≠ 32 ∧ b ≠ 9 ∧ b ≠ 10)
    (h13 : ¬ b!"\r\n" <+: b :: x) : P.pair (P.not singleMultispace) anychar s = .ok (adv s 1) ((), b) := by
  have hm : singleMultispace s = .err := by
    refine map_er ?_
    rw [alt_er (tag_run_err h h13), alt_er (tag_run_err h _), alt_er (tag_run_err h _)]
    · refine tag_run_err h ?_
      simp [List.cons_prefix_cons]; intro e; exact hb.1 e.symm
    · simp [List.cons_prefix_cons]; intro e; exact hb.2.1 e.symm
    · simp [List.cons_prefix_cons]; intro e; exact hb.2.2 e.symm
  unfold P.pair
  rw [bind_ok (not_er hm)]
  have : anychar s = .ok (adv s 1) b := satisfy_run h rfl
  rw [bind_ok this]
  rfl

theorem uriStep_err (h : View s x) (hx : x = [] ∨ x.head? = some 32 ∨ x.head? = some 9 ∨ x.head? = some 10 ∨
    b!"\r\n" <+: x) : P.pair (P.not singleMultispace) anychar s = .err := by
  rcases hx with rfl | hx
  · unfold P.pair
    have e : ∀ p : Str, p ≠ [] → tag p s = .err := fun p hp => tag_run_err h (by simpa using hp)
    have hm : singleMultispace s = .err := by
      refine map_er ?_
      rw [alt_er (e _ (by simp)), alt_er (e _ (by simp)), alt_er (e _ (by simp))]
      exact e _ (by simp)
    rw [bind_ok (not_er hm)]
    refine bind_er (satisfy_run_err h (by simp))
  · refine bind_er ?_
    have : ∃ s' a, singleMultispace s = .ok s' a := by
      unfold singleMultispace P.value
      by_cases h13 : b!"\r\n" <+: x
      · obtain ⟨r, rfl⟩ := h13
        exact ⟨_, _, map_ok (alt_ok (tag_run h))⟩
      · cases x with
        | nil => simp at hx
        | cons a x =>
          simp only [List.head?_cons, Option.some.injEq, h13, or_false] at hx
          unfold P.map
          rw [alt_er (tag_run_err h h13)]
          rcases hx with rfl | rfl | rfl
          · rw [alt_er (tag_run_err h (by simp)), alt_er (tag_run_err h (by simp)), tag_run (w := b!" ") h]
            exact ⟨_, _, rfl⟩
          · rw [alt_er (tag_run_err h (by simp)), alt_ok (tag_run (w := b!"\t") h)]
            exact ⟨_, _, rfl⟩
          · rw [alt_ok (tag_run (w := b!"\n") h)]
            exact ⟨_, _, rfl⟩
    obtain ⟨s', a, e⟩ := this
    exact not_ok e

/-- The end of the text of a URI. -/
def UriEnd (r : Str) : Prop :=
  r = [] ∨ r.head? = some 32 ∨ r.head? = some 9 ∨ r.head? = some 10 ∨ b!"\r\n" <+: r

theorem uriMax_cons {b : Byte} (h : ¬ UriEnd (b :: (w ++ r))) (hm : ∀ u v, w = u ++ v → v ≠ [] → ¬ UriEnd (v ++ r)) :
    ∀ u v, b :: w = u ++ v → v ≠ [] → ¬ UriEnd (v ++ r) := by
  intro u v e hv
  cases u with
  | nil => simp at e; subst e; exact h
  | cons c u => simp at e; exact hm u v e.2 hv

theorem uriLoop_run : ∀ (x : Str) (s : Span) (fuel : Nat), View s x → x.length < fuel →
    ∃ w r l, x = w ++ r ∧ UriEnd r ∧ (∀ u v, w = u ++ v → v ≠ [] → ¬ UriEnd (v ++ r)) ∧
      many0Loop (P.pair (P.not singleMultispace) anychar) fuel s = .ok (adv s w.length) l := by
  intro x
  induction x with
  | nil =>
    intro s fuel h hf
    obtain ⟨n, rfl⟩ : ∃ n, fuel = n + 1 := ⟨fuel - 1, by simp at hf; omega⟩
    refine ⟨[], [], [], rfl, .inl rfl, by simp, ?_⟩
    unfold many0Loop
    rw [uriStep_err h (.inl rfl)]
    rfl
  | cons b x ih =>
    intro s fuel h hf
    obtain ⟨n, rfl⟩ : ∃ n, fuel = n + 1 := ⟨fuel - 1, by simp at hf; omega⟩
    by_cases hx : UriEnd (b :: x)
    · refine ⟨[], _, [], rfl, hx, by simp, ?_⟩
      unfold many0Loop
      rw [uriStep_err h hx]
      rfl
    · have hx' := hx
      unfold UriEnd at hx
      simp only [not_or, List.head?_cons, Option.some.injEq] at hx
      obtain ⟨w, r, l, rfl, hr, hmax, hm⟩ := ih (adv s 1) n (View.adv (w := [b]) h) (by simp at hf ⊢; omega)
      refine ⟨b :: w, r, ((), b) :: l, rfl, hr, uriMax_cons hx' hmax, ?_⟩
      unfold many0Loop
      rw [uriStep_run h ⟨hx.2.1, hx.2.2.1, hx.2.2.2.1⟩ hx.2.2.2.2]
      simp only
      rw [if_neg, hm]
      · simp [Nat.add_comm]
      · intro e
        have := congrArg Span.start e
        simp at this

theorem uriText_run (h : View s x) : ∃ w r, x = w ++ r ∧ UriEnd r ∧ (∀ u v, w = u ++ v → v ≠ [] → ¬ UriEnd (v ++ r)) ∧
    uriText s = if w = [] then .err else .ok (adv s w.length) (cut s w.length) := by
  cases x with
  | nil =>
    refine ⟨[], [], rfl, .inl rfl, by simp, ?_⟩
    unfold uriText recognize many1
    rw [bind_er (uriStep_err h (.inl rfl))]
    rfl
  | cons b x =>
    by_cases hx : UriEnd (b :: x)
    · refine ⟨[], _, rfl, hx, by simp, ?_⟩
      unfold uriText recognize many1
      rw [bind_er (uriStep_err h hx)]
      rfl
    · have hx' := hx
      unfold UriEnd at hx
      simp only [not_or, List.head?_cons, Option.some.injEq] at hx
      have v1 : View (adv s 1) x := View.adv (w := [b]) h
      obtain ⟨w, r, l, rfl, hr, hmax, hm⟩ := uriLoop_run x (adv s 1) ((adv s 1).remainingLen + 1) v1
        (by rw [v1.remLen]; omega)
      refine ⟨b :: w, r, rfl, hr, uriMax_cons hx' hmax, ?_⟩
      rw [if_neg (by simp)]
      unfold uriText
      refine recognize_run (n := (b :: w).length) (a := ((), b) :: l) ?_
      unfold many1
      rw [bind_ok (uriStep_run h ⟨hx.2.1, hx.2.2.1, hx.2.2.2.1⟩ hx.2.2.2.2)]
      have hm' : many0 (P.pair (P.not singleMultispace) anychar) (adv s 1) = .ok (adv (adv s 1) w.length) l := hm
      rw [bind_ok hm']
      simp [P.pure, Nat.add_comm]

theorem uriText_exact (h : View s (t ++ r)) (ht : ∀ b ∈ t, ¬ WsByte b) (hne : t ≠ []) (hr : UriEnd r) :
    uriText s = .ok (adv s t.length) (cut s t.length) := by
  obtain ⟨w, q, e, hq, hm, hw⟩ := uriText_run h
  have key : w = t := by
    rcases List.append_eq_append_iff.1 e with ⟨a, rfl, rfl⟩ | ⟨a, rfl, rfl⟩
    · cases a with
      | nil => simp
      | cons b a => exact absurd hr (hm t (b :: a) rfl (by simp))
    · cases a with
      | nil => simp
      | cons b a =>
        exfalso
        have hb := ht b (by simp)
        unfold WsByte at hb
        rcases hq with hq | hq | hq | hq | hq
        · simp at hq
        · simp at hq; simp [hq] at hb
        · simp at hq; simp [hq] at hb
        · simp at hq; simp [hq] at hb
        · simp [List.cons_prefix_cons] at hq; simp [← hq.1] at hb
  subst key
  rw [if_neg hne] at hw
  exact hw

theorem mapOpt_er {α β : Type} {p : P α} {f : α → Option β} (h : p s = .err) : mapOpt p f s = .err := by
  unfold mapOpt; rw [h]

theorem mapOpt_ok {α β : Type} {p : P α} {f : α → Option β} {s' : Span} {a : α} {b : β}
    (h : p s = .ok s' a) (hf : f a = some b) : mapOpt p f s = .ok s' b := by
  unfold mapOpt; rw [h]; simp only [hf]

theorem mapOpt_none {α β : Type} {p : P α} {f : α → Option β} {s' : Span} {a : α}
    (h : p s = .ok s' a) (hf : f a = none) : mapOpt p f s = .err := by
  unfold mapOpt; rw [h]; simp only [hf]

theorem rawSchemes_eq : rawSchemes = linkSchemes := rfl

theorem rawLink_err (hs : env.SchemeSound) (h : View s x) (hn : ¬ SchemeStart x) : rawLink env s = .err := by
  refine located_er (map_er ?_)
  obtain ⟨w, r, rfl, -, -, hr⟩ := uriText_run h
  by_cases hw : w = []
  · rw [if_pos hw] at hr
    exact verify_er (mapOpt_er hr)
  · rw [if_neg hw] at hr
    cases hu : env.uri w with
    | none => exact verify_er (mapOpt_none hr (by rw [h.cut.rem, hu]))
    | some u =>
      have e : uriRef env s = .ok (adv s w.length) u := mapOpt_ok hr (by rw [h.cut.rem, hu])
      rw [verify_ok e, if_neg]
      intro hc
      cases hsc : u.scheme with
      | none => rw [hsc] at hc; cases hc
      | some sc =>
        rw [hsc] at hc
        simp only [List.contains_iff_mem, rawSchemes_eq] at hc
        refine hn ⟨sc, hc, (hs w u sc hu hsc hc).trans ?_⟩
        simp

theorem link_err (hs : env.SchemeSound) (h : View s x) (h1 : ¬ Opens b!"[[" b!"]]" x)
    (h2 : ¬ Opens b!"{{" b!"}}" x) (hn : ¬ SchemeStart x) : link env s = .err := by
  have hb := brackets_err h h1
  unfold link
  rw [alts_er (show diaryLink env s = .err from located_er (mapParser_er hb)),
    alts_er (show indexedInterwikiLink env s = .err from located_er (mapParser_er hb)),
    alts_er (show namedInterwikiLink env s = .err from located_er (mapParser_er hb)),
    alts_er (show wikiLink env s = .err from located_er (map_er (mapParser_er hb))),
    alts_er (rawLink_err hs h hn)]
  exact map_er (located_er (mapParser_er (braces_err h h2)))

end Vw
