import Verif.Lemmas.LinkElem

/-!
# Reading back tags, keywords and comments
-/

namespace Vw
open P Scan

/-- Repeating `p` from `s` gives these values and then fails `n` bytes later. -/
inductive Chain {β : Type} (p : P β) : Span → List β → Nat → Prop where
  | nil {s : Span} : p s = .err → Chain p s [] 0
  | cons {s : Span} {m : Nat} {y : β} {ys : List β} {n : Nat} : p s = .ok (adv s m) y → 0 < m → Chain p (adv s m) ys n → Chain p s (y :: ys) (m + n)

variable {s : Span} {r w t x : Str} {env : Env} {ue : Uri → Uri → Bool} {L : OutLib} {cfg : VwCfg}

theorem Chain.length {β : Type} {p : P β} {ys : List β} {n : Nat} (h : Chain p s ys n) : ys.length ≤ n := by
  induction h with
  | nil => simp
  | cons h1 h2 h3 ih => simp; omega

theorem Chain.many0Loop {β : Type} {p : P β} {ys : List β} {n : Nat} (h : Chain p s ys n) :
    ∀ fuel, ys.length < fuel → many0Loop p fuel s = .ok (adv s n) ys := by
  induction h with
  | nil h =>
    intro fuel hf
    obtain ⟨f, rfl⟩ : ∃ f, fuel = f + 1 := ⟨fuel - 1, by omega⟩
    unfold P.many0Loop
    rw [h]
    simp
  | @cons s m y ys n h1 h2 h3 ih =>
    intro fuel hf
    simp at hf
    obtain ⟨f, rfl⟩ : ∃ f, fuel = f + 1 := ⟨fuel - 1, by omega⟩
    unfold P.many0Loop
    rw [h1]
    simp only
    rw [if_neg, ih f (by omega)]
    · simp
    · intro e
      have := congrArg Span.start e
      rw [adv_start] at this
      omega

theorem Chain.many0 {β : Type} {p : P β} {ys : List β} {n : Nat} (h : Chain p s ys n) (hv : View s t)
    (hn : n ≤ t.length) : many0 p s = .ok (adv s n) ys :=
  h.many0Loop _ (by rw [hv.remLen]; have := h.length; omega)

theorem Chain.many1 {β : Type} {p : P β} {ys : List β} {n : Nat} (h : Chain p s ys n) (hy : ys ≠ []) (hv : View s t)
    (hn : n ≤ t.length) : many1 p s = .ok (adv s n) ys := by
  cases h with
  | nil => exact absurd rfl hy
  | @cons _ m y ys n h1 h2 h3 =>
    unfold P.many1
    rw [bind_ok h1]
    have hv1 : View (adv s m) (t.drop m) := by
      have : View s (t.take m ++ t.drop m) := by rwa [List.take_append_drop]
      have := this.adv
      rw [List.length_take, Nat.min_eq_left (by omega)] at this
      exact this
    rw [bind_ok (h3.many0 hv1 (by simp; omega))]
    simp [P.pure]

/-! ## Keywords -/

theorem keyword_run {k : Keyword} (h : View s (k.display ++ r)) :
    keyword s = .ok (adv s k.display.length) ⟨.keyword k, ⟨s.start, k.display.length, s.depth⟩⟩ := by
  have er : ∀ (p : Str) (v : Inline), ¬ p <+: k.display ++ r → P.value v (tag p) s = .err :=
    fun p v hp => map_er (tag_run_err h hp)
  have ok : ∀ (v : Inline), P.value v (tag k.display) s = .ok (adv s k.display.length) v :=
    fun v => map_ok (tag_run h)
  refine located_run h (by simp) ?_
  cases k
  case done => exact alts_fst (ok _)
  case fixed =>
    rw [alts_er (er _ _ (by simp [Keyword.display, List.cons_prefix_cons]))]
    exact alts_fst (ok _)
  case fixme =>
    rw [alts_er (er _ _ (by simp [Keyword.display, List.cons_prefix_cons])),
      alts_er (er _ _ (by simp [Keyword.display, List.cons_prefix_cons]))]
    exact alts_fst (ok _)
  case started =>
    rw [alts_er (er _ _ (by simp [Keyword.display, List.cons_prefix_cons])),
      alts_er (er _ _ (by simp [Keyword.display, List.cons_prefix_cons])),
      alts_er (er _ _ (by simp [Keyword.display, List.cons_prefix_cons]))]
    exact alts_fst (ok _)
  case todo =>
    rw [alts_er (er _ _ (by simp [Keyword.display, List.cons_prefix_cons])),
      alts_er (er _ _ (by simp [Keyword.display, List.cons_prefix_cons])),
      alts_er (er _ _ (by simp [Keyword.display, List.cons_prefix_cons])),
      alts_er (er _ _ (by simp [Keyword.display, List.cons_prefix_cons]))]
    exact alts_fst (ok _)
  case xxx =>
    rw [alts_er (er _ _ (by simp [Keyword.display, List.cons_prefix_cons])),
      alts_er (er _ _ (by simp [Keyword.display, List.cons_prefix_cons])),
      alts_er (er _ _ (by simp [Keyword.display, List.cons_prefix_cons])),
      alts_er (er _ _ (by simp [Keyword.display, List.cons_prefix_cons])),
      alts_er (er _ _ (by simp [Keyword.display, List.cons_prefix_cons]))]
    exact ok _

/-! ## Tags -/

/-- A text that can be a tag. -/
def TagText (t : Str) : Prop := t ≠ [] ∧ c!":" ∉ t ∧ ∀ b ∈ t, ¬ WsByte b

theorem tagContent_run (h : View s (t ++ (c!":" :: r))) (ht : TagText t) :
    tagContent s = .ok (adv s t.length) t := by
  obtain ⟨h1, h2, h3⟩ := ht
  have hne : ∀ b ∈ [32, 9, 10, 13], b ∉ t := by
    intro b hb hm
    have := h3 b hm
    unfold WsByte at this
    simp at hb this
    omega
  obtain ⟨w, q, e, hw, hs⟩ := takeLineUntil3_view (p1 := b!":") (p2 := b!" ") (p3 := b!"\t")
    (by simp) (by simp) (by simp) h
  rw [← e] at hs
  have hl := hs.unique (hne 10 (by simp)) (.inr (by simp)) (by
    intro p hp i hi ha
    simp only [List.mem_cons, List.not_mem_nil, or_false] at hp
    have key : ∀ d, d ∉ t → ¬ At (t ++ c!":" :: r) i [d] := by
      intro d hd ha
      have := at_singleton.1 ha
      rw [List.getElem?_append_left hi] at this
      exact hd (List.mem_of_getElem? this)
    rcases hp with rfl | rfl | rfl
    · exact key _ h2 ha
    · exact key _ (hne 32 (by simp)) ha
    · exact key _ (hne 9 (by simp)) ha) (.inr (.inr ⟨b!":", by simp, r, rfl⟩))
  rw [hl] at hw
  unfold tagContent
  rw [strOf_ok (s' := adv s t.length) (o := cut s t.length), h.cut.rem]
  unfold takeLineUntil31
  rw [verify_ok hw, h.cut.isEmpty, if_pos (by simpa using h1)]

theorem tagContent_end (h : View s []) : tagContent s = .err := by
  refine strOf_er ?_
  unfold takeLineUntil31
  obtain ⟨w, q, e, hw, hs⟩ := takeLineUntil3_view (p1 := b!":") (p2 := b!" ") (p3 := b!"\t")
    (by simp) (by simp) (by simp) h
  simp at e
  obtain ⟨rfl, rfl⟩ := e
  rw [verify_ok hw, (View.cut (w := []) h).isEmpty]
  rfl

theorem tagChain : ∀ (ts : List Str) (s : Span), (∀ t ∈ ts, TagText t) → View s (ts.flatMap (· ++ b!":")) →
    Chain (terminated tagContent (char c!":")) s ts (ts.flatMap (· ++ b!":")).length := by
  intro ts
  induction ts with
  | nil =>
    intro s _ h
    exact .nil (bind_er (tagContent_end h))
  | cons t ts ih =>
    intro s ht h
    have h0 : View s (t ++ (c!":" :: ts.flatMap (· ++ b!":"))) := by simpa using h
    have h1 := h0.adv
    have h2 : View (adv s (t.length + 1)) (ts.flatMap (· ++ b!":")) := by
      have : View (adv (adv s t.length) 1) _ := View.adv (w := b!":") h1
      rw [adv_adv] at this
      exact this
    have e : terminated tagContent (char c!":") s = .ok (adv s (t.length + 1)) t := by
      unfold terminated
      rw [bind_ok (tagContent_run h0 (ht t (by simp))), bind_ok (char_run h1)]
      simp [P.pure]
    have := Chain.cons e (by omega) (ih _ (fun u hu => ht u (by simp [hu])) h2)
    rw [show ((t :: ts).flatMap (· ++ b!":")).length = t.length + 1 + (ts.flatMap (· ++ b!":")).length by simp; omega]
    exact this

theorem tags_run {ts : List Str} (h : View s (b!":" ++ ts.flatMap (· ++ b!":") ++ r)) (hw : lastWord s.asConsumed = [])
    (hts : ts ≠ []) (ht : ∀ t ∈ ts, TagText t) (hr : ∀ b, r.head? = some b → WsByte b) :
    tags s = .ok (adv s (b!":" ++ ts.flatMap (· ++ b!":")).length)
      ⟨.tags ts, ⟨s.start, (b!":" ++ ts.flatMap (· ++ b!":")).length, s.depth⟩⟩ := by
  generalize hx : b!":" ++ ts.flatMap (· ++ b!":") = x at *
  have hxw : ∀ b ∈ x, isAsciiWs b = false := by
    intro b hb
    have : ¬ WsByte b := by
      rw [← hx] at hb
      rcases List.mem_append.1 hb with hb | hb
      · simp at hb; subst hb; decide
      · obtain ⟨t, ht', hb⟩ := List.mem_flatMap.1 hb
        rcases List.mem_append.1 hb with hb | hb
        · exact (ht t ht').2.2 b hb
        · simp at hb; subst hb; decide
    cases hc : isAsciiWs b
    · rfl
    · exact absurd ((isAsciiWs_iff b).1 hc) this
  have e1 : wholeWord s = .ok (adv s x.length) (cut s x.length) := by
    unfold wholeWord
    rw [if_pos ((lastIsWs_iff _).2 hw)]
    refine takeWhile1_run h (by rw [← hx]; simp) (by simpa using hxw) ?_
    intro b hb
    simp
    exact (isAsciiWs_iff b).2 (hr b hb)
  have hc : View (cut s x.length) x := h.cut
  generalize cut s x.length = o at e1 hc
  have hc0 : View o (c!":" :: ts.flatMap (· ++ b!":")) := by rw [← hx] at hc; exact hc
  have hc1 : View (adv o 1) (ts.flatMap (· ++ b!":")) := View.adv (w := b!":") hc0
  refine located_run h (by simp) (map_ok (mapParser_ok e1 (s2 := adv (adv o 1) (ts.flatMap (· ++ b!":")).length) ?_))
  unfold tagsInner
  rw [bind_ok (char_run hc0)]
  exact (tagChain ts _ ht hc1).many1 hts hc1 (Nat.le_refl _)

/-! ## Comments -/

theorem append_line_unique {l l' a a' : Str} (h : 10 ∉ l) (h' : 10 ∉ l') (e : l ++ 10 :: a = l' ++ 10 :: a') :
    l = l' ∧ a = a' := by
  rcases List.append_eq_append_iff.1 e with ⟨u, rfl, h2⟩ | ⟨u, rfl, h2⟩
  · cases u with
    | nil => simp at h2; simp [h2]
    | cons b u => simp at h2; rw [← h2.1] at h'; simp at h'
  · cases u with
    | nil => simp at h2; simp [h2]
    | cons b u => simp at h2; rw [← h2.1] at h; simp at h

theorem LinesOf.unique {ls : List Str} (h : LinesOf t ls) : ∀ {ls'}, LinesOf t ls' → ls = ls' := by
  induction h with
  | nil =>
    intro ls' h'
    generalize he : ([] : Str) = t' at h'
    cases h' with
    | nil => rfl
    | last h1 h2 => exact absurd he.symm h1
    | lf => simp at he
    | crlf => simp at he
  | @last l h1 h2 =>
    intro ls' h'
    cases h' with
    | nil => exact absurd rfl h1
    | last => rfl
    | lf => simp at h2
    | crlf => simp at h2
  | @lf l rest ls h1 h2 h3 ih =>
    intro ls' h'
    generalize he : l ++ b!"\n" ++ rest = t' at h'
    cases h' with
    | nil => simp at he
    | last _ h => rw [← he] at h; simp at h
    | @lf l' rest' ls' g1 g2 g3 =>
      obtain ⟨rfl, rfl⟩ := append_line_unique h1 g1 (by simpa using he)
      rw [ih g3]
    | @crlf l' rest' ls' g1 g3 =>
      obtain ⟨rfl, rfl⟩ := append_line_unique (l' := l' ++ [13]) h1 (by simp [g1]) (by simpa using he)
      simp at h2
  | @crlf l rest ls h1 h3 ih =>
    intro ls' h'
    generalize he : l ++ b!"\r\n" ++ rest = t' at h'
    cases h' with
    | nil => simp at he
    | last _ h => rw [← he] at h; simp at h
    | @lf l' rest' ls' g1 g2 g3 =>
      obtain ⟨rfl, rfl⟩ := append_line_unique (l := l ++ [13]) (by simp [h1]) g1 (by simpa using he)
      simp at g2
    | @crlf l' rest' ls' g1 g3 =>
      obtain ⟨e1, rfl⟩ := append_line_unique (l := l ++ [13]) (l' := l' ++ [13]) (by simp [h1]) (by simp [g1])
        (by simpa using he)
      rw [ih g3, List.append_cancel_right e1]

theorem FirstAfter.append {R c r : Str} (h : FirstAfter R c []) : FirstAfter R c r := by
  intro c' r' e
  apply Classical.byContradiction
  intro hlt
  have hlt : c'.length < c.length := by omega
  have e2 := congrArg (List.take (c.length + R.length)) e
  have e3 : c ++ R = c' ++ (R ++ r'.take (c.length - c'.length)) := by
    have l : List.take (c.length + R.length) (c ++ (R ++ r)) = c ++ R := by
      rw [← List.append_assoc, ← List.length_append, List.take_left]
    rw [l] at e2
    rw [e2, List.take_append, List.take_append]
    have a1 : List.take (c.length + R.length) c' = c' := List.take_of_length_le (by omega)
    have a2 : List.take (c.length + R.length - c'.length) R = R := List.take_of_length_le (by omega)
    rw [a1, a2]
    congr 3
    omega
  exact Nat.not_le_of_lt hlt (h c' _ (by simpa using e3))

theorem comment_run {c : Comment} (h : View s (c.textOf cfg ++ (x ++ r))) (hr : r = [] ∨ r.head? = some 10)
    (hc : CommentOk cfg x c) : Reads1 ue comment s (c.textOf cfg).length (.comment c) := by
  refine ⟨.comment c, ?_, by simp [Inline.eqv]⟩
  cases c with
  | line l =>
    obtain ⟨h1, ⟨h2, h3⟩, h4, rfl⟩ := hc
    rw [h1] at h ⊢
    have hv : View s (b!"%%" ++ (l ++ r)) := by simpa using h
    have hls : LineSplit l r := by
      refine ⟨h2, ?_⟩
      rcases hr with rfl | hr
      · exact .inl rfl
      · cases r with
        | nil => exact .inl rfl
        | cons b r => simp at hr; subst hr; exact .inr (.inl ⟨r, rfl, h3⟩)
    unfold comment
    rw [alt_er (show multiLineComment s = .err from located_er (bind_er (tag_run_err hv (by
      rintro ⟨q, e⟩
      simp at e
      cases l with
      | nil =>
        rcases hr with rfl | hr
        · simp at e
        · rw [← show _ = r from by simpa using e] at hr; simp at hr
      | cons b l => simp at e h4; exact h4 e.1.symm))))]
    refine (lineComment_run hv hls).trans ?_
    rw [show (b!"%%" ++ l).length = l.length + 2 by simp]
  | multi ls =>
    obtain ⟨body, h1, h2, h3⟩ := hc
    rw [h1] at h ⊢
    have hv : View s (b!"%%+" ++ (body ++ (b!"+%%" ++ (x ++ r)))) := by simpa using h
    obtain ⟨ls', hl, e⟩ := multiLineComment_run hv h2.append
    rw [hl.unique h3] at e
    unfold comment
    refine (alt_ok e).trans ?_
    rw [show (b!"%%+" ++ (body ++ b!"+%%")).length = body.length + 6 by simp]

end Vw
