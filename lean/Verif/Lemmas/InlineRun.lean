import Verif.Lemmas.RunPage
import Verif.Lemmas.ListPrefix

/-!
# Recognition of code, math and comments
-/

namespace Vw
open P Scan

variable {s : Span} {r w t : Str}

theorem At.split {b p : Str} {i : Nat} (h : At b i p) (hi : i ≤ b.length) :
    ∃ c r, b = c ++ (p ++ r) ∧ c.length = i := by
  refine ⟨b.take i, b.drop (i + p.length), ?_, by simp; omega⟩
  have h : (b.drop i).take p.length = p := h
  conv => lhs; rw [← List.take_append_drop i b, ← List.take_append_drop p.length (b.drop i), h]
  simp

theorem at_append (c p r : Str) : At (c ++ (p ++ r)) c.length p := by simp [At]

theorem surroundLoop_complete {right bytes : Str} {n : Nat} (hr : right ≠ []) (hn : 0 < n)
    (ha : At bytes n right) (hfirst : ∀ i, 0 < i → i < n → ¬ At bytes i right)
    (hnl : ∀ p, memchr (· == 10) bytes = some p → n < p) :
    ∀ (lo : Nat) (ps : List Nat), PosFrom (fun b => b == right.headD 0) bytes lo ps → lo ≤ n →
      surroundLoop right bytes (memchr (· == 10) bytes) ps = some n := by
  intro lo ps hpos
  have hlen : n + right.length ≤ bytes.length := by
    obtain ⟨c, r, e, hc⟩ := ha.split (by have := ha.le hr; omega)
    rw [e]; simp; omega
  have hhead : ∃ b, bytes[n]? = some b ∧ (b == right.headD 0) = true := by
    obtain ⟨c, t, rfl⟩ := List.exists_cons_of_ne_nil hr
    exact ⟨c, by simpa using ha.getElem? 0 (by simp), by simp⟩
  obtain ⟨hb, hbn, hbt⟩ := hhead
  induction hpos with
  | nil h =>
    intro hlo
    have := h n hb hlo hbn
    rw [hbt] at this; cases this
  | cons h1 h2 h3 h4 h5 ih =>
    rename_i lo pos b ps
    intro hlo
    have hle : pos ≤ n := by
      apply Classical.byContradiction
      intro hc
      have := h4 n hb hlo (by omega) hbn
      rw [hbt] at this; cases this
    have hpast : pastNewline (memchr (· == 10) bytes) pos = false := by
      cases hm : memchr (· == 10) bytes with
      | none => rfl
      | some p => have := hnl p hm; simp [pastNewline]; omega
    unfold surroundLoop
    rw [hpast]
    simp only [Bool.false_eq_true, if_false]
    by_cases h0 : pos = 0
    · rw [if_pos h0]
      exact ih (by omega)
    · rw [if_neg h0, if_neg (by omega)]
      by_cases he : pos = n
      · subst he
        rw [if_pos ((matchesAt_iff ..).2 ha)]
      · rw [if_neg (fun hm => hfirst pos (by omega) (by omega) ((matchesAt_iff ..).1 hm))]
        exact ih (by omega)

theorem ShortestBody.not_at {c R : Str} (h : ShortestBody R c r) (hR : R ≠ []) :
    ∀ i, 0 < i → i < c.length → ¬ At (c ++ (R ++ r)) i R := by
  intro i h0 hi ha
  obtain ⟨c', r', e, hc⟩ := ha.split (by have := ha.le hR; omega)
  have := h c' r' (by rintro rfl; simp at hc; omega) e
  omega

theorem memchr_nl_gt {c R : Str} (hR : R ≠ []) (hc : 10 ∉ c) (hR10 : R.head? ≠ some 10) :
    ∀ p, memchr (· == 10) (c ++ (R ++ r)) = some p → c.length < p := by
  intro p hp
  have := memchr_facts (· == 10) (c ++ (R ++ r))
  rw [hp] at this
  obtain ⟨⟨b, hb, hb10⟩, -⟩ := this
  simp at hb10
  subst hb10
  apply Classical.byContradiction
  intro hn
  rcases Nat.lt_or_ge p c.length with h | h
  · rw [List.getElem?_append_left h] at hb
    exact hc (List.mem_of_getElem? hb)
  · have : p = c.length := by omega
    subst this
    obtain ⟨x, u, rfl⟩ := List.exists_cons_of_ne_nil hR
    simp at hb hR10
    exact hR10 hb

theorem sliceTo_run (h : View s (w ++ r)) : s.sliceTo w.length = cut s w.length := by
  have := takeSplit_run h
  simp only [takeSplit, Res.ok.injEq] at this
  exact this.2

theorem surround_run {L R c : Str} (h : View s (L ++ (c ++ (R ++ r)))) (hc : c ≠ []) (h10 : 10 ∉ c)
    (hR : R ≠ []) (hR10 : R.head? ≠ some 10) (hs : ShortestBody R c r) :
    surroundInLine1 L R s =
      .ok (adv s (L.length + c.length + R.length)) (cut (adv s L.length) c.length) := by
  have h1 := h.adv
  unfold surroundInLine1
  rw [tag_run h]
  simp only [h1.rem]
  rw [surroundLoop_complete hR (List.length_pos_iff.2 hc) (at_append _ _ _) (hs.not_at hR)
    (memchr_nl_gt hR h10 hR10) 0 _ (memchrIter_pos _ _) (Nat.zero_le _)]
  simp only
  rw [sliceTo_run h1, sliceFrom_run h1, sliceFrom_run h1.adv]
  simp [Nat.add_assoc]

theorem offset_none {pat : Str} (h : View s w) (hp : pat ≠ []) (hn : ¬ pat <:+: w) :
    offset pat s = .err := by
  have := offset_res pat w hp
  unfold offset
  simp only [h.rem]
  cases hm : offsetLoop pat w (memchrIter (fun b => b == pat.headD 0) w) with
  | none => rfl
  | some n =>
    rw [hm] at this
    obtain ⟨c, r, e, -⟩ := this.1.split (by have := this.1.le hp; omega)
    exact absurd ⟨c, r, by rw [e]; simp⟩ hn

theorem notContains_run {pat : Str} {p : P Span} {s' o : Span} (hr : p s = .ok s' o) (h : View o w)
    (hp : pat ≠ []) (hn : ¬ pat <:+: w) : notContains pat p s = .ok s' o := by
  unfold notContains
  rw [hr]
  simp only
  rw [not_er (offset_none h hp hn)]

theorem codeInline_run {c : Str} (h : View s (b!"`" ++ (c ++ (b!"`" ++ r)))) (hc : c ≠ [])
    (h10 : 10 ∉ c) (hs : ShortestBody b!"`" c r) (hn : ¬ b!"%%" <:+: c) :
    codeInline s = .ok (adv s (c.length + 2)) ⟨.code c, ⟨s.start, c.length + 2, s.depth⟩⟩ := by
  have hsr := surround_run h hc h10 (by simp) (by simp) hs
  have hv := h.adv.cut
  have e := notContains_run hsr hv (by simp) hn
  simp only [List.length_cons, List.length_nil] at e
  rw [show 0 + 1 + c.length + (0 + 1) = c.length + 2 by omega] at e
  refine located_run h (by simp) (map_ok (strOf_ok e) |>.trans ?_)
  simp only [List.length_cons, List.length_nil] at hv
  rw [hv.rem]

theorem takeLineUntil1_run' {c : Str} {d : Byte} (hd : d < 128) (hd10 : d ≠ 10)
    (h : View s (c ++ (d :: r))) (hc : c ≠ []) (h10 : 10 ∉ c) (hdc : d ∉ c) :
    takeLineUntil1 [d] s = .ok (adv s c.length) (cut s c.length) := by
  obtain ⟨w, q, e, hr, hs⟩ := takeLineUntil_view (pat := [d]) ⟨by simp, by simp, d, [], rfl, hd⟩ h
  have hlen : w.length = c.length := by
    have key : ∀ i, i < c.length → (c ++ d :: r)[i]? ≠ some 10 ∧ (c ++ d :: r)[i]? ≠ some d := by
      intro i hi
      rw [List.getElem?_append_left hi]
      exact ⟨fun e => h10 (List.mem_of_getElem? e), fun e => hdc (List.mem_of_getElem? e)⟩
    rcases Nat.lt_trichotomy w.length c.length with hlt | he | hgt
    · exfalso
      rcases hs.exit with hx | hx | ⟨p, hp, hx⟩
      · rw [← e] at hx
        simp at hx; omega
      · rw [← e] at hx
        rcases hx with ⟨_, hx⟩ | ⟨_, hx, hy⟩
        · exact (key _ hlt).1 hx
        · rcases Nat.lt_or_ge (w.length + 1) c.length with h' | h'
          · exact (key _ h').1 hy
          · have : w.length + 1 = c.length := by omega
            rw [this] at hy
            simp at hy
            exact hd10 hy
      · simp at hp
        subst hp
        rw [← e] at hx
        exact (key _ hlt).2 (at_singleton.1 hx)
    · exact he
    · exfalso
      refine (hs.clear c.length hgt).2 [d] (by simp) ?_
      rw [← e]
      exact at_singleton.2 (by simp)
  have hw : w = c := (List.append_inj e.symm hlen).1
  subst hw
  unfold takeLineUntil1
  rw [verify_ok hr, h.cut.isEmpty, if_pos (by simpa using hc)]

theorem mathInline_run {c : Str} (h : View s (b!"$" ++ (c ++ (b!"$" ++ r)))) (hc : c ≠ [])
    (h10 : 10 ∉ c) (hd : c!"$" ∉ c) (hn : ¬ b!"%%" <:+: c) :
    mathInline s = .ok (adv s (c.length + 2)) ⟨.math c, ⟨s.start, c.length + 2, s.depth⟩⟩ := by
  have h1 : View (adv s 1) (c ++ (b!"$" ++ r)) := h.adv
  have hv := h1.cut
  have e := notContains_run (takeLineUntil1_run' (by decide) (by decide) h1 hc h10 hd) hv
    (by simp) hn
  refine located_run h (by simp) (map_ok (strOf_ok (o := cut (adv s 1) c.length)
    (s' := adv s (c.length + 2)) ?_) |>.trans ?_)
  · unfold delimited
    have c1 : char c!"$" s = .ok (adv s 1) c!"$" := satisfy_run h (by simp)
    have c2 : char c!"$" (adv (adv s 1) c.length) = .ok (adv s (c.length + 2)) c!"$" := by
      have := satisfy_run (f := (· == c!"$")) h1.adv (by simp)
      simp only [adv_adv] at this ⊢
      rw [show c.length + 2 = 1 + c.length + 1 by omega]
      exact this
    rw [bind_ok c1, bind_ok e, bind_ok c2]
    rfl
  · rw [hv.rem]

/-! ## Comments -/

theorem commentLoop_run (fuel : Nat) : ∀ (s : Span) (t : Str), View s t → t.length < fuel →
    ∃ w q ls, t = w ++ q ∧ 10 ∉ q ∧
      many0Loop (terminated (strOf takeUntilEol) lineEnding) fuel s = .ok (adv s w.length) ls ∧
      ∀ ls', LinesOf q ls' → LinesOf t (ls ++ ls') := by
  induction fuel with
  | zero => intro s t _ h; omega
  | succ n ih =>
    intro s t h hlen
    obtain ⟨w, r, rfl, hs⟩ := lineSplit_exists t
    have hrun := strOf_ok (takeUntilEol_run h hs)
    rw [h.cut.rem] at hrun
    unfold many0Loop
    obtain ⟨h10, hr⟩ := hs
    have step : ∀ (e q : Str), r = e ++ q → e ≠ [] →
        lineEnding (adv s w.length) = .ok (adv (adv s w.length) e.length) (cut (adv s w.length) e.length) →
        (∀ ls, LinesOf q ls → LinesOf (w ++ r) (w :: ls)) →
        ∃ w' q' ls, w ++ r = w' ++ q' ∧ 10 ∉ q' ∧
          many0Loop (terminated (strOf takeUntilEol) lineEnding) (n + 1) s = .ok (adv s w'.length) ls ∧
          ∀ ls', LinesOf q' ls' → LinesOf (w ++ r) (ls ++ ls') := by
      intro e q hr he hle hl
      have h2 : View (adv (adv s w.length) e.length) q := (hr ▸ h.adv).adv
      obtain ⟨w', q', ls, e1, e2, e3, e4⟩ := ih _ q h2 (by
        rw [hr] at hlen
        have := List.length_pos_iff.2 he
        simp at hlen; omega)
      refine ⟨w ++ e ++ w', q', w :: ls, by rw [hr, e1]; simp, e2, ?_, ?_⟩
      · have ht : terminated (strOf takeUntilEol) lineEnding s =
            .ok (adv (adv s w.length) e.length) w := by
          unfold terminated
          rw [bind_ok hrun, bind_ok hle]; rfl
        unfold many0Loop
        rw [ht]
        simp only
        rw [if_neg, e3]
        · simp [Nat.add_assoc]
        · intro heq
          have h1 := congrArg Span.start heq
          have h2 := List.length_pos_iff.2 he
          simp only [adv_start] at h1
          omega
      · intro ls' hls
        exact hl _ (e4 ls' hls)
    rcases hr with rfl | ⟨q, rfl, hlast⟩ | ⟨q, rfl⟩
    · have hv : View (adv s w.length) [] := h.adv
      have : terminated (strOf takeUntilEol) lineEnding s = .err := by
        unfold terminated
        rw [bind_ok hrun]
        refine bind_er ?_
        unfold lineEnding
        rw [alt_er (tag_run_err hv (by simp))]
        exact tag_run_err hv (by simp)
      rw [this]
      refine ⟨[], w, [], by simp, h10, by simp, fun ls' hls => by simpa using hls⟩
    · have := step b!"\n" q rfl (by simp) (lineEnding_run_n h.adv) (fun ls hls => by
        have := LinesOf.lf h10 hlast hls
        simpa using this)
      unfold many0Loop at this
      exact this
    · have := step b!"\r\n" q rfl (by simp) (lineEnding_run_rn h.adv) (fun ls hls => by
        have := LinesOf.crlf h10 hls
        simpa using this)
      unfold many0Loop at this
      exact this

theorem commentLines_run (h : View s t) : ∃ s' ls, commentLines s = .ok s' ls ∧ LinesOf t ls := by
  obtain ⟨w, q, ls, e1, e2, e3, e4⟩ := commentLoop_run (s.remainingLen + 1) s t h (by
    rw [h.remLen]; omega)
  subst e1
  have h1 := h.adv
  have hm : many0 (terminated (strOf takeUntilEol) lineEnding) s = .ok (adv s w.length) ls := e3
  have hl : restLen (adv s w.length) = .ok (adv s w.length) q.length := by
    unfold restLen
    rw [h1.rem]
  unfold commentLines
  rw [bind_ok hm, bind_ok hl]
  by_cases hq : q.length > 0
  · simp only [hq, if_true]
    have hr : strOf rest (adv s w.length) =
        .ok ((adv s w.length).sliceFrom q.length) (adv s w.length).asRemaining := by
      refine strOf_ok ?_
      unfold rest
      rw [h1.rem]
    refine ⟨(adv s w.length).sliceFrom q.length, ls ++ [q], ?_, ?_⟩
    · rw [map_ok hr, h1.rem]
    · exact e4 _ (.last (by intro e; simp [e] at hq) e2)
  · have : q = [] := by cases q <;> simp at hq ⊢
    subst this
    refine ⟨adv s w.length, ls, by simp [P.pure], ?_⟩
    have := e4 [] .nil
    simpa using this

theorem offsetLoop_complete {pat bytes : Str} {n : Nat} (hp : pat ≠ []) (ha : At bytes n pat)
    (hfirst : ∀ i, i < n → ¬ At bytes i pat) :
    offsetLoop pat bytes (memchrIter (fun b => b == pat.headD 0) bytes) = some n := by
  have := offset_res pat bytes hp
  cases hm : offsetLoop pat bytes (memchrIter (fun b => b == pat.headD 0) bytes) with
  | none => rw [hm] at this; exact absurd ha (this n)
  | some m =>
    rw [hm] at this
    obtain ⟨h1, h2⟩ := this
    rcases Nat.lt_trichotomy m n with h | h | h
    · exact absurd h1 (hfirst m h)
    · rw [h]
    · exact absurd ha (h2 n h)

theorem takeUntil_run {pat c : Str} (h : View s (c ++ (pat ++ r))) (hp : pat ≠ [])
    (hf : FirstAfter pat c r) : takeUntil pat s = .ok (adv s c.length) (cut s c.length) := by
  unfold takeUntil
  simp only [h.rem]
  rw [offsetLoop_complete hp (at_append _ _ _)]
  · exact takeSplit_run h
  · intro i hi ha
    obtain ⟨c', r', e, hc⟩ := ha.split (by have := ha.le hp; omega)
    have := hf c' r' e
    omega

theorem takeUntil_run_err {pat : Str} (h : View s t) (hp : pat ≠ []) (hn : ¬ pat <:+: t) :
    takeUntil pat s = .err := by
  have := offset_none h hp hn
  unfold takeUntil
  unfold offset at this
  simp only at this ⊢
  revert this
  cases offsetLoop pat s.asRemaining (memchrIter (fun b => b == pat.headD 0) s.asRemaining) <;> simp

theorem multiLineComment_run {body : Str} (h : View s (b!"%%+" ++ (body ++ (b!"+%%" ++ r))))
    (hf : FirstAfter b!"+%%" body r) : ∃ ls, LinesOf body ls ∧
      multiLineComment s = .ok (adv s (body.length + 6))
        ⟨.comment (.multi ls), ⟨s.start, body.length + 6, s.depth⟩⟩ := by
  have h1 := h.adv
  obtain ⟨s2, ls, hl, hlines⟩ := commentLines_run h1.cut
  refine ⟨ls, hlines, located_run h (by simp) ?_⟩
  have hm := mapParser_ok (takeUntil_run h1 (by simp) hf) hl
  rw [bind_ok (tag_run h), bind_ok hm, bind_ok (tag_run h1.adv)]
  simp [P.pure]
  congr 1
  omega

theorem lineComment_run {l : Str} (h : View s (b!"%%" ++ (l ++ r))) (hl : LineSplit l r) :
    lineComment s = .ok (adv s (l.length + 2))
      ⟨.comment (.line l), ⟨s.start, l.length + 2, s.depth⟩⟩ := by
  have h1 := h.adv
  refine located_run h (by simp) ?_
  rw [bind_ok (tag_run h)]
  refine (map_ok (strOf_ok (takeUntilEol_run h1 hl))).trans ?_
  rw [h1.cut.rem]
  simp [Nat.add_comm]

end Vw
