import Verif.Lemmas.RunPage
import Verif.Spec.Fences

/-!
# Fenced blocks: from the source to the lines and back
-/

namespace Vw
open P Scan

variable {s s' : Span} {r w t : Str} {C : Ctx} {k : Nat}

/-! ## Forward runs -/

theorem memchrIterFrom_run {f : Byte → Bool} (hw : ∀ x ∈ w, f x = false) (base : Nat) :
    memchrIterFrom base f (w ++ r) = memchrIterFrom (base + w.length) f r := by
  induction w generalizing base with
  | nil => simp
  | cons b w ih =>
    have := hw b (by simp)
    rw [List.cons_append, memchrIterFrom, if_neg (by simp [this]), ih (fun x hx => hw x (by simp [hx])),
      List.length_cons]
    congr 1
    omega

/-- A scan up to a byte finds the byte. -/
theorem takeLineUntil_run {c : Byte} (h : View s (w ++ c :: r)) (hn : 10 ∉ w) (hc : c ∉ w)
    (hc10 : c ≠ 10) : takeLineUntil [c] s = .ok (adv s w.length) (cut s w.length) := by
  have := takeSplit_run h
  unfold takeLineUntil
  simp only [h.rem]
  rw [memchrIter, memchrIterFrom_run, memchrIterFrom, if_pos (by simp), takeLineUntilLoop, if_neg, if_neg,
    if_pos]
  · simpa using this
  · simp [matchesAt]
  · simp
  · simp [hc10]
  · intro x hx
    have h1 : x ≠ 10 := fun e => hn (e ▸ hx)
    have h2 : x ≠ c := fun e => hc (e ▸ hx)
    simp [h1, h2]

/-- A scan up to a byte that is not on the line ends at the line end. -/
theorem takeLineUntil_run_eol {c : Byte} (h : View s (w ++ r)) (hl : LineSplit w r) (hc : c ∉ w)
    (hc10 : c ≠ 10 ∧ c ≠ 13) : takeLineUntil [c] s = .ok (adv s w.length) (cut s w.length) := by
  have := takeSplit_run h
  obtain ⟨hn, hr⟩ := hl
  unfold takeLineUntil
  simp only [h.rem]
  have hw : ∀ x ∈ w, (x == 10 || x == [c].headD 0) = false := by
    intro x hx
    have h1 : x ≠ 10 := fun e => hn (e ▸ hx)
    have h2 : x ≠ c := fun e => hc (e ▸ hx)
    simp [h1, h2]
  rw [memchrIter, memchrIterFrom_run hw]
  rcases hr with rfl | ⟨t, rfl, h13⟩ | ⟨t, rfl⟩
  · simpa [memchrIterFrom, takeLineUntilLoop] using this
  · rw [memchrIterFrom, if_pos (by simp), takeLineUntilLoop, if_pos (by simp)]
    have hcr : crAdjust (w ++ 10 :: t) (0 + w.length) = w.length := by
      unfold crAdjust
      rw [if_neg]
      · simp
      · rintro ⟨h1, h2⟩
        apply h13
        rw [List.getLast?_eq_getElem?]
        rw [List.getElem?_append_left (by omega)] at h2
        simpa using h2
    rw [hcr]
    exact this
  · rw [memchrIterFrom, if_neg (by simp [Ne.symm hc10.2]), memchrIterFrom, if_pos (by simp),
      takeLineUntilLoop, if_pos (by simp)]
    have hcr : crAdjust (w ++ 13 :: 10 :: t) (0 + w.length + 1) = w.length := by
      unfold crAdjust
      rw [if_pos]
      · simp
      · simp
    rw [hcr]
    exact this

theorem takeLineUntil1_run {c : Byte} (h : View s (w ++ c :: r)) (hn : 10 ∉ w) (hc : c ∉ w)
    (hc10 : c ≠ 10) (hne : w ≠ []) :
    takeLineUntil1 [c] s = .ok (adv s w.length) (cut s w.length) := by
  unfold takeLineUntil1
  rw [verify_ok (takeLineUntil_run h hn hc hc10), (View.cut h).isEmpty, if_pos (by simpa using hne)]

theorem takeLineUntil1_run_eol {c : Byte} (h : View s (w ++ r)) (hl : LineSplit w r) (hc : c ∉ w)
    (hc10 : c ≠ 10 ∧ c ≠ 13) :
    takeLineUntil1 [c] s = if w = [] then .err else .ok (adv s w.length) (cut s w.length) := by
  unfold takeLineUntil1
  rw [verify_ok (takeLineUntil_run_eol h hl hc hc10), (View.cut h).isEmpty]
  cases w <;> simp

theorem indentSize_run (h : View s (w ++ r)) (hw : AllBlank w)
    (hr : ∀ x, r.head? = some x → ¬ (x = 32 ∨ x = 9)) :
    indentSize s = .ok (adv s w.length) w.length := by
  unfold indentSize
  have := space0_run h (AllBlank.iff.1 hw) (fun x hx => isSpace_false.2 (hr x hx))
  rw [mapParser_ok this (s2 := cut s w.length) (b := w.length)]
  unfold countRemainingBytes
  rw [(View.cut h).remLen]

theorem fenceEnd_run {cl ws : Str} (h : View s (w ++ (cl ++ (ws ++ r)))) (hw : AllBlank w)
    (hws : AllBlank ws) (hcl : ∀ x, cl.head? = some x → ¬ (x = 32 ∨ x = 9)) (hne : cl ≠ [])
    (hr : EolHere r) :
    ∃ n, fenceEnd cl s = .ok (adv s (w.length + cl.length + ws.length + n)) w.length ∧
      n = lineLen r := by
  have v1 := View.adv h
  have v2 := View.adv v1
  have v3 := View.adv v2
  obtain ⟨n, hn, -, -, -, hl⟩ := eol_run v3 hr
  refine ⟨n, ?_, hl⟩
  unfold fenceEnd
  rw [bind_ok (indentSize_run h hw ?_), bind_ok (tag_run v1), bind_ok (space0_run v2
    (AllBlank.iff.1 hws) ?_), bind_ok hn]
  · simp [P.pure]
  · intro x hx
    rcases hr with rfl | ⟨t, rfl⟩ | ⟨t, rfl⟩
    · simp at hx
    · simp at hx; subst hx; rfl
    · simp at hx; subst hx; rfl
  · intro x hx
    cases cl with
    | nil => exact absurd rfl hne
    | cons y cl => exact hcl x (by simpa using hx)

theorem eol_inv (h : View s t) (he : endOfLineOrInput s = .ok s' ()) : EolHere t := by
  by_cases h' : EolHere t
  · exact h'
  · rw [eol_run_err h h'] at he; cases he

/-- The first line of a text is unique. -/
theorem LineSplit.unique {w r w' r' : Str} (h : LineSplit w r) (h' : LineSplit w' r')
    (he : w ++ r = w' ++ r') : w = w' := by
  have key : ∀ {w r w' r' : Str}, LineSplit w r → LineSplit w' r' → w ++ r = w' ++ r' →
      w.length < w'.length → False := by
    intro w r w' r' h h' he hlt
    obtain ⟨as, rfl, rfl⟩ : ∃ as, w' = w ++ as ∧ r = as ++ r' := by
      rcases List.append_eq_append_iff.1 he with h | ⟨bs, rfl, -⟩
      · exact h
      · simp at hlt; omega
    have hne : as ≠ [] := by rintro rfl; simp at hlt
    obtain ⟨h10, hr⟩ := h
    obtain ⟨h10', hr'⟩ := h'
    rcases hr with hr | ⟨t, hr, -⟩ | ⟨t, hr⟩
    · exact hne (List.append_eq_nil_iff.1 hr).1
    · cases as with
      | nil => exact hne rfl
      | cons a as => simp at hr; apply h10'; simp [hr.1]
    · match as, hne, hr, h10', hr' with
      | [], hne, _, _, _ => exact hne rfl
      | [a], _, hr, _, hr' =>
        simp at hr
        rcases hr' with hr' | ⟨t', hr', hl⟩ | ⟨t', hr'⟩
        · rw [hr'] at hr; simp at hr
        · apply hl; simp [hr.1]
        · rw [hr'] at hr; simp at hr
      | a :: b :: as, _, hr, h10', _ => simp at hr; apply h10'; simp [hr.2.1]
  have h1 := fun hlt => key h h' he hlt
  have h2 := fun hlt => key h' h he.symm hlt
  exact (List.append_inj he (Nat.le_antisymm (Nat.le_of_not_lt h2) (Nat.le_of_not_lt h1))).1

theorem fenceEnd_run_err {cl l : Str} (h : View s (l ++ r)) (hl : LineSplit l r)
    (hc : ¬ ClosingLine cl l) (hne : cl ≠ []) (hcl : 10 ∉ cl ∧ cl.getLast? ≠ some 13) :
    fenceEnd cl s = .err := by
  obtain ⟨w, r1, e1, hw, hr1⟩ := while_exists isSpace (l ++ r)
  rw [e1] at h
  have v1 := View.adv h
  unfold fenceEnd
  rw [bind_ok (indentSize_run h (AllBlank.iff.2 hw) fun x hx => isSpace_false.1 (hr1 x hx))]
  by_cases hp : ∃ q, r1 = cl ++ q
  · obtain ⟨r2, rfl⟩ := hp
    rw [bind_ok (tag_run v1)]
    have v2 := View.adv v1
    obtain ⟨ws, r3, rfl, hws, hr3⟩ := while_exists isSpace r2
    rw [bind_ok (space0_run v2 hws hr3)]
    have v3 := View.adv v2
    by_cases he : EolHere r3
    · exfalso
      have hw := AllBlank.iff.2 hw
      have hws := AllBlank.iff.2 hws
      have hls : LineSplit (w ++ cl ++ ws) r3 := by
        refine he.lineSplit ?_ ?_
        · have := mem_blank_ne (c := 10) hw (by decide)
          have := mem_blank_ne (c := 10) hws (by decide)
          simp_all
        · rw [List.getLast?_append]
          cases hg : ws.getLast? with
          | some x =>
            rcases hws x (List.mem_of_getLast? hg) with rfl | rfl <;> simp
          | none =>
            rw [List.getLast?_append]
            cases hg2 : cl.getLast? with
            | none => exact absurd (List.getLast?_eq_none_iff.1 hg2) hne
            | some y => rw [hg2] at hcl; simpa using hcl.2
      have := hl.unique hls (by simpa using e1)
      exact hc ⟨w, ws, hw, hws, this⟩
    · rw [bind_er (eol_run_err v3 he)]
  · rw [bind_er (tag_run_err v1 fun ⟨q, hq⟩ => hp ⟨q, hq.symm⟩)]

theorem anyLine_run {l : Str} (hb : AtBol s) (h : View s (l ++ r)) (hl : LineSplit l r) :
    anyLine s = .ok (adv s (lineLen (l ++ r))) (cut s l.length) := by
  unfold anyLine restOfLine
  obtain ⟨n, hn, -, -, -, he⟩ := eol_run (View.adv h) hl.eol
  rw [bind_ok (bol_run hb), bind_ok (takeUntilEol_run h hl), bind_ok hn, lineLen_append hl.1, he]
  simp [P.pure]

/-- Where a line ends the next one begins. -/
theorem AtBol.next {l : Str} (h : View s (l ++ 10 :: r)) : AtBol (adv s (l.length + 1)) := by
  refine .inr ?_
  have h' : View s ((l ++ [10]) ++ r) := by simpa using h
  have hh := h.hi
  have hl := h.len
  simp at hl
  unfold Span.asConsumed
  rw [adv_inner, adv_start, List.getLast?_eq_getElem?, List.length_take, Nat.min_eq_left (by omega),
    List.getElem?_take_of_lt (by omega)]
  have : s.asRemaining[l.length]? = some 10 := by rw [h.rem]; simp
  unfold Span.asRemaining at this
  rw [List.getElem?_drop, List.getElem?_take_of_lt (by omega)] at this
  rw [← this]
  congr 1

theorem rawLines_run {cl : Str} (hne : cl ≠ []) (hcl : 10 ∉ cl ∧ cl.getLast? ≠ some 13) :
    ∀ (raw : List Str) (fuel : Nat) (s : Span), raw.length < fuel → AtBol s →
      View s (raw.flatMap (· ++ b!"\n") ++ r) →
      (∀ l ∈ raw, 10 ∉ l ∧ l.getLast? ≠ some 13 ∧ ¬ ClosingLine cl l) →
      (∃ x n, fenceEnd cl (adv s (raw.flatMap (· ++ b!"\n")).length) = .ok x n) →
      many0Loop (preceded (P.not (fenceEnd cl)) (strOf anyLine)) fuel s =
        .ok (adv s (raw.flatMap (· ++ b!"\n")).length) raw := by
  intro raw
  induction raw with
  | nil =>
    intro fuel s hf hb h hl ⟨x, n, he⟩
    cases fuel with
    | zero => simp at hf
    | succ f =>
      unfold many0Loop preceded
      have : P.not (fenceEnd cl) s = .err := by
        simp at he
        unfold P.not
        rw [he]
      rw [bind_er this]
      rfl
  | cons l raw ih =>
    intro fuel s hf hb h hl he
    cases fuel with
    | zero => simp at hf
    | succ f =>
      obtain ⟨h1, h2, h3⟩ := hl l (by simp)
      have h' : View s (l ++ 10 :: (raw.flatMap (· ++ b!"\n") ++ r)) := by simpa using h
      have hls : LineSplit l (10 :: (raw.flatMap (· ++ b!"\n") ++ r)) :=
        ⟨h1, .inr (.inl ⟨_, rfl, h2⟩)⟩
      have hn : P.not (fenceEnd cl) s = .ok s () := by
        unfold P.not
        rw [fenceEnd_run_err h' hls h3 hne hcl]
      have hal := anyLine_run hb h' hls
      rw [lineLen_append h1] at hal
      have h1l : lineLen (10 :: (raw.flatMap (· ++ b!"\n") ++ r)) = 1 := by simp [lineLen]
      rw [h1l] at hal
      have hstep : preceded (P.not (fenceEnd cl)) (strOf anyLine) s =
          .ok (adv s (l.length + 1)) l := by
        unfold preceded
        rw [bind_ok hn, strOf_ok hal, (View.cut h').rem]
      unfold many0Loop
      rw [hstep]
      simp only
      rw [if_neg (by
        intro e
        have := congrArg Span.start e
        simp at this)]
      have hv : View (adv s (l.length + 1)) (raw.flatMap (· ++ b!"\n") ++ r) := by
        have : View s ((l ++ [10]) ++ (raw.flatMap (· ++ b!"\n") ++ r)) := by simpa using h
        simpa using View.adv this
      have hlen : ((l :: raw).flatMap (· ++ b!"\n")).length =
          l.length + 1 + (raw.flatMap (· ++ b!"\n")).length := by
        rw [List.flatMap_cons, List.length_append, List.length_append]; rfl
      rw [hlen, ← adv_adv] at he
      rw [ih f _ (by simpa using hf) (AtBol.next h') hv (fun x hx => hl x (by simp [hx])) he,
        hlen, adv_adv]

theorem dedentLines_run {n : Nat} {raw : List Str} (h : n = 0 ∨ ∀ l ∈ raw, ∀ b ∈ l, b < 128) (s : Span) :
    dedentLines n raw s = .ok s (raw.map (dedent n)) := by
  rcases h with rfl | h
  · have key : raw.mapM (dedentLine 0) = some (raw.map (dedent 0)) := by
      induction raw with
      | nil => rfl
      | cons l raw ih =>
        have : dedentLine 0 l = some (dedent 0 l) := by
          simp [dedentLine, dedent, isCharBoundary]
        rw [List.mapM_cons, this, ih]
        rfl
    unfold dedentLines
    rw [key]
  have key : raw.mapM (dedentLine n) = some (raw.map (dedent n)) := by
    induction raw with
    | nil => rfl
    | cons l raw ih =>
      have hl := h l (by simp)
      have : dedentLine n l = some (dedent n l) := by
        unfold dedentLine dedent
        rw [leadingWs_spec hl, Nat.min_comm, if_pos]
        apply isCharBoundary_ascii hl
        have : leadingBlanks l ≤ l.length := by
          rw [← leadingWs_spec hl]; exact leadingWs_le l
        omega
      rw [List.mapM_cons, this, ih (fun x hx => h x (by simp [hx]))]
      rfl
  unfold dedentLines
  rw [key]

/-- The run of a fenced block after its opening line. -/
theorem fencedTail_run {α} {cl ws2 ws3 : Str} {raw : List Str} {start : P (Nat × α)} {a N : Nat} {y : α}
    {mk : α → List Str → Block} (hne : cl ≠ []) (hcl : 10 ∉ cl ∧ cl.getLast? ≠ some 13)
    (hcl' : ∀ x, cl.head? = some x → ¬ (x = 32 ∨ x = 9))
    (hs : start s = .ok (adv s N) (a, y)) (hb : AtBol (adv s N)) (hv : View s t)
    (h : View (adv s N) (raw.flatMap (· ++ b!"\n") ++ (ws2 ++ (cl ++ (ws3 ++ r)))))
    (hraw : ∀ l ∈ raw, 10 ∉ l ∧ l.getLast? ≠ some 13 ∧ ¬ ClosingLine cl l)
    (hasc : min a ws2.length = 0 ∨ ∀ l ∈ raw, ∀ b ∈ l, b < 128)
    (hw2 : AllBlank ws2) (hw3 : AllBlank ws3) (hr : EolHere r) :
    located (P.bind start fun r =>
      P.bind (many0 (preceded (P.not (fenceEnd cl)) (strOf anyLine))) fun lines =>
      P.bind (fenceEnd cl) fun endIndent =>
      P.bind (dedentLines (min r.1 endIndent) lines) fun lines =>
      P.pure (mk r.2 lines)) s =
      .ok (adv s (N + (raw.flatMap (· ++ b!"\n")).length + ws2.length + cl.length + ws3.length +
        lineLen r)) ⟨mk y (raw.map (dedent (min a ws2.length))), ⟨s.start,
        N + (raw.flatMap (· ++ b!"\n")).length + ws2.length + cl.length + ws3.length + lineLen r,
        s.depth⟩⟩ := by
  obtain ⟨n, hfe, hn⟩ := fenceEnd_run (View.adv h) hw2 hw3 hcl' hne hr
  have hlr := lineLen_le r
  have l1 := hv.len
  have l2 := h.len
  simp only [List.length_append, adv_start, adv_stop] at l1 l2
  have hl := rawLines_run hne hcl raw ((adv s N).remainingLen + 1) (adv s N) (by
      rw [h.remLen]
      have : raw.length ≤ (raw.flatMap (· ++ b!"\n")).length := by
        clear h hraw hasc hfe l2
        induction raw with
        | nil => simp
        | cons l raw ih => simp at ih ⊢; omega
      rw [List.length_append]; omega) hb h
    hraw ⟨_, _, hfe⟩
  refine located_run hv (n := N + (raw.flatMap (· ++ b!"\n")).length + ws2.length + cl.length +
    ws3.length + lineLen r) (by omega) ?_
  rw [bind_ok hs]
  have hl : many0 (preceded (P.not (fenceEnd cl)) (strOf anyLine)) (adv s N) = _ := hl
  rw [bind_ok hl, bind_ok hfe, bind_ok (dedentLines_run hasc _)]
  simp [P.pure, hn, Nat.add_assoc]

/-! ## Opening lines -/

theorem ok_congr {α} {s : Span} {a b : Nat} {x : α} (h : a = b) :
    Res.ok (adv s a) x = Res.ok (adv s b) x := by rw [h]

theorem char_run {c : Byte} (h : View s (c :: r)) : char c s = .ok (adv s 1) c :=
  satisfy_run h (by simp)

theorem mathStart_run {en : Option Str} {ws : Str}
    (h : View s (w ++ (b!"{{$" ++ (envText en ++ (ws ++ 10 :: r)))))
    (hw : AllBlank w) (hws : AllBlank ws)
    (he : ∀ e, en = some e → e ≠ [] ∧ 10 ∉ e ∧ c!"%" ∉ e) :
    mathBlockStart s = .ok (adv s (w.length + 3 + (envText en).length + ws.length + 1))
      (w.length, en) := by
  have v1 := View.adv h
  have v2 := View.adv v1
  unfold mathBlockStart
  rw [bind_ok (indentSize_run h hw (by simp)), bind_ok (tag_run v1)]
  have t0 : ∀ {S : Span}, View S (ws ++ 10 :: r) →
      space0 S = .ok (adv S ws.length) (cut S ws.length) := fun v =>
    space0_run v (AllBlank.iff.1 hws) (by simp [isSpace])
  generalize hS : adv (adv s w.length) (List.length b!"{{$") = S at v2 ⊢
  cases en with
  | none =>
    simp only [envText, List.nil_append] at v2
    have : char c!"%" S = .err := by
      refine satisfy_run_err v2 ?_
      intro x hx
      cases ws with
      | nil => simp at hx; subst hx; rfl
      | cons y ws =>
        simp at hx
        subst hx
        rcases hws y (by simp) with rfl | rfl <;> rfl
    have : delimited (char c!"%") (takeLineUntil1 b!"%") (char c!"%") S = .err := bind_er this
    rw [bind_ok (opt_er (strOf_er this)), bind_ok (t0 v2),
      bind_ok (lineEnding_run_n (View.adv v2)), ← hS]
    simp [P.pure, Nat.add_assoc, envText]
  | some e =>
    obtain ⟨e1, e2, e3⟩ := he e rfl
    have v2' : View S (c!"%" :: (e ++ c!"%" :: (ws ++ 10 :: r))) := by simpa [envText] using v2
    have v3 : View (adv S 1) _ := View.adv (w := [c!"%"]) v2'
    have v4 := View.adv v3
    have v5 : View (adv (adv (adv S 1) e.length) 1) _ := View.adv (w := [c!"%"]) v4
    have : delimited (char c!"%") (takeLineUntil1 b!"%") (char c!"%") S =
        .ok (adv (adv (adv S 1) e.length) 1) (cut (adv S 1) e.length) := by
      unfold delimited
      rw [bind_ok (char_run v2'), bind_ok (takeLineUntil1_run v3 e2 e3 (by decide) e1),
        bind_ok (char_run v4)]
      rfl
    rw [bind_ok (opt_ok (strOf_ok this)), bind_ok (t0 v5),
      bind_ok (lineEnding_run_n (View.adv v5)), (View.cut v3).rem, ← hS]
    simp only [P.pure, envText, adv_adv, List.length_append, List.length_cons, List.length_nil,
      Res.ok.injEq, and_true]
    congr 1
    omega

/-- The parser of one metadata entry. -/
def codePair : P (Str × Str) :=
  separatedPair (strOf (takeLineUntil1 b!"=")) (char c!"=")
    (delimited (char c!"\"") (strOf (takeLineUntil b!"\"")) (char c!"\""))

theorem codePair_run {p : Str × Str} (h : View s (pairText p ++ r)) (hp : PairOk p) :
    codePair s = .ok (adv s (pairText p).length) p := by
  obtain ⟨k, v⟩ := p
  obtain ⟨h1, h2, h3, -, h5, h6⟩ := hp
  have v0 : View s (k ++ c!"=" :: (c!"\"" :: (v ++ c!"\"" :: r))) := by simpa [pairText] using h
  have v1 := View.adv v0
  have v2 : View (adv (adv s k.length) 1) _ := View.adv (w := [c!"="]) v1
  have v3 : View (adv (adv (adv s k.length) 1) 1) _ := View.adv (w := [c!"\""]) v2
  have v4 := View.adv v3
  unfold codePair separatedPair delimited
  rw [bind_ok (strOf_ok (takeLineUntil1_run v0 h2 h3 (by decide) h1)), bind_ok (char_run v1)]
  rw [bind_ok (s' := adv (adv (adv (adv (adv s k.length) 1) 1) v.length) 1) (a := v)]
  · rw [(View.cut v0).rem]
    simp only [P.pure, adv_adv]
    exact ok_congr (by simp [pairText]; omega)
  · rw [bind_ok (char_run v2), bind_ok (strOf_ok (takeLineUntil_run v3 h5 h6 (by decide))),
      bind_ok (char_run v4), (View.cut v3).rem]
    rfl

theorem codePair_run_eol (h : View s r) (hr : EolHere r) : codePair s = .err := by
  unfold codePair separatedPair
  have := takeLineUntil1_run_eol (c := c!"=") (w := []) h (hr.lineSplit (by simp) (by simp)) (by simp)
    (by decide)
  rw [if_pos rfl] at this
  rw [bind_er (strOf_er this)]

theorem EolHere.head (h : EolHere r) : ∀ x, r.head? = some x → isSpace x = false := by
  intro x hx
  rcases h with rfl | ⟨t, rfl⟩ | ⟨t, rfl⟩
  · simp at hx
  · simp at hx; subst hx; rfl
  · simp at hx; subst hx; rfl

theorem sepLoop_pairs_gen {ws : Str} {cp : P (Str × Str)}
    (hc : ∀ (s : Span) (r : Str) (p : Str × Str), View s (pairText p ++ r) → PairOk p →
      cp s = .ok (adv s (pairText p).length) p)
    (he : ∀ (s : Span) (r : Str), View s r → EolHere r → cp s = .err)
    (hr : EolHere r) (hws : AllBlank ws) :
    ∀ (ps : List (Str × Str)) (fuel : Nat) (s : Span), ps.length < fuel → (∀ p ∈ ps, PairOk p) →
      View s (ps.flatMap (fun p => 32 :: pairText p) ++ (ws ++ r)) →
      sepLoop space1 cp fuel s =
        .ok (adv s (ps.flatMap (fun p => 32 :: pairText p)).length) ps := by
  intro ps
  induction ps with
  | nil =>
    intro fuel s hf _ h
    cases fuel with
    | zero => simp at hf
    | succ f =>
      simp only [List.flatMap_nil, List.nil_append] at h
      unfold sepLoop
      by_cases hw : ws = []
      · subst hw
        have : space1 s = .err := by
          unfold space1 takeWhile1
          rw [h.rem, takeWhile_run (w := []) (r := r) (by simp) hr.head]
          rfl
        rw [this]
        rfl
      · have : space1 s = .ok (adv s ws.length) (cut s ws.length) :=
          takeWhile1_run h hw (AllBlank.iff.1 hws) hr.head
        rw [this]
        simp only
        rw [if_neg (by
          intro e
          have := congrArg Span.start e
          have h0 := List.length_pos_iff.2 hw
          rw [adv_start] at this
          omega), he _ _ (View.adv h) hr]
        rfl
  | cons p ps ih =>
    intro fuel s hf hp h
    cases fuel with
    | zero => simp at hf
    | succ f =>
      have hpp := hp p (by simp)
      have v0 : View s ([32] ++ (pairText p ++ (ps.flatMap (fun p => 32 :: pairText p) ++ (ws ++ r)))) := by
        simpa using h
      have v1 := View.adv v0
      have v2 := View.adv v1
      have t1 : space1 s = .ok (adv s 1) (cut s 1) := by
        refine takeWhile1_run v0 (by simp) (by simp [isSpace]) ?_
        intro x hx
        apply isSpace_false.2
        apply hpp.2.2.2.1
        unfold pairText at hx
        have := hpp.1
        cases hk : p.1 with
        | nil => exact absurd hk this
        | cons y k => rw [hk] at hx; simpa using hx
      unfold sepLoop
      rw [t1]
      simp only
      rw [if_neg (by
        intro e
        have := congrArg Span.start e
        simp at this)]
      have t2 := hc _ _ _ v1 hpp
      simp only [List.length_cons, List.length_nil] at t2 v2
      rw [t2]
      simp only
      rw [ih f _ (by simpa using hf) (fun q hq => hp q (by simp [hq])) v2]
      simp only [adv_adv]
      exact ok_congr (by simp; omega)

theorem sepLoop_pairs_run {ws : Str} (hr : EolHere r) (hws : AllBlank ws) :
    ∀ (ps : List (Str × Str)) (fuel : Nat) (s : Span), ps.length < fuel → (∀ p ∈ ps, PairOk p) →
      View s (ps.flatMap (fun p => 32 :: pairText p) ++ (ws ++ r)) →
      sepLoop space1 codePair fuel s =
        .ok (adv s (ps.flatMap (fun p => 32 :: pairText p)).length) ps :=
  sepLoop_pairs_gen (fun _ _ _ => codePair_run) (fun _ _ => codePair_run_eol) hr hws

theorem len_le_pairs (ps : List (Str × Str)) :
    ps.length ≤ (ps.flatMap (fun p => 32 :: pairText p)).length := by
  induction ps with
  | nil => simp
  | cons l raw ih => simp at ih ⊢; omega

theorem codeStart_run {lang : Option Str} {ps : List (Str × Str)} {ws : Str}
    (h : View s (w ++ (b!"{{{" ++ (lang.getD [] ++ (headTail ps ws ++ 10 :: r)))))
    (hw : AllBlank w) (hws : AllBlank ws) (hws' : ws = [] ∨ ws.head? = some 32)
    (hl : ∀ l, lang = some l → l ≠ [] ∧ 10 ∉ l ∧ c!"=" ∉ l ∧ 32 ∉ l ∧ l.getLast? ≠ some 13)
    (hp : ∀ p ∈ ps, PairOk p) :
    codeBlockStart s = .ok (adv s (w.length + 3 + (lang.getD []).length + (headTail ps ws).length + 1))
      (w.length, lang, Map.collect ps) := by
  have v1 := View.adv h
  have v2 := View.adv v1
  have hr : EolHere (10 :: r) := .inr (.inl ⟨r, rfl⟩)
  have hht : headTail ps ws = [] ∨ ∃ q, headTail ps ws = 32 :: q := by
    unfold headTail
    cases ps with
    | nil =>
      rcases hws' with rfl | hws'
      · exact .inl rfl
      · cases ws with
        | nil => cases hws'
        | cons y ws => cases hws'; exact .inr ⟨ws, rfl⟩
    | cons p ps => exact .inr ⟨_, rfl⟩
  unfold codeBlockStart
  rw [bind_ok (indentSize_run h hw (by simp)), bind_ok (tag_run v1)]
  have tl : opt (strOf (verify (takeLineUntil1 b!" ") (fun s => !s.asRemaining.contains c!"=")))
      (adv (adv s w.length) (List.length b!"{{{")) =
      .ok (adv (adv (adv s w.length) (List.length b!"{{{")) (lang.getD []).length) lang := by
    cases lang with
    | none =>
      have : takeLineUntil1 b!" " (adv (adv s w.length) (List.length b!"{{{")) = .err := by
        unfold takeLineUntil1
        simp only [Option.getD_none, List.nil_append] at v2
        rcases hht with e | ⟨q, e⟩
        · rw [e] at v2
          rw [verify_ok (takeLineUntil_run_eol (w := []) v2 (hr.lineSplit (by simp) (by simp)) (by simp)
            (by decide)), (View.cut (w := []) v2).isEmpty]
          rfl
        · rw [e] at v2
          rw [verify_ok (takeLineUntil_run (w := []) v2 (by simp) (by simp) (by decide)),
            (View.cut (w := []) v2).isEmpty]
          rfl
      rw [opt_er (strOf_er (verify_er this))]
      rfl
    | some l =>
      obtain ⟨l1, l2, l3, l4, l5⟩ := hl l rfl
      simp only [Option.getD_some] at v2 ⊢
      have : takeLineUntil1 b!" " (adv (adv s w.length) (List.length b!"{{{")) =
          .ok (adv (adv (adv s w.length) (List.length b!"{{{")) l.length)
            (cut (adv (adv s w.length) (List.length b!"{{{")) l.length) := by
        rcases hht with e | ⟨q, e⟩
        · rw [e] at v2
          rw [takeLineUntil1_run_eol v2 (hr.lineSplit l2 l5) l4 (by decide), if_neg l1]
        · rw [e] at v2
          exact takeLineUntil1_run v2 l2 l4 (by decide) l1
      have h2 := verify_ok (f := fun s => !s.asRemaining.contains c!"=") this
      rw [(View.cut v2).rem, if_pos (by simpa using l3)] at h2
      rw [opt_ok (strOf_ok h2), (View.cut v2).rem]
  rw [bind_ok tl]
  have v3 := View.adv v2
  generalize hS : adv (adv (adv s w.length) (List.length b!"{{{")) (lang.getD []).length = S at v3 ⊢
  suffices key : (P.bind space0 fun _ =>
      P.bind (separatedList0 space1 codePair) fun pairs =>
      P.bind space0 fun _ =>
      P.bind endOfLineOrInput fun _ =>
      P.pure (w.length, lang, Map.collect pairs)) S =
      .ok (adv S ((headTail ps ws).length + 1)) (w.length, lang, Map.collect ps) by
    refine key.trans ?_
    rw [← hS]
    simp only [adv_adv]
    exact ok_congr (by simp; omega)
  have fin : ∀ {S' : Span} {ps : List (Str × Str)}, View S' (ws ++ 10 :: r) → (P.bind space0 fun _ =>
      P.bind endOfLineOrInput fun _ =>
      P.pure (w.length, lang, Map.collect ps)) S' =
      .ok (adv S' (ws.length + 1)) (w.length, lang, Map.collect ps) := by
    intro S' ps v
    obtain ⟨n, hn, -, -, -, he⟩ := eol_run (View.adv v) hr
    rw [bind_ok (space0_run v (AllBlank.iff.1 hws) hr.head), bind_ok hn, he]
    simp [P.pure, lineLen]
  cases ps with
  | nil =>
    have v3 : View S (ws ++ 10 :: r) := by simpa [headTail] using v3
    have v4 := View.adv v3
    rw [bind_ok (space0_run v3 (AllBlank.iff.1 hws) hr.head)]
    have : separatedList0 space1 codePair (adv S ws.length) = .ok (adv S ws.length) [] := by
      unfold separatedList0
      rw [codePair_run_eol v4 hr]
    rw [bind_ok this]
    obtain ⟨n, hn, -, -, -, he⟩ := eol_run v4 hr
    rw [bind_ok (space0_run (w := []) v4 (by simp) hr.head)]
    simp only [List.length_nil, adv_zero]
    rw [bind_ok hn, he]
    simp [P.pure, lineLen, headTail]
  | cons p ps =>
    have hpp := hp p (by simp)
    have v3 : View S ([32] ++ (pairText p ++ (ps.flatMap (fun p => 32 :: pairText p) ++
        (ws ++ 10 :: r)))) := by simpa [headTail] using v3
    have v4 := View.adv v3
    have v5 := View.adv v4
    have v6 := View.adv v5
    rw [bind_ok (space0_run v3 (by simp [isSpace]) (by
      intro x hx
      apply isSpace_false.2
      apply hpp.2.2.2.1
      unfold pairText at hx
      have := hpp.1
      cases hk : p.1 with
      | nil => exact absurd hk this
      | cons y k => rw [hk] at hx; simpa using hx))]
    have hsl := sepLoop_pairs_run hr hws ps
      ((adv (adv S (List.length [32])) (pairText p).length).remainingLen + 1) _ (by
        rw [v5.remLen]
        have := len_le_pairs ps
        rw [List.length_append]; omega) (fun q hq => hp q (by simp [hq])) v5
    have hsl : sepTail space1 codePair (adv (adv S (List.length [32])) (pairText p).length) = _ := hsl
    have : separatedList0 space1 codePair (adv S (List.length [32])) = .ok (adv (adv (adv S
        (List.length [32])) (pairText p).length) (ps.flatMap (fun p => 32 :: pairText p)).length) (p :: ps) := by
      unfold separatedList0
      rw [codePair_run v4 hpp]
      simp only
      rw [map_ok hsl]
    rw [bind_ok this, fin v6]
    simp only [adv_adv]
    exact ok_congr (by simp [headTail]; omega)

/-- A code block is parsed to its lines. -/
theorem code_run {lang : Option Str} {ps : List (Str × Str)} {ws1 ws ws2 ws3 : Str} {raw : List Str}
    (h : View s (ws1 ++ (b!"{{{" ++ (lang.getD [] ++ (headTail ps ws ++ 10 ::
      (raw.flatMap (· ++ b!"\n") ++ (ws2 ++ (b!"}}}" ++ (ws3 ++ r)))))))))
    (hw : AllBlank ws1) (hws : AllBlank ws) (hws' : ws = [] ∨ ws.head? = some 32)
    (hl : ∀ l, lang = some l → l ≠ [] ∧ 10 ∉ l ∧ c!"=" ∉ l ∧ 32 ∉ l ∧ l.getLast? ≠ some 13)
    (hp : ∀ p ∈ ps, PairOk p)
    (hraw : ∀ l ∈ raw, 10 ∉ l ∧ l.getLast? ≠ some 13 ∧ ¬ ClosingLine b!"}}}" l)
    (hasc : min ws1.length ws2.length = 0 ∨ ∀ l ∈ raw, ∀ b ∈ l, b < 128)
    (hw2 : AllBlank ws2) (hw3 : AllBlank ws3) (hr : EolHere r) :
    ∃ x, codeBlock s = .ok (adv s (ws1.length + 3 + (lang.getD []).length + (headTail ps ws).length + 1 +
        (raw.flatMap (· ++ b!"\n")).length + ws2.length + 3 + ws3.length + lineLen r)) x ∧
      x.inner = .code lang (Map.collect ps) (raw.map (dedent (min ws1.length ws2.length))) := by
  have hs := codeStart_run h hw hws hws' hl hp
  have h' : View s ((ws1 ++ b!"{{{" ++ lang.getD [] ++ headTail ps ws) ++ 10 ::
      (raw.flatMap (· ++ b!"\n") ++ (ws2 ++ (b!"}}}" ++ (ws3 ++ r))))) := by simpa using h
  have hN : (ws1 ++ b!"{{{" ++ lang.getD [] ++ headTail ps ws).length + 1 =
      ws1.length + 3 + (lang.getD []).length + (headTail ps ws).length + 1 := by simp; omega
  have hb := AtBol.next h'
  rw [hN] at hb
  have hv : View (adv s (ws1.length + 3 + (lang.getD []).length + (headTail ps ws).length + 1))
      (raw.flatMap (· ++ b!"\n") ++ (ws2 ++ (b!"}}}" ++ (ws3 ++ r)))) := by
    have : View s ((ws1 ++ b!"{{{" ++ lang.getD [] ++ headTail ps ws ++ [10]) ++
      (raw.flatMap (· ++ b!"\n") ++ (ws2 ++ (b!"}}}" ++ (ws3 ++ r))))) := by simpa using h
    have := View.adv this
    rwa [List.length_append, List.length_singleton, hN] at this
  have hrun := fencedTail_run (mk := fun y ls => Block.code y.1 y.2 ls) (by decide) (by decide)
    (by decide) hs hb h hv hraw hasc hw2 hw3 hr
  exact ⟨_, hrun, rfl⟩

/-- A math block is parsed to its lines. -/
theorem math_run {en : Option Str} {ws1 ws ws2 ws3 : Str} {raw : List Str}
    (h : View s (ws1 ++ (b!"{{$" ++ (envText en ++ (ws ++ 10 ::
      (raw.flatMap (· ++ b!"\n") ++ (ws2 ++ (b!"}}$" ++ (ws3 ++ r)))))))))
    (hw : AllBlank ws1) (hws : AllBlank ws)
    (he : ∀ e, en = some e → e ≠ [] ∧ 10 ∉ e ∧ c!"%" ∉ e)
    (hraw : ∀ l ∈ raw, 10 ∉ l ∧ l.getLast? ≠ some 13 ∧ ¬ ClosingLine b!"}}$" l)
    (hasc : min ws1.length ws2.length = 0 ∨ ∀ l ∈ raw, ∀ b ∈ l, b < 128)
    (hw2 : AllBlank ws2) (hw3 : AllBlank ws3) (hr : EolHere r) :
    ∃ x, mathBlock s = .ok (adv s (ws1.length + 3 + (envText en).length + ws.length + 1 +
        (raw.flatMap (· ++ b!"\n")).length + ws2.length + 3 + ws3.length + lineLen r)) x ∧
      x.inner = .math (raw.map (dedent (min ws1.length ws2.length))) en := by
  have hs := mathStart_run h hw hws he
  have h' : View s ((ws1 ++ b!"{{$" ++ envText en ++ ws) ++ 10 ::
      (raw.flatMap (· ++ b!"\n") ++ (ws2 ++ (b!"}}$" ++ (ws3 ++ r))))) := by simpa using h
  have hN : (ws1 ++ b!"{{$" ++ envText en ++ ws).length + 1 =
      ws1.length + 3 + (envText en).length + ws.length + 1 := by simp; omega
  have hb := AtBol.next h'
  rw [hN] at hb
  have hv : View (adv s (ws1.length + 3 + (envText en).length + ws.length + 1))
      (raw.flatMap (· ++ b!"\n") ++ (ws2 ++ (b!"}}$" ++ (ws3 ++ r)))) := by
    have : View s ((ws1 ++ b!"{{$" ++ envText en ++ ws ++ [10]) ++
      (raw.flatMap (· ++ b!"\n") ++ (ws2 ++ (b!"}}$" ++ (ws3 ++ r))))) := by simpa using h
    have := View.adv this
    rwa [List.length_append, List.length_singleton, hN] at this
  have hrun := fencedTail_run (mk := fun y ls => Block.math ls y) (by decide) (by decide)
    (by decide) hs hb h hv hraw hasc hw2 hw3 hr
  exact ⟨_, hrun, rfl⟩

/-! ## Maps -/

theorem Map.mem_foldl_insert (ps : List (Str × Str)) (m : Map) (k v : Str) :
    (k, v) ∈ ps.foldl (fun m e => Map.insert m e.1 e.2) m ↔
      ((ps.reverse.find? fun p => p.1 = k) = some (k, v) ∨
        ((ps.reverse.find? fun p => p.1 = k) = none ∧ (k, v) ∈ m)) := by
  induction ps generalizing m with
  | nil => simp
  | cons p ps ih =>
    rw [List.foldl_cons, ih]
    obtain ⟨a, b⟩ := p
    simp only [List.reverse_cons, List.find?_append, Map.insert]
    cases hf : ps.reverse.find? (fun p => decide (p.1 = k)) with
    | some q => simp
    | none =>
      by_cases hak : a = k
      · subst hak; simp; exact eq_comm
      · simp [List.find?, hak]; simp [Ne.symm hak]

/-- The last pair of a key wins. -/
theorem Map.mem_collect (ps : List (Str × Str)) (k v : Str) :
    (k, v) ∈ Map.collect ps ↔ (ps.reverse.find? fun p => p.1 = k) = some (k, v) := by
  rw [Map.collect, Map.mem_foldl_insert]
  simp

end Vw
