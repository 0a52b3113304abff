import Verif.Lemmas.BlocksD
import Verif.Lemmas.Run

/-!
# Forward runs of block parsers
-/

namespace Vw
open P Scan

variable {s : Span} {r w t : Str} {C : Ctx} {k : Nat}

theorem isSpace_false {x : Byte} : isSpace x = false ↔ ¬ (x = 32 ∨ x = 9) := by
  rw [← isSpace_iff]; simp

theorem AllBlank.iff : AllBlank w ↔ ∀ x ∈ w, isSpace x = true := by
  simp only [AllBlank, isSpace_iff]

/-- The beginning of a line. -/
def AtBol (s : Span) : Prop := s.start = 0 ∨ s.asConsumed.getLast? = some 10

theorem AtBol.ofStr (t : Str) : AtBol (Span.ofStr t) := .inl rfl

/-! ## Dividers -/

theorem divider_run (hb : AtBol s) (h : View s t) (hd : DividerForm t) :
    ∃ n, n = lineLen t ∧ divider s = .ok (adv s n) ⟨.divider, ⟨s.start, n, s.depth⟩⟩ := by
  obtain ⟨n, r, hn, rfl, he⟩ := hd
  have hr : r.head? ≠ some c!"-" := by
    rcases he with rfl | ⟨t, rfl⟩ | ⟨t, rfl⟩ <;> simp
  have hv := View.adv h
  rw [List.length_replicate] at hv
  obtain ⟨m, hm, hml, -, -, hm2⟩ := eol_run hv he
  refine ⟨n + m, ?_, ?_⟩
  · rw [lineLen_append (by simp [List.mem_replicate]), List.length_replicate, hm2]
  unfold divider
  refine located_run h (by simpa using hml) ?_
  rw [bind_ok (bol_run hb)]
  have h1 := takeLineWhile1_run (c := c!"-") (by decide) hr h
  rw [if_neg (by omega)] at h1
  have h2 := View.cut h
  rw [List.length_replicate] at h2
  rw [bind_ok (s' := adv s n) (a := cut s n), bind_ok hm, adv_adv]
  · rfl
  · rw [verify_ok h1, if_pos]
    rw [h2.remLen]; simpa using hn

theorem divider_inv {s' : Span} {x : Located Block} (h : View s t)
    (hd : divider s = .ok s' x) : DividerForm t ∧ x.inner = .divider := by
  unfold divider at hd
  obtain ⟨hd, -⟩ := located_inv hd
  obtain ⟨s1, _, h1, hd⟩ := bind_inv hd
  unfold beginningOfLine at h1
  split at h1
  · cases h1
    obtain ⟨s2, o, h2, hd⟩ := bind_inv hd
    obtain ⟨h2, hl⟩ := verify_inv h2
    obtain ⟨n, r, rfl, hr⟩ := run_exists c!"-" t
    rw [takeLineWhile1_run (by decide) hr h] at h2
    split at h2
    · cases h2
    · cases h2
      obtain ⟨s3, _, h3, hd⟩ := bind_inv hd
      have hv := View.adv h
      rw [List.length_replicate] at hv
      have hc := View.cut h
      rw [List.length_replicate] at hc
      rw [hc.remLen] at hl
      have hx : x.inner = .divider := (Res.ok.inj hd).2.symm
      refine ⟨⟨n, r, by simpa using hl, rfl, ?_⟩, hx⟩
      apply Classical.byContradiction
      intro hne
      rw [eol_run_err hv hne] at h3
      cases h3
  · cases h1

/-! ## Headers -/

theorem mem_blank_ne {w : Str} {c : Byte} (hw : AllBlank w) (hc : c ≠ 32 ∧ c ≠ 9) : c ∉ w := by
  intro h
  rcases hw c h with rfl | rfl
  · exact hc.1 rfl
  · exact hc.2 rfl

/-- The part of `header_tail` after the line was taken. -/
def headerBody (env : Env) (level : Nat) : P Inlines :=
  P.bind trimTrailingWhitespace fun _ =>
  P.bind (verify (takeEnd level) (fun e => e.asRemaining.all (· == c!"="))) fun _ =>
  P.bind (peek (verify (take 1) (fun e => e.asRemaining.headD 0 != c!"="))) fun _ =>
  P.bind (peek (verify (takeEnd 1) (fun e => e.asRemaining.headD 0 != c!"="))) fun _ =>
  P.bind trimWhitespace fun _ =>
  P.map (inlineContainer env) (·.inner)

theorem headerBody_run {n : Nat} {b1 mid b2 ws : Str} (env : Env) (hn : 1 ≤ n)
    (h : View s (b1 ++ mid ++ b2 ++ List.replicate n c!"=" ++ ws)) (hb1 : AllBlank b1)
    (hb2 : AllBlank b2) (hws : AllBlank ws) (hne : mid ≠ [])
    (hf : (b1 ++ mid).head? ≠ some c!"=") (hl : (mid ++ b2).getLast? ≠ some c!"=")
    (hm1 : ∀ x, mid.head? = some x → isSpace x = false)
    (hm2 : ∀ x, mid.getLast? = some x → isSpace x = false) :
    View (cut (adv s b1.length) mid.length) mid ∧
    headerBody env n s = P.map (inlineContainer env) (·.inner) (cut (adv s b1.length) mid.length) := by
  have hlast : ∀ x, (b1 ++ mid ++ b2 ++ List.replicate n c!"=").getLast? = some x →
      isSpace x = false := by
    intro x hx
    obtain ⟨m, rfl⟩ : ∃ m, n = m + 1 := ⟨n - 1, by omega⟩
    rw [List.replicate_succ', ← List.append_assoc, List.getLast?_concat] at hx
    cases hx; rfl
  have t1 := trimTrailing_run h (AllBlank.iff.1 hws) hlast
  have v1 := View.cut h
  have t2 := takeEnd_run v1
  rw [List.length_replicate] at t2
  have v2 := View.adv v1
  have v3 := View.cut v1
  generalize hS : cut (cut s _) _ = S3 at t2 v3
  obtain ⟨c, m', hcm⟩ : ∃ c m', b1 ++ mid ++ b2 = c :: m' := by
    cases hb : b1 ++ mid ++ b2 with
    | nil => simp at hb; exact absurd hb.2.1 hne
    | cons c m' => exact ⟨c, m', rfl⟩
  have hc : c ≠ c!"=" := by
    intro e
    apply hf
    have : (b1 ++ mid ++ b2).head? = (b1 ++ mid).head? := by
      cases hb : b1 ++ mid with
      | nil => simp at hb; exact absurd hb.2 hne
      | cons _ _ => rfl
    rw [← this, hcm, e]; rfl
  have hmb : mid ++ b2 ≠ [] := by simp [hne]
  obtain ⟨m2, d, hd⟩ : ∃ m2 d, b1 ++ mid ++ b2 = m2 ++ [d] ∧ d ≠ c!"=" := by
    refine ⟨b1 ++ (mid ++ b2).dropLast, (mid ++ b2).getLast hmb, ?_, ?_⟩
    · rw [List.append_assoc, List.append_assoc, List.dropLast_concat_getLast]
    · intro e
      apply hl
      rw [List.getLast?_eq_some_getLast hmb, e]
  have vt : View S3 ([c] ++ m') := by rw [← List.singleton_append] at hcm; exact hcm ▸ v3
  have t3 : take 1 S3 = .ok (adv S3 1) (cut S3 1) := take_run vt
  have vt2 := View.cut vt
  have ve : View S3 (m2 ++ [d]) := hd.1 ▸ v3
  have t4 : takeEnd 1 S3 = .ok (cut S3 m2.length) (adv S3 m2.length) := takeEnd_run ve
  have ve2 := View.adv ve
  have t5 := trim_run (w := b1) (m := mid) (e := b2) (by simpa using v3) (AllBlank.iff.1 hb1)
    (AllBlank.iff.1 hb2) (by
      intro x hx
      apply hm1 x
      cases hb : mid with
      | nil => exact absurd hb hne
      | cons _ _ => rw [hb] at hx; exact hx) hm2
  have hS3 : cut (adv S3 b1.length) mid.length = cut (adv s b1.length) mid.length := by
    subst hS; rfl
  refine ⟨?_, ?_⟩
  · rw [← hS3]
    have : View S3 (b1 ++ (mid ++ b2)) := by simpa using v3
    exact View.cut (View.adv this)
  · unfold headerBody
    rw [bind_ok t1, bind_ok (s' := S3), bind_ok (s' := S3), bind_ok (s' := S3), bind_ok t5, hS3]
    · refine peek_ok (s' := cut S3 m2.length) (a := adv S3 m2.length) ?_
      rw [verify_ok t4, if_pos]
      rw [ve2.rem]; simpa using hd.2
    · refine peek_ok (s' := adv S3 1) (a := cut S3 1) ?_
      have vt2 : View (cut S3 1) [c] := vt2
      rw [verify_ok t3, if_pos]
      rw [vt2.rem]; simpa using hc
    · rw [verify_ok t2, if_pos]
      rw [v2.rem]; simp

theorem headerBody_inv {n : Nat} {env : Env} {s' : Span} {xs : Inlines} (h : View s w)
    (hr : headerBody env n s = .ok s' xs) (hcont : ∀ b1 x, AllBlank b1 → w = b1 ++ x → ∀ s' x,
      inlineContainer env (cut (adv s b1.length) 0) ≠ .ok s' x) :
    ∃ b1 mid b2 ws, w = b1 ++ mid ++ b2 ++ List.replicate n c!"=" ++ ws ∧ AllBlank b1 ∧
      AllBlank b2 ∧ AllBlank ws ∧ mid ≠ [] ∧ (b1 ++ mid).head? ≠ some c!"=" ∧
      (mid ++ b2).getLast? ≠ some c!"=" ∧ (∀ x, mid.head? = some x → isSpace x = false) ∧
      (∀ x, mid.getLast? = some x → isSpace x = false) := by
  obtain ⟨body, ws, rfl, hws, hbody⟩ := trail_exists isSpace w
  unfold headerBody at hr
  rw [bind_ok (trimTrailing_run h hws hbody)] at hr
  have v1 := View.cut h
  obtain ⟨S3, e, h2, hr⟩ := bind_inv hr
  obtain ⟨h2, hall⟩ := verify_inv h2
  obtain ⟨m, q, rfl, hq, rfl, rfl⟩ := takeEnd_inv v1 h2
  have v2 := View.adv v1
  have v3 := View.cut v1
  rw [v2.rem] at hall
  have hqe : q = List.replicate n c!"=" := by
    rw [← hq]
    exact List.eq_replicate_iff.2 ⟨rfl, fun x hx => by simpa using List.all_eq_true.1 hall x hx⟩
  have hS : ∀ a b, cut (adv (cut (cut s (m ++ q).length) m.length) a) b = cut (adv s a) b :=
    fun _ _ => rfl
  generalize cut (cut s _) _ = S3 at hr v3 hS
  obtain ⟨s4, e4, h4, hr2⟩ := bind_inv hr
  obtain ⟨es4, s5, h4'⟩ := peek_inv h4
  subst es4
  obtain ⟨h4'', hf⟩ := verify_inv h4'
  obtain ⟨m1, m1', hm1, hl1, rfl, rfl⟩ := take_inv v3 h4''
  have v3a : View s4 (m1 ++ m1') := hm1 ▸ v3
  rw [(View.cut v3a).rem] at hf
  obtain ⟨s6, e6, h6, hr3⟩ := bind_inv hr2
  obtain ⟨es6, s7, h6'⟩ := peek_inv h6
  subst es6
  obtain ⟨h6'', hl⟩ := verify_inv h6'
  obtain ⟨m2, m2', hm2, hl2, rfl, rfl⟩ := takeEnd_inv v3 h6''
  have v3b : View s6 (m2 ++ m2') := hm2 ▸ v3
  rw [(View.adv v3b).rem] at hl
  obtain ⟨b1, m', rfl, hb1, hm'⟩ := while_exists isSpace m
  obtain ⟨mid, b2, rfl, hb2, hmid⟩ := trail_exists isSpace m'
  rw [bind_ok (trim_run v3 hb1 hb2 hm' hmid)] at hr3
  obtain ⟨y, hy, -⟩ := map_inv hr3
  have hne : mid ≠ [] := by
    rintro rfl
    refine hcont b1 (b2 ++ q ++ ws) (AllBlank.iff.2 hb1) (by simp) s' y ?_
    rw [hS] at hy
    exact hy
  refine ⟨b1, mid, b2, ws, by simp [hqe], AllBlank.iff.2 hb1, AllBlank.iff.2 hb2,
    AllBlank.iff.2 hws, hne, ?_, ?_, ?_, hmid⟩
  · obtain ⟨c, rfl⟩ : ∃ c, m1 = [c] := List.length_eq_one_iff.1 hl1
    have : (b1 ++ (mid ++ b2)).head? = (b1 ++ mid).head? := by
      rw [← List.append_assoc]
      cases hb : b1 ++ mid with
      | nil => simp at hb; exact absurd hb.2 hne
      | cons _ _ => rfl
    rw [← this, hm1]
    simpa using hf
  · obtain ⟨c, rfl⟩ : ∃ c, m2' = [c] := List.length_eq_one_iff.1 hl2
    have : (b1 ++ (mid ++ b2)).getLast? = (mid ++ b2).getLast? := by
      rw [List.getLast?_append]
      cases hb : (mid ++ b2).getLast? with
      | none => rw [List.getLast?_eq_none_iff] at hb; simp at hb; exact absurd hb.1 hne
      | some _ => rfl
    rw [← this, hm2]
    simpa using hl
  · intro x hx
    apply hm' x
    cases mid with
    | nil => cases hx
    | cons _ _ => exact hx

theorem headerTail_eq' (env : Env) (n : Nat) :
    headerTail env n = mapParser takeUntilEol (headerBody env n) := headerTail_eq env n

/-- An inline container is never empty. -/
theorem inlineContainer_ne {m : Span} (hm : C.In (k + 1) m) (he : m.start = m.stop) (s' : Span)
    (x : Located Inlines) : inlineContainer C.env m ≠ .ok s' x := by
  intro h
  have := ok_of_run (inlineContainer_ok hm) h
  have h1 := this.1.lt
  have h2 := this.1.good.step.hi
  omega

theorem View.B_after (hi : C.In k s) (h : View s (w ++ r))
    (hw : ∀ x, w.getLast? = some x → x < 128) : C.B (s.start + w.length) := by
  cases hl : w.getLast? with
  | none =>
    rw [List.getLast?_eq_none_iff.1 hl]
    exact hi.bs
  | some x =>
    obtain ⟨w', rfl⟩ := List.getLast?_eq_some_iff.1 hl
    have : C.inner[s.start + w'.length]? = some x := by
      have h1 := (hi.wf.rem_some (i := w'.length) (b := x)).1 (by rw [h.rem]; simp)
      exact h1.2
    have := Ctx.B_succ this (hw x hl)
    simpa [Nat.add_assoc] using this

theorem View.B_before (hi : C.In k s) (h : View s (w ++ r))
    (hr : ∀ x, r.head? = some x → x < 128) : C.B (s.start + w.length) := by
  cases r with
  | nil =>
    have := h.len
    simp at this
    rw [this]
    exact hi.be
  | cons x r =>
    have : C.inner[s.start + w.length]? = some x := by
      have h1 := (hi.wf.rem_some (i := w.length) (b := x)).1 (by rw [h.rem]; simp)
      exact h1.2
    exact Ctx.B_of_lt this (hr x rfl)

theorem View.in_adv (hi : C.In k s) (h : View s (w ++ r))
    (hb : C.B (s.start + w.length)) : C.In k (Vw.adv s w.length) := by
  have := h.len
  simp at this
  exact hi.good ⟨⟨rfl, rfl, rfl, by simp, by simp; omega⟩, hb⟩

theorem View.in_cut (hi : C.In k s) (h : View s (w ++ r))
    (hb : C.B (s.start + w.length)) : C.In k (Vw.cut s w.length) := by
  have := h.len
  simp at this
  exact hi.sub ⟨rfl, rfl, by simp, by simp, by simp; omega⟩ hi.bs hb

theorem EolHere.lineSplit (he : EolHere r) (hw : 10 ∉ w) (hl : w.getLast? ≠ some 13) :
    LineSplit w r := by
  refine ⟨hw, ?_⟩
  rcases he with h | ⟨t, h⟩ | h
  · exact .inl h
  · exact .inr (.inl ⟨t, h, hl⟩)
  · exact .inr (.inr h)

theorem LineSplit.eol (h : LineSplit w r) : EolHere r := by
  rcases h.2 with h | ⟨t, h, _⟩ | h
  · exact .inl h
  · exact .inr (.inl ⟨t, h⟩)
  · exact .inr (.inr h)

theorem header_run_at (env : Env) {n : Nat} {c : Bool} {ws b1 mid b2 ws' r : Str} (hb : AtBol s)
    (h : View s (ws ++ (List.replicate n c!"=" ++ (b1 ++ mid ++ b2 ++ List.replicate n c!"=" ++ ws' ++ r))))
    (hn : 1 ≤ n ∧ n ≤ 6) (hws : AllBlank ws) (hb1 : AllBlank b1) (hb2 : AllBlank b2) (hws' : AllBlank ws')
    (he : EolHere r) (hc : c ↔ ws ≠ []) (hh1 : (b1 ++ mid).head? ≠ some c!"=")
    (hh2 : (mid ++ b2).getLast? ≠ some c!"=") (hne : mid ≠ []) (hnl : 10 ∉ mid)
    (hm1 : ∀ x, mid.head? = some x → ¬ (x = 32 ∨ x = 9))
    (hm2 : ∀ x, mid.getLast? = some x → ¬ (x = 32 ∨ x = 9)) :
    View (cut (adv s (ws.length + n + b1.length)) mid.length) mid ∧
      match inlineContainer env (cut (adv s (ws.length + n + b1.length)) mid.length) with
      | .ok _ x => ∃ N, N = lineLen (ws ++ (List.replicate n c!"=" ++ (b1 ++ mid ++ b2 ++ List.replicate n c!"=" ++ ws' ++ r))) ∧
          header env s = .ok (adv s N) ⟨.header x.inner n c, ⟨s.start, N, s.depth⟩⟩
      | .err => header env s = .err
      | .panic r => header env s = .panic r
      | .diverge => header env s = .diverge := by
  have v0 := h
  have v1 := View.adv h
  have v1' := View.cut h
  have v2 := View.adv v1
  rw [List.length_replicate] at v2
  have hrh : (b1 ++ mid ++ b2 ++ List.replicate n c!"=" ++ ws' ++ r).head? ≠ some c!"=" := by
    cases hbm : b1 ++ mid with
    | nil => simp at hbm; exact absurd hbm.2 hne
    | cons x y => rw [hbm] at hh1; simpa using hh1
  have t0 := space0_run h (AllBlank.iff.1 hws) (by
    intro x hx
    obtain ⟨m, rfl⟩ : ∃ m, n = m + 1 := ⟨n - 1, by omega⟩
    rw [List.replicate_succ] at hx
    cases hx; rfl)
  have t1 := takeLineWhile1_run (c := c!"=") (by decide) hrh v1
  rw [if_neg (by omega)] at t1
  have hls : LineSplit (b1 ++ mid ++ b2 ++ List.replicate n c!"=" ++ ws') r := by
    refine he.lineSplit ?_ ?_
    · have := mem_blank_ne (c := 10) hb1 (by decide)
      have := mem_blank_ne (c := 10) hb2 (by decide)
      have := mem_blank_ne (c := 10) hws' (by decide)
      simp_all [List.mem_replicate]
    · rw [List.getLast?_append]
      cases hw : ws'.getLast? with
      | some x =>
        have := hws' x (List.mem_of_getLast? hw)
        rcases this with rfl | rfl <;> simp
      | none =>
        obtain ⟨m, rfl⟩ : ∃ m, n = m + 1 := ⟨n - 1, by omega⟩
        rw [List.replicate_succ', ← List.append_assoc, List.getLast?_concat]
        simp
  have t2 := takeUntilEol_run v2 hls
  obtain ⟨v4, t3⟩ := headerBody_run env hn.1 (View.cut v2) hb1 hb2 hws' hne hh1 hh2
    (fun x hx => isSpace_false.2 (hm1 x hx)) (fun x hx => isSpace_false.2 (hm2 x hx))
  obtain ⟨m, hm, hml, -, -, hm2'⟩ := eol_run (View.adv v2) he
  have hcc : (!(cut s ws.length).isEmpty) = c := by
    rw [v1'.isEmpty]
    cases c <;> cases ws <;> simp_all
  have pre : (P.bind beginningOfLine fun _ =>
      P.bind (P.map space0 (fun s => !s.isEmpty)) fun centered =>
      P.bind (verify (P.map (takeLineWhile1 (char c!"=")) Span.remainingLen)
        (fun level => decide (1 ≤ level) && decide (level ≤ 6))) fun level =>
      P.bind (headerTail env level) fun content =>
      P.bind endOfLineOrInput fun _ =>
      P.pure (Block.header content level centered)) s =
      (P.bind (headerTail env n) fun content =>
      P.bind endOfLineOrInput fun _ =>
      P.pure (Block.header content n c)) (adv (adv s ws.length) n) := by
    rw [bind_ok (bol_run hb), bind_ok (map_ok t0), hcc]
    have t1' := map_ok (f := Span.remainingLen) t1
    have hlen := (View.cut v1).remLen
    rw [List.length_replicate] at hlen
    rw [hlen] at t1'
    rw [bind_ok (s' := adv (adv s ws.length) n) (a := n)]
    rw [verify_ok t1', if_pos (by simp; omega)]
  have ha : ∀ L, cut (adv (cut (adv (adv s ws.length) n) L) b1.length) mid.length =
      cut (adv s (ws.length + n + b1.length)) mid.length := by
    intro L; simp [cut, adv, Nat.add_assoc]
  rw [ha] at t3 v4
  refine ⟨v4, ?_⟩
  have tail : headerTail env n (adv (adv s ws.length) n) =
      match P.map (inlineContainer env) (·.inner)
        (cut (adv s (ws.length + n + b1.length)) mid.length) with
      | .ok _ b => .ok (adv (adv (adv s ws.length) n)
          (b1 ++ mid ++ b2 ++ List.replicate n c!"=" ++ ws').length) b
      | .err => .err
      | .panic r => .panic r
      | .diverge => .diverge := by
    rw [headerTail_eq']
    unfold mapParser
    rw [t2]
    simp only [t3]
    cases P.map (inlineContainer env) (·.inner)
      (cut (adv s (ws.length + n + b1.length)) mid.length) <;> rfl
  unfold P.map at tail
  unfold header
  cases hc2 : inlineContainer env (cut (adv s (ws.length + n + b1.length)) mid.length) with
  | ok s2 x =>
    rw [hc2] at tail
    simp only at tail ⊢
    refine ⟨ws.length + n + (b1 ++ mid ++ b2 ++ List.replicate n c!"=" ++ ws').length + m, ?_, ?_⟩
    · have e : ws ++ (List.replicate n c!"=" ++ (b1 ++ mid ++ b2 ++ List.replicate n c!"=" ++ ws' ++ r)) =
          (ws ++ List.replicate n c!"=" ++ (b1 ++ mid ++ b2 ++ List.replicate n c!"=" ++ ws')) ++ r := by
        simp
      rw [e, lineLen_append, hm2']
      · simp; omega
      · have := mem_blank_ne (c := 10) hws (by decide)
        have := mem_blank_ne (c := 10) hb1 (by decide)
        have := mem_blank_ne (c := 10) hb2 (by decide)
        have := mem_blank_ne (c := 10) hws' (by decide)
        simp_all [List.mem_replicate]
    refine located_run h ?_ ?_
    · simp at hml ⊢; omega
    rw [pre, bind_ok tail, bind_ok hm]
    simp [P.pure, Nat.add_assoc]
  | err =>
    rw [hc2] at tail
    exact located_er (by rw [pre, bind_er tail])
  | panic r =>
    rw [hc2] at tail
    exact located_pn (by rw [pre, bind_pn tail])
  | diverge =>
    rw [hc2] at tail
    exact located_dv (by rw [pre, bind_dv tail])

theorem header_run (env : Env) {n : Nat} {c : Bool} {mid : Str} (hb : AtBol s) (h : View s t)
    (hf : HeaderForm t n c mid) :
    ∃ A B, t = A ++ (mid ++ B) ∧ (∀ x ∈ A, x < 128) ∧ (∀ x, B.head? = some x → x < 128) ∧
      View (cut (adv s A.length) mid.length) mid ∧
      match inlineContainer env (cut (adv s A.length) mid.length) with
      | .ok _ x => ∃ N, N = lineLen t ∧
          header env s = .ok (adv s N) ⟨.header x.inner n c, ⟨s.start, N, s.depth⟩⟩
      | .err => header env s = .err
      | .panic r => header env s = .panic r
      | .diverge => header env s = .diverge := by
  obtain ⟨hn, ⟨ws, b1, b2, ws', r, rfl, hws, hb1, hb2, hws', he, hc, hh1, hh2⟩, hne, hnl, hm1, hm2⟩ := hf
  have hA : (ws ++ List.replicate n c!"=" ++ b1).length = ws.length + n + b1.length := by
    simp [Nat.add_assoc]
  have hblank : ∀ w : Str, AllBlank w → ∀ x ∈ w, x < 128 := by
    intro w hw x hx
    rcases hw x hx with rfl | rfl <;> decide
  refine ⟨ws ++ List.replicate n c!"=" ++ b1, b2 ++ List.replicate n c!"=" ++ ws' ++ r, by simp,
    ?_, ?_, ?_⟩
  · intro x hx
    simp only [List.mem_append, List.mem_replicate] at hx
    rcases hx with (hx | hx) | hx
    · exact hblank _ hws x hx
    · rw [hx.2]; decide
    · exact hblank _ hb1 x hx
  · intro x hx
    obtain ⟨m, rfl⟩ : ∃ m, n = m + 1 := ⟨n - 1, by omega⟩
    cases b2 with
    | nil => simp [List.replicate_succ] at hx; rw [← hx]; decide
    | cons y b2 => simp at hx; rw [← hx]; exact hblank _ hb2 y (by simp)
  rw [hA]
  exact header_run_at env hb h hn hws hb1 hb2 hws' he hc hh1 hh2 hne hnl hm1 hm2

theorem header_inv {s' : Span} {x : Located Block} (hi : C.In (k + 1) s) (h : View s t)
    (hd : header C.env s = .ok s' x) :
    ∃ n c mid xs, HeaderForm t n c mid ∧ x.inner = .header xs n c := by
  unfold header at hd
  obtain ⟨hd, -⟩ := located_inv hd
  obtain ⟨s1, _, h1, hd⟩ := bind_inv hd
  unfold beginningOfLine at h1
  split at h1
  rotate_left
  · cases h1
  cases h1
  obtain ⟨s2, c, h2, hd⟩ := bind_inv hd
  obtain ⟨o, h2, hc⟩ := map_inv h2
  obtain ⟨ws, r1, rfl, hws, hr1⟩ := while_exists isSpace t
  rw [space0_run h hws hr1] at h2
  cases h2
  have v1 := View.adv h
  rw [(View.cut h).isEmpty] at hc
  obtain ⟨s3, n, h3, hd⟩ := bind_inv hd
  obtain ⟨h3, hn⟩ := verify_inv h3
  obtain ⟨o, h3, hno⟩ := map_inv h3
  obtain ⟨n', r2, rfl, hr2⟩ := run_exists c!"=" r1
  rw [takeLineWhile1_run (by decide) hr2 v1] at h3
  split at h3
  · cases h3
  cases h3
  have vc := (View.cut v1).remLen
  rw [List.length_replicate] at vc
  rw [vc] at hno
  subst hno
  have v2 := View.adv v1
  rw [List.length_replicate] at v2
  obtain ⟨s4, xs, h4, hd⟩ := bind_inv hd
  rw [headerTail_eq'] at h4
  obtain ⟨o, s5, h4, h5⟩ := mapParser_inv h4
  obtain ⟨w, r, rfl, hls⟩ := lineSplit_exists r2
  rw [takeUntilEol_run v2 hls] at h4
  cases h4
  have hascii : ∀ x ∈ ws, x < 128 := fun x hx => by
    rcases isSpace_iff.1 (hws x hx) with rfl | rfl <;> decide
  have i1 := View.in_adv hi h (View.B_after hi h fun x hx => hascii x (List.mem_of_getLast? hx))
  have i2 := View.in_adv i1 v1 (View.B_after i1 v1 fun x hx => by
    have := List.mem_of_getLast? hx
    simp only [List.mem_replicate] at this
    rw [this.2]; decide)
  rw [List.length_replicate] at i2
  obtain ⟨b1, mid, b2, ws', rfl, hb1, hb2, hws', hne, hf, hl, hm1, hm2⟩ :=
    headerBody_inv (View.cut v2) h5 (by
      intro b1 y hb1 hy s' x
      have hy' : w = b1 ++ y := hy
      subst hy'
      have i3 : C.In (k + 1) (adv (adv (adv s ws.length) n) b1.length) := by
        refine View.in_adv i2 (r := y ++ r) (by simpa using v2) (View.B_after i2 (r := y ++ r)
          (by simpa using v2) fun x hx => ?_)
        rcases hb1 x (List.mem_of_getLast? hx) with rfl | rfl <;> decide
      refine inlineContainer_ne (C := C) (k := k) ?_ rfl s' x
      have v3 : View (adv (adv (adv s ws.length) n) b1.length) ([] ++ (y ++ r)) :=
        View.adv (by simpa using v2)
      exact View.in_cut i3 v3 (by simpa using i3.bs))
  have hx : x.inner = .header xs n c := by
    obtain ⟨s6, _, _, hd⟩ := bind_inv hd
    exact (Res.ok.inj hd).2.symm
  refine ⟨n, c, mid, xs, ⟨by simpa using hn, ⟨ws, b1, b2, ws', r, rfl, AllBlank.iff.2 hws, hb1, hb2,
    hws', hls.eol, ?_, hf, hl⟩, hne, ?_, fun x hx => isSpace_false.1 (hm1 x hx),
    fun x hx => isSpace_false.1 (hm2 x hx)⟩, hx⟩
  · rw [hc]; cases ws <;> simp
  · have := hls.1
    simp at this
    exact this.2.1

end Vw
