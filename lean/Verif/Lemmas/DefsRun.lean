import Verif.Lemmas.QuoteRun

/-!
# Definition lists are read back
-/

namespace Vw
open P Scan Fm

variable {env : Env} {ue : Uri → Uri → Bool} {L : OutLib} {cfg : VwCfg} {s s' : Span} {t w r ws : Str} {k : Nat}

/-! ## Text -/

theorem bol_last {c : Str} (h : c.getLast? = some 10) : bol c = true := by
  unfold bol; rw [h]; simp

theorem getLast?_nl (c : Str) : (c ++ b!"\n").getLast? = some 10 := by simp

theorem defLines_last {ind : Str} : ∀ (ds : List (Located Inlines)), ds ≠ [] →
    (defLines L cfg ind ds).getLast? = some 10 := by
  intro ds
  induction ds with
  | nil => intro h; exact absurd rfl h
  | cons d ds ih =>
    intro _
    cases ds with
    | nil =>
      rw [defLines, List.getLast?_append, List.getLast?_append, List.getLast?_append]
      rfl
    | cons d' ds =>
      rw [defLines, List.getLast?_append, List.getLast?_append, List.getLast?_append, List.getLast?_cons, ih (by simp)]
      rfl

theorem defs_lines_text {i : Nat} :
    ∀ (ds : List (Located Inlines)) (c : Str), (∀ d ∈ ds, Tight (Inline.textAll L cfg d.inner)) → Whole c → bol c = true →
      defsFmt L cfg false ds ⟨c, i, false⟩ = ⟨c ++ defLines L cfg (indentText cfg i) ds, i, false⟩ := by
  intro ds
  induction ds with
  | nil => intro c _ _ _; simp [defsFmt, defLines]
  | cons d ds ih =>
    intro c ht hc hb
    obtain ⟨d, q⟩ := d
    unfold defsFmt
    simp only [Bool.false_and, Bool.false_eq_true, if_false]
    rw [writeIndent_eq, write_eq, andTrimIf_tight _ (writes_inlines L cfg d) (ht _ List.mem_cons_self)
      (Whole.of_last (b := 32) (by decide) (by simp)), write_eq, ih _ (fun x hx => ht x (by simp [hx])) Whole.nl
      (bol_last (getLast?_nl _))]
    simp [defLines, indentAt, hb]

theorem defs_text {i : Nat} (hI : AllBlank (indentText cfg i)) :
    ∀ (xs : List (Located TermDefs)) (c : Str), (∀ x ∈ xs, Tight (Inline.textAll L cfg x.inner.term.inner) ∧
        x.inner.defs.inner ≠ [] ∧ ∀ d ∈ x.inner.defs.inner, Tight (Inline.textAll L cfg d.inner)) → Whole c →
      defListFmt L cfg xs ⟨c, i, false⟩ = ⟨c ++ defsText L cfg (indentText cfg i) (bol c) xs, i, false⟩ := by
  intro xs
  induction xs with
  | nil => intro c _ _; simp [defListFmt, defsText]
  | cons x xs ih =>
    intro c ht hc
    have ih' : ∀ c : Str, c.getLast? = some 10 →
        defListFmt L cfg xs ⟨c, i, false⟩ = ⟨c ++ defsText L cfg (indentText cfg i) true xs, i, false⟩ := by
      intro c hc
      rw [ih c (fun x hx => ht x (by simp [hx])) (Whole.of_last (b := 10) (by decide) hc), bol_last hc]
    obtain ⟨⟨term, ds⟩, q⟩ := x
    obtain ⟨h1, h2, h3⟩ := ht _ List.mem_cons_self
    simp only at h1 h2 h3
    have hind : AllBlank (indentAt cfg i (bol c)) := by
      unfold indentAt
      split
      · exact hI
      · intro x hx; simp at hx
    unfold defListFmt
    rw [writeIndent_eq, andTrimIf_tight _ (writes_inlines L cfg term.inner) h1 (hc.blank hind), write_eq, writeIf_eq]
    cases hds : ds.inner with
    | nil => exact absurd hds h2
    | cons d rest =>
      rw [hds] at h3
      cases ha : cfg.termAlone with
      | true =>
        simp only [Bool.true_or, if_true]
        have e : ∀ f, defsFmt L cfg true (d :: rest) f = defsFmt L cfg false (d :: rest) f := by
          intro f; obtain ⟨d, q⟩ := d; simp [defsFmt, ha]
        rw [e, defs_lines_text _ _ h3 Whole.nl (bol_last (getLast?_nl _))]
        have hl := defLines_last (L := L) (cfg := cfg) (ind := indentText cfg i) (d :: rest) (by simp)
        rw [ih' _ (by rw [List.getLast?_append, hl]; rfl)]
        simp [defsText, ha, hds, indentAt]
      | false =>
        obtain ⟨d, q'⟩ := d
        simp only [List.isEmpty_cons, Bool.or_false, Bool.false_eq_true, if_false, List.append_nil]
        unfold defsFmt
        simp only [ha, Bool.not_false, Bool.and_self, if_true]
        rw [write_eq, andTrimIf_tight _ (writes_inlines L cfg d) (h3 _ List.mem_cons_self)
          (Whole.of_last (b := 32) (by decide) (by simp)), write_eq,
          defs_lines_text _ _ (fun x hx => h3 x (by simp [hx])) Whole.nl
            (bol_last (getLast?_nl _))]
        have hl : ∀ z : Str, (z ++ b!"\n" ++ defLines L cfg (indentText cfg i) rest).getLast? = some 10 := by
          intro z
          cases rest with
          | nil => simp [defLines]
          | cons d' rest =>
            rw [List.getLast?_append, defLines_last (L := L) (cfg := cfg) _ (by simp)]
            rfl
        rw [ih' _ (hl _)]
        simp [defsText, ha, hds, indentAt]

/-! ## Reading -/

theorem each_vecEqR {α} {q : α → α → Bool} : ∀ {ls ys : List α},
    Each (ls.map fun l y => q y l = true) ys → vecEq q ys ls = true := by
  intro ls
  induction ls with
  | nil => intro ys h; cases h; rfl
  | cons l ls ih =>
    intro ys h
    cases h with
    | cons h1 h2 => simp [vecEq, h1, ih h2]

theorem tight_line (h : Tight t) (h10 : 10 ∉ t) : LineSplit t (10 :: r) :=
  ⟨h10, .inr (.inl ⟨r, rfl, fun e => by have := h.last 13 e; omega⟩)⟩

theorem tight_head_space {x : Byte} (h : Tight t) (hx : (t ++ r).head? = some x) : isSpace x = false := by
  cases t with
  | nil => exact absurd rfl h.1
  | cons c t =>
    have := h.head c rfl
    simp at hx
    subst hx
    exact isSpace_false.2 (by omega)

/-- Contents up to the end of the line. -/
theorem content_gives {xs : Inlines} (hs : env.SchemeSound) (h : View s (Inline.textAll L cfg xs ++ 10 :: r))
    (hw : lastWord s.asConsumed = []) (hc : ContentOk env ue L cfg [] xs) (h10 : 10 ∉ Inline.textAll L cfg xs)
    (hn : s.depth + 1 + Inline.nestAll xs ≤ 65535) :
    Gives (mapParser takeUntilEol (P.map (inlineContainer env) (·.inner)) s) (adv s (Inline.textAll L cfg xs).length)
      fun y => Inline.eqvs false ue y xs = true := by
  have hc1 : View (cut s (Inline.textAll L cfg xs).length) (Inline.textAll L cfg xs ++ []) := by simpa using View.cut h
  obtain ⟨ys, hy, hq⟩ := inlines_run hs (.inl rfl) hc1 hc.ne (by
    rw [show (cut s (Inline.textAll L cfg xs).length).asConsumed = s.asConsumed from rfl, hw]; exact hc.ok) hn
  exact Gives.mapParser (takeUntilEol_run h (tight_line hc.tight h10))
    (Gives.of_ok (Q := fun y => Inline.eqvs false ue y xs = true) (map_ok hy) hq)

theorem term_take (h : View s (t ++ (b!"::" ++ r))) (hne : t ≠ []) (ht : TermText t) :
    takeLineUntil1 b!"::" s = .ok (adv s t.length) (cut s t.length) := by
  obtain ⟨w, q, e, hr, hsr⟩ := takeLineUntil_view (pat := b!"::") ⟨by decide, by decide, _, _, rfl, by decide⟩ h
  have hl : w.length = t.length := by
    have hsr : ScanRes [b!"::"] (t ++ (b!"::" ++ r)) w.length := e ▸ hsr
    refine hsr.unique ht.line (.inr (by simp)) ?_ (.inr (.inr ⟨_, by simp, r, rfl⟩))
    intro p hp i hi hat
    simp at hp
    subst hp
    refine ht.first ?_
    have h1 : t = t.take i ++ t.drop i := (List.take_append_drop i t).symm
    obtain ⟨a, q, hd⟩ : ∃ a q, t.drop i = a :: q := by
      cases hd : t.drop i with
      | nil => rw [List.drop_eq_nil_iff] at hd; omega
      | cons a q => exact ⟨a, q, rfl⟩
    unfold At at hat
    rw [List.drop_append_of_le_length (by omega), hd] at hat
    refine ⟨t.take i, (q ++ b!":").drop 1, ?_⟩
    generalize t.take i = u at h1 ⊢
    rw [hd] at h1
    subst h1
    cases q with
    | nil => simp at hat ⊢; exact hat.symm
    | cons b q => simp at hat ⊢; exact ⟨hat.1.symm, hat.2.symm⟩
  rw [hl] at hr
  unfold takeLineUntil1
  rw [verify_ok hr, (View.cut h).isEmpty, if_pos (by simpa using hne)]

theorem term_gives {xs : Inlines} (hs : env.SchemeSound) (h : View s (Inline.textAll L cfg xs ++ (b!"::" ++ r)))
    (hw : lastWord s.asConsumed = []) (hc : ContentOk env ue L cfg [] xs) (ht : TermText (Inline.textAll L cfg xs))
    (hn : s.depth + 1 + Inline.nestAll xs ≤ 65535) :
    Gives (located (terminated
      (mapParser
        (verify (takeLineUntil1 b!"::")
          (fun s => !(b!"%%").isPrefixOf s.trimStart.asRemaining))
        (P.map (inlineContainer env) (·.inner)))
      (tag b!"::")) s) (adv s ((Inline.textAll L cfg xs).length + 2))
      fun y => Inline.eqvs false ue y.inner xs = true := by
  have hc1 : View (cut s (Inline.textAll L cfg xs).length) (Inline.textAll L cfg xs ++ []) := by simpa using View.cut h
  obtain ⟨ys, hy, hq⟩ := inlines_run hs (.inl rfl) hc1 hc.ne (by
    rw [show (cut s (Inline.textAll L cfg xs).length).asConsumed = s.asConsumed from rfl, hw]; exact hc.ok) hn
  have hv : verify (takeLineUntil1 b!"::") (fun s => !(b!"%%").isPrefixOf s.trimStart.asRemaining) s =
      .ok (adv s (Inline.textAll L cfg xs).length) (cut s (Inline.textAll L cfg xs).length) := by
    rw [verify_ok (term_take h hc.tight.1 ht), if_pos]
    have hcv := View.cut h
    have e0 : ((cut s (Inline.textAll L cfg xs).length).asRemaining.takeWhile isAsciiWs).length = 0 := by
      rw [hcv.rem]
      cases hx : Inline.textAll L cfg xs with
      | nil => rfl
      | cons c q =>
        have := hc.tight.head c (by rw [hx]; rfl)
        rw [List.takeWhile_cons_of_neg]
        · rfl
        · simp only [isAsciiWs, Bool.or_eq_true, beq_iff_eq]; omega
    unfold Span.trimStart
    rw [e0]
    have : (cut s (Inline.textAll L cfg xs).length).advanceStartBy 0 = cut s (Inline.textAll L cfg xs).length := by
      have := hcv.le
      simp only [Span.advanceStartBy, Nat.add_zero]
      rw [if_neg (by omega)]
    rw [this, hcv.rem]
    have := ht.comment
    rw [← List.isPrefixOf_iff_prefix] at this
    rw [Bool.not_eq_true] at this
    rw [this]; rfl
  refine Gives.located (Q := fun y => Inline.eqvs false ue y xs = true) ?_
  unfold terminated
  refine Gives.bind (Q := fun y => Inline.eqvs false ue y xs = true) (Gives.mapParser hv
    (Gives.of_ok (Q := fun y => Inline.eqvs false ue y xs = true) (map_ok hy) hq)) fun y hy => ?_
  rw [bind_ok (tag_run (View.adv h)), adv_adv]
  exact Gives.pure hy

theorem definitionLine_gives {xs : Inlines} (hs : env.SchemeSound) (hws : AllBlank ws)
    (h : View s (ws ++ (b!":: " ++ (Inline.textAll L cfg xs ++ 10 :: r)))) (hc : ContentOk env ue L cfg [] xs)
    (h10 : 10 ∉ Inline.textAll L cfg xs) (hn : s.depth + 1 + Inline.nestAll xs ≤ 65535) :
    Gives (definitionLine env s) (adv s (ws.length + 3 + (Inline.textAll L cfg xs).length + 1))
      fun y => Inline.eqvs false ue y.inner xs = true := by
  have v1 := View.adv h
  have v1' : View (adv s ws.length) (b!"::" ++ (b!" " ++ (Inline.textAll L cfg xs ++ 10 :: r))) := v1
  have v2 := View.adv v1'
  have v3 := View.adv v2
  have v4 := View.adv v3
  refine Gives.located (Q := fun y => Inline.eqvs false ue y xs = true) ?_
  rw [bind_ok (space0_run h (AllBlank.iff.1 hws) (by intro x hx; simp at hx; subst hx; rfl)), bind_ok (tag_run v1'),
    bind_ok (space1_run v2 (by simp) (by intro x hx; simp at hx; subst hx; rfl) (fun x hx => tight_head_space hc.tight hx))]
  refine Gives.bind (content_gives hs v3 ?_ hc h10 hn) fun y hy => ?_
  · have := v2.consumed
    rw [this]
    exact lastWord_nil_of_ws (by decide)
  · rw [bind_ok (eol_nl v4)]
    simp only [adv_adv]
    exact Gives.at (Gives.pure hy) (by congr 1)

theorem definitionLine_begins {y : Located Inlines} (h : View s t) (h1 : definitionLine env s = .ok s' y) :
    Begins t b!"::" := by
  obtain ⟨h1, -⟩ := located_inv h1
  obtain ⟨s2, b, h2, h1⟩ := bind_inv h1
  obtain ⟨ws, r, rfl, hws, -, rfl, -⟩ := space0_inv h h2
  obtain ⟨s3, c, h3, -⟩ := bind_inv h1
  obtain ⟨r', rfl, -⟩ := tag_inv (View.adv h) h3
  exact ⟨ws, r', rfl, hws⟩

theorem definitions_many {ind : Str} (hs : env.SchemeSound) (hi : AllBlank ind) :
    ∀ (ds : List (Located Inlines)) (s : Span), View s (defLines L cfg ind ds ++ r) →
      (∀ d ∈ ds, ContentOk env ue L cfg [] d.inner ∧ 10 ∉ Inline.textAll L cfg d.inner ∧
        s.depth + 1 + Inline.nestAll d.inner ≤ 65535) →
      ¬ Begins r b!"::" →
      Many (definitionLine env) s (ds.map fun d y => locEq false (Inline.eqvs false ue) y d = true)
        (adv s (defLines L cfg ind ds).length) := by
  intro ds
  induction ds with
  | nil =>
    intro s hv _ hr
    exact .nil (.of_inv fun s' y e => hr (definitionLine_begins (by simpa [defLines] using hv) e))
  | cons d ds ih =>
    intro s hv hok hr
    obtain ⟨h1, h2, h3⟩ := hok d (by simp)
    have hv' : View s (ind ++ (b!":: " ++ (Inline.textAll L cfg d.inner ++ 10 :: (defLines L cfg ind ds ++ r)))) := by
      simpa [defLines] using hv
    have v2 : View s ((ind ++ b!":: " ++ Inline.textAll L cfg d.inner ++ [10]) ++ (defLines L cfg ind ds ++ r)) := by
      simpa [defLines] using hv
    have el : (ind ++ b!":: " ++ Inline.textAll L cfg d.inner ++ [10]).length =
        ind.length + 3 + (Inline.textAll L cfg d.inner).length + 1 := by simp; omega
    have em : (defLines L cfg ind (d :: ds)).length =
        ind.length + 3 + (Inline.textAll L cfg d.inner).length + 1 + (defLines L cfg ind ds).length := by
      simp [defLines]; omega
    rw [em, ← adv_adv]
    refine .cons ((definitionLine_gives hs hi hv' h1 h2 h3).mono fun y hy => by simpa [locEq] using hy) (by omega) ?_
    have v3 := View.adv v2
    rw [el] at v3
    exact ih _ v3 (fun d' h' => hok d' (by simp [h'])) hr

/-- The text of a term with its definitions, without the indentation. -/
def entryText (L : OutLib) (cfg : VwCfg) (ind : Str) (x : TermDefs) : Str :=
  Inline.textAll L cfg x.term.inner ++ (b!"::" ++
    (if cfg.termAlone then 10 :: defLines L cfg ind x.defs.inner else
      match x.defs.inner with
      | [] => []
      | d :: ds => b!" " ++ (Inline.textAll L cfg d.inner ++ 10 :: defLines L cfg ind ds)))

theorem defsText_cons (ind : Str) (b : Bool) (x : Located TermDefs) (xs : List (Located TermDefs)) :
    defsText L cfg ind b (x :: xs) =
      (if b then ind else []) ++ (entryText L cfg ind x.inner ++ defsText L cfg ind true xs) := by
  rw [defsText, entryText]
  cases x.inner.defs.inner <;> simp

/-- One term that can be written at depth `d`. -/
def EntryOk (env : Env) (ue : Uri → Uri → Bool) (L : OutLib) (cfg : VwCfg) (d : Nat) (x : TermDefs) : Prop :=
  ContentOk env ue L cfg [] x.term.inner ∧ TermText (Inline.textAll L cfg x.term.inner) ∧
    d + 2 + Inline.nestAll x.term.inner ≤ 65535 ∧ x.defs.inner ≠ [] ∧
    ∀ y ∈ x.defs.inner, ContentOk env ue L cfg [] y.inner ∧ 10 ∉ Inline.textAll L cfg y.inner ∧
      d + 2 + Inline.nestAll y.inner ≤ 65535

theorem space1_er (h : View s r) (hr : ∀ x, r.head? = some x → isSpace x = false) : space1 s = .err := by
  unfold space1 takeWhile1
  rw [h.rem]
  cases r with
  | nil => rfl
  | cons c r => rw [List.takeWhile_cons_of_neg (by simp [hr c rfl])]; rfl

theorem termLine_alone {xs : Inlines} (hs : env.SchemeSound) (hws : AllBlank ws)
    (h : View s (ws ++ (Inline.textAll L cfg xs ++ (b!"::" ++ 10 :: r)))) (hw : lastWord s.asConsumed = [])
    (hc : ContentOk env ue L cfg [] xs) (ht : TermText (Inline.textAll L cfg xs))
    (hn : s.depth + 1 + Inline.nestAll xs ≤ 65535) :
    Gives (termLine env s) (adv s (ws.length + (Inline.textAll L cfg xs).length + 3))
      fun y => Inline.eqvs false ue y.1.inner xs = true ∧ y.2 = none := by
  have v1 := View.adv h
  have v2 := View.adv (View.adv v1)
  unfold termLine
  rw [bind_ok (space0_run h (AllBlank.iff.1 hws) (fun x hx => tight_head_space hc.tight hx))]
  refine Gives.bind (term_gives hs v1 (by rw [h.consumed, lastWord_blank hw hws]) hc ht hn) fun y hy => ?_
  simp only [adv_adv] at v2 ⊢
  have v2 : View (adv s (ws.length + ((Inline.textAll L cfg xs).length + 2))) (10 :: r) := v2
  refine Gives.bind (Gives.opt_none (Fails.located (Fails.bind (Fails.of_err
    (space1_er v2 (by intro x hx; simp at hx; subst hx; rfl)))))) fun o ho => ?_
  subst ho
  have h0 := space0_run (w := []) v2 (by simp) (by simp [isSpace])
  have hp : P.pair space0 endOfLineOrInput (adv s (ws.length + ((Inline.textAll L cfg xs).length + 2))) =
      .ok (adv s (ws.length + ((Inline.textAll L cfg xs).length + 2) + 1))
        (cut (adv s (ws.length + ((Inline.textAll L cfg xs).length + 2))) 0, ()) := by
    unfold P.pair
    rw [bind_ok h0]
    simp only [List.length_nil, adv_zero]
    rw [bind_ok (eol_nl v2), adv_adv]
    rfl
  rw [bind_ok hp]
  exact Gives.at (Gives.pure ⟨hy, rfl⟩) (by congr 1)

theorem termLine_def {xs ds : Inlines} (hs : env.SchemeSound) (hws : AllBlank ws)
    (h : View s (ws ++ (Inline.textAll L cfg xs ++ (b!"::" ++ (b!" " ++ (Inline.textAll L cfg ds ++ 10 :: r))))))
    (hw : lastWord s.asConsumed = [])
    (hc : ContentOk env ue L cfg [] xs) (ht : TermText (Inline.textAll L cfg xs))
    (hn : s.depth + 1 + Inline.nestAll xs ≤ 65535) (hd : ContentOk env ue L cfg [] ds)
    (hd10 : 10 ∉ Inline.textAll L cfg ds) (hn' : s.depth + 1 + Inline.nestAll ds ≤ 65535) :
    Gives (termLine env s) (adv s (ws.length + (Inline.textAll L cfg xs).length + 3 + (Inline.textAll L cfg ds).length + 1))
      fun y => Inline.eqvs false ue y.1.inner xs = true ∧ ∃ z, y.2 = some z ∧ Inline.eqvs false ue z.inner ds = true := by
  have v1 := View.adv h
  have v2 := View.adv (View.adv v1)
  unfold termLine
  rw [bind_ok (space0_run h (AllBlank.iff.1 hws) (fun x hx => tight_head_space hc.tight hx))]
  refine Gives.bind (term_gives hs v1 (by rw [h.consumed, lastWord_blank hw hws]) hc ht hn) fun y hy => ?_
  simp only [adv_adv] at v2 ⊢
  have v2 : View (adv s (ws.length + ((Inline.textAll L cfg xs).length + 2)))
    (b!" " ++ (Inline.textAll L cfg ds ++ 10 :: r)) := v2
  have v3 := View.adv v2
  refine Gives.bind (Gives.opt_some (Gives.located (s1 := adv (adv s (ws.length + ((Inline.textAll L cfg xs).length + 2))) (1 + (Inline.textAll L cfg ds).length))
      (Q := fun y => Inline.eqvs false ue y ds = true) ?_)) fun o ho => ?_
  · unfold preceded
    rw [bind_ok (space1_run v2 (by simp) (by intro x hx; simp at hx; subst hx; rfl) (fun x hx => tight_head_space hd.tight hx))]
    refine Gives.at (content_gives hs v3 ?_ hd hd10 hn') (by rw [adv_adv]; congr 1)
    rw [v2.consumed]
    exact lastWord_nil_of_ws (by decide)
  · obtain ⟨z, rfl, hz⟩ := ho
    have v4 := View.adv v3
    rw [adv_adv] at v4
    have v4 : View (adv (adv s (ws.length + ((Inline.textAll L cfg xs).length + 2))) (1 + (Inline.textAll L cfg ds).length)) (10 :: r) := v4
    have h0 := space0_run (w := []) v4 (by simp) (by simp [isSpace])
    have hp : P.pair space0 endOfLineOrInput (adv (adv s (ws.length + ((Inline.textAll L cfg xs).length + 2))) (1 + (Inline.textAll L cfg ds).length)) =
        .ok (adv (adv (adv s (ws.length + ((Inline.textAll L cfg xs).length + 2))) (1 + (Inline.textAll L cfg ds).length)) 1)
          (cut (adv (adv s (ws.length + ((Inline.textAll L cfg xs).length + 2))) (1 + (Inline.textAll L cfg ds).length)) 0, ()) := by
      unfold P.pair
      rw [bind_ok h0]
      simp only [List.length_nil, adv_zero]
      rw [bind_ok (eol_nl v4)]
      rfl
    rw [bind_ok hp]
    exact Gives.at (Gives.pure ⟨hy, z, rfl, hz⟩) (by simp only [adv_adv]; congr 1; omega)

theorem entry_gives {ind : Str} {x : TermDefs} {d : Nat} (hs : env.SchemeSound) (hws : AllBlank ws) (hi : AllBlank ind)
    (h : View s (ws ++ (entryText L cfg ind x ++ r))) (hw : lastWord s.asConsumed = [])
    (hd : s.depth = d + 1) (hok : EntryOk env ue L cfg d x) (hr : ¬ Begins r b!"::") :
    Gives (termAndDefinitions env s) (adv s (ws.length + (entryText L cfg ind x).length))
      fun y => TermDefs.eqv false ue (mkTermDefs y).inner x = true := by
  obtain ⟨hc, ht, hn, hne, hds⟩ := hok
  obtain ⟨term, defs⟩ := x
  simp only at hc ht hn hne hds
  unfold termAndDefinitions
  cases hi2 : defs.inner with
  | nil => exact absurd hi2 hne
  | cons d0 ds =>
    rw [hi2] at hds
    cases ha : cfg.termAlone with
    | true =>
      have hv : View s (ws ++ (Inline.textAll L cfg term.inner ++ (b!"::" ++ 10 :: (defLines L cfg ind (d0 :: ds) ++ r)))) := by
        simpa [entryText, ha, hi2] using h
      have hv2 : View s ((ws ++ Inline.textAll L cfg term.inner ++ b!"::\n") ++ (defLines L cfg ind (d0 :: ds) ++ r)) := by
        simpa using hv
      have v3 := View.adv hv2
      have el : (ws ++ Inline.textAll L cfg term.inner ++ b!"::\n").length =
        ws.length + (Inline.textAll L cfg term.inner).length + 3 := by simp; omega
      rw [el] at v3
      refine Gives.bind (termLine_alone hs hws hv hw hc ht (by rw [hd]; omega)) fun y hy => ?_
      obtain ⟨yt, yd⟩ := y
      obtain ⟨hy1, rfl⟩ := hy
      have hm := definitions_many (L := L) (cfg := cfg) (ue := ue) hs hi (d0 :: ds) _ v3 (fun z hz => by
        obtain ⟨a, b, c⟩ := hds z hz
        exact ⟨a, b, by simp [hd]; omega⟩) hr
      refine Gives.bind (Gives.located (Gives.verify hm.many0 fun ys hys => ?_)) fun b hb => ?_
      · cases hys; simp
      · refine Gives.at (Gives.pure ?_) ?_
        · have := each_vecEqR hb
          simp [mkTermDefs, TermDefs.eqv, locEq, hy1, hi2, this]
        · rw [adv_adv]
          congr 1
          simp [entryText, ha, hi2]
          omega
    | false =>
      have hv : View s (ws ++ (Inline.textAll L cfg term.inner ++ (b!"::" ++ (b!" " ++ (Inline.textAll L cfg d0.inner ++
          10 :: (defLines L cfg ind ds ++ r)))))) := by
        simpa [entryText, ha, hi2] using h
      have hv2 : View s ((ws ++ Inline.textAll L cfg term.inner ++ b!":: " ++ Inline.textAll L cfg d0.inner ++ [10]) ++
          (defLines L cfg ind ds ++ r)) := by
        simpa using hv
      have v3 := View.adv hv2
      have el : (ws ++ Inline.textAll L cfg term.inner ++ b!":: " ++ Inline.textAll L cfg d0.inner ++ [10]).length =
        ws.length + (Inline.textAll L cfg term.inner).length + 3 + (Inline.textAll L cfg d0.inner).length + 1 := by
          simp; omega
      rw [el] at v3
      have hd0 := hds d0 List.mem_cons_self
      refine Gives.bind (termLine_def hs hws hv hw hc ht (by rw [hd]; omega) hd0.1 hd0.2.1 (by rw [hd]; omega)) fun y hy => ?_
      obtain ⟨yt, yd⟩ := y
      obtain ⟨hy1, z, e, hz⟩ := hy
      simp only at hy1 e
      subst e
      have hm := definitions_many (L := L) (cfg := cfg) (ue := ue) hs hi ds _ v3 (fun z hz => by
        obtain ⟨a, b, c⟩ := hds z (by simp [hz])
        exact ⟨a, b, by simp [hd]; omega⟩) hr
      refine Gives.bind (Gives.located (Gives.verify hm.many0 fun ys hys => ?_)) fun b hb => ?_
      · simp
      · refine Gives.at (Gives.pure ?_) ?_
        · have := each_vecEqR hb
          simp [mkTermDefs, TermDefs.eqv, locEq, hy1, hi2, this, vecEq, hz]
        · rw [adv_adv]
          congr 1
          simp [entryText, ha, hi2]
          omega

theorem termAndDefinitions_fails (h : View s t) (ht : NoTermLine t) : Fails (termAndDefinitions env s) := by
  refine Fails.bind (.of_inv fun s' y e => ?_)
  obtain ⟨w, r, rfl, h10⟩ := termLine_begins h e
  exact h10 (ht w r rfl)

/-- The line does not begin with the end of a term. -/
theorem NoTermLine.begins (ht : NoTermLine t) : ¬ Begins t b!"::" := by
  rintro ⟨ws, r, rfl, hw⟩
  have := ht ws r rfl
  have := hw 10 this
  omega

theorem entry_begins {ind : Str} {x : TermDefs} {d : Nat} (hws : AllBlank ws) (hok : EntryOk env ue L cfg d x) :
    ¬ Begins (ws ++ (entryText L cfg ind x ++ r)) b!"::" := by
  intro hb
  obtain ⟨hc, ht, -⟩ := hok
  have e : entryText L cfg ind x ++ r = Inline.textAll L cfg x.term.inner ++ (entryText L cfg ind x ++ r).drop (Inline.textAll L cfg x.term.inner).length := by
    simp [entryText]
  have h1 := hb.strip hws (fun y hy => by
      rw [e] at hy
      have := tight_head_space hc.tight hy
      exact isSpace_false.1 this) (by decide) (by decide)
  refine ht.first ?_
  have e2 : ∃ q, entryText L cfg ind x ++ r = Inline.textAll L cfg x.term.inner ++ (b!":" ++ q) :=
    ⟨_, by simp [entryText]; rfl⟩
  obtain ⟨q, e2⟩ := e2
  rw [e2] at h1
  obtain ⟨q', h1⟩ := h1
  have hne := hc.tight.1
  cases hx : Inline.textAll L cfg x.term.inner with
  | nil => exact absurd hx hne
  | cons a u =>
    rw [hx] at h1
    cases u with
    | nil => simp at h1; rw [← h1.1]; exact ⟨[], [], rfl⟩
    | cons b u => simp at h1; rw [← h1.1, ← h1.2.1]; exact ⟨[], u ++ b!":", by simp⟩

theorem entries_many {ind : Str} {d : Nat} (hs : env.SchemeSound) (hi : AllBlank ind) :
    ∀ (xs : List (Located TermDefs)) (b : Bool) (s : Span), View s (defsText L cfg ind b xs ++ r) →
      lastWord s.asConsumed = [] → s.depth = d → d < 65535 → (∀ x ∈ xs, EntryOk env ue L cfg d x.inner) → NoTermLine r →
      Many (deeper (termAndDefinitions env)) s
        (xs.map fun x y => TermDefs.eqv false ue (mkTermDefs y).inner x.inner = true)
        (adv s (defsText L cfg ind b xs).length) := by
  intro xs
  induction xs with
  | nil =>
    intro b s hv _ _ _ _ hr
    exact .nil (Fails.deeper (termAndDefinitions_fails (View.withDepth (by simpa [defsText] using hv) _) hr))
  | cons x xs ih =>
    intro b s hv hw hd hlt hok hr
    have hws : AllBlank (if b then ind else []) := by
      cases b
      · intro x hx; simp at hx
      · exact hi
    rw [defsText_cons] at hv ⊢
    generalize hwe : (if b then ind else []) = ws at *
    have hv' : View s (ws ++ (entryText L cfg ind x.inner ++ (defsText L cfg ind true xs ++ r))) := by simpa using hv
    have v2 : View s ((ws ++ entryText L cfg ind x.inner) ++ (defsText L cfg ind true xs ++ r)) := by simpa using hv
    have hnb : ¬ Begins (defsText L cfg ind true xs ++ r) b!"::" := by
      cases xs with
      | nil => exact hr.begins
      | cons x' xs =>
        rw [defsText_cons]
        simp only [if_true, List.append_assoc]
        exact entry_begins hi (hok x' (by simp))
    have hlast : (ws ++ entryText L cfg ind x.inner).getLast? = some 10 := by
      obtain ⟨-, -, -, hne, -⟩ := hok x List.mem_cons_self
      unfold entryText
      cases hds : x.inner.defs.inner with
      | nil => exact absurd hds hne
      | cons d0 ds =>
        have key : ∀ z : Str, (z ++ 10 :: defLines L cfg ind ds).getLast? = some 10 := by
          intro z
          cases ds with
          | nil => simp [defLines]
          | cons d1 ds => rw [List.getLast?_append, List.getLast?_cons, defLines_last _ (by simp)]; rfl
        cases cfg.termAlone with
        | true =>
          have := key (ws ++ Inline.textAll L cfg x.inner.term.inner ++ b!"::\n" ++ ind ++ b!":: " ++ Inline.textAll L cfg d0.inner)
          simpa [defLines] using this
        | false =>
          have := key (ws ++ Inline.textAll L cfg x.inner.term.inner ++ b!":: " ++ Inline.textAll L cfg d0.inner)
          simpa using this
    have hb := AtBol.after v2 hlast
    have em : (ws ++ (entryText L cfg ind x.inner ++ defsText L cfg ind true xs)).length =
      (ws ++ entryText L cfg ind x.inner).length + (defsText L cfg ind true xs).length := by simp; omega
    rw [em, ← adv_adv]
    have hpos : 0 < (ws ++ entryText L cfg ind x.inner).length := by
      cases hz : ws ++ entryText L cfg ind x.inner with
      | nil => rw [hz] at hlast; cases hlast
      | cons a q => simp
    refine .cons ?_ hpos (ih true _ (View.adv v2) hb.lastWord (by simpa using hd) hlt (fun y hy => hok y (by simp [hy])) hr)
    refine Gives.deeper fun _ => ?_
    rw [List.length_append]
    exact entry_gives hs hws hi (View.withDepth hv' _) hw (by rw [hd]; rfl) (hok x List.mem_cons_self) hnb

theorem defs_gives {ind : Str} {xs : List (Located TermDefs)} {b : Bool} (hs : env.SchemeSound) (hi : AllBlank ind)
    (hv : View s (defsText L cfg ind b xs ++ r)) (hw : lastWord s.asConsumed = []) (hd : s.depth < 65535)
    (hok : DefsOk env ue L cfg s.depth xs) (hr : NoTermLine r) :
    Gives (definitionList env s) (adv s (defsText L cfg ind b xs).length)
      fun x => x.inner.eqv false ue (.defs xs) = true := by
  have hm := entries_many hs hi xs b s hv hw rfl hd hok.2 hr
  refine Gives.located (Q := fun x : Block => x.eqv false ue (.defs xs) = true)
    (Gives.map (Q := Each (xs.map fun x y => TermDefs.eqv false ue (mkTermDefs y).inner x.inner = true)) ?_ fun ys hy => ?_)
  · cases xs with
    | nil => exact absurd rfl hok.1
    | cons x xs =>
      cases hm with
      | cons h1 _ h3 => exact Many.many1 h1 h3
  · have key : ∀ (xs : List (Located TermDefs)) (ys : List (Located Inlines × Located (List (Located Inlines)))),
        Each (xs.map fun x y => TermDefs.eqv false ue (mkTermDefs y).inner x.inner = true) ys →
        vecEq (locEq false (TermDefs.eqv false ue)) (ys.map mkTermDefs) xs = true := by
      intro xs
      induction xs with
      | nil => intro ys h; cases h; rfl
      | cons x xs ih =>
        intro ys h
        cases h with
        | cons h1 h2 => simp [vecEq, locEq, h1, ih _ h2]
    exact key xs ys hy

end Vw
