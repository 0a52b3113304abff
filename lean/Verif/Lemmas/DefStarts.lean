import Verif.Lemmas.BlockStarts
import Verif.Lemmas.TableStarts
import Verif.Lemmas.DefsRun
import Verif.Spec.DefStarts

/-!
# Definitions are found
-/

namespace Vw
open P Scan

variable {C : Ctx} {k : Nat} {s : Span} {r : Str}

theorem prefix_before {p u : Str} {c : Byte} (hp : c ∉ p) (h : p <+: u ++ c :: r) : p <+: u := by
  obtain ⟨t, e⟩ := h
  rcases List.append_eq_append_iff.1 e with ⟨a, rfl, -⟩ | ⟨b, rfl, e2⟩
  · exact List.prefix_append _ _
  · cases b with
    | nil => simp
    | cons x b =>
      simp at e2
      exact absurd (by simp [e2.1]) hp

theorem PrefixText.noColon {ty : ItemType} {su : Suffix} {w : Str} (h : PrefixText ty su w) : 58 ∉ w := by
  have num : ∀ {w r : Str}, NumberWord w r ty → 58 ∉ w := by
    intro w r h
    have key : ∀ {f : Byte → Prop}, ¬ f 58 → RunOf f w r → 58 ∉ w := fun hf h hx => hf (h.2.1 _ hx)
    have dig : ¬ DigitByte 58 := by unfold DigitByte; omega
    have low : ¬ LowerByte 58 := by unfold LowerByte; omega
    have upp : ¬ UpperByte 58 := by unfold UpperByte; omega
    have lro : ¬ LowerRomanByte 58 := by unfold LowerRomanByte; decide
    have uro : ¬ UpperRomanByte 58 := by unfold UpperRomanByte; decide
    cases ty with
    | number => exact key dig h
    | lowerRoman => exact key lro h
    | upperRoman => exact key uro h
    | lowerAlpha => exact key low h.1
    | upperAlpha => exact key upp h.1
    | _ => exact h.elim
  cases h with
  | period h => have := num h; simp [this]
  | paren h => have := num h; simp [this]
  | _ => decide

/-- Inline elements up to a place are read. -/
theorem line_gives {w : Str} {p : P Span} (h : C.In (k + 1) s) (hv : View s (w ++ r)) (hne : w ≠ [])
    (hl : 10 ∉ w) (hp : p s = .ok (adv s w.length) (cut s w.length))
    (hsp : Split C s (adv s w.length) (cut s w.length)) :
    Gives (mapParser p (P.map (inlineContainer C.env) (·.inner)) s) (adv s w.length) fun _ => True := by
  have hi := hsp.in h
  unfold P.mapParser
  rw [hp]
  dsimp only
  unfold P.map
  cases hc : inlineContainer C.env (cut s w.length) with
  | ok s3 y => exact ⟨rfl, trivial⟩
  | err =>
    refine absurd (inlineContainer_err hi hc) ?_
    cases w with
    | nil => exact absurd rfl hne
    | cons z w => exact no_lineEnd hi (by simpa using View.cut hv) ⟨hl, .inl rfl⟩
  | _ => trivial

theorem gives_placed {α : Type} {p : P α} {n : Nat} (hn : s.start + n ≤ s.stop)
    (h : Gives (p s) (adv s n) fun _ => True) :
    Gives (located p s) (adv s n) fun x => x.region.offset = s.start ∧ x.region.len = n := by
  have h' := Gives.located h
  cases hp : located p s with
  | ok s1 x =>
    rw [hp] at h'
    obtain ⟨e, -⟩ := h'
    subst e
    refine ⟨rfl, ?_⟩
    show x.region.offset = s.start ∧ x.region.len = n
    rw [(located_inv hp).2]
    have e : (adv s n).start - s.start = n := by simp [adv]
    rw [e]
    simp only [Region.ofSpan, Span.withLength, remainingLen_eq]
    split
    · exact ⟨rfl, by simp⟩
    · exact ⟨rfl, by omega⟩
  | err => rw [hp] at h'; exact h'
  | _ => trivial

theorem term_found {t : Str} {c : Byte} (h : C.In (k + 1) s) (hv : View s (t ++ (b!"::" ++ r))) (ht : TermText t)
    (hc : t.head? = some c) (hc' : 32 < c) :
    Gives (located (terminated
      (mapParser
        (verify (takeLineUntil1 b!"::")
          (fun s => !(b!"%%").isPrefixOf s.trimStart.asRemaining))
        (P.map (inlineContainer C.env) (·.inner)))
      (tag b!"::")) s) (adv s (t.length + 2)) fun x => x.region.offset = s.start ∧ x.region.len = t.length + 2 := by
  have hne : t ≠ [] := by rintro rfl; cases hc
  have htk := term_take hv hne ht
  have hvf : verify (takeLineUntil1 b!"::") (fun s => !(b!"%%").isPrefixOf s.trimStart.asRemaining) s =
      .ok (adv s t.length) (cut s t.length) := by
    rw [verify_ok htk, if_pos]
    have hcv := View.cut hv
    have e0 : ((cut s t.length).asRemaining.takeWhile isAsciiWs).length = 0 := by
      rw [hcv.rem]
      cases t with
      | nil => rfl
      | cons c' q =>
        simp at hc
        subst hc
        rw [List.takeWhile_cons_of_neg]
        · rfl
        · simp only [isAsciiWs, Bool.or_eq_true, beq_iff_eq]; omega
    unfold Span.trimStart
    rw [e0]
    have : (cut s t.length).advanceStartBy 0 = cut s t.length := by
      have := hcv.le
      simp only [Span.advanceStartBy, Nat.add_zero]
      rw [if_neg (by omega)]
    rw [this, hcv.rem]
    have := ht.comment
    rw [← List.isPrefixOf_iff_prefix] at this
    rw [Bool.not_eq_true] at this
    rw [this]; rfl
  refine gives_placed (by
    have := (View.adv (View.adv hv)).le
    simpa [adv, Nat.add_assoc] using this) ?_
  unfold terminated
  refine Gives.bind (Q := fun _ => True) (line_gives h hv hne ht.line hvf
    (ok_of_run (takeLineUntil1_good h _ (patOk_2 _ _ (by decide))) htk).1) fun y _ => ?_
  rw [bind_ok (tag_run (View.adv hv)), adv_adv]
  exact Gives.pure trivial

theorem termLine_found {ws t sp d : Str} {c c' : Byte} (h : C.In (k + 1) s)
    (hv : View s (ws ++ (t ++ (b!"::" ++ (sp ++ (d ++ r)))))) (hw : AllBlank ws) (hsp : AllBlank sp) (hne : sp ≠ [])
    (ht : TermText t) (hc : t.head? = some c) (hc1 : 32 < c) (hd : d.head? = some c') (hd1 : ¬ (c' = 32 ∨ c' = 9))
    (hl : LineSplit d r) :
    ∃ n, Gives (termLine C.env s) (adv s n) fun y => y.1.region.offset = s.start + ws.length ∧
      y.1.region.len = t.length + 2 ∧ ∃ z, y.2 = some z ∧ z.region.offset = s.start + ws.length + (t.length + 2) ∧
      z.region.len = sp.length + d.length := by
  have head : ∀ {u v : Str} {c : Byte}, u.head? = some c → ¬ (c = 32 ∨ c = 9) →
      ∀ x, (u ++ v).head? = some x → isSpace x = false := by
    intro u v c hu hc x hx
    cases u with
    | nil => cases hu
    | cons a u => simp at hu hx; subst hu; subst hx; exact isSpace_false.2 hc
  have r0 := space0_run hv (AllBlank.iff.1 hw) (head hc (by omega))
  have i1 : C.In (k + 1) (adv s ws.length) := h.good (ok_of_run (space0_good h) r0).1.good
  have v1 := View.adv hv
  have g1 := term_found i1 v1 ht hc hc1
  have v2 : View (adv (adv s ws.length) (t.length + 2)) (sp ++ (d ++ r)) := by
    have := View.adv (View.adv v1)
    rwa [adv_adv] at this
  have i2 : C.In (k + 1) (adv (adv s ws.length) (t.length + 2)) := by
    have e1 : C.In (k + 1) (adv (adv s ws.length) (t.length + 1)) :=
      (In.ascii (w := t) (c := c!":") (r := c!":" :: (sp ++ (d ++ r))) i1 v1 (by decide)).2
    have v1' : View (adv (adv s ws.length) (t.length + 1)) (c!":" :: (sp ++ (d ++ r))) := by
      have := View.adv (s := adv s ws.length) (w := t ++ b!":") (r := c!":" :: (sp ++ (d ++ r))) (by simpa using v1)
      simpa using this
    have := (In.ascii (w := []) e1 v1' (by decide)).2
    rw [adv_adv] at this
    exact this
  have r2 := space1_run v2 hne (AllBlank.iff.1 hsp) (head hd hd1)
  have i3 : C.In (k + 1) (adv (adv (adv s ws.length) (t.length + 2)) sp.length) :=
    i2.good (ok_of_run (space1_good i2) r2).1.good
  have v3 := View.adv v2
  have v4 := View.adv v3
  have r3 := takeUntilEol_run v3 hl
  have dne : d ≠ [] := by rintro rfl; cases hd
  have g3 := line_gives i3 v3 dne hl.1 r3 (ok_of_run (takeUntilEol_good i3) r3).1
  have hx : ∀ x, r.head? = some x → isSpace x = false := by
    intro x hx
    rcases hl.2 with rfl | ⟨t, rfl, -⟩ | ⟨t, rfl⟩ <;> simp at hx <;> subst hx <;> rfl
  have r4 := space0_run (w := []) v4 (by simp) hx
  obtain ⟨n, r5, -⟩ := eol_run v4 hl.eol
  refine ⟨ws.length + (t.length + 2) + (sp.length + d.length) + n, ?_⟩
  unfold termLine
  rw [bind_ok r0]
  refine Gives.bind g1 fun y hy => ?_
  refine Gives.bind (Gives.opt_some (gives_placed
    (n := sp.length + d.length) (by
      have := v4.le
      simpa [adv, Nat.add_assoc] using this) ?_)) fun o ho => ?_
  · unfold preceded
    rw [bind_ok r2]
    exact Gives.at g3 (by rw [adv_adv])
  · obtain ⟨z, rfl, hz⟩ := ho
    have hp : P.pair space0 endOfLineOrInput (adv (adv (adv s ws.length) (t.length + 2)) (sp.length + d.length)) =
        .ok (adv (adv (adv (adv s ws.length) (t.length + 2)) (sp.length + d.length)) n)
          (cut (adv (adv (adv s ws.length) (t.length + 2)) (sp.length + d.length)) 0, ()) := by
      rw [adv_adv] at r4 r5
      unfold P.pair
      rw [bind_ok r4]
      simp only [List.length_nil, adv_zero]
      rw [bind_ok r5]
      rfl
    rw [bind_ok hp]
    exact Gives.at (Gives.pure ⟨hy.1, hy.2, z, rfl, hz.1, hz.2⟩) (by simp only [adv_adv])

/-- Without text there are no inline elements. -/
theorem inlineContainer_nothing {α : Type} {f : Located Inlines → α} (h : C.In (k + 1) s) (he : s.stop ≤ s.start) :
    Fails (P.map (inlineContainer C.env) f s) := by
  unfold P.map
  cases hc : inlineContainer C.env s with
  | ok s1 y =>
    have hk := (ok_of_run (inlineContainer_ok h) hc).1
    have := hk.lt
    have := hk.good.step.hi
    have := hk.good.step.stop
    omega
  | _ => trivial

theorem termLine_bare {ws t sp : Str} {c : Byte} (h : C.In (k + 1) s)
    (hv : View s (ws ++ (t ++ (b!"::" ++ (sp ++ r))))) (hw : AllBlank ws) (hsp : AllBlank sp)
    (ht : TermText t) (hc : t.head? = some c) (hc1 : 32 < c) (hr : EolHere r) :
    ∃ n, Gives (termLine C.env s) (adv s n) fun y => y.1.region.offset = s.start + ws.length ∧
      y.1.region.len = t.length + 2 ∧ y.2 = none := by
  have hx : ∀ x, r.head? = some x → isSpace x = false := by
    intro x hx
    rcases hr with rfl | ⟨t, rfl⟩ | ⟨t, rfl⟩ <;> simp at hx <;> subst hx <;> rfl
  have r0 := space0_run hv (AllBlank.iff.1 hw) (by
    intro x hx
    cases t with
    | nil => cases hc
    | cons a u => simp at hc hx; subst hc; subst hx; exact isSpace_false.2 (by omega))
  have i1 : C.In (k + 1) (adv s ws.length) := h.good (ok_of_run (space0_good h) r0).1.good
  have v1 := View.adv hv
  have g1 := term_found i1 v1 ht hc hc1
  have v2 : View (adv (adv s ws.length) (t.length + 2)) (sp ++ r) := by
    have := View.adv (View.adv v1)
    rwa [adv_adv] at this
  have i2 : C.In (k + 1) (adv (adv s ws.length) (t.length + 2)) := by
    have e1 : C.In (k + 1) (adv (adv s ws.length) (t.length + 1)) :=
      (In.ascii (w := t) (c := c!":") (r := c!":" :: (sp ++ r)) i1 v1 (by decide)).2
    have v1' : View (adv (adv s ws.length) (t.length + 1)) (c!":" :: (sp ++ r)) := by
      have := View.adv (s := adv s ws.length) (w := t ++ b!":") (r := c!":" :: (sp ++ r)) (by simpa using v1)
      simpa using this
    have := (In.ascii (w := []) e1 v1' (by decide)).2
    rw [adv_adv] at this
    exact this
  have v3 := View.adv v2
  have hl : LineSplit [] r := ⟨by simp, by
    rcases hr with rfl | ⟨t, rfl⟩ | ⟨t, rfl⟩
    · exact .inl rfl
    · exact .inr (.inl ⟨t, rfl, by simp⟩)
    · exact .inr (.inr ⟨t, rfl⟩)⟩
  have nodef : Fails (Scan.located (preceded space1
      (mapParser takeUntilEol (P.map (inlineContainer C.env) (·.inner)))) (adv (adv s ws.length) (t.length + 2))) := by
    refine Fails.located ?_
    unfold preceded
    by_cases hne : sp = []
    · subst hne
      exact Fails.bind (Fails.of_err (space1_er v2 hx))
    · rw [bind_ok (space1_run v2 hne (AllBlank.iff.1 hsp) hx)]
      have i3 : C.In (k + 1) (adv (adv (adv s ws.length) (t.length + 2)) sp.length) :=
        i2.good (ok_of_run (space1_good i2) (space1_run v2 hne (AllBlank.iff.1 hsp) hx)).1.good
      have r3 := takeUntilEol_run (w := []) v3 hl
      have i4 := ((ok_of_run (takeUntilEol_good i3) r3).1).in i3
      unfold P.mapParser
      rw [r3]
      dsimp only
      have := inlineContainer_nothing (f := (·.inner)) i4 (by simp [cut])
      revert this
      cases P.map (inlineContainer C.env) (·.inner)
        (cut (adv (adv (adv s ws.length) (t.length + 2)) sp.length) (List.length ([] : Str))) <;> exact id
  have r4 := space0_run v2 (AllBlank.iff.1 hsp) hx
  obtain ⟨n, r5, -⟩ := eol_run v3 hr
  refine ⟨ws.length + (t.length + 2) + sp.length + n, ?_⟩
  unfold termLine
  rw [bind_ok r0]
  refine Gives.bind g1 fun y hy => ?_
  refine Gives.bind (Gives.opt_none nodef) fun o ho => ?_
  subst ho
  have hp : P.pair space0 endOfLineOrInput (adv (adv s ws.length) (t.length + 2)) =
      .ok (adv (adv (adv (adv s ws.length) (t.length + 2)) sp.length) n)
        (cut (adv (adv s ws.length) (t.length + 2)) sp.length, ()) := by
    unfold P.pair
    rw [bind_ok r4, bind_ok r5]
    rfl
  rw [bind_ok hp]
  exact Gives.at (Gives.pure ⟨hy.1, hy.2, rfl⟩) (by simp only [adv_adv])

/-- A line with a term and a definition is no failure of the parser for definition lists. -/
theorem definitionList_ne {ws t sp d : Str} {c c' : Byte} (h : C.In (k + 2) s)
    (hv : View s (ws ++ (t ++ (b!"::" ++ (sp ++ (d ++ r)))))) (hw : AllBlank ws) (hsp : AllBlank sp) (hne : sp ≠ [])
    (ht : TermText t) (hc : t.head? = some c) (hc1 : 32 < c) (hd : d.head? = some c') (hd1 : ¬ (c' = 32 ∨ c' = 9))
    (hl : LineSplit d r) : definitionList C.env s ≠ .err := by
  intro he
  have he := deeper_err (many1_err (I := fun t => C.In (k + 2) t) ?_ h (map_err (located_err he)))
  · have i0 : C.In (k + 1) (s.withDepth (s.depth + 1)) := withDepth_in h
    obtain ⟨n, hg⟩ := termLine_found i0 (View.withDepth hv _) hw hsp hne ht hc hc1 hd hd1 hl
    rcases bind_err he with he | ⟨s1, ⟨term, df⟩, h1, he⟩
    · rw [he] at hg; exact hg
    · obtain ⟨-, -, -, z, hs, -⟩ := hg.inv h1
      have i1 := i0.good (ok_of_run (termLine_ok i0) h1).1
      rcases bind_err he with he | ⟨s2, b, h2, he⟩
      · rcases verify_err (located_err he) with he | ⟨s', a, ha, hf⟩
        · refine many0_ne_err (I := fun t => C.In (k + 1) t) ?_ i1 he
          intro u hu u' x hx
          have hr := (ok_of_run (definitionLine_ok hu) hx).1
          exact ⟨fun e => by have := hr.lt; rw [e] at this; omega, hu.good hr.good⟩
        · simp at hs
          simp [hs] at hf
      · cases he
  · intro u hu u' x hx
    obtain ⟨g, lt⟩ := ok_of_run (deeper_rule hu (Q := fun u' _ => u.start < u'.start)
      ((termAndDefinitions_ok (withDepth_in hu)).mono fun _ _ h => ⟨h.1, h.2.1⟩)) hx
    exact ⟨fun e => by rw [e] at lt; omega, hu.good g⟩

/-- Lines that are definitions. -/
theorem defKind (C : Ctx) : LineKind C (fun q => Bol C q ∧ DefForm (C.inner.drop q))
    (fun q y => (∃ xs, y.inner = .defs xs) ∧ y.region.offset ≤ q ∧ q < y.region.offset + y.region.len) := by
  have first : ∀ q, DefForm (C.inner.drop q) → ∃ ws t r c, FirstByte C q (q + ws.length) c ∧
      C.inner.drop q = ws ++ (t ++ 58 :: r) ∧ TermText t ∧ t.head? = some c ∧ 32 < c ∧ c ≠ c!"%" ∧ c ≠ c!"{" ∧ c ≠ c!">" := by
    rintro q ⟨ws, t, sp, d, r, e, hw, -, -, ht, ⟨c, hc, h1, h2⟩, -⟩
    cases t with
    | nil => cases hc
    | cons c' t =>
      simp at hc
      subst hc
      exact ⟨ws, _, _, c', (firstByte_of (C := C) (q := q) (ws := ws) (x := c') e hw (by omega)).1, e, ht, rfl, h1, h2⟩
  refine .unfenced (fun q h => h.1) ?_ ?_ ?_ ?_ ?_
  · rintro q ⟨-, hf⟩
    obtain ⟨ws, t, r, c, hj, -, -, -, h1, h2, h3, h4⟩ := first q hf
    exact ⟨_, _, hj, by omega, by omega, h3⟩
  · rintro q j ⟨-, hf⟩ hj
    obtain ⟨ws, t, r, c, hj', -, ht, hc, h1, h2, h3, h4⟩ := first q hf
    exact absurd ((hj.uniq hj').2 ▸ hc) ht.table
  · rintro q j ⟨-, hf⟩ hj
    obtain ⟨ws, t, r, c, hj', -, ht, hc, h1, h2, h3, h4⟩ := first q hf
    exact absurd (hj.uniq hj').2.symm h4
  · rintro q it ⟨-, hf⟩ ⟨hqj, hbl, ty, su, w, hw, ha⟩
    exfalso
    obtain ⟨ws, t, r, c, hj', e, ht, hc, -⟩ := first q hf
    obtain ⟨hne, hhd⟩ := hw.head
    refine ht.item _ _ _ hw (prefix_before (c := 58) (r := r) hw.noColon ?_)
    have hq : it.region.offset = q + ws.length := by
      cases w with
      | nil => exact absurd rfl hne
      | cons y w' =>
        have h0 := ha.getElem? 0 (by simp)
        simp only [Nat.add_zero, List.getElem?_cons_zero] at h0
        exact (FirstByte.uniq ⟨hqj, hbl, h0, isSpace_false.2 (hhd y rfl)⟩ hj').1
    unfold At at ha
    rw [hq, ← List.drop_drop, e, List.drop_left] at ha
    exact List.prefix_iff_eq_take.2 ha.symm
  · rintro k s list h hs hlt ⟨hb, ws, t, sp, d, r, e, hw, hsp, hne, ht, ⟨c, hc, h1, -⟩, ⟨c', hd, hd'⟩, hl⟩ - s' u hcp
    obtain ⟨-, hcp⟩ := not_bind_inv hcp
    obtain ⟨he, -⟩ := not_bind_inv hcp
    obtain ⟨r', hv, -, hl'⟩ := In.line h hs hlt (L := ws ++ (t ++ (b!"::" ++ (sp ++ d)))) (r := r) (by rw [e]; simp) (by
      simp only [List.mem_append, not_or]
      exact ⟨hw.no10, ht.line, by decide, hsp.no10, hl.1⟩) hl.eol
    exact definitionList_ne h (by simpa using hv) hw hsp hne ht hc h1 hd hd' (hl' d hl) he

end Vw
