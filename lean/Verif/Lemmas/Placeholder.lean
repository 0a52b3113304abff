import Verif.Lemmas.Elements
import Verif.Lemmas.Fences

/-!
# Forward runs of the placeholder parser
-/

namespace Vw

open P Scan

variable {s : Span} {v r ws : Str}

theorem placeholderText_run (hv : View s (v ++ r)) (hl : LineSplit v r) :
    placeholderText s =
      if ∃ b ∈ v.drop 1, isSpace b = false then .ok (adv s v.length) v else .err := by
  have h1 := takeUntilEol_run hv hl
  have h2 := isOnlyWhitespace_iff (cut s v.length) hv.cut.hi
  rw [hv.cut.rem] at h2
  by_cases h : ∃ b ∈ v.drop 1, isSpace b = false
  · rw [if_pos h]
    unfold placeholderText
    rw [strOf_ok (o := cut s v.length) (s' := adv s v.length), hv.cut.rem]
    rw [verify_ok h1, if_pos]
    have : (cut s v.length).isOnlyWhitespace = false := by
      apply Bool.eq_false_iff.2
      intro e
      obtain ⟨b, hb, hb'⟩ := h
      rw [h2.1 e b hb] at hb'; cases hb'
    simp [this]
  · rw [if_neg h]
    unfold placeholderText
    apply strOf_er
    rw [verify_ok h1, if_neg]
    have : (cut s v.length).isOnlyWhitespace = true := by
      rw [h2]
      intro b hb
      cases e : isSpace b with
      | true => rfl
      | false => exact absurd ⟨b, hb, e⟩ h
    simp [this]

theorem space1_run (h : View s (ws ++ r)) (hn : ws ≠ []) (hw : ∀ x ∈ ws, isSpace x = true)
    (hr : ∀ x, r.head? = some x → isSpace x = false) :
    space1 s = .ok (adv s ws.length) (cut s ws.length) := takeWhile1_run h hn hw hr

theorem placeholderTagged_run {t : Str} {mk : Str → Placeholder} (hv : View s (t ++ (ws ++ (v ++ r))))
    (hn : ws ≠ []) (hw : AllBlank ws) (hb : ∀ x, (v ++ r).head? = some x → ¬ (x = 32 ∨ x = 9))
    (hl : LineSplit v r) :
    (P.bind (tag t) fun _ => P.bind space1 fun _ => P.map placeholderText mk) s =
      if ∃ b ∈ v.drop 1, ¬ (b = 32 ∨ b = 9) then .ok (adv s (t.length + ws.length + v.length)) (mk v)
      else .err := by
  rw [bind_ok (tag_run hv)]
  have h1 := hv.adv
  rw [bind_ok (space1_run h1 hn (fun x hx => isSpace_iff.2 (hw x hx))
    (fun x hx => by
      have := hb x hx
      rw [← isSpace_iff] at this; simpa using this))]
  have h2 := h1.adv
  have h3 := placeholderText_run h2 hl
  have e : (∃ b ∈ v.drop 1, isSpace b = false) ↔ ∃ b ∈ v.drop 1, ¬ (b = 32 ∨ b = 9) := by
    simp only [← isSpace_iff, Bool.not_eq_true]
  by_cases h : ∃ b ∈ v.drop 1, ¬ (b = 32 ∨ b = 9)
  · rw [if_pos (e.2 h)] at h3
    rw [if_pos h, map_ok h3]
    simp [Nat.add_assoc]
  · rw [if_neg (fun h' => h (e.1 h'))] at h3
    rw [if_neg h, map_er h3]

theorem takeLineUntil31_run {c a b d : Byte} {w : Str} (h : View s (w ++ c :: r))
    (hc : c = a ∨ c = b ∨ c = d) (hw : ∀ x ∈ w, x ≠ 10 ∧ x ≠ a ∧ x ≠ b ∧ x ≠ d)
    (hc10 : c ≠ 10 ∧ c ≠ 13) (hne : w ≠ []) :
    takeLineUntil31 [a] [b] [d] s = .ok (adv s w.length) (cut s w.length) := by
  have hs := takeSplit_run h
  have hl : takeLineUntil3 [a] [b] [d] s = .ok (adv s w.length) (cut s w.length) := by
    unfold takeLineUntil3
    simp only [h.rem]
    rw [memchrIter, memchrIterFrom_run, memchrIterFrom, if_pos, ← hs]
    · congr 1
      rw [takeLineUntil3Loop.eq_def]
      simp only
      have hm : ((decide (0 + w.length + [a].length ≤ (w ++ c :: r).length)
          && matchesAt (w ++ c :: r) (0 + w.length) [a])
        || (decide (0 + w.length + [b].length ≤ (w ++ c :: r).length)
          && matchesAt (w ++ c :: r) (0 + w.length) [b])
        || (decide (0 + w.length + [d].length ≤ (w ++ c :: r).length)
          && matchesAt (w ++ c :: r) (0 + w.length) [d])) = true := by
        simp [matchesAt]
        rcases hc with h | h | h <;> simp [h]
      cases hp : (memchr (· == 10) (w ++ c :: r)).map (crAdjust (w ++ c :: r)) with
      | none => simp only [hm, if_true]; simp
      | some lp =>
        simp only [hm, if_true]
        rw [if_neg]
        · simp
        · obtain ⟨p, h1, h2⟩ := Option.map_eq_some_iff.1 hp
          have h3 := List.findIdx?_eq_some_iff_getElem.1 h1
          obtain ⟨h4, h5, -⟩ := h3
          have h6 : w.length < p := by
            apply Classical.byContradiction
            intro hlt
            rcases Nat.lt_or_eq_of_le (Nat.le_of_not_lt hlt) with e | e
            · rw [List.getElem_append_left (by omega)] at h5
              have := (hw _ (List.getElem_mem e)).1
              simp at h5; exact this h5
            · subst e
              simp at h5; exact hc10.1 h5
          unfold crAdjust at h2
          split at h2
          · next h7 =>
            by_cases e : p - 1 = w.length
            · rw [e] at h7
              simp at h7
              exact absurd h7.2 hc10.2
            · omega
          · omega
    · simp
      rcases hc with h | h | h <;> simp [h]
    · intro x hx
      have := hw x hx
      simp [this]
  unfold takeLineUntil31
  rw [verify_ok hl, (View.cut h).isEmpty, if_pos (by simpa using hne)]

theorem tag_fails {t : Str} (hv : View s r) (h : t.isPrefixOf r = false) : tag t s = .err := by
  apply tag_run_err hv
  intro h'
  rw [← List.isPrefixOf_iff_prefix, h] at h'
  cases h'

theorem titleEr (h : tag b!"%title" s = .err) : placeholderTitle s = .err := bind_er h

theorem nohtmlEr (h : tag b!"%nohtml" s = .err) : placeholderNohtml s = .err := bind_er h

theorem templateEr (h : tag b!"%template" s = .err) : placeholderTemplate s = .err := bind_er h

theorem dateEr (env : Env) (h : tag b!"%date" s = .err) : placeholderDate env s = .err := bind_er h

/-- The placeholder parser after its alternatives have been settled. -/
theorem placeholder_wrap {env : Env} {ph : Placeholder} {n : Nat} {u : Str} (hb : AtBol s)
    (hv : View s (u ++ r)) (hn : n = u.length) (hr : EolHere r)
    (ha : alts [placeholderTitle, placeholderNohtml, placeholderTemplate, placeholderDate env,
      placeholderOther] s = .ok (adv s n) ph) :
    placeholder env s = .ok (adv s (n + lineLen r)) ⟨.placeholder ph, ⟨s.start, n, s.depth⟩⟩ := by
  subst hn
  unfold placeholder
  rw [bind_ok (bol_run hb), bind_ok (located_run hv (by simp) (map_ok ha))]
  obtain ⟨m, hm, -, -, -, he⟩ := eol_run hv.adv hr
  rw [bind_ok hm, he, adv_adv]
  rfl

theorem placeholder_wrap_er {env : Env} (hb : AtBol s)
    (ha : alts [placeholderTitle, placeholderNohtml, placeholderTemplate, placeholderDate env,
      placeholderOther] s = .err) : placeholder env s = .err := by
  unfold placeholder
  rw [bind_ok (bol_run hb), bind_er (located_er (map_er ha))]

theorem LineSplit.eolHere (h : LineSplit v r) : EolHere r := by
  rcases h.2 with h | ⟨t, h, -⟩ | ⟨t, h⟩
  · exact .inl h
  · exact .inr (.inl ⟨t, h⟩)
  · exact .inr (.inr ⟨t, h⟩)

/-- The exact outcome for one kind of placeholder: `ok` if some byte after the
first of the value is no blank, else an error. -/
def PlaceholderRun (env : Env) (s : Span) (v : Str) (ph : Placeholder) (n : Nat) : Prop :=
  ((∃ b ∈ v.drop 1, ¬ (b = 32 ∨ b = 9)) → ∃ x, placeholder env s = .ok (adv s n) x ∧
    x.inner = .placeholder ph) ∧
  (¬ (∃ b ∈ v.drop 1, ¬ (b = 32 ∨ b = 9)) → placeholder env s = .err)

theorem placeholder_title_run (env : Env) (hb : AtBol s) (hv : View s (b!"%title" ++ (ws ++ (v ++ r))))
    (hn : ws ≠ []) (hw : AllBlank ws) (hh : ∀ x, (v ++ r).head? = some x → ¬ (x = 32 ∨ x = 9))
    (hl : LineSplit v r) : PlaceholderRun env s v (.title v)
      (6 + ws.length + v.length + lineLen r) := by
  have h1 := placeholderTagged_run (mk := .title) hv hn hw hh hl
  constructor
  · intro h
    rw [if_pos h] at h1
    have h2 := placeholder_wrap (u := b!"%title" ++ ws ++ v) (env := env) hb (by simpa using hv)
      (by simp; omega) hl.eolHere (alts_fst h1)
    exact ⟨_, h2, rfl⟩
  · intro h
    rw [if_neg h] at h1
    apply placeholder_wrap_er hb
    rw [alts_er (p := placeholderTitle) h1, alts_er (nohtmlEr (tag_fails hv rfl)),
      alts_er (templateEr (tag_fails hv rfl)), alts_er (dateEr env (tag_fails hv rfl))]
    exact bind_er (not_ok (tag_run hv))

theorem placeholder_template_run (env : Env) (hb : AtBol s)
    (hv : View s (b!"%template" ++ (ws ++ (v ++ r))))
    (hn : ws ≠ []) (hw : AllBlank ws) (hh : ∀ x, (v ++ r).head? = some x → ¬ (x = 32 ∨ x = 9))
    (hl : LineSplit v r) : PlaceholderRun env s v (.template v)
      (9 + ws.length + v.length + lineLen r) := by
  have h1 := placeholderTagged_run (mk := .template) hv hn hw hh hl
  have h0 : ∀ ps, alts (placeholderTitle :: placeholderNohtml :: placeholderTemplate :: ps) s =
      alts (placeholderTemplate :: ps) s := by
    intro ps
    rw [alts_er (titleEr (tag_fails hv rfl)), alts_er (nohtmlEr (tag_fails hv rfl))]
  constructor
  · intro h
    rw [if_pos h] at h1
    have h2 := placeholder_wrap (u := b!"%template" ++ ws ++ v) (env := env) hb (by simpa using hv)
      (by simp; omega) hl.eolHere ((h0 _).trans (alts_fst h1))
    exact ⟨_, h2, rfl⟩
  · intro h
    rw [if_neg h] at h1
    apply placeholder_wrap_er hb
    rw [h0, alts_er (p := placeholderTemplate) h1, alts_er (dateEr env (tag_fails hv rfl))]
    exact (bind_ok (not_er (tag_fails hv rfl))).trans ((bind_ok (not_er (tag_fails hv rfl))).trans
      (bind_er (not_ok (tag_run hv))))

theorem placeholder_other_run (env : Env) {name : Str} (hname : OtherName name) (hb : AtBol s)
    (hv : View s (b!"%" ++ (name ++ (ws ++ (v ++ r)))))
    (hn : ws ≠ []) (hw : AllBlank ws) (hh : ∀ x, (v ++ r).head? = some x → ¬ (x = 32 ∨ x = 9))
    (hl : LineSplit v r) : PlaceholderRun env s v (.other name v)
      (1 + name.length + ws.length + v.length + lineLen r) := by
  obtain ⟨n1, n2, n3⟩ := hname
  obtain ⟨c, ws', rfl⟩ := List.exists_cons_of_ne_nil hn
  have hc := hw c (by simp)
  have no : ∀ k ∈ [b!"title", b!"nohtml", b!"template", b!"date"], tag (c!"%" :: k) s = .err := by
    intro k hk
    apply tag_run_err hv
    intro hp
    have hp : k <+: name ++ (c :: ws' ++ (v ++ r)) := by simpa using hp
    apply n3 k hk
    -- the keyword has no blank, so it ends within the name
    have hkb : ∀ x ∈ k, x ≠ 32 ∧ x ≠ 9 := by
      have : ∀ k ∈ [b!"title", b!"nohtml", b!"template", b!"date"], ∀ x ∈ k, x ≠ 32 ∧ x ≠ 9 := by decide
      exact this k hk
    apply Classical.byContradiction
    intro hnp
    have hlen : name.length < k.length := by
      apply Classical.byContradiction
      intro hle
      exact hnp (List.prefix_of_prefix_length_le hp (List.prefix_append _ _) (by omega))
    have h3 : (name ++ [c]) <+: k := by
      apply List.prefix_of_prefix_length_le (l₃ := name ++ (c :: ws' ++ (v ++ r))) _ hp (by simp; omega)
      exact ⟨ws' ++ (v ++ r), by simp⟩
    have := hkb c (h3.subset (by simp))
    rcases hc with rfl | rfl
    · exact this.1 rfl
    · exact this.2 rfl
  have h0 : ∀ q, alts [placeholderTitle, placeholderNohtml, placeholderTemplate, placeholderDate env, q] s = q s := by
    intro q
    rw [alts_er (titleEr (no b!"title" (by simp))), alts_er (nohtmlEr (no b!"nohtml" (by simp))),
      alts_er (templateEr (no b!"template" (by simp))), alts_er (dateEr env (no b!"date" (by simp)))]
    rfl
  have h1 : tag b!"%" s = .ok (adv s 1) (cut s 1) := tag_run hv
  have v1 : View (adv s 1) (name ++ (c :: (ws' ++ (v ++ r)))) := by simpa using hv.adv (w := b!"%")
  have h2 := takeLineUntil31_run (a := 32) (b := 9) (d := c!"%") v1 (by omega)
    (fun x hx => by have := n2 x hx; exact ⟨this.1, this.2.1, this.2.2.1, this.2.2.2⟩)
    (by omega) n1
  have v2 : View (adv (adv s 1) name.length) ((c :: ws') ++ (v ++ r)) := v1.adv
  have h3 := space1_run v2 (by simp) (fun x hx => isSpace_iff.2 (hw x hx))
    (fun x hx => by
      have := hh x hx
      rw [← isSpace_iff] at this; simpa using this)
  have h4 := placeholderText_run v2.adv hl
  have e : (∃ b ∈ v.drop 1, isSpace b = false) ↔ ∃ b ∈ v.drop 1, ¬ (b = 32 ∨ b = 9) := by
    simp only [← isSpace_iff, Bool.not_eq_true]
  have h5 : placeholderOther s = P.map placeholderText (Placeholder.other name)
      (adv (adv (adv s 1) name.length) (c :: ws').length) := by
    unfold placeholderOther
    rw [bind_ok (not_er (no b!"title" (by simp))), bind_ok (not_er (no b!"nohtml" (by simp))),
      bind_ok (not_er (no b!"template" (by simp))), bind_ok (not_er (no b!"date" (by simp))),
      bind_ok h1, bind_ok (strOf_ok h2), bind_ok h3, v1.cut.rem]
  constructor
  · intro h
    rw [if_pos (e.2 h)] at h4
    have h6 : placeholderOther s = .ok (adv s (b!"%" ++ name ++ (c :: ws') ++ v).length) (.other name v) := by
      rw [h5, map_ok h4]
      have : (b!"%" ++ name ++ (c :: ws') ++ v).length = 1 + name.length + (c :: ws').length + v.length := by
        simp; omega
      rw [this]; simp [Nat.add_assoc]
    have h2 := placeholder_wrap (u := b!"%" ++ name ++ (c :: ws') ++ v) (env := env) hb
      (by simpa using hv) rfl hl.eolHere ((h0 _).trans h6)
    refine ⟨_, h2.trans (ok_congr ?_), rfl⟩
    simp; omega
  · intro h
    rw [if_neg (fun h' => h (e.1 h'))] at h4
    apply placeholder_wrap_er hb
    rw [h0, h5, map_er h4]

theorem placeholder_nohtml_run (env : Env) (hb : AtBol s) (hv : View s (b!"%nohtml" ++ (ws ++ r)))
    (hw : AllBlank ws) (hr : EolHere r) :
    ∃ x, placeholder env s = .ok (adv s (7 + ws.length + lineLen r)) x ∧ x.inner = .placeholder .noHtml := by
  have h1 : placeholderNohtml s = .ok (adv s (7 + ws.length)) .noHtml := by
    unfold placeholderNohtml
    rw [bind_ok (tag_run hv), bind_ok (space0_run hv.adv (AllBlank.iff.1 hw) hr.head), adv_adv]
    rfl
  have h0 : ∀ p ps, alts (placeholderTitle :: p :: ps) s = alts (p :: ps) s := fun p ps =>
    alts_er (titleEr (tag_fails hv rfl))
  exact ⟨_, placeholder_wrap (u := b!"%nohtml" ++ ws) (env := env) hb (by simpa using hv)
    (by simp; omega) hr ((h0 _ _).trans (alts_fst h1)), rfl⟩

theorem placeholder_date_run (env : Env) {d : Date} (hb : AtBol s) (hv : View s (b!"%date" ++ (ws ++ (v ++ r))))
    (hn : ws ≠ []) (hw : AllBlank ws) (hh : ∀ x, (v ++ r).head? = some x → ¬ (x = 32 ∨ x = 9))
    (hl : LineSplit v r) (hd : env.date v = some d) :
    ∃ x, placeholder env s = .ok (adv s (5 + ws.length + v.length + lineLen r)) x ∧
      x.inner = .placeholder (.date d) := by
  have h1 : placeholderDate env s = .ok (adv s (5 + ws.length + v.length)) (.date d) := by
    unfold placeholderDate
    have v1 := hv.adv
    have v2 := v1.adv
    rw [bind_ok (tag_run hv), bind_ok (space1_run v1 hn (fun x hx => isSpace_iff.2 (hw x hx))
      (fun x hx => by
        have := hh x hx
        rw [← isSpace_iff] at this; simpa using this))]
    have : mapOpt takeUntilEol (fun s => env.date s.asRemaining)
        (adv (adv s (List.length b!"%date")) ws.length) =
        .ok (adv (adv (adv s (List.length b!"%date")) ws.length) v.length) d := by
      simp only [mapOpt, takeUntilEol_run v2 hl, v2.cut.rem, hd]
    rw [map_ok this]
    simp [Nat.add_assoc]
  have h0 : ∀ p ps, alts (placeholderTitle :: placeholderNohtml :: placeholderTemplate :: p :: ps) s =
      alts (p :: ps) s := by
    intro p ps
    rw [alts_er (titleEr (tag_fails hv rfl)), alts_er (nohtmlEr (tag_fails hv rfl)),
      alts_er (templateEr (tag_fails hv rfl))]
  exact ⟨_, placeholder_wrap (u := b!"%date" ++ ws ++ v) (env := env) hb (by simpa using hv)
    (by simp; omega) hl.eolHere ((h0 _ _).trans (alts_fst h1)), rfl⟩

end Vw
