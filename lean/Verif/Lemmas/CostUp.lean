import Verif.Lemmas.CostPage

/-!
# Without list items, lists are tried a few times for each byte
-/

namespace Vw
open P Scan K

variable {α β : Type} {C : Ctx} {s s' : Span}

theorem K.bind_le {k : K α} {f : α → K β} {m n : Nat} (h : (k s).2 ≤ m)
    (hf : ∀ s1 a, (k s).1 = .ok s1 a → (f a s1).2 ≤ n) : (K.bind k f s).2 ≤ m + n := by
  unfold K.bind
  rcases hk : k s with ⟨r, j⟩
  rw [hk] at h hf
  cases r with
  | ok s1 a => have := hf s1 a rfl; simp only at h this ⊢; omega
  | _ => simp only at h ⊢; omega

theorem K.map_snd {k : K α} {f : α → β} : (K.map k f s).2 = (k s).2 := by
  unfold K.map
  rcases hk : k s with ⟨r, j⟩
  cases r <;> rfl

theorem K.alt_le {k l : K α} {m n : Nat} (h : (k s).2 ≤ m) (hl : (l s).2 ≤ n) : (K.alt k l s).2 ≤ m + n := by
  unfold K.alt
  rcases hk : k s with ⟨r, j⟩
  rw [hk] at h
  cases r <;> simp only at h ⊢ <;> omega

theorem K.not_snd {k : K α} : (K.not k s).2 = (k s).2 := rfl

theorem NoItems.fails {k : Nat} (hN : NoItems C.inner) (hi : C.In k s) (hb : Bol C s.start) {ws w r : Str} {ty : ItemType}
    {su : Suffix} (hw : AllBlank ws) (hp : PrefixText ty su w) : s.asRemaining ≠ ws ++ (w ++ r) := by
  intro e
  refine hN (C.inner.take s.start) (C.inner.drop s.start) (List.take_append_drop _ _).symm ?_ ws ty su w
    (r ++ C.inner.drop s.stop) hw hp ?_
  · have hle := hi.wf.le
    have hhi := hi.wf.hi
    rcases hb with h0 | h0
    · exact .inl (by rw [h0]; rfl)
    · by_cases hz : s.start = 0
      · exact .inl (by rw [hz]; rfl)
      · right
        rw [List.getLast?_eq_getElem?, List.length_take, List.getElem?_take]
        have : min s.start C.inner.length = s.start := by omega
        rw [this, if_pos (by omega), h0]
  · have : C.inner.drop s.start = s.asRemaining ++ C.inner.drop s.stop := by
      have hle := hi.wf.le
      have h1 : s.asRemaining = sub C.inner s.start s.stop := by rw [← hi.wf.inner]; rfl
      have h2 : ∀ i, C.inner.drop i = sub C.inner i C.inner.length := fun i => by simp [sub]
      rw [h1, h2, h2 s.stop, sub_append _ _ _ _ hle hi.wf.hi]
    rw [this, e]
    simp

theorem itemK_flat {k : Nat} (hN : NoItems C.inner) (hi : C.In k s) {nk : K (Located Block)} : (listItemK nk s).2 = 0 := by
  have h : (listItemK nk s).2 ≤ 0 + (0 + 0) := by
    refine K.bind_le (Nat.le_refl _) fun s1 a h1 => K.bind_le (Nat.le_refl _) fun s2 n h2 => ?_
    have hb := ok_of_run (beginningOfLine_good hi) h1
    obtain ⟨rfl, hb⟩ := hb
    obtain ⟨o, h2, -⟩ := Vw.map_inv (p := space0) h2
    have hv := In.view hi
    generalize ht : s1.asRemaining = t at hv
    obtain ⟨ws, r, rfl, hws, -, rfl, -⟩ := space0_inv hv h2
    cases hl : itemLines n (adv s1 ws.length) with
    | ok s5 remaining =>
      obtain ⟨m, hm, -, rfl⟩ := itemLines_inv hv.adv hl
      have : (listItemBodyK nk n (cut (adv s1 ws.length) m)).2 ≤ 0 := by
        unfold listItemBodyK K.located
        simp only
        rw [K.map_snd]
        refine K.bind_le (m := 0) (n := 0) (Nat.le_refl _) fun s6 a h6 => ?_
        obtain ⟨w, r', e, -, hw⟩ := listItemPrefix_inv (ty := a.1) (su := a.2) (hv.adv.take hm) h6
        exact absurd (by rw [ht, ← List.append_assoc w, ← e, List.take_append_drop]) (hN.fails hi hb hws hw (r := r' ++ r.drop m))
      rcases hk : listItemBodyK nk n (cut (adv s1 ws.length) m) with ⟨q, j⟩
      rw [hk] at this
      simp only [hk]
      cases q <;> exact this
    | _ => exact Nat.le_refl _
  omega

theorem listK_flat {k : Nat} (hN : NoItems C.inner) (hi : C.In (k + 1) s) {nk : K (Located Block)} {np : P (Located Block)}
    (he : Er nk np) : (listK nk s).2 ≤ 1 := by
  have h : ∀ f : Nat × Located ListItem → K Block, (K.bind (.deeper (listItemK nk)) f s).2 ≤ 0 := by
    intro f
    refine K.bind_le (m := 0) (n := 0) ?_ fun s1 a h1 => ?_
    · unfold K.deeper
      simp only
      split
      · exact Nat.le_refl _
      · rw [itemK_flat hN (withDepth_in hi)]
        exact Nat.le_refl _
    · exfalso
      obtain ⟨s2, h2, -⟩ := K.deeper_inv h1
      have hd := withDepth_in hi
      have h3 := (er_item he _).symm.trans h2
      obtain ⟨ws, ty, su, w, r, e, hw, hp⟩ := listItem_begins (In.view hd) h3
      obtain ⟨s4, _, h4, -⟩ := Vw.bind_inv h3
      exact hN.fails hd (ok_of_run (beginningOfLine_good hd) h4).2 hw hp e
  unfold listK K.tick K.located
  simp only
  exact Nat.add_le_add_right (h _) 1

theorem listTop_flat {k : Nat} (hN : NoItems C.inner) (hi : C.In (k + 1) s) : (listTopK C.env s).2 ≤ 1 :=
  listK_flat hN hi (er_nestedF _)

theorem lineK_flat {k : Nat} (hN : NoItems C.inner) (hi : C.In (k + 2) s) : (paraLineK C.env (listTopK C.env) s).2 ≤ 1 := by
  refine K.bind_le (m := 1) (n := 0) ?_ fun _ _ _ => Nat.le_refl _
  refine K.bind_le (m := 0) (n := 1) (Nat.le_refl _) fun s1 a h1 => K.bind_le (m := 0) (n := 1) (Nat.le_refl _) fun s2 a h2 => ?_
  obtain ⟨rfl, -⟩ := not_inv h1
  obtain ⟨rfl, -⟩ := not_inv h2
  exact K.bind_le (m := 1) (n := 0) (listTop_flat hN (k := k + 1) hi) fun _ _ _ => Nat.le_refl _

theorem linesK_flat {k n : Nat} (hN : NoItems C.inner) {as : List Inlines} :
    Loop (paraLineK C.env (listTopK C.env)) s as s' n → C.In (k + 2) s → s.start ≤ s'.start ∧ n + s.start ≤ s'.start + 1 := by
  intro h
  induction h with
  | nil _ => intro hi; have := lineK_flat hN hi; omega
  | cons h1 _ ih =>
    rename_i t t1 t' a as n h2
    intro hi
    have hr := ok_of_run (paragraphRow_ok hi (list_ok hi)) ((er_paraLine er_listTop t).symm.trans h1)
    have := ih (hi.good hr.good)
    have := lineK_flat hN hi
    have := hr.lt
    omega

theorem paragraphK_flat {k : Nat} (hN : NoItems C.inner) (hi : C.In (k + 2) s) {x : Located Block}
    (h : (paragraphK C.env (listTopK C.env) s).1 = .ok s' x) :
    s.start < s'.start ∧ (paragraphK C.env (listTopK C.env) s).2 + s.start ≤ s'.start + 1 := by
  obtain ⟨h1, e1⟩ := K.located_inv h
  unfold paragraphK
  rw [e1]
  obtain ⟨ls, h2, e2, e3⟩ := K.map_inv h1
  rw [e3]
  obtain ⟨s1, a, h0, h3, e4⟩ := K.bind_inv h2
  obtain ⟨s2, as, h4, h5, e5⟩ := K.bind_inv h3
  have h5 : Res.ok s2 (a :: as) = .ok s' ls := h5
  cases h5
  have hr := ok_of_run (paragraphRow_ok hi (list_ok hi)) ((er_paraLine er_listTop s).symm.trans h0)
  have h6 := linesK_flat hN (K.many0_inv h4) (hi.good hr.good)
  have h7 := lineK_flat hN hi
  have h8 := hr.lt
  unfold K.many1
  rw [e4, e5]
  have e6 : (K.lift (P.pure (a :: as)) s').2 = 0 := rfl
  omega

/-- The cost of a round that ends the page. -/
theorem roundK_end {k : Nat} (hN : NoItems C.inner) (hi : C.In (k + 2) s) (he : s.start = s.stop) :
    (maybeBlockK C.env s).2 ≤ 2 := by
  have hp : (paragraphK C.env (listTopK C.env) s).2 ≤ 1 := by
    unfold paragraphK K.located
    simp only
    rw [K.map_snd]
    refine K.bind_le (m := 1) (n := 0) (lineK_flat hN hi) fun s1 a h1 => ?_
    have hr := ok_of_run (paragraphRow_ok hi (list_ok hi)) ((er_paraLine er_listTop s).symm.trans h1)
    have h1 := hr.lt
    have h2 := hr.good.step.hi
    have h3 := hr.good.step.stop
    omega
  have h0 : ∀ (p : P (Located Block)) (l : K (Located Block)) {n}, (l s).2 ≤ n → (K.alt (.lift p) l s).2 ≤ n := by
    intro p l n h
    have := K.alt_le (k := .lift p) (m := 0) (Nat.le_refl _) h
    omega
  refine K.alt_le (m := 0) (n := 2) (Nat.le_refl _) ?_
  rw [K.map_snd]
  exact h0 _ _ (h0 _ _ (K.alt_le (m := 1) (n := 1) (listTop_flat hN (k := k + 1) hi) (h0 _ _ (h0 _ _ (h0 _ _ (h0 _ _
    (h0 _ _ (h0 _ _ hp))))))))

/-- The cost of a round. -/
theorem topK_flat {k : Nat} (hN : NoItems C.inner) (hi : C.In (k + 2) s) {x : Located Block}
    (h : (topLevelK C.env s).1 = .ok s' x) : (topLevelK C.env s).2 + 3 * s.start ≤ 3 * s'.start := by
  have hlt := (ok_of_run (topLevel_ok hi) ((er_topLevel s).symm.trans h)).lt
  have hl := listTop_flat hN (k := k + 1) hi
  have h0 : ∀ {p : P (Located Block)} {l : K (Located Block)} {n : Nat}, (K.alt (.lift p) l s).1 = .ok s' x →
      ((l s).1 = .ok s' x → (l s).2 ≤ n) → (K.alt (.lift p) l s).2 ≤ n := by
    intro p l n h1 h2
    rcases K.alt_inv h1 with ⟨-, e⟩ | ⟨-, h3, e⟩
    · rw [e]; exact Nat.zero_le _
    · have := h2 h3
      rw [e]
      show 0 + _ ≤ n
      omega
  have key : (topLevelK C.env s).2 ≤ 2 + (s'.start - s.start) := by
    refine h0 h fun h => h0 h fun h => ?_
    rcases K.alt_inv h with ⟨-, e⟩ | ⟨-, h3, e⟩
    · refine Nat.le_trans (Nat.le_of_eq e) ?_
      omega
    · refine Nat.le_trans (Nat.le_of_eq e) (Nat.le_trans (Nat.add_le_add hl (d := 1 + (s'.start - s.start)) ?_) ?_)
      · refine h0 h3 fun h => h0 h fun h => h0 h fun h => h0 h fun h => h0 h fun h => h0 h fun h => ?_
        have := paragraphK_flat hN hi h
        have e : (K.alts [paragraphK C.env (listTopK C.env)] s).2 = (paragraphK C.env (listTopK C.env) s).2 := rfl
        omega
      · omega
  omega

theorem roundsK_flat {n : Nat} (hN : NoItems C.inner) {es : List (Option (Located Block))} :
    Loop (maybeBlockK C.env) s es s' n → C.In 2 s → s'.start = s'.stop → n + 3 * s.start ≤ 3 * s'.start + 2 := by
  intro h
  induction h with
  | nil _ => intro hi he; have := roundK_end (k := 0) hN hi he; omega
  | cons h1 _ ih =>
    rename_i t t1 t' e es n h2
    intro hi he
    have hm := ok_of_run (maybeBlock_ok (k := 0) hi) (er_maybeBlock t ▸ h1)
    have hg : C.Good t t1 ∧ t.start < t1.start := by
      rcases hm with ⟨-, hb⟩ | ⟨x, -, hb, -⟩
      · exact ⟨hb.good, hb.lt⟩
      · exact ⟨hb.good, hb.lt⟩
    have := ih (hi.good hg.1) he
    rcases K.alt_inv h1 with ⟨h3, e3⟩ | ⟨h3, h4, e4⟩
    · have e3 : (maybeBlockK C.env t).2 = 0 := e3
      omega
    · obtain ⟨x, h5, rfl, e5⟩ := K.map_inv h4
      have hw := topK_flat (k := 0) hN hi h5
      have e4 : (maybeBlockK C.env t).2 = 0 + _ := e4
      rw [e4, e5]
      omega

theorem parsePage_flat {env : Env} {text : Str} {pg : Page} (hN : NoItems text) (h : parsePage env text = .ok s pg) :
    (parsePageK env text).2 ≤ 3 * text.length + 2 := by
  have h : (pageK env (Span.ofStr text)).1 = .ok s pg := (parsePageK_fst env text).trans h
  obtain ⟨es, h1, rfl, e1⟩ := K.map_inv h
  have h2 : (K.many0 (maybeBlockK env) (Span.ofStr text)).1 = .ok s es := by
    have h1 : P.allConsuming (fun s => (K.many0 (maybeBlockK env) s).1) (Span.ofStr text) = .ok s es := h1
    unfold P.allConsuming at h1
    cases h3 : (K.many0 (maybeBlockK env) (Span.ofStr text)).1 with
    | ok s1 a =>
      simp only [h3] at h1
      split at h1
      · exact h1
      · cases h1
    | _ => simp only [h3] at h1; cases h1
  have hin := Ctx.ofText_in env text
  obtain ⟨h3, h4, -⟩ := ok_of_run (page_ok hin (.inr (.inl rfl))) ((parsePageK_fst env text).symm.trans h)
  have : (K.many0 (maybeBlockK env) (Span.ofStr text)).2 + _ ≤ _ :=
    roundsK_flat (C := Ctx.ofText env text) hN (K.many0_inv h2) hin h3
  have e2 : (parsePageK env text).2 = _ := e1
  rw [e2]
  have h5 := h4.stop
  have h6 : (Span.ofStr text).stop = text.length := rfl
  have h7 : (Span.ofStr text).start = 0 := rfl
  refine Nat.le_trans (m := (K.many0 (maybeBlockK env) (Span.ofStr text)).2) (Nat.le_refl _) ?_
  omega

end Vw
