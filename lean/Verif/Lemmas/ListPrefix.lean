import Verif.Lemmas.Run
import Verif.Model.Blocks
import Verif.Spec.Lists

/-!
# List item prefixes
-/

namespace Vw
open P Scan

variable {s s' : Span} {w r t : Str}

theorem many0_satisfy_run {f : Byte → Bool} (hr : ∀ x, r.head? = some x → f x = false) :
    ∀ (w : Str) (fuel : Nat) (s : Span), w.length < fuel → View s (w ++ r) → (∀ x ∈ w, f x = true) →
      many0Loop (satisfy f) fuel s = .ok (adv s w.length) w := by
  intro w
  induction w with
  | nil =>
    intro fuel s hf h _
    cases fuel with
    | zero => simp at hf
    | succ n => simp only [many0Loop, satisfy_run_err h hr]; simp [adv]
  | cons x w ih =>
    intro fuel s hf h hw
    cases fuel with
    | zero => simp at hf
    | succ n =>
      have h1 : View (adv s 1) (w ++ r) := View.adv (w := [x]) h
      have := ih n (adv s 1) (by simp at hf; omega) h1 (fun y hy => hw y (by simp [hy]))
      simp only [many0Loop, satisfy_run (f := f) h (hw x (by simp)), this]
      rw [if_neg (by intro e; have := congrArg Span.start e; simp [adv] at this)]
      simp [Nat.add_comm]

theorem many1_satisfy_run {f : Byte → Bool} (h : View s (w ++ r)) (hn : w ≠ [])
    (hw : ∀ x ∈ w, f x = true) (hr : ∀ x, r.head? = some x → f x = false) :
    many1 (satisfy f) s = .ok (adv s w.length) w := by
  cases w with
  | nil => exact absurd rfl hn
  | cons x w =>
    have h1 : View (adv s 1) (w ++ r) := View.adv (w := [x]) h
    unfold many1
    rw [bind_ok (satisfy_run (f := f) h (hw x (by simp)))]
    have : many0 (satisfy f) (adv s 1) = .ok (adv (adv s 1) w.length) w := by
      refine many0_satisfy_run hr w _ _ ?_ h1 (fun y hy => hw y (by simp [hy]))
      have e : (adv s 1).remainingLen = (w ++ r).length := by
        exact h1.remLen
      rw [e]; simp; omega
    rw [bind_ok this]
    simp [P.pure, Nat.add_comm]

theorem many1_satisfy_err {f : Byte → Bool} (h : View s t)
    (hr : ∀ x, t.head? = some x → f x = false) : many1 (satisfy f) s = .err := by
  unfold many1
  exact bind_er (satisfy_run_err h hr)

theorem takeWhile1_run_err {f : Byte → Bool} (h : View s t)
    (hr : ∀ x, t.head? = some x → f x = false) : takeWhile1 f s = .err := by
  unfold takeWhile1
  rw [h.rem, if_pos]
  cases t with
  | nil => rfl
  | cons x t => simp [hr x rfl]

theorem head_false {f : Byte → Bool} {x : Byte} (hx : f x = false) :
    ∀ y, (x :: t).head? = some y → f y = false := by
  intro y hy
  simp at hy
  rw [← hy]; exact hx

theorem value_ok {α β} {p : P α} {v : β} {a : α} (h : p s = .ok s' a) :
    P.value v p s = .ok s' v := map_ok h

theorem value_er {α β} {p : P α} {v : β} (h : p s = .err) : P.value v p s = .err := map_er h

/-- A word of a type, at the start of the rest, is recognised as that type. -/
theorem orderedType_run {ty : ItemType} (hw : NumberWord w r ty) (h : View s (w ++ r)) :
    orderedType s = .ok (adv s w.length) ty := by
  have conv : ∀ {f : Byte → Prop} {g : Byte → Bool}, (∀ x, g x = true ↔ f x) → RunOf f w r →
      w ≠ [] ∧ (∀ x ∈ w, g x = true) ∧ ∀ x, r.head? = some x → g x = false := by
    intro f g e ⟨h1, h2, h3⟩
    refine ⟨h1, fun x hx => (e x).2 (h2 x hx), fun x hx => ?_⟩
    have := h3 x hx
    rw [← e] at this
    simpa using this
  have hd : ∀ x, isDigit x = true ↔ DigitByte x := by intro x; simp [isDigit, DigitByte]
  have hl : ∀ x, isLower x = true ↔ LowerByte x := by intro x; simp [isLower, LowerByte]
  have hu : ∀ x, isUpper x = true ↔ UpperByte x := by intro x; simp [isUpper, UpperByte]
  have hlr : ∀ x, (b!"ivxlcdm").contains x = true ↔ LowerRomanByte x := by
    intro x; simp [LowerRomanByte]
  have hur : ∀ x, (b!"IVXLEDM").contains x = true ↔ UpperRomanByte x := by
    intro x; simp [UpperRomanByte]
  cases w with
  | nil => cases ty <;> simp [NumberWord, RunOf] at hw
  | cons x w =>
    have nd : ¬ DigitByte x → P.value ItemType.number digit1 s = .err := fun hx =>
      map_er (takeWhile1_run_err h (head_false (by rw [← hd] at hx; simpa using hx)))
    have nlr : ¬ LowerRomanByte x →
        P.value ItemType.lowerRoman (many1 (oneOf b!"ivxlcdm")) s = .err := fun hx =>
      map_er (many1_satisfy_err h (head_false (f := (b!"ivxlcdm").contains) (by
        rw [← hlr] at hx; simpa using hx)))
    have nur : ¬ UpperRomanByte x →
        P.value ItemType.upperRoman (many1 (oneOf b!"IVXLEDM")) s = .err := fun hx =>
      map_er (many1_satisfy_err h (head_false (f := (b!"IVXLEDM").contains) (by
        rw [← hur] at hx; simpa using hx)))
    have nl : ¬ LowerByte x → P.value ItemType.lowerAlpha (takeWhile1 isLower) s = .err :=
      fun hx => map_er (takeWhile1_run_err h (head_false (by rw [← hl] at hx; simpa using hx)))
    have lr97 : ∀ {x}, LowerRomanByte x → 97 ≤ x := by
      intro x hx; simp [LowerRomanByte] at hx; omega
    have ur65 : ∀ {x}, UpperRomanByte x → 65 ≤ x ∧ x ≤ 90 := by
      intro x hx; simp [UpperRomanByte] at hx; omega
    unfold orderedType
    cases ty <;> simp only [NumberWord] at hw
    · obtain ⟨h1, h2, h3⟩ := conv hd hw
      exact alts_fst (map_ok (takeWhile1_run h h1 h2 h3))
    · have gl := hw.1.2.1 x (by simp)
      have gx := hw.2
      obtain ⟨h1, h2, h3⟩ := conv hl hw.1
      rw [alts_er (nd (by simp [DigitByte, LowerByte] at *; omega)), alts_er (nlr (gx x rfl)),
        alts_er (nur (by intro e; have := ur65 e; simp [LowerByte] at gl; omega))]
      exact alts_fst (map_ok (takeWhile1_run h h1 h2 h3))
    · have gl := hw.1.2.1 x (by simp)
      have gx := hw.2
      obtain ⟨h1, h2, h3⟩ := conv hu hw.1
      rw [alts_er (nd (by simp [DigitByte, UpperByte] at *; omega)),
        alts_er (nlr (by intro e; have := lr97 e; simp [UpperByte] at gl; omega)),
        alts_er (nur (gx x rfl)), alts_er (nl (by simp [LowerByte, UpperByte] at *; omega))]
      exact map_ok (takeWhile1_run h h1 h2 h3)
    · have gl := hw.2.1 x (by simp)
      obtain ⟨h1, h2, h3⟩ := conv hlr hw
      rw [alts_er (nd (by have := lr97 gl; simp [DigitByte] at *; omega))]
      exact alts_fst (map_ok (many1_satisfy_run h h1 h2 h3))
    · have gl := hw.2.1 x (by simp)
      obtain ⟨h1, h2, h3⟩ := conv hur hw
      rw [alts_er (nd (by have := ur65 gl; simp [DigitByte] at *; omega)),
        alts_er (nlr (by intro e; have := lr97 e; have := ur65 gl; omega))]
      exact alts_fst (map_ok (many1_satisfy_run h h1 h2 h3))

/-- Every rest begins with a word of some type or is rejected. -/
theorem orderedType_cases (h : View s t) :
    (∃ w r ty, t = w ++ r ∧ NumberWord w r ty) ∨ orderedType s = .err := by
  have key : ∀ (f : Byte → Bool) (x : Byte) (u : Str), f x = true →
      ∃ w r, x :: u = w ++ r ∧ w.head? = some x ∧ w ≠ [] ∧ (∀ y ∈ w, f y = true) ∧
        ∀ y, r.head? = some y → ¬ f y = true := by
    intro f x u hx
    obtain ⟨w, r, rfl, h1, h2⟩ := while_exists f u
    exact ⟨x :: w, r, rfl, rfl, by simp, by simpa [hx] using h1, by simpa using h2⟩
  cases t with
  | nil =>
    right
    unfold orderedType
    rw [alts_er (value_er (p := digit1) (takeWhile1_run_err h (by simp))),
      alts_er (value_er (p := many1 (oneOf b!"ivxlcdm")) (many1_satisfy_err h (by simp))),
      alts_er (value_er (p := many1 (oneOf b!"IVXLEDM")) (many1_satisfy_err h (by simp))),
      alts_er (value_er (takeWhile1_run_err h (by simp)))]
    exact value_er (takeWhile1_run_err h (by simp))
  | cons x u =>
    by_cases hd : isDigit x = true
    · obtain ⟨w, r, e, _, h1, h2, h3⟩ := key _ x u hd
      exact .inl ⟨w, r, .number, e, h1, by simpa [isDigit, DigitByte] using h2,
        by simpa [isDigit, DigitByte] using h3⟩
    by_cases hlr : (b!"ivxlcdm").contains x = true
    · obtain ⟨w, r, e, _, h1, h2, h3⟩ := key _ x u hlr
      exact .inl ⟨w, r, .lowerRoman, e, h1, by simpa [LowerRomanByte] using h2,
        by simpa [LowerRomanByte] using h3⟩
    by_cases hur : (b!"IVXLEDM").contains x = true
    · obtain ⟨w, r, e, _, h1, h2, h3⟩ := key _ x u hur
      exact .inl ⟨w, r, .upperRoman, e, h1, by simpa [UpperRomanByte] using h2,
        by simpa [UpperRomanByte] using h3⟩
    by_cases hl : isLower x = true
    · obtain ⟨w, r, e, hx, h1, h2, h3⟩ := key _ x u hl
      refine .inl ⟨w, r, .lowerAlpha, e, ⟨h1, by simpa [isLower, LowerByte] using h2,
        by simpa [isLower, LowerByte] using h3⟩, ?_⟩
      intro y hy
      rw [hx] at hy
      cases hy
      simpa [LowerRomanByte] using hlr
    by_cases hu : isUpper x = true
    · obtain ⟨w, r, e, hx, h1, h2, h3⟩ := key _ x u hu
      refine .inl ⟨w, r, .upperAlpha, e, ⟨h1, by simpa [isUpper, UpperByte] using h2,
        by simpa [isUpper, UpperByte] using h3⟩, ?_⟩
      intro y hy
      rw [hx] at hy
      cases hy
      simpa [UpperRomanByte] using hur
    right
    unfold orderedType
    rw [alts_er (value_er (p := digit1) (takeWhile1_run_err h (head_false (by simpa using hd)))),
      alts_er (value_er (p := many1 (oneOf b!"ivxlcdm")) (many1_satisfy_err h
        (head_false (by simpa using hlr)))),
      alts_er (value_er (p := many1 (oneOf b!"IVXLEDM")) (many1_satisfy_err h
        (head_false (by simpa using hur)))),
      alts_er (value_er (takeWhile1_run_err h (head_false (by simpa using hl))))]
    exact value_er (takeWhile1_run_err h (head_false (by simpa using hu)))

theorem prefix_absurd {a b : Byte} {u v : Str} (h : a ≠ b) : ¬ a :: u <+: b :: v := by
  rintro ⟨x, e⟩
  simp at e
  exact h e.1

/-- The accepted prefixes, exactly. -/
theorem listItemPrefix_run {ty : ItemType} {su : Suffix} (hw : PrefixText ty su w)
    (h : View s (w ++ r)) : listItemPrefix s = .ok (adv s w.length) (ty, su) := by
  have word : ∀ {w r : Str}, NumberWord w r ty → ∃ x u, w = x :: u ∧ (48 ≤ x) := by
    intro w r hw
    cases w with
    | nil => cases ty <;> simp [NumberWord, RunOf] at hw
    | cons x u =>
      refine ⟨x, u, rfl, ?_⟩
      cases ty <;> simp only [NumberWord] at hw
      · have := hw.2.1 x (by simp); simp [DigitByte] at this; omega
      · have := hw.1.2.1 x (by simp); simp [LowerByte] at this; omega
      · have := hw.1.2.1 x (by simp); simp [UpperByte] at this; omega
      · have := hw.2.1 x (by simp); simp [LowerRomanByte] at this; omega
      · have := hw.2.1 x (by simp); simp [UpperRomanByte] at this; omega
  have ext : ∀ {w q : Str} {c : Byte}, NumberWord w (c :: q) ty → NumberWord w (c :: q ++ r) ty := by
    intro w q c h
    cases ty <;> simp [NumberWord, RunOf] at h ⊢ <;> exact h
  unfold listItemPrefix
  cases hw with
  | hyphen => exact alts_fst (map_ok (tag_run h))
  | asterisk =>
    rw [alts_er (value_er (tag_run_err (w := b!"- ") h (prefix_absurd (by decide))))]
    exact alts_fst (map_ok (tag_run h))
  | pound =>
    have e : orderedType s = .err := by
      rcases orderedType_cases h with ⟨w, r', ty, e, hw⟩ | e
      · exfalso
        cases w with
        | nil => cases ty <;> simp [NumberWord, RunOf] at hw
        | cons x u =>
          simp at e
          obtain ⟨rfl, -⟩ := e
          cases ty <;> simp [NumberWord, RunOf, DigitByte, LowerByte, UpperByte, LowerRomanByte,
            UpperRomanByte] at hw
      · exact e
    rw [alts_er (value_er (tag_run_err (w := b!"- ") h (prefix_absurd (by decide)))),
      alts_er (value_er (tag_run_err (w := b!"* ") h (prefix_absurd (by decide)))), alts_er (p := P.pair orderedType _) (bind_er e)]
    have h1 : View s (b!"#" ++ (b!" " ++ r)) := h
    have h2 := h1.adv
    refine (bind_ok (map_ok (tag_run h1))).trans ((bind_ok (map_ok (tag_run h2))).trans ?_)
    simp [P.pure]
  | @period _ v hv =>
    obtain ⟨x, u, rfl, hx⟩ := word hv
    rw [List.append_assoc] at h
    rw [alts_er (value_er (tag_run_err (w := b!"- ") h (prefix_absurd (by omega)))),
      alts_er (value_er (tag_run_err (w := b!"* ") h (prefix_absurd (by omega))))]
    refine alts_fst ((bind_ok (orderedType_run (ext hv) h)).trans
      ((bind_ok (alt_ok (map_ok (tag_run h.adv)))).trans ?_))
    simp [P.pure]
  | @paren _ v hv =>
    obtain ⟨x, u, rfl, hx⟩ := word hv
    rw [List.append_assoc] at h
    rw [alts_er (value_er (tag_run_err (w := b!"- ") h (prefix_absurd (by omega)))),
      alts_er (value_er (tag_run_err (w := b!"* ") h (prefix_absurd (by omega))))]
    refine alts_fst ((bind_ok (orderedType_run (ext hv) h)).trans
      ((bind_ok ((alt_er (map_er (tag_run_err h.adv (prefix_absurd (by decide))))).trans
        (map_ok (tag_run h.adv)))).trans ?_))
    simp [P.pure]

theorem listItemPrefix_inv {ty : ItemType} {su : Suffix} (h : View s t)
    (he : listItemPrefix s = .ok s' (ty, su)) :
    ∃ w r, t = w ++ r ∧ s' = adv s w.length ∧ PrefixText ty su w := by
  have tg : ∀ {q : Str} {α} {v a : α} {s s' : Span} {t : Str}, View s t →
      P.value v (tag q) s = .ok s' a → (∃ r, t = q ++ r) ∧ s' = adv s q.length ∧ a = v := by
    intro q α v a s s' t h he
    by_cases hp : q <+: t
    · obtain ⟨r, rfl⟩ := hp
      rw [show P.value v (tag q) s = _ from map_ok (tag_run h)] at he
      cases he
      exact ⟨⟨r, rfl⟩, rfl, rfl⟩
    · rw [show P.value v (tag q) s = _ from map_er (tag_run_err h hp)] at he
      cases he
  unfold listItemPrefix at he
  rcases alts_cons_inv he with he | ⟨-, he⟩
  · obtain ⟨⟨r, rfl⟩, rfl, e⟩ := tg h he
    cases e
    exact ⟨_, r, rfl, rfl, .hyphen⟩
  rcases alts_cons_inv he with he | ⟨-, he⟩
  · obtain ⟨⟨r, rfl⟩, rfl, e⟩ := tg h he
    cases e
    exact ⟨_, r, rfl, rfl, .asterisk⟩
  rcases alts_cons_inv he with he | ⟨-, he⟩
  · obtain ⟨s1, ty', h1, he⟩ := bind_inv he
    obtain ⟨s2, su', h2, he⟩ := bind_inv he
    cases he
    rcases orderedType_cases h with ⟨w, r, ty2, rfl, hw⟩ | e
    · rw [orderedType_run hw h] at h1
      cases h1
      rcases alt_inv h2 with h2 | ⟨-, h2⟩
      · obtain ⟨⟨r', rfl⟩, rfl, rfl⟩ := tg h.adv h2
        exact ⟨w ++ b!". ", r', by simp, by simp, .period (by
          cases ty <;> simp [NumberWord, RunOf] at hw ⊢ <;> exact hw)⟩
      · obtain ⟨⟨r', rfl⟩, rfl, rfl⟩ := tg h.adv h2
        exact ⟨w ++ b!") ", r', by simp, by simp, .paren (by
          cases ty <;> simp [NumberWord, RunOf] at hw ⊢ <;> exact hw)⟩
    · rw [e] at h1; cases h1
  · have he : P.pair (P.value ItemType.pound (tag b!"#")) (P.value Suffix.none (tag b!" ")) s =
      .ok s' (ty, su) := he
    obtain ⟨s1, ty', h1, he⟩ := bind_inv he
    obtain ⟨s2, su', h2, he⟩ := bind_inv he
    cases he
    obtain ⟨⟨r, rfl⟩, rfl, rfl⟩ := tg h h1
    obtain ⟨⟨r', rfl⟩, rfl, rfl⟩ := tg h.adv h2
    exact ⟨b!"# ", r', rfl, rfl, .pound⟩

end Vw
