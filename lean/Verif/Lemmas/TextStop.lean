import Verif.Lemmas.Inline

/-!
# Where text ends

No text begins where a text ends.
-/

namespace Vw
open P Scan

/-- The input from `i` bytes further on. -/
def ahead (s : Span) (i : Nat) : Span := { s with start := s.start + i }

theorem ahead_ahead (s : Span) (i j : Nat) : ahead (ahead s i) j = ahead s (i + j) := by
  simp [ahead, Nat.add_assoc]

theorem ahead_zero (s : Span) : ahead s 0 = s := rfl

/-- The loop goes on at `s`. -/
def TextGoes (nt : P (Located Inline)) (s : Span) : Prop :=
  s.remainingLen > 0 ∧ atLineEnd s.asRemaining = false ∧ nt s = .err

theorem TextGoes.advance {nt : P (Located Inline)} {s : Span} (h : TextGoes nt s) :
    s.advanceStartBy 1 = ahead s 1 := by
  have := h.1
  rw [remainingLen_eq] at this
  unfold Span.advanceStartBy ahead
  rw [if_neg (by omega)]

theorem TextGoes.loop {nt : P (Located Inline)} {s : Span} (h : TextGoes nt s) (n l : Nat) :
    textLoop nt (n + 1) s l = textLoop nt n (ahead s 1) (l + 1) := by
  rw [textLoop, if_pos h.1, if_neg (by rw [h.2.1]; simp), h.2.2, ← h.advance]

theorem textLoop_path {nt : P (Located Inline)} : ∀ (n : Nat) (s : Span) (l : Nat) (s1 : Span) (len : Nat),
    textLoop nt n s l = .ok s1 len → ∃ j, (∀ i, i < j → TextGoes nt (ahead s i)) ∧ s1 = ahead s j ∧
      ∀ m, textLoop nt (m + 1) s1 (l + j) = .ok s1 len
  | 0, _, _, _, _, h => by cases h
  | n + 1, s, l, s1, len, h => by
    by_cases hg : TextGoes nt s
    · rw [hg.loop] at h
      obtain ⟨j, h1, h2, h3⟩ := textLoop_path n _ _ _ _ h
      refine ⟨j + 1, ?_, ?_, ?_⟩
      · intro i hi
        cases i with
        | zero => exact hg
        | succ i =>
          have := h1 i (by omega)
          rw [ahead_ahead] at this
          rwa [Nat.add_comm i 1]
      · rw [h2, ahead_ahead, Nat.add_comm 1 j]
      · intro m
        have := h3 m
        rwa [show l + (j + 1) = l + 1 + j by omega]
    · have e : ∀ m, textLoop nt (m + 1) s l = textLoop nt (n + 1) s l := by
        intro m
        rw [textLoop, textLoop]
        split
        · split
          · rfl
          · rename_i a b
            cases hn : nt s with
            | err => exact absurd ⟨a, by simpa using b, hn⟩ hg
            | _ => rfl
        · rfl
      have e1 : s1 = s := by
        rw [textLoop] at h
        split at h
        · split at h
          · cases h; rfl
          · rename_i a b
            cases hn : nt s with
            | err => exact absurd ⟨a, by simpa using b, hn⟩ hg
            | ok s2 x =>
              rw [hn] at h
              simp only at h
              split at h
              · split at h
                · cases h
                · cases h; rfl
              · cases h; rfl
            | _ => rw [hn] at h; cases h
        · cases h; rfl
      subst e1
      exact ⟨0, fun i hi => absurd hi (by omega), rfl, fun m => (e m).trans h⟩

theorem textLoop_walk {nt : P (Located Inline)} : ∀ (j n : Nat) (s : Span) (l : Nat),
    (∀ i, i < j → TextGoes nt (ahead s i)) →
    textLoop nt (j + n) s l = textLoop nt n (ahead s j) (l + j)
  | 0, n, s, l, _ => by rw [ahead_zero, Nat.zero_add, Nat.add_zero]
  | j + 1, n, s, l, h => by
    have h0 : TextGoes nt s := h 0 (by omega)
    rw [show j + 1 + n = (j + n) + 1 by omega, h0.loop,
      textLoop_walk j n (ahead s 1) (l + 1) (fun i hi => by
        rw [ahead_ahead, Nat.add_comm]; exact h (i + 1) (by omega)), ahead_ahead,
      Nat.add_comm 1 j, show l + (j + 1) = l + 1 + j by omega]

/-- Where the loop ends it goes back by the same number of bytes, however long the text is. -/
theorem textLoop_back {nt : P (Located Inline)} {s : Span} {l len : Nat}
    (h : ∀ m, textLoop nt (m + 1) s l = .ok s len) :
    ∃ k, k ≤ l ∧ len = l - k ∧ ∀ l' m, k ≤ l' → textLoop nt (m + 1) s l' = .ok s (l' - k) := by
  have h0 := h 0
  rw [textLoop] at h0
  split at h0
  · rename_i a
    split at h0
    · rename_i b
      cases h0
      exact ⟨0, Nat.zero_le _, rfl, fun l' m _ => by rw [textLoop, if_pos a, if_pos b]; rfl⟩
    · rename_i b
      cases hn : nt s with
      | err => rw [hn] at h0; simp only [textLoop] at h0; cases h0
      | ok s2 x =>
        rw [hn] at h0
        simp only at h0
        split at h0
        · rename_i c
          split at h0
          · cases h0
          · rename_i d
            cases h0
            refine ⟨s.start - x.region.offset, by omega, rfl, fun l' m hl => ?_⟩
            rw [textLoop, if_pos a, if_neg b, hn]
            simp only
            rw [if_pos c, if_neg (by omega)]
        · rename_i c
          cases h0
          refine ⟨0, Nat.zero_le _, rfl, fun l' m hl => ?_⟩
          rw [textLoop, if_pos a, if_neg b, hn]
          simp only
          rw [if_neg c]
          rfl
      | _ => rw [hn] at h0; cases h0
  · rename_i a
    cases h0
    exact ⟨0, Nat.zero_le _, rfl, fun l' m _ => by rw [textLoop, if_neg a]; rfl⟩

/-- No text begins where a text ends. -/
theorem textOf_ends {env : Env} {deco : P (Located Inline)} {s s' : Span} {x : Located Inline}
    (h : textOf env deco s = .ok s' x) : textOf env deco s' = .err := by
  unfold textOf located at h
  simp only at h
  cases hl : textLoop (nonTextOf env deco) (s.remainingLen + 1) s 0 with
  | ok s1 len =>
    rw [hl] at h
    simp only at h
    by_cases hp : len > 0
    · rw [if_pos hp] at h
      simp only at h
      have hs' : s' = s.advanceStartBy len := by
        split at h
        · cases h
        · cases h; rfl
      obtain ⟨j, h1, h2, h3⟩ := textLoop_path _ _ _ _ _ hl
      rw [Nat.zero_add] at h3
      obtain ⟨k, k1, k2, k3⟩ := textLoop_back h3
      have hj := (h1 (j - 1) (by omega)).1
      rw [remainingLen_eq] at hj
      simp only [ahead] at hj
      have e : s' = ahead s len := by
        rw [hs']
        unfold Span.advanceStartBy ahead
        rw [if_neg (by omega)]
      have hloop : textLoop (nonTextOf env deco) (s'.remainingLen + 1) s' 0 = .ok s1 0 := by
        have hr : k ≤ s'.remainingLen := by
          rw [remainingLen_eq, e]
          simp only [ahead]
          omega
        rw [show s'.remainingLen + 1 = k + (s'.remainingLen - k + 1) by omega,
          textLoop_walk k _ s' 0 (fun i hi => by
            rw [e, ahead_ahead]; exact h1 _ (by omega)), e, ahead_ahead,
          show len + k = j by omega, ← h2, k3 _ _ (by omega)]
        simp
      unfold textOf located
      simp only
      rw [hloop]
      simp
    · rw [if_neg hp] at h; cases h
  | _ => rw [hl] at h; cases h

/-! ## The parsers of other elements -/

/-- No text comes out of the parser. -/
def NoText (p : P Inline) : Prop := ∀ s s' x, p s = .ok s' x → ∀ t, x ≠ .text t

/-- No text comes out of the parser. -/
def NoTextL (p : P (Located Inline)) : Prop := ∀ s s' x, p s = .ok s' x → ∀ t, x.inner ≠ .text t

theorem NoText.map {α : Type} {p : P α} {f : α → Inline} (h : ∀ a t, f a ≠ .text t) : NoText (P.map p f) := by
  intro s s' x hx t
  unfold P.map at hx
  cases hp : p s with
  | ok s1 a => rw [hp] at hx; cases hx; exact h a t
  | _ => rw [hp] at hx; cases hx

theorem NoText.value {α : Type} {p : P α} {v : Inline} (h : ∀ t, v ≠ .text t) : NoText (P.value v p) := by
  intro s s' x hx t
  unfold P.value P.map at hx
  cases hp : p s with
  | ok s1 a => rw [hp] at hx; cases hx; exact h t
  | _ => rw [hp] at hx; cases hx

theorem NoText.bind {α : Type} {p : P α} {f : α → P Inline} (h : ∀ a, NoText (f a)) : NoText (P.bind p f) := by
  intro s s' x hx t
  unfold P.bind at hx
  cases hp : p s with
  | ok s1 a => rw [hp] at hx; exact h a _ _ _ hx t
  | _ => rw [hp] at hx; cases hx

theorem NoText.pure {v : Inline} (h : ∀ t, v ≠ .text t) : NoText (P.pure v) := by
  intro s s' x hx t
  cases hx
  exact h t

theorem NoText.mapParser {q : P Span} {p : P Inline} (h : NoText p) : NoText (P.mapParser q p) := by
  intro s s' x hx t
  unfold P.mapParser at hx
  cases hp : q s with
  | ok s1 o =>
    rw [hp] at hx
    simp only at hx
    cases ho : p o with
    | ok o1 y => rw [ho] at hx; cases hx; exact h _ _ _ ho t
    | _ => rw [ho] at hx; cases hx
  | _ => rw [hp] at hx; cases hx

theorem NoText.alt {p q : P Inline} (h : NoText p) (h' : NoText q) : NoText (P.alt p q) := by
  intro s s' x hx t
  unfold P.alt at hx
  cases hp : p s with
  | ok s1 a => rw [hp] at hx; cases hx; exact h _ _ _ hp t
  | err => rw [hp] at hx; exact h' _ _ _ hx t
  | _ => rw [hp] at hx; cases hx

theorem NoText.located {p : P Inline} (h : NoText p) : NoTextL (Scan.located p) := by
  intro s s' x hx t
  unfold Scan.located at hx
  cases hp : p s with
  | ok s1 a =>
    rw [hp] at hx
    simp only at hx
    split at hx
    · cases hx
    · cases hx; exact h _ _ _ hp t
  | _ => rw [hp] at hx; cases hx

theorem NoTextL.alt {p q : P (Located Inline)} (h : NoTextL p) (h' : NoTextL q) : NoTextL (P.alt p q) := by
  intro s s' x hx t
  unfold P.alt at hx
  cases hp : p s with
  | ok s1 a => rw [hp] at hx; cases hx; exact h _ _ _ hp t
  | err => rw [hp] at hx; exact h' _ _ _ hx t
  | _ => rw [hp] at hx; cases hx

theorem comment_noText : NoTextL comment := by
  refine .alt (NoText.located ?_) (NoText.located ?_)
  · exact .bind fun _ => .bind fun _ => .bind fun _ => .pure (by simp)
  · exact .bind fun _ => .map (by simp)

theorem codeInline_noText : NoTextL codeInline := NoText.located (.map (by simp))

theorem mathInline_noText : NoTextL mathInline := NoText.located (.map (by simp))

theorem tags_noText : NoTextL tags := NoText.located (.map (by simp))

theorem keyword_noText : NoTextL keyword :=
  NoText.located (.alt (.value (by simp)) (.alt (.value (by simp)) (.alt (.value (by simp))
    (.alt (.value (by simp)) (.alt (.value (by simp)) (.value (by simp)))))))

theorem decoratedOf_noText (c : P Inlines) : NoTextL (decoratedOf c) :=
  NoText.located (.alt (.map (by simp)) (.alt (.map (by simp)) (.alt (.map (by simp))
    (.alt (.map (by simp)) (.map (by simp))))))

theorem link_noText (env : Env) : NoTextL (link env) := by
  have hp : ∀ l t, Inline.link l ≠ .text t := by simp
  refine NoTextL.alt (NoText.located (.mapParser (.bind fun _ => .bind fun _ => .bind fun _ => .bind fun _ => ?_)))
    (NoTextL.alt (NoText.located (.mapParser (.bind fun _ => .bind fun _ => .bind fun _ => .pure (hp _))))
    (NoTextL.alt (NoText.located (.mapParser (.bind fun _ => .bind fun _ => .bind fun _ => .pure (hp _))))
    (NoTextL.alt (NoText.located (.map (fun _ => hp _)))
    (NoTextL.alt (NoText.located (.map (fun _ => hp _))) ?_))))
  · intro s s' x hx t
    unfold newDiaryLink at hx
    split at hx
    · cases hx; simp
    · cases hx
  · intro s s' x hx t
    replace hx : transclusionLink env s = .ok s' x := hx
    unfold transclusionLink P.map at hx
    cases hp : transclusionOf (linkData env) s with
    | ok s1 a => rw [hp] at hx; cases hx; simp [Located.map]
    | _ => rw [hp] at hx; cases hx

/-- Where a row goes on with a text, its parser does not fail. -/
def TextAhead (p : P (Located Inline)) (s : Span) (xs : Inlines) : Prop :=
  ∀ y ∈ xs.head?, ∀ t, y.inner = .text t → p s ≠ .err

theorem alts_ok {α} {ps : List (P α)} {s s' : Span} {x : α} (h : P.alts ps s = .ok s' x) :
    ∃ p ∈ ps, p s = .ok s' x := by
  induction ps with
  | nil => simp [P.alts, P.fail] at h
  | cons p ps ih =>
    cases ps with
    | nil => exact ⟨p, by simp, h⟩
    | cons q qs =>
      simp only [P.alts] at h
      unfold P.alt at h
      cases hp : p s with
      | err =>
        rw [hp] at h
        obtain ⟨r, hr, hrs⟩ := ih h
        exact ⟨r, List.mem_cons_of_mem _ hr, hrs⟩
      | _ => rw [hp] at h; exact ⟨p, by simp, by rw [hp]; exact h⟩

theorem decoContents_text {env : Env} {deco : P (Located Inline)} {s s' : Span} {x : Located Inline}
    (hd : NoTextL deco) (h : P.alts [link env, keyword, deco, textOf env deco] s = .ok s' x) {t : Str}
    (hx : x.inner = .text t) : textOf env deco s = .ok s' x := by
  obtain ⟨p, hp, h1⟩ := alts_ok h
  simp only [List.mem_cons, List.not_mem_nil, or_false] at hp
  rcases hp with rfl | rfl | rfl | rfl
  · exact absurd hx (link_noText env _ _ _ h1 t)
  · exact absurd hx (keyword_noText _ _ _ h1 t)
  · exact absurd hx (hd _ _ _ h1 t)
  · exact h1

/-- A row that begins with an element that was read. -/
theorem textAhead_cons {p : P (Located Inline)} {s s' : Span} {x : Located Inline} {xs : Inlines}
    (h : ∀ t, x.inner = .text t → p s = .ok s' x) : TextAhead p s (x :: xs) := by
  intro y hy t ht
  cases hy
  rw [h t ht]
  simp

theorem textAhead_nil {p : P (Located Inline)} {s : Span} : TextAhead p s [] := by
  intro y hy
  cases hy

theorem inlineElement_text {env : Env} {s s' : Span} {x : Located Inline}
    (h : inlineElement env s = .ok s' x) {t : Str} (hx : x.inner = .text t) : text env s = .ok s' x := by
  obtain ⟨p, hp, h⟩ := alts_ok h
  simp only [List.mem_cons, List.not_mem_nil, or_false] at hp
  rcases hp with rfl | rfl | rfl | rfl | rfl | rfl | rfl | rfl
  · exact absurd hx (comment_noText _ _ _ h t)
  · exact absurd hx (mathInline_noText _ _ _ h t)
  · exact absurd hx (codeInline_noText _ _ _ h t)
  · exact absurd hx (tags_noText _ _ _ h t)
  · exact absurd hx (link_noText env _ _ _ h t)
  · exact absurd hx (decoratedOf_noText _ _ _ _ h t)
  · exact absurd hx (keyword_noText _ _ _ h t)
  · exact h

/-- A text is not followed by what its parser reads. -/
theorem lone_of {env : Env} {deco : P (Located Inline)} {s s' : Span} {x : Located Inline} {xs : Inlines}
    (h : ∀ t, x.inner = .text t → textOf env deco s = .ok s' x) (ha : TextAhead (textOf env deco) s' xs) :
    Lone x.inner xs := by
  intro t ht y hy t' ht'
  exact ha y hy t' ht' (textOf_ends (h t ht))

end Vw
