import Verif.Lemmas.CrlfComb

/-!
# Scanning a text with other line endings
-/

namespace Vw
open P Scan
open Mv (All Opt Both)

/-- Bytes a pattern may have. -/
def Plain2 (pat : Str) : Prop := 10 ∉ pat ∧ 13 ∉ pat

instance (pat : Str) : Decidable (Plain2 pat) := inferInstanceAs (Decidable (_ ∧ _))

theorem prefix_crlf : ∀ {pat : Str}, Plain2 pat → ∀ u : Str, pat.isPrefixOf (crlf u) = pat.isPrefixOf u
  | [], _, _ => by simp
  | _ :: _, _, [] => rfl
  | p :: pat, h, b :: u => by
    have h1 : p ≠ 10 := fun e => h.1 (by simp [e])
    have h2 : p ≠ 13 := fun e => h.2 (by simp [e])
    have h3 : Plain2 pat := ⟨fun e => h.1 (by simp [e]), fun e => h.2 (by simp [e])⟩
    by_cases hb : b = 10
    · subst hb
      have e1 : (p == 10) = false := by simpa using h1
      have e2 : (p == 13) = false := by simpa using h2
      rw [crlf_cons_nl]
      simp only [List.isPrefixOf, e1, e2, Bool.false_and]
    · rw [crlf_cons_ne hb]
      simp only [List.isPrefixOf, prefix_crlf h3 u]

theorem takeWhile_crlf {f : Byte → Bool} (h1 : f 10 = false) (h2 : f 13 = false) (u : Str) :
    (crlf u).takeWhile f = u.takeWhile f := by
  induction u with
  | nil => rfl
  | cons b u ih =>
    by_cases hb : b = 10
    · subst hb
      rw [crlf_cons_nl]
      simp only [List.takeWhile_cons, h1, h2, Bool.false_eq_true, if_false]
    · rw [crlf_cons_ne hb, List.takeWhile_cons, List.takeWhile_cons, ih]

/-- A text up to its first newline. -/
theorem line_split (u : Str) : ∃ l, 10 ∉ l ∧ (u = l ∨ ∃ r, u = l ++ 10 :: r) := by
  induction u with
  | nil => exact ⟨[], by simp, .inl rfl⟩
  | cons b u ih =>
    by_cases hb : b = 10
    · subst hb
      exact ⟨[], by simp, .inr ⟨u, rfl⟩⟩
    · obtain ⟨l, h1, h2⟩ := ih
      refine ⟨b :: l, by
        simp only [List.mem_cons, not_or]
        exact ⟨fun e => hb e.symm, h1⟩, ?_⟩
      rcases h2 with e | ⟨r, e⟩
      · exact .inl (by rw [e])
      · exact .inr ⟨r, by rw [e]; rfl⟩

theorem crlf_split {l : Str} (h : 10 ∉ l) (r : Str) : crlf (l ++ 10 :: r) = l ++ 13 :: 10 :: crlf r := by
  rw [crlf_append, crlf_line h, crlf_cons_nl]

theorem matchesAt_eq (b : Str) (n : Nat) (pat : Str) : matchesAt b n pat = pat.isPrefixOf (b.drop n) := by
  rw [Bool.eq_iff_iff, List.isPrefixOf_iff_prefix, List.prefix_iff_eq_take]
  unfold matchesAt
  rw [beq_iff_eq]
  exact eq_comm

theorem prefix_stop {c : Byte} {r : Str} : ∀ {pat : Str} (v : Str), c ∉ pat → pat.isPrefixOf (v ++ c :: r) = pat.isPrefixOf v
  | [], _, _ => by simp
  | p :: pat, [], h => by
    have : p ≠ c := fun e => h (by simp [e])
    simp [List.isPrefixOf, this]
  | p :: pat, b :: v, h => by
    have h' : c ∉ pat := fun e => h (List.mem_cons_of_mem _ e)
    simp only [List.cons_append, List.isPrefixOf, prefix_stop (r := r) v h']

theorem matchesAt_line {c : Byte} {l r : Str} {n : Nat} {pat : Str} (hn : n ≤ l.length) (hc : c ∉ pat) :
    matchesAt (l ++ c :: r) n pat = pat.isPrefixOf (l.drop n) := by
  rw [matchesAt_eq, List.drop_append_of_le_length hn, prefix_stop _ hc]

theorem memchrIterFrom_app (p : Byte → Bool) : ∀ (l : Str) (base : Nat) (r : Str),
    memchrIterFrom base p (l ++ r) = memchrIterFrom base p l ++ memchrIterFrom (base + l.length) p r
  | [], _, _ => rfl
  | b :: l, base, r => by
    simp only [List.cons_append, memchrIterFrom, memchrIterFrom_app p l, List.length_cons]
    rw [show base + 1 + l.length = base + (l.length + 1) by omega]
    split <;> rfl

theorem memchrIterFrom_within (p : Byte → Bool) : ∀ (l : Str) (base : Nat), ∀ x ∈ memchrIterFrom base p l,
    base ≤ x ∧ x < base + l.length
  | [], _, _, h => by cases h
  | b :: l, base, x, h => by
    simp only [memchrIterFrom] at h
    have ih := memchrIterFrom_within p l (base + 1) x
    simp only [List.length_cons]
    split at h
    · rcases List.mem_cons.1 h with e | h
      · omega
      · have := ih h; omega
    · have := ih h; omega

theorem memchr_nl {l : Str} (h : 10 ∉ l) (r : Str) : memchr (· == 10) (l ++ 10 :: r) = some l.length := by
  unfold memchr
  induction l with
  | nil => rw [List.nil_append, List.findIdx?_cons]; rfl
  | cons b l ih =>
    simp only [List.mem_cons, not_or] at h
    have hb : (b == 10) = false := by simpa using fun e => h.1 (Eq.symm e)
    rw [List.cons_append, List.findIdx?_cons, hb, ih h.2]
    rfl

theorem memchr_nl_none {l : Str} (h : 10 ∉ l) : memchr (· == 10) l = none := by
  unfold memchr
  rw [List.findIdx?_eq_none_iff]
  intro x hx
  by_cases e : x = 10
  · subst e; exact absurd hx h
  · simpa using e

theorem memchr_cr {l : Str} (h : 10 ∉ l) (r : Str) : memchr (· == 10) (l ++ 13 :: 10 :: r) = some (l.length + 1) := by
  have := memchr_nl (l := l ++ [13]) (by simp [h]) r
  simpa using this

theorem crAdjust_nl {l : Str} (h : 13 ∉ l) (r : Str) : crAdjust (l ++ 10 :: r) l.length = l.length := by
  unfold crAdjust
  rw [if_neg]
  rintro ⟨h1, h2⟩
  rw [List.getElem?_append_left (by omega)] at h2
  exact h (List.mem_of_getElem? h2)

theorem crAdjust_cr (l r : Str) : crAdjust (l ++ 13 :: 10 :: r) (l.length + 1) = l.length := by
  unfold crAdjust
  rw [if_pos]
  · rfl
  · refine ⟨by omega, ?_⟩
    simp

/-- A scanner that stops in the line, at the same place. -/
def LineStops (f : Str → Nat) : Prop := ∀ u, 13 ∉ u → f (crlf u) = f u ∧ f u ≤ u.length ∧ 10 ∉ u.take (f u)

theorem LineStops.mk {f : Str → Nat} (h1 : ∀ l, 10 ∉ l → 13 ∉ l → f l ≤ l.length)
    (h2 : ∀ l r r', 10 ∉ l → 13 ∉ l → f (l ++ 13 :: 10 :: r') = f (l ++ 10 :: r) ∧ f (l ++ 10 :: r) ≤ l.length) : LineStops f := by
  intro u hu
  obtain ⟨l, hl, e | ⟨r, e⟩⟩ := line_split u
  · subst e
    rw [crlf_line hl]
    exact ⟨rfl, h1 _ hl hu, fun hm => hl (List.mem_of_mem_take hm)⟩
  · subst e
    have h13 : 13 ∉ l := fun hm => hu (by simp [hm])
    rw [crlf_split hl]
    obtain ⟨e1, e2⟩ := h2 l r (crlf r) hl h13
    refine ⟨e1, ?_, ?_⟩
    · rw [List.length_append]; omega
    · rw [List.take_append_of_le_length e2]
      exact fun hm => hl (List.mem_of_mem_take hm)

/-! ## `take_line_until` -/

theorem takeLineUntilLoop_le (pat bytes : Str) : ∀ ps, (∀ x ∈ ps, x ≤ bytes.length) → takeLineUntilLoop pat bytes ps ≤ bytes.length
  | [], _ => Nat.le_refl _
  | x :: ps, h => by
    have hx := h x (by simp)
    have ih := takeLineUntilLoop_le pat bytes ps fun y hy => h y (by simp [hy])
    unfold takeLineUntilLoop
    split
    · unfold crAdjust; split <;> omega
    · split
      · exact Nat.le_refl _
      · split
        · exact hx
        · exact ih

theorem takeLineUntilLoop_line {pat l r r' : Str} (hp : Plain2 pat) (h2 : pat.length ≤ 2) (hl : 10 ∉ l) {B B' : List Nat}
    (hB : takeLineUntilLoop pat (l ++ 10 :: r) B = l.length) (hB' : takeLineUntilLoop pat (l ++ 13 :: 10 :: r') B' = l.length) :
    ∀ A, (∀ x ∈ A, x < l.length) → takeLineUntilLoop pat (l ++ 13 :: 10 :: r') (A ++ B') = takeLineUntilLoop pat (l ++ 10 :: r) (A ++ B) ∧
      takeLineUntilLoop pat (l ++ 10 :: r) (A ++ B) ≤ l.length
  | [], _ => by rw [List.nil_append, List.nil_append, hB, hB']; exact ⟨rfl, Nat.le_refl _⟩
  | x :: A, h => by
    have hx := h x (by simp)
    have ih := takeLineUntilLoop_line hp h2 hl hB hB' A fun y hy => h y (by simp [hy])
    have e1 : (l ++ 10 :: r)[x]? ≠ some 10 := by
      rw [List.getElem?_append_left hx]; exact fun e => hl (List.mem_of_getElem? e)
    have e2 : (l ++ 13 :: 10 :: r')[x]? ≠ some 10 := by
      rw [List.getElem?_append_left hx]; exact fun e => hl (List.mem_of_getElem? e)
    simp only [List.cons_append, takeLineUntilLoop]
    have e3 : ¬ x + pat.length > (l ++ 10 :: r).length := by rw [List.length_append, List.length_cons]; omega
    have e4 : ¬ x + pat.length > (l ++ 13 :: 10 :: r').length := by
      rw [List.length_append, List.length_cons]; omega
    rw [if_neg e1, if_neg e2, if_neg e3, if_neg e4, matchesAt_line (Nat.le_of_lt hx) hp.1,
      matchesAt_line (Nat.le_of_lt hx) hp.2]
    split
    · exact ⟨rfl, Nat.le_of_lt hx⟩
    · exact ih

theorem takeLineUntil_stops {pat : Str} (hp : Plain2 pat) (h0 : pat ≠ []) (h2 : pat.length ≤ 2) :
    LineStops fun bytes => takeLineUntilLoop pat bytes (memchrIter (fun b => b == 10 || b == pat.headD 0) bytes) := by
  have hh : pat.headD 0 ≠ 13 := by
    cases pat with
    | nil => exact absurd rfl h0
    | cons c t => exact fun e => hp.2 (by simp only [List.headD_cons] at e; simp [e])
  refine LineStops.mk (fun l _ _ => takeLineUntilLoop_le _ _ _ fun x hx => ?_) fun l r r' hl h13 => ?_
  · have := memchrIterFrom_within _ _ _ x hx; omega
  · simp only [memchrIter, memchrIterFrom_app]
    refine takeLineUntilLoop_line hp h2 hl ?_ ?_ _ fun x hx => by have := memchrIterFrom_within _ _ _ x hx; omega
    · simp only [memchrIterFrom, beq_self_eq_true, Bool.true_or, if_true, Nat.zero_add, takeLineUntilLoop]
      rw [if_pos (by simp), crAdjust_nl h13]
    · have : (13 == pat.headD 0) = false := by simpa using fun e => hh (Eq.symm e)
      simp only [memchrIterFrom, this, beq_self_eq_true, Bool.true_or, if_true, Nat.zero_add, takeLineUntilLoop]
      simp only [show ((13 : Nat) == 10) = false by rfl, Bool.or_self, Bool.false_eq_true, if_false, takeLineUntilLoop]
      rw [if_pos (by simp), crAdjust_cr]

/-! ## `take_line_until_one_of_two` -/

theorem takeLineUntil2Loop_le (p1 p2 bytes : Str) : ∀ ps, (∀ x ∈ ps, x ≤ bytes.length) →
    takeLineUntil2Loop p1 p2 bytes ps ≤ bytes.length
  | [], _ => Nat.le_refl _
  | x :: ps, h => by
    have hx := h x (by simp)
    have ih := takeLineUntil2Loop_le p1 p2 bytes ps fun y hy => h y (by simp [hy])
    unfold takeLineUntil2Loop
    split
    · unfold crAdjust; split <;> omega
    · split
      · exact hx
      · exact ih

/-- One test of the loops over several patterns. -/
theorem test_line {pat l r r' : Str} {x : Nat} (hp : Plain2 pat) (h2 : pat.length ≤ 2) (hx : x < l.length) :
    (decide (x + pat.length ≤ (l ++ 13 :: 10 :: r').length) && matchesAt (l ++ 13 :: 10 :: r') x pat) =
      (decide (x + pat.length ≤ (l ++ 10 :: r).length) && matchesAt (l ++ 10 :: r) x pat) := by
  have e1 : x + pat.length ≤ (l ++ 13 :: 10 :: r').length := by simp only [List.length_append, List.length_cons]; omega
  have e2 : x + pat.length ≤ (l ++ 10 :: r).length := by simp only [List.length_append, List.length_cons]; omega
  rw [matchesAt_line (Nat.le_of_lt hx) hp.1, matchesAt_line (Nat.le_of_lt hx) hp.2, decide_eq_true e1, decide_eq_true e2]

theorem takeLineUntil2Loop_line {p1 p2 l r r' : Str} (hp1 : Plain2 p1) (h1 : p1.length ≤ 2) (hp2 : Plain2 p2) (h2 : p2.length ≤ 2)
    (hl : 10 ∉ l) {B B' : List Nat} (hB : takeLineUntil2Loop p1 p2 (l ++ 10 :: r) B = l.length)
    (hB' : takeLineUntil2Loop p1 p2 (l ++ 13 :: 10 :: r') B' = l.length) :
    ∀ A, (∀ x ∈ A, x < l.length) →
      takeLineUntil2Loop p1 p2 (l ++ 13 :: 10 :: r') (A ++ B') = takeLineUntil2Loop p1 p2 (l ++ 10 :: r) (A ++ B) ∧
      takeLineUntil2Loop p1 p2 (l ++ 10 :: r) (A ++ B) ≤ l.length
  | [], _ => by rw [List.nil_append, List.nil_append, hB, hB']; exact ⟨rfl, Nat.le_refl _⟩
  | x :: A, h => by
    have hx := h x (by simp)
    have ih := takeLineUntil2Loop_line hp1 h1 hp2 h2 hl hB hB' A fun y hy => h y (by simp [hy])
    have e1 : (l ++ 10 :: r)[x]? ≠ some 10 := by
      rw [List.getElem?_append_left hx]; exact fun e => hl (List.mem_of_getElem? e)
    have e2 : (l ++ 13 :: 10 :: r')[x]? ≠ some 10 := by
      rw [List.getElem?_append_left hx]; exact fun e => hl (List.mem_of_getElem? e)
    simp only [List.cons_append, takeLineUntil2Loop]
    rw [if_neg e1, if_neg e2, test_line (r := r) hp1 h1 hx, test_line (r := r) hp2 h2 hx]
    split
    · exact ⟨rfl, Nat.le_of_lt hx⟩
    · exact ih

theorem head_ne {pat : Str} (hp : Plain2 pat) (h0 : pat ≠ []) : ((13 : Byte) == pat.headD 0) = false ∧ ((10 : Byte) == pat.headD 0) = false := by
  cases pat with
  | nil => exact absurd rfl h0
  | cons c t =>
    simp only [List.headD_cons]
    exact ⟨by simpa using fun e => hp.2 (by simp [e]), by simpa using fun e => hp.1 (by simp [e])⟩

theorem takeLineUntil2_stops {p1 p2 : Str} (hp1 : Plain2 p1) (h1 : p1 ≠ []) (h1' : p1.length ≤ 2) (hp2 : Plain2 p2) (h2 : p2 ≠ [])
    (h2' : p2.length ≤ 2) :
    LineStops fun bytes => takeLineUntil2Loop p1 p2 bytes (memchrIter (fun b => b == 10 || b == p1.headD 0 || b == p2.headD 0) bytes) := by
  refine LineStops.mk (fun l _ _ => takeLineUntil2Loop_le _ _ _ _ fun x hx => ?_) fun l r r' hl h13 => ?_
  · have := memchrIterFrom_within _ _ _ x hx; omega
  · simp only [memchrIter, memchrIterFrom_app]
    refine takeLineUntil2Loop_line hp1 h1' hp2 h2' hl ?_ ?_ _ fun x hx => by have := memchrIterFrom_within _ _ _ x hx; omega
    · simp only [memchrIterFrom, beq_self_eq_true, Bool.true_or, if_true, Nat.zero_add, takeLineUntil2Loop]
      rw [if_pos (by simp), crAdjust_nl h13]
    · simp only [memchrIterFrom, (head_ne hp1 h1).1, (head_ne hp2 h2).1, beq_self_eq_true, Bool.true_or, if_true, Nat.zero_add,
        takeLineUntil2Loop]
      simp only [show ((13 : Nat) == 10) = false by rfl, Bool.or_self, Bool.false_eq_true, if_false, takeLineUntil2Loop]
      rw [if_pos (by simp), crAdjust_cr]

/-! ## `take_line_until_one_of_three` -/

theorem takeLineUntil3Loop_le (p1 p2 p3 bytes : Str) : ∀ ps, (∀ x ∈ ps, x ≤ bytes.length) →
    takeLineUntil3Loop p1 p2 p3 bytes none ps ≤ bytes.length
  | [], _ => Nat.le_refl _
  | x :: ps, h => by
    have hx := h x (by simp)
    have ih := takeLineUntil3Loop_le p1 p2 p3 bytes ps fun y hy => h y (by simp [hy])
    unfold takeLineUntil3Loop
    dsimp only
    split
    · exact hx
    · exact ih

theorem takeLineUntil3Loop_past {p1 p2 p3 bytes : Str} {n : Nat} : ∀ B, (∀ x ∈ B, n ≤ x) →
    takeLineUntil3Loop p1 p2 p3 bytes (some n) B = n
  | [], _ => rfl
  | x :: _, h => by
    unfold takeLineUntil3Loop
    dsimp only
    rw [if_pos (h x (by simp))]

theorem takeLineUntil3Loop_line {p1 p2 p3 l r r' : Str} (hp1 : Plain2 p1) (h1 : p1.length ≤ 2) (hp2 : Plain2 p2) (h2 : p2.length ≤ 2)
    (hp3 : Plain2 p3) (h3 : p3.length ≤ 2)
    {B B' : List Nat} (hB : ∀ x ∈ B, l.length ≤ x) (hB' : ∀ x ∈ B', l.length ≤ x) :
    ∀ A, (∀ x ∈ A, x < l.length) →
      takeLineUntil3Loop p1 p2 p3 (l ++ 13 :: 10 :: r') (some l.length) (A ++ B') =
        takeLineUntil3Loop p1 p2 p3 (l ++ 10 :: r) (some l.length) (A ++ B) ∧
      takeLineUntil3Loop p1 p2 p3 (l ++ 10 :: r) (some l.length) (A ++ B) ≤ l.length
  | [], _ => by
    rw [List.nil_append, List.nil_append, takeLineUntil3Loop_past _ hB, takeLineUntil3Loop_past _ hB']; exact ⟨rfl, Nat.le_refl _⟩
  | x :: A, h => by
    have hx := h x (by simp)
    have ih := takeLineUntil3Loop_line (r := r) (r' := r') hp1 h1 hp2 h2 hp3 h3 hB hB' A fun y hy => h y (by simp [hy])
    simp only [List.cons_append, takeLineUntil3Loop]
    have e1 : ¬ l.length ≤ x := by omega
    rw [if_neg e1, if_neg e1, test_line (r := r) hp1 h1 hx, test_line (r := r) hp2 h2 hx,
      test_line (r := r) hp3 h3 hx]
    split
    · exact ⟨rfl, Nat.le_of_lt hx⟩
    · exact ih

theorem takeLineUntil3_stops {p1 p2 p3 : Str} (hp1 : Plain2 p1) (h1' : p1.length ≤ 2) (hp2 : Plain2 p2)
    (h2' : p2.length ≤ 2) (hp3 : Plain2 p3) (h3' : p3.length ≤ 2) :
    LineStops fun bytes => takeLineUntil3Loop p1 p2 p3 bytes ((memchr (· == 10) bytes).map (crAdjust bytes))
      (memchrIter (fun b => b == p1.headD 0 || b == p2.headD 0 || b == p3.headD 0) bytes) := by
  refine LineStops.mk (fun l hl _ => ?_) fun l r r' hl h13 => ?_
  · simp only [memchr_nl_none hl, Option.map_none]
    refine takeLineUntil3Loop_le _ _ _ _ _ fun x hx => ?_
    have := memchrIterFrom_within _ _ _ x hx; omega
  · simp only [memchr_nl hl, memchr_cr hl, Option.map_some, crAdjust_nl h13, crAdjust_cr]
    simp only [memchrIter, memchrIterFrom_app]
    refine takeLineUntil3Loop_line hp1 h1' hp2 h2' hp3 h3' ?_ ?_ _ fun x hx => by have := memchrIterFrom_within _ _ _ x hx; omega
    · intro x hx; have := memchrIterFrom_within _ _ _ x hx; omega
    · intro x hx; have := memchrIterFrom_within _ _ _ x hx; omega

/-! ## `surround_in_line1` -/

theorem surroundLoop_past {right bytes : Str} {n : Nat} : ∀ B, (∀ x ∈ B, n ≤ x) → surroundLoop right bytes (some n) B = none
  | [], _ => rfl
  | x :: _, h => by
    unfold surroundLoop pastNewline
    dsimp only
    rw [if_pos (decide_eq_true (h x (by simp)))]

theorem surroundLoop_line {right l r r' : Str} (hp : Plain2 right) (h2 : right.length ≤ 2) {B B' : List Nat}
    (hB : ∀ x ∈ B, l.length ≤ x) (hB' : ∀ x ∈ B', l.length + 1 ≤ x) : ∀ A, (∀ x ∈ A, x < l.length) →
      surroundLoop right (l ++ 13 :: 10 :: r') (some (l.length + 1)) (A ++ B') =
        surroundLoop right (l ++ 10 :: r) (some l.length) (A ++ B) ∧
      ∀ n, surroundLoop right (l ++ 10 :: r) (some l.length) (A ++ B) = some n → n ≤ l.length ∧ matchesAt (l ++ 10 :: r) n right
  | [], _ => by
    rw [List.nil_append, List.nil_append, surroundLoop_past _ hB, surroundLoop_past _ hB']
    exact ⟨rfl, fun n h => by cases h⟩
  | x :: A, h => by
    have hx := h x (by simp)
    have ih := surroundLoop_line (r := r) (r' := r') hp h2 hB hB' A fun y hy => h y (by simp [hy])
    have n1 : pastNewline (some l.length) x = false := decide_eq_false (by omega)
    have n2 : pastNewline (some (l.length + 1)) x = false := decide_eq_false (by omega)
    simp only [List.cons_append, surroundLoop, n1, n2, Bool.false_eq_true, if_false]
    by_cases h0 : x = 0
    · rw [if_pos h0, if_pos h0]; exact ih
    · have e3 : ¬ (l ++ 10 :: r).length - x < right.length := by rw [List.length_append, List.length_cons]; omega
      have e4 : ¬ (l ++ 13 :: 10 :: r').length - x < right.length := by
        rw [List.length_append, List.length_cons]; omega
      rw [if_neg h0, if_neg h0, if_neg e3, if_neg e4]
      have e1 := matchesAt_line (l := l) (r := r) (Nat.le_of_lt hx) hp.1
      have e2 := matchesAt_line (l := l) (r := 10 :: r') (Nat.le_of_lt hx) hp.2
      rw [e1, e2]
      by_cases hm : right.isPrefixOf (l.drop x) = true
      · rw [if_pos hm, if_pos hm]
        refine ⟨rfl, fun n e => ?_⟩
        cases e
        exact ⟨Nat.le_of_lt hx, e1.trans hm⟩
      · rw [if_neg hm, if_neg hm]; exact ih

theorem surroundLoop_none_le {right bytes : Str} : ∀ ps, (∀ x ∈ ps, x ≤ bytes.length) → ∀ n,
    surroundLoop right bytes none ps = some n → n ≤ bytes.length ∧ matchesAt bytes n right
  | [], _, _, h => by cases h
  | x :: ps, h, n, hn => by
    have ih := surroundLoop_none_le (right := right) (bytes := bytes) ps (fun y hy => h y (by simp [hy])) n
    unfold surroundLoop at hn
    simp only [pastNewline, Bool.false_eq_true, if_false] at hn
    split at hn
    · exact ih hn
    · split at hn
      · cases hn
      · split at hn
        · rename_i hm
          cases hn
          exact ⟨h _ (by simp), hm⟩
        · exact ih hn

/-- The right side is found at the same place, in the line. -/
theorem surround_same {right : Str} (hp : Plain2 right) (h0 : right ≠ []) (h2 : right.length ≤ 2) (u : Str) (hu : 13 ∉ u) :
    surroundLoop right (crlf u) (memchr (· == 10) (crlf u)) (memchrIter (· == right.headD 0) (crlf u)) =
      surroundLoop right u (memchr (· == 10) u) (memchrIter (· == right.headD 0) u) ∧
    ∀ n, surroundLoop right u (memchr (· == 10) u) (memchrIter (· == right.headD 0) u) = some n →
      n ≤ u.length ∧ 10 ∉ u.take n ∧ right.isPrefixOf (u.drop n) := by
  obtain ⟨l, hl, e | ⟨r, e⟩⟩ := line_split u
  · subst e
    rw [crlf_line hl, memchr_nl_none hl]
    refine ⟨rfl, fun n hn => ?_⟩
    obtain ⟨h1, h3⟩ := surroundLoop_none_le _ (fun x hx => by have := memchrIterFrom_within _ _ _ x hx; omega) n hn
    rw [matchesAt_eq] at h3
    exact ⟨h1, fun hm => hl (List.mem_of_mem_take hm), h3⟩
  · subst e
    have h13 : 13 ∉ l := fun hm => hu (by simp [hm])
    rw [crlf_split hl, memchr_nl hl, memchr_cr hl]
    simp only [memchrIter, memchrIterFrom_app]
    obtain ⟨e1, e2⟩ := surroundLoop_line (l := l) (r := r) (r' := crlf r) hp h2
      (B := memchrIterFrom (0 + l.length) (· == right.headD 0) (10 :: r))
      (B' := memchrIterFrom (0 + l.length) (· == right.headD 0) (13 :: 10 :: crlf r))
      (fun x hx => by have := memchrIterFrom_within _ _ _ x hx; omega)
      (fun x hx => by
        simp only [memchrIterFrom, (head_ne hp h0).1, Bool.false_eq_true, if_false] at hx
        have := memchrIterFrom_within (fun b => b == right.headD 0) (10 :: crlf r) (0 + l.length + 1) x
          (by simpa only [memchrIterFrom] using hx)
        omega)
      (memchrIterFrom 0 (· == right.headD 0) l) (fun x hx => by have := memchrIterFrom_within _ _ _ x hx; omega)
    refine ⟨e1, fun n hn => ?_⟩
    obtain ⟨e3, e4⟩ := e2 n hn
    rw [matchesAt_eq] at e4
    refine ⟨by rw [List.length_append]; omega, ?_, e4⟩
    rw [List.take_append_of_le_length e3]
    exact fun hm => hl (List.mem_of_mem_take hm)

/-! ## `take_until` -/

/-- The first place at which a pattern occurs. -/
def firstOcc (pat : Str) : Str → Option Nat
  | [] => if pat.isEmpty then some 0 else none
  | b :: u => if pat.isPrefixOf (b :: u) then some 0 else (firstOcc pat u).map (· + 1)

theorem firstOcc_none_short {pat : Str} : ∀ {u : Str}, u.length < pat.length → firstOcc pat u = none
  | [], h => by
    cases pat with
    | nil => simp at h
    | cons => rfl
  | b :: u, h => by
    have : ¬ pat.isPrefixOf (b :: u) = true := by
      intro hp
      rw [List.isPrefixOf_iff_prefix] at hp
      have := hp.length_le
      omega
    unfold firstOcc
    rw [if_neg this, firstOcc_none_short (by simp only [List.length_cons] at h; omega)]
    rfl

theorem offsetLoop_eq {c : Byte} {t : Str} : ∀ (u pre : Str),
    offsetLoop (c :: t) (pre ++ u) (memchrIterFrom pre.length (· == (c :: t).headD 0) u) =
      (firstOcc (c :: t) u).map (pre.length + ·)
  | [], _ => rfl
  | b :: u, pre => by
    have ih := offsetLoop_eq (c := c) (t := t) u (pre ++ [b])
    rw [List.append_assoc, List.singleton_append, List.length_append, List.length_singleton] at ih
    have hs : (firstOcc (c :: t) u).map (pre.length + 1 + ·) = ((firstOcc (c :: t) u).map (· + 1)).map (pre.length + ·) := by
      rw [Option.map_map]
      congr 1
      funext n
      simp only [Function.comp]
      omega
    simp only [memchrIterFrom, List.headD_cons] at ih ⊢
    by_cases hb : b = c
    · subst hb
      simp only [beq_self_eq_true, if_true, offsetLoop]
      by_cases hlen : pre.length + (b :: t).length > (pre ++ b :: u).length
      · rw [if_pos hlen, firstOcc_none_short]
        · rfl
        · rw [List.length_append] at hlen; omega
      · rw [if_neg hlen, matchesAt_eq, List.drop_left]
        unfold firstOcc
        by_cases hm : (b :: t).isPrefixOf (b :: u) = true
        · rw [if_pos hm, if_pos hm]; rfl
        · rw [if_neg hm, if_neg hm, ih, hs]
    · have h1 : (b == c) = false := by simpa using hb
      have h2 : (c :: t).isPrefixOf (b :: u) = false := by
        have : (c == b) = false := by simpa using fun e => hb (Eq.symm e)
        simp [List.isPrefixOf, this]
      simp only [h1, firstOcc, h2, Bool.false_eq_true, if_false]
      rw [ih, hs]

theorem firstOcc_crlf {pat : Str} (hp : Plain2 pat) (h0 : pat ≠ []) : ∀ u : Str,
    match firstOcc pat u with
    | none => firstOcc pat (crlf u) = none
    | some n => ∃ n', Img u n n' ∧ firstOcc pat (crlf u) = some n'
  | [] => by
    cases pat with
    | nil => exact absurd rfl h0
    | cons => rfl
  | b :: u => by
    have ih := firstOcc_crlf hp h0 u
    by_cases hm : pat.isPrefixOf (b :: u) = true
    · have hm' := hm
      rw [← prefix_crlf hp] at hm'
      have e : firstOcc pat (crlf (b :: u)) = some 0 := by
        cases hc : crlf (b :: u) with
        | nil =>
          rw [hc] at hm'
          cases pat with
          | nil => exact absurd rfl h0
          | cons => cases hm'
        | cons x v =>
          rw [hc] at hm'
          unfold firstOcc
          rw [if_pos hm']
      simp only [firstOcc, if_pos hm]
      exact ⟨0, ⟨Nat.zero_le _, by simp⟩, e⟩
    · have key : ∃ k, firstOcc pat (crlf (b :: u)) = (firstOcc pat (crlf u)).map (· + k) ∧ k = 1 + [b].count 10 := by
        by_cases hb : b = 10
        · subst hb
          refine ⟨2, ?_, rfl⟩
          rw [crlf_cons_nl]
          have h1 : pat.isPrefixOf (13 :: 10 :: crlf u) = false := by
            have := (head_ne hp h0).1
            cases pat with
            | nil => exact absurd rfl h0
            | cons c t =>
              have hc : (c == 13) = false := by simpa using fun e => by simp [e] at this
              simp [List.isPrefixOf, hc]
          have h2 : pat.isPrefixOf (10 :: crlf u) = false := by
            have := (head_ne hp h0).2
            cases pat with
            | nil => exact absurd rfl h0
            | cons c t =>
              have hc : (c == 10) = false := by simpa using fun e => by simp [e] at this
              simp [List.isPrefixOf, hc]
          simp only [firstOcc, h1, h2, Bool.false_eq_true, if_false, Option.map_map]
          congr 1
        · refine ⟨1, ?_, by rw [List.count_singleton]; simp [hb]⟩
          have hm' := hm
          rw [← prefix_crlf hp] at hm'
          rw [crlf_cons_ne hb] at hm' ⊢
          simp only [firstOcc]
          rw [if_neg hm']
      obtain ⟨k, hk, e⟩ := key
      have e0 : firstOcc pat (b :: u) = (firstOcc pat u).map (· + 1) := by
        rw [firstOcc, if_neg hm]
      rw [e0]
      cases hf : firstOcc pat u with
      | none =>
        rw [hf] at ih
        simp only at ih
        simp only [Option.map_none]
        rw [show firstOcc pat (crlf (b :: u)) = (firstOcc pat (crlf u)).map (· + k) from hk, ih]
        rfl
      | some n =>
        rw [hf] at ih
        obtain ⟨n', hi, hn⟩ := ih
        simp only [Option.map_some]
        refine ⟨n' + k, ⟨by simp only [List.length_cons]; exact Nat.succ_le_succ hi.1, ?_⟩, ?_⟩
        · rw [List.take_succ_cons, hi.2, e, show b :: u.take n = [b] ++ u.take n from rfl, List.count_append]
          omega
        · rw [hk, hn]; rfl

end Vw
