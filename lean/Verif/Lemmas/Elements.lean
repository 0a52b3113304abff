import Verif.Model.Elements
import Verif.Spec.Elements

/-!
# Lemmas about element functions
-/

namespace Vw

/-! ## Positions of a byte -/

theorem memchrIterFrom_append (p : Byte → Bool) (base : Nat) (a b : Str) :
    memchrIterFrom base p (a ++ b) = memchrIterFrom base p a ++ memchrIterFrom (base + a.length) p b := by
  induction a generalizing base with
  | nil => simp [memchrIterFrom]
  | cons x xs ih =>
    simp only [List.cons_append, memchrIterFrom, ih, List.length_cons]
    have : base + 1 + xs.length = base + (xs.length + 1) := by omega
    split <;> simp [this]

theorem memchrIterFrom_bounds (p : Byte → Bool) (base : Nat) (a : Str) :
    ∀ i ∈ memchrIterFrom base p a, base ≤ i ∧ i < base + a.length := by
  induction a generalizing base with
  | nil => simp [memchrIterFrom]
  | cons x xs ih =>
    intro i hi
    simp only [memchrIterFrom] at hi
    split at hi
    · rcases List.mem_cons.1 hi with rfl | hi
      · simp
      · have := ih _ i hi; simp; omega
    · have := ih _ i hi; simp; omega

theorem memchrIterFrom_length (p : Byte → Bool) (base : Nat) (a : Str) :
    (memchrIterFrom base p a).length = a.countP p := by
  induction a generalizing base with
  | nil => simp [memchrIterFrom]
  | cons x xs ih =>
    simp only [memchrIterFrom, List.countP_cons]
    split <;> simp_all

theorem memchrIterFrom_none (p : Byte → Bool) (base : Nat) (a : Str) (h : ∀ x ∈ a, p x = false) :
    memchrIterFrom base p a = [] := by
  apply List.length_eq_zero_iff.1
  rw [memchrIterFrom_length, List.countP_eq_zero]
  intro x hx; simp [h x hx]

theorem span_line (s : Span) (h : s.start ≤ s.inner.length) :
    s.line = (s.inner.take s.start).countP (· == 10) + 1 := by
  unfold Span.line memchrIter
  conv => lhs; rw [← List.take_append_drop s.start s.inner]
  rw [memchrIterFrom_append, List.takeWhile_append_of_pos]
  · have : List.takeWhile (fun x => decide (x < s.start)) (memchrIterFrom (0 + (s.inner.take s.start).length)
        (fun x => x == 10) (s.inner.drop s.start)) = [] := by
      have hb := memchrIterFrom_bounds (fun x => x == 10) (0 + (s.inner.take s.start).length)
        (s.inner.drop s.start)
      cases hm : memchrIterFrom (0 + (s.inner.take s.start).length) (fun x => x == 10)
        (s.inner.drop s.start) with
      | nil => rfl
      | cons i is =>
        rw [hm] at hb
        have := hb i (by simp)
        simp [Nat.min_eq_left h] at this
        rw [List.takeWhile_cons, if_neg (by simp; omega)]
    rw [this]
    simp [memchrIterFrom_length]
  · intro i hi
    have := memchrIterFrom_bounds _ _ _ i hi
    simp at this
    simp; omega

theorem memrchr_none {p : Byte → Bool} {l : Str} (hl : ∀ x ∈ l, p x = false) : memrchr p l = none := by
  unfold memrchr memchrIter
  rw [memchrIterFrom_none p _ l hl]; rfl

theorem memrchr_some {p : Byte → Bool} {q l : Str} {c : Byte} (hl : ∀ x ∈ l, p x = false) (hc : p c = true) :
    memrchr p (q ++ [c] ++ l) = some q.length := by
  unfold memrchr memchrIter
  rw [memchrIterFrom_append, memchrIterFrom_none p _ l hl, List.append_nil, memchrIterFrom_append]
  simp [memchrIterFrom, hc]

theorem span_column (s : Span) {pre l : Str} (h : s.inner.take s.start = pre ++ l) (hl : 10 ∉ l)
    (hp : pre = [] ∨ pre.getLast? = some 10) : s.column = Span.numChars l + 1 := by
  have hl' : ∀ x ∈ l, (x == 10) = false := by
    intro x hx; simp; rintro rfl; exact hl hx
  unfold Span.column Span.asConsumed
  rw [h]
  rcases hp with rfl | hp
  · rw [List.nil_append, memrchr_none hl']; simp
  · obtain ⟨q, rfl⟩ := List.getLast?_eq_some_iff.1 hp
    rw [memrchr_some hl' rfl]; simp

theorem numChars_chars (cs : List Str) (h : ∀ c ∈ cs, CharBytes c) :
    Span.numChars cs.flatten = cs.length := by
  induction cs with
  | nil => rfl
  | cons c cs ih =>
    unfold Span.numChars at *
    rw [List.flatten_cons, List.countP_append, ih (fun c hc => h c (by simp [hc]))]
    obtain ⟨a, r, rfl, ha, hr⟩ := h c (by simp)
    rw [List.countP_cons]
    have h1 : r.countP (fun b => !(128 ≤ b && b < 192)) = 0 := by
      rw [List.countP_eq_zero]; intro b hb; have := hr b hb; simp; omega
    rw [h1]
    have h2 : (!(128 ≤ a && a < 192)) = true := by simp; omega
    simp at h2
    simp [h2]; omega

/-! ## The blank test -/

theorem onlyWsLoop_gap (p : Byte → Bool) (bs : Str) (last base : Nat) (h : last + 1 < base) :
    Span.onlyWsLoop last (memchrIterFrom base p bs) = none ∨
      Span.onlyWsLoop last (memchrIterFrom base p bs) = some last := by
  induction bs generalizing base with
  | nil => simp [memchrIterFrom, Span.onlyWsLoop]
  | cons b bs ih =>
    simp only [memchrIterFrom]
    split
    · left; simp only [Span.onlyWsLoop]; rw [if_pos (by omega)]
    · exact ih _ (by omega)

theorem onlyWsLoop_iff (p : Byte → Bool) (bs : Str) (last : Nat) :
    Span.onlyWsLoop last (memchrIterFrom (last + 1) p bs) = some (last + bs.length) ↔
      ∀ b ∈ bs, p b = true := by
  induction bs generalizing last with
  | nil => simp [memchrIterFrom, Span.onlyWsLoop]
  | cons b bs ih =>
    simp only [memchrIterFrom]
    by_cases hb : p b = true
    · rw [if_pos hb]
      simp only [Span.onlyWsLoop]
      rw [if_neg (by omega)]
      have := ih (last + 1)
      rw [List.length_cons, show last + (bs.length + 1) = last + 1 + bs.length by omega, this]
      simp [hb]
    · rw [if_neg hb]
      constructor
      · intro h
        rcases onlyWsLoop_gap p bs last (last + 1 + 1) (by omega) with h' | h' <;> rw [h'] at h <;> simp at h
      · intro h; exact absurd (h b (by simp)) hb

theorem isOnlyWhitespace_iff (s : Span) (h : s.stop ≤ s.inner.length) :
    s.isOnlyWhitespace = true ↔ ∀ b ∈ s.asRemaining.drop 1, isSpace b = true := by
  have hlen : s.remainingLen = s.asRemaining.length := by
    unfold Span.remainingLen Span.asRemaining
    simp; split <;> omega
  unfold Span.isOnlyWhitespace
  rw [hlen]
  cases hr : s.asRemaining with
  | nil => simp
  | cons b bs =>
    simp only [List.length_cons, Nat.add_sub_cancel, List.drop_succ_cons, List.drop_zero]
    have e : ¬ ((bs.length + 1 == 0) = true) := by simp
    rw [if_neg e]
    have key : (Span.onlyWsLoop 0 (memchrIter isSpace (b :: bs)) = some bs.length) ↔
        ∀ b ∈ bs, isSpace b = true := by
      have := onlyWsLoop_iff isSpace bs 0
      simp only [Nat.zero_add] at this
      rw [← this]
      unfold memchrIter
      simp only [memchrIterFrom, Nat.zero_add]
      split
      · simp [Span.onlyWsLoop]
      · rfl
    rw [← key]
    cases Span.onlyWsLoop 0 (memchrIter isSpace (b :: bs)) <;> simp

/-! ## Line groups -/

theorem splitLines_ne_nil (ls : List Str) : splitLines ls ≠ [] := by
  cases ls with
  | nil => simp [splitLines]
  | cons l ls => simp only [splitLines]; split; · simp
                 · split <;> simp

theorem splitLines_run (ls : List Str) :
    ∃ g gs, splitLines ls = g :: gs ∧ (∀ l ∈ g, l ≠ []) ∧
      ∃ rest, ls = g ++ rest ∧ (rest = [] ∨ rest.head? = some []) ∧
        LineRuns rest (gs.filter fun g => !g.isEmpty) := by
  induction ls with
  | nil => exact ⟨[], [], rfl, by simp, [], rfl, .inl rfl, .nil (by simp)⟩
  | cons l ls ih =>
    obtain ⟨g, gs, h1, h2, rest, h3, h4, h5⟩ := ih
    by_cases hl : l = []
    · subst hl
      refine ⟨[], g :: gs, by simp [splitLines, h1], by simp, [] :: ls, rfl, .inr rfl, ?_⟩
      by_cases hg : g = []
      · subst hg
        simp only [List.filter_cons, List.isEmpty_nil, Bool.not_true, Bool.false_eq_true, if_false]
        simp only [List.nil_append] at h3
        subst h3
        generalize gs.filter (fun g => !g.isEmpty) = G at h5
        cases h5 with
        | nil he => exact .nil (by simpa using he)
        | @cons e g rest gs he hg hg' hr h =>
          have := LineRuns.cons (e := [] :: e) (by simpa using he) hg hg' hr h
          simpa using this
      · have e : (!g.isEmpty) = true := by simp [hg]
        rw [List.filter_cons, if_pos e, h3]
        exact .cons (e := [[]]) (by simp) hg h2 h4 h5
    · refine ⟨l :: g, gs, ?_, by simpa using ⟨hl, h2⟩, rest, by simp [h3], h4, h5⟩
      have : l.isEmpty = false := by simp [hl]
      simp [splitLines, this, h1]

theorem lineGroups_runs (ls : List Str) : LineRuns ls (lineGroups ls) := by
  obtain ⟨g, gs, h1, h2, rest, h3, h4, h5⟩ := splitLines_run ls
  unfold lineGroups
  rw [h1]
  by_cases hg : g = []
  · subst hg
    simp only [List.nil_append] at h3
    simpa [List.filter_cons, h3] using h5
  · have e : (!g.isEmpty) = true := by simp [hg]
    rw [List.filter_cons, if_pos e, h3]
    exact .cons (e := []) (by simp) hg h2 h4 h5

theorem LineRuns.unique {ls : List Str} {g g' : List (List Str)} (h : LineRuns ls g) (h' : LineRuns ls g') :
    g = g' := by
  induction h generalizing g' with
  | nil he =>
    cases h' with
    | nil => rfl
    | @cons e' g rest gs he' hg hg' hr h =>
      obtain ⟨l, hl⟩ := List.exists_mem_of_ne_nil g hg
      exact absurd (he l (by simp [hl])) (hg' l hl)
  | @cons e g rest gs he hg hgn hr _ ih =>
    generalize hls : e ++ g ++ rest = ls at h'
    cases h' with
    | nil he' =>
      obtain ⟨l, hl⟩ := List.exists_mem_of_ne_nil g hg
      exact absurd (he' l (by simp [← hls, hl])) (hgn l hl)
    | @cons e' g' rest' gs' he' hg' hgn' hr' h' =>
      have split1 : ∀ (e e' : List Str) (x y : List Str), (∀ l ∈ e, l = []) → (∀ l ∈ e', l = []) →
          (∀ l, x.head? = some l → l ≠ []) → (∀ l, y.head? = some l → l ≠ []) → x ≠ [] → y ≠ [] →
          e ++ x = e' ++ y → x = y := by
        intro e
        induction e with
        | nil =>
          intro e' x y _ he' hx hy hxn _ h
          cases e' with
          | nil => simpa using h
          | cons a e' =>
            exfalso
            simp at h
            exact hx a (by rw [h]; rfl) (he' a (by simp))
        | cons a e ih =>
          intro e' x y he he' hx hy hxn hyn h
          cases e' with
          | nil =>
            exfalso
            simp at h
            exact hy a (by rw [← h]; rfl) (he a (by simp))
          | cons b e' =>
            simp at h
            exact ih e' x y (fun l hl => he l (by simp [hl])) (fun l hl => he' l (by simp [hl])) hx hy hxn hyn h.2
      have split2 : ∀ (g g' r r' : List Str), (∀ l ∈ g, l ≠ []) → (∀ l ∈ g', l ≠ []) →
          (r = [] ∨ r.head? = some []) → (r' = [] ∨ r'.head? = some []) →
          g ++ r = g' ++ r' → g = g' ∧ r = r' := by
        intro g
        induction g with
        | nil =>
          intro g' r r' _ hg' hr _ h
          cases g' with
          | nil => simpa using h
          | cons a g' =>
            exfalso
            simp at h
            subst h
            simp at hr
            exact hg' a (by simp) hr
        | cons a g ih =>
          intro g' r r' hg hg' hr hr' h
          cases g' with
          | nil =>
            exfalso
            simp at h
            subst h
            simp at hr'
            exact hg a (by simp) hr'
          | cons b g' =>
            simp at h
            have := ih g' r r' (fun l hl => hg l (by simp [hl])) (fun l hl => hg' l (by simp [hl])) hr hr' h.2
            exact ⟨by rw [h.1, this.1], this.2⟩
      have e1 : g ++ rest = g' ++ rest' := by
        refine split1 e e' _ _ he he' ?_ ?_ (by simp [hg]) (by simp [hg']) (by simpa using hls)
        · intro l hl
          cases g with
          | nil => exact absurd rfl hg
          | cons a g => simp at hl; subst hl; exact hgn a (by simp)
        · intro l hl
          cases g' with
          | nil => exact absurd rfl hg'
          | cons a g => simp at hl; subst hl; exact hgn' a (by simp)
      obtain ⟨rfl, rfl⟩ := split2 g g' rest rest' hgn hgn' hr hr' e1
      rw [ih h']

end Vw
