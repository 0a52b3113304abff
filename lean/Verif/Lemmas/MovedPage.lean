import Verif.Lemmas.MovedBlocks
import Verif.Lemmas.Tiled
import Verif.Lemmas.RunPage

/-!
# Pages further on
-/

namespace Vw
open P Scan

variable {α : Type} {env : Env} {C : Ctx}

/-- More rounds do not change what was read. -/
theorem many0Loop_more {p : P α} : ∀ (n : Nat) (s : Span), many0Loop p n s ≠ .diverge → ∀ m, n ≤ m →
    many0Loop p m s = many0Loop p n s
  | 0, _, h, _, _ => absurd rfl h
  | n + 1, s, h, 0, hm => by omega
  | n + 1, s, h, m + 1, hm => by
    unfold many0Loop at h ⊢
    cases hp : p s with
    | err => rfl
    | panic => rfl
    | diverge => rfl
    | ok s' a =>
      rw [hp] at h
      simp only at h ⊢
      split
      · rfl
      · rename_i hne
        rw [if_neg hne] at h
        have h' : many0Loop p n s' ≠ .diverge := by
          intro e
          rw [e] at h
          exact h rfl
        rw [many0Loop_more n s' h' m (by omega)]

/-- Fewer rounds are enough. -/
theorem many0Loop_fewer {p : P α} : ∀ (n : Nat) {s s' : Span} {xs : List α}, many0Loop p n s = .ok s' xs →
    ∀ m, xs.length < m → many0Loop p m s = .ok s' xs
  | 0, _, _, _, h, _, _ => by cases h
  | n + 1, s, s', xs, h, 0, hm => by omega
  | n + 1, s, s', xs, h, m + 1, hm => by
    unfold many0Loop at h ⊢
    cases hp : p s with
    | err => rw [hp] at h; exact h
    | panic => rw [hp] at h; cases h
    | diverge => rw [hp] at h; cases h
    | ok s1 a =>
      rw [hp] at h
      simp only at h ⊢
      split at h
      · cases h
      · rename_i hne
        rw [if_neg hne]
        cases hl : many0Loop p n s1 with
        | ok s2 as =>
          rw [hl] at h
          simp only [Res.ok.injEq] at h
          obtain ⟨e1, e2⟩ := h
          subst e1 e2
          rw [many0Loop_fewer n hl m (by simpa using hm)]
        | err => rw [hl] at h; cases h
        | panic => rw [hl] at h; cases h
        | diverge => rw [hl] at h; cases h

theorem many0Loop_cons {p : P α} {n : Nat} {s s' : Span} {x : α} {xs : List α} (h : many0Loop p n s = .ok s' (x :: xs)) :
    ∃ m s1, n = m + 1 ∧ p s = .ok s1 x ∧ many0Loop p m s1 = .ok s' xs := by
  cases n with
  | zero => cases h
  | succ n =>
    unfold many0Loop at h
    cases hp : p s with
    | err => rw [hp] at h; cases h
    | panic => rw [hp] at h; cases h
    | diverge => rw [hp] at h; cases h
    | ok s1 a =>
      rw [hp] at h
      simp only at h
      split at h
      · cases h
      · cases hl : many0Loop p n s1 with
        | ok s2 as =>
          rw [hl] at h
          simp only [Res.ok.injEq, List.cons.injEq] at h
          obtain ⟨e1, e2, e3⟩ := h
          subst e1 e2 e3
          exact ⟨n, s1, rfl, rfl, hl⟩
        | err => rw [hl] at h; cases h
        | panic => rw [hl] at h; cases h
        | diverge => rw [hl] at h; cases h

/-- Every round reads something. -/
theorem rounds_le : ∀ (xs : List (Option (Located Block))) {n : Nat} {s s' : Span}, C.In 2 s →
    many0Loop (maybeBlock C.env) n s = .ok s' xs → xs.length ≤ s.stop - s.start
  | [], _, _, _, _, _ => by simp
  | x :: xs, n, s, s', hs, h => by
    obtain ⟨m, s1, _, hp, hl⟩ := many0Loop_cons h
    obtain ⟨g, hlt, _⟩ := maybeBlock_progress (k := 0) hs hp
    have := rounds_le xs (hs.good g) hl
    have h1 := g.step.stop
    have h2 := g.step.hi
    simp only [List.length_cons]
    omega

/-- The state in which a block is found. -/
theorem reach_block : ∀ (es : List (Option (Located Block))) {n : Nat} {s s' : Span} {x : Located Block}
    {es' : List (Option (Located Block))}, C.In 2 s → (s.start = s.stop ∨ Bol C s.start) →
    many0Loop (maybeBlock C.env) n s = .ok s' (es ++ some x :: es') →
    ∃ m s1, Step s s1 ∧ C.In 2 s1 ∧ Bol C s1.start ∧ s1.start < s1.stop ∧ x.region.offset = s1.start ∧
      many0Loop (maybeBlock C.env) m s1 = .ok s' (some x :: es')
  | [], n, s, s', x, es', hs, hb, h => by
    obtain ⟨m, s1, _, hp, hl⟩ := many0Loop_cons h
    obtain ⟨g, hlt, _⟩ := maybeBlock_progress (k := 0) hs hp
    have h1 := g.step.stop
    have h2 := g.step.hi
    refine ⟨n, s, Step.refl hs.wf.le, hs, ?_, by omega, ?_, h⟩
    · rcases hb with e | e
      · omega
      · exact e
    · rcases ok_of_run (maybeBlock_ok (k := 0) hs) hp with ⟨e, _⟩ | ⟨y, e, hy, _⟩
      · cases e
      · cases e
        rw [hy.region]
  | e :: es, n, s, s', x, es', hs, hb, h => by
    obtain ⟨m, s1, _, hp, hl⟩ := many0Loop_cons h
    obtain ⟨g, hlt, he⟩ := maybeBlock_progress (k := 0) hs hp
    have h1 := g.step.stop
    have h2 := g.step.hi
    obtain ⟨m', s2, a1, a2, a3, a4, a5, a6⟩ := reach_block es (hs.good g) (by
      rcases he with e | e
      · exact .inl (by omega)
      · exact .inr (.inr e)) hl
    exact ⟨m', s2, g.step.trans a1, a2, a3, a4, a5, a6⟩

theorem filterMap_split {x : α} : ∀ (es : List (Option α)) {xs ys : List α}, es.filterMap id = xs ++ x :: ys →
    ∃ es1 es2, es = es1 ++ some x :: es2 ∧ es1.filterMap id = xs ∧ es2.filterMap id = ys
  | [], xs, ys, h => by cases xs <;> cases h
  | none :: es, xs, ys, h => by
    obtain ⟨es1, es2, e1, e2, e3⟩ := filterMap_split es (xs := xs) (ys := ys) (by simpa using h)
    exact ⟨none :: es1, es2, by rw [e1]; rfl, by simpa using e2, e3⟩
  | some y :: es, [], ys, h => by
    simp only [List.filterMap_cons_some (show id (some y) = some y from rfl), List.nil_append, List.cons.injEq] at h
    obtain ⟨e1, e2⟩ := h
    subst e1
    exact ⟨[], es, rfl, rfl, e2⟩
  | some y :: es, z :: xs, ys, h => by
    simp only [List.filterMap_cons_some (show id (some y) = some y from rfl), List.cons_append, List.cons.injEq] at h
    obtain ⟨e1, e2⟩ := h
    subst e1
    obtain ⟨es1, es2, f1, f2, f3⟩ := filterMap_split es e2
    exact ⟨some y :: es1, es2, by rw [f1]; rfl, by simp [f2], f3⟩

/-- A page comes from the rounds of the page parser. -/
theorem parsePage_rounds {text : Str} {s : Span} {pg : Page} (h : parsePage env text = .ok s pg) :
    ∃ es, many0Loop (maybeBlock env) (text.length + 1) (Span.ofStr text) = .ok s es ∧ pg.elements = es.filterMap id := by
  unfold parsePage page at h
  obtain ⟨es, h1, e⟩ := map_inv h
  subst e
  refine ⟨es, ?_, rfl⟩
  unfold allConsuming at h1
  have hl : (Span.ofStr text).remainingLen = text.length := by rw [remainingLen_eq]; simp [Span.ofStr]
  cases hm : many0 (maybeBlock env) (Span.ofStr text) with
  | ok s1 es1 =>
    rw [hm] at h1
    simp only at h1
    split at h1
    · cases h1
      unfold many0 at hm
      rw [hl] at hm
      exact hm
    · cases h1
  | err => rw [hm] at h1; cases h1
  | panic => rw [hm] at h1; cases h1
  | diverge => rw [hm] at h1; cases h1

namespace Mv

variable {M : Mv}

theorem All.elements {xs ys : List (Option (Located Block))} (h : All (Opt (M.Loc M.Blk)) xs ys) :
    ys.filterMap id = Block.allMoved M.k (xs.filterMap id) := by
  induction h with
  | nil => rfl
  | cons h _ ih =>
    cases h with
    | none => simpa using ih
    | @some a b h =>
      cases a; cases b
      obtain ⟨h1, h2⟩ := h
      simp only [Blk] at h1 h2
      simp only [List.filterMap_cons_some (show id (some _) = some _ from rfl), ih, Block.allMoved, h1, h2]

/-- The beginning of the text, in both texts. -/
theorem rel_start (M : Mv) : M.Rel (Span.ofStr M.text) ⟨M.pre ++ M.text, M.k, (M.pre ++ M.text).length, 0⟩ := by
  refine ⟨rfl, ?_⟩
  simp [Span.later, Span.ofStr]

end Mv

theorem bol_take {text : Str} {n : Nat} (h : Bol (Ctx.ofText env text) n) (hn : n ≤ text.length) :
    text.take n = [] ∨ (text.take n).getLast? = some 10 := by
  rcases h with e | e
  · exact .inl (by rw [e]; rfl)
  · by_cases h0 : n = 0
    · exact .inl (by rw [h0]; rfl)
    · refine .inr ?_
      rw [List.getLast?_eq_getElem?, List.length_take, Nat.min_eq_left hn, List.getElem?_take, if_pos (by omega)]
      exact e

/-- Without the text before a block. -/
theorem parsePage_drop {text : Str} {s : Span} {pg : Page} (h : parsePage env text = .ok s pg)
    {xs ys : List (Located Block)} {x : Located Block} (hx : pg.elements = xs ++ x :: ys) :
    ∃ s' pg', parsePage env (text.drop x.region.offset) = .ok s' pg' ∧
      (pg'.moved x.region.offset).elements = x :: ys := by
  obtain ⟨es, hl, he⟩ := parsePage_rounds h
  obtain ⟨es1, es2, e1, _, e3⟩ := filterMap_split es (he.symm.trans hx)
  subst e1
  obtain ⟨m, s1, hst, hin, hb, hlt, ho, hrun⟩ := reach_block (C := Ctx.ofText env text) es1 (Ctx.ofText_in env text) (.inr (.inl rfl)) hl
  have hlen : s1.stop = text.length := hst.stop
  have hle : s1.start ≤ text.length := by omega
  let M : Mv := ⟨text.take s1.start, text.drop s1.start, bol_take hb hle, by
    intro e
    have := congrArg List.length e
    simp only [List.length_drop, List.length_nil] at this
    omega⟩
  have hs1 : s1 = ⟨M.pre ++ M.text, M.k, (M.pre ++ M.text).length, 0⟩ := by
    obtain ⟨i, a, b, d⟩ := s1
    have h1 : i = text := hst.inner
    have h2 : d = 0 := hst.depth
    simp only at hlen hle
    simp only [M, Mv.k, List.take_append_drop, List.length_take, Nat.min_eq_left hle, h1, h2, hlen]
  have hk : M.k = s1.start := by simp only [M, Mv.k, List.length_take, Nat.min_eq_left hle]
  replace hrun : many0Loop (maybeBlock env) m s1 = .ok s (some x :: es2) := hrun
  have h2 := Mv.Par.many0Loop (Mv.Par.maybeBlock (M := M) (env := env)) m _ _ M.rel_start
  rw [← hs1, hrun] at h2
  generalize hr : many0Loop (maybeBlock env) m (Span.ofStr M.text) = r at h2
  cases h2 with
  | @ok s2 _ es3 _ h3 h4 =>
    rw [ho]
    have hnb := rounds_le (C := Ctx.ofText env M.text) es3 (Ctx.ofText_in env M.text) hr
    have hfew := many0Loop_fewer m hr (M.text.length + 1) (by
      have : (Span.ofStr M.text).stop - (Span.ofStr M.text).start = M.text.length := by simp [Span.ofStr]
      omega)
    have hel := h4.elements
    have hrem : s2.remainingLen = 0 := by
      have hs : s.start = text.length := (ok_of_run (parsePage_ok env text) h).1
      have hs' : s.stop = text.length := by
        have := (ok_of_run (page_ok (Ctx.ofText_in env text) (.inr (.inl rfl))) h)
        rw [this.2.1.stop]; rfl
      rw [← h3.len, remainingLen_eq]
      omega
    refine ⟨s2, ⟨es3.filterMap id⟩, ?_, ?_⟩
    · show parsePage env M.text = _
      have hl : (Span.ofStr M.text).remainingLen = M.text.length := by rw [remainingLen_eq]; simp [Span.ofStr]
      unfold parsePage page P.map allConsuming many0
      rw [hl, hfew]
      simp only [hrem, if_true]
    · show Block.allMoved _ _ = _
      rw [← hk, ← hel, ← e3]
      rfl

end Vw
