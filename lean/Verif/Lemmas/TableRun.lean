import Verif.Lemmas.TableWritten
import Verif.Lemmas.DefsRun
import Verif.Lemmas.NestText
import Verif.Lemmas.Table

/-!
# Tables are read back
-/

namespace Vw
open P Scan

variable {env : Env} {ue : Uri → Uri → Bool} {L : OutLib} {cfg : VwCfg} {s s' s1 : Span} {w r ws : Str} {d : Nat}

/-! ## Cells -/

theorem span_begins {p : Str} {x y : CellSpan} {u : Str} (h : View s u)
    (e : P.value x (delimited space0 (tag p) space0) s = .ok s' y) : Begins u p := by
  obtain ⟨_, e, -⟩ := value_inv e
  obtain ⟨s1, _, e1, e⟩ := bind_inv e
  obtain ⟨w, q, rfl, hw, -, rfl, -⟩ := space0_inv h e1
  obtain ⟨s2, _, e2, -⟩ := bind_inv e
  obtain ⟨q', rfl, -⟩ := tag_inv (View.adv h) e2
  exact ⟨w, q', rfl, hw⟩

theorem span_run {p a b : Str} (x : CellSpan) (h : View s (a ++ (p ++ (b ++ c!"|" :: r)))) (ha : AllBlank a) (hb : AllBlank b)
    (hp : ∀ y, (p ++ (b ++ c!"|" :: r)).head? = some y → ¬ (y = 32 ∨ y = 9)) :
    P.value x (delimited space0 (tag p) space0) s = .ok (adv s (a ++ (p ++ b)).length) x := by
  have v1 : View (adv s a.length) _ := View.adv h
  have v2 : View (adv (adv s a.length) p.length) _ := View.adv v1
  refine map_ok (a := cut (adv s a.length) p.length) ?_
  unfold delimited
  rw [bind_ok (space0_run h (AllBlank.iff.1 ha) fun y hy => isSpace_false.2 (hp y hy)), bind_ok (tag_run v1),
    bind_ok (space0_run v2 (AllBlank.iff.1 hb) (by intro y hy; simp at hy; subst hy; rfl))]
  rw [adv_adv, adv_adv]
  show Res.ok _ _ = _
  congr 2
  simp

/-- Before a bar, what begins with `p` after blanks does so inside the cell. -/
theorem begins_cell {u p : Str} {c : Byte} {q : Str} (hp : p = c :: q) (hc : c ≠ c!"|") (h : Begins (u ++ c!"|" :: r) p) (hu : c!"|" ∉ p) :
    ∃ ws v, u = ws ++ v ∧ AllBlank ws ∧ p <+: v := by
  obtain ⟨ws, z, e, hws⟩ := h
  rcases List.append_eq_append_iff.1 e with ⟨a, rfl, e2⟩ | ⟨b, rfl, e2⟩
  · exfalso
    cases a with
    | nil => rw [hp] at e2; simp at e2; exact hc e2.1.symm
    | cons x a =>
      simp at e2
      have := hws x (by simp)
      rw [← e2.1] at this
      revert this
      decide
  · refine ⟨ws, b, rfl, hws, ?_⟩
    rcases List.append_eq_append_iff.1 e2 with ⟨a, rfl, e3⟩ | ⟨a, rfl, e3⟩
    · exact List.prefix_append _ _
    · cases a with
      | nil => simp
      | cons x a =>
        simp at e3
        exact absurd (by simp [e3.1]) hu

theorem no_begins {u p : Str} {x c : Byte} {q : Str} (hp : p = c :: q) (hu : u.head? = some x) (hx : ¬ (x = 32 ∨ x = 9))
    (hc : x ≠ c) : ¬ Begins u p := by
  rintro ⟨ws, z, rfl, hws⟩
  cases ws with
  | nil => rw [hp] at hu; simp at hu; exact hc hu.symm
  | cons y ws => simp at hu; subst hu; exact hx (hws y (by simp))

theorem fails_spans {u : Str} (h : View s u) (h1 : ¬ Begins u b!"\\/") (h2 : ¬ Begins u b!">") :
    Fails (P.map cellSpanAbove Cell.span s) ∧ Fails (P.map cellSpanLeft Cell.span s) :=
  ⟨Fails.map (.of_inv fun _ _ e => h1 (span_begins h e)), Fails.map (.of_inv fun _ _ e => h2 (span_begins h e))⟩

/-- The alignment with a colon before and after the dashes. -/
def colons (a b : Bool) : Align :=
  match a, b with
  | true, true => .center
  | false, true => .right
  | true, false => .left
  | _, _ => .none

theorem align_run {n : Nat} (a b : Bool) (hn : 0 < n)
    (h : View s ((if a then b!":" else []) ++ (rep c!"-" n ++ ((if b then b!":" else []) ++ c!"|" :: r)))) :
    columnAlign s = .ok (adv s ((if a then 1 else 0) + n + (if b then 1 else 0))) (colons a b) := by
  obtain ⟨m, rfl⟩ : ∃ m, n = m + 1 := ⟨n - 1, by omega⟩
  have hr : rep c!"-" (m + 1) = c!"-" :: rep c!"-" m := rfl
  have h1 : ∃ o : Option Byte, opt (char c!":") s = .ok (adv s (if a then 1 else 0)) o ∧ o.isSome = a := by
    cases a with
    | true => exact ⟨_, opt_ok (char_run h), rfl⟩
    | false => exact ⟨none, opt_er (satisfy_run_err h (by rw [hr]; simp)), rfl⟩
  obtain ⟨o1, h1, ho1⟩ := h1
  have v1 : View (adv s (if a then 1 else 0)) (rep c!"-" (m + 1) ++ ((if b then b!":" else []) ++ c!"|" :: r)) := by
    have := View.adv h
    cases a <;> exact this
  have h2 : takeLineWhile1 (char c!"-") (adv s (if a then 1 else 0)) = .ok (adv (adv s (if a then 1 else 0)) (m + 1))
      (cut (adv s (if a then 1 else 0)) (m + 1)) := takeLineWhile1_run (c := c!"-") (by decide) (by cases b <;> simp) (n := m + 1) v1
  have v2 : View (adv (adv s (if a then 1 else 0)) (m + 1)) ((if b then b!":" else []) ++ c!"|" :: r) := by
    have := View.adv v1
    rwa [show (rep c!"-" (m + 1)).length = m + 1 by simp [rep]] at this
  have h3 : ∃ o : Option Byte, opt (char c!":") (adv (adv s (if a then 1 else 0)) (m + 1)) =
      .ok (adv (adv (adv s (if a then 1 else 0)) (m + 1)) (if b then 1 else 0)) o ∧ o.isSome = b := by
    cases b with
    | true => exact ⟨_, opt_ok (char_run v2), rfl⟩
    | false => exact ⟨none, opt_er (satisfy_run_err v2 (by simp)), rfl⟩
  obtain ⟨o3, h3, ho3⟩ := h3
  unfold columnAlign
  rw [bind_ok h1, bind_ok h2, bind_ok h3, adv_adv, adv_adv]
  subst ho1 ho3
  rw [Nat.add_assoc]
  cases o1 <;> cases o3 <;> rfl

theorem inlinesOk_blank {b : Byte} {t : Str} {reg : Region} {rest : List (Located Inline)} (hb : b = 32 ∨ b = 9) (v : Str)
    (h : InlinesOk env ue L cfg [] (⟨.text (b :: t), reg⟩ :: rest)) : InlinesOk env ue L cfg v (⟨.text (b :: t), reg⟩ :: rest) := by
  have hw : WsByte b := by rcases hb with rfl | rfl <;> decide
  have key : ∀ u, lastWord (v ++ b :: u) = lastWord ([] ++ b :: u) := fun u => by
    rw [lastWord_append_ws ⟨b, by simp, hw⟩]; rfl
  simp only [InlinesOk, InlineOk, Inline.textOf] at h ⊢
  rw [key]
  refine ⟨?_, h.2⟩
  obtain ⟨h1, h2, h3, h4, h5⟩ := h.1
  refine ⟨h1, h2, h3, h4, fun u q e hq => ?_⟩
  cases u with
  | nil =>
    have := h5 [] q e hq
    refine ⟨this.comment, this.pairs, this.tag, this.keyword, fun hh => ?_⟩
    simp at e
    subst e
    simp at hh
    exact absurd hb (by rw [hh]; decide)
  | cons c u =>
    simp at e
    rw [← e.1, key]
    exact h5 (b :: u) q (by simp [e.2]) hq

/-- A cell with the text `w` is read before a bar. -/
def CellReads (env : Env) (ue : Uri → Uri → Bool) (d : Nat) (w : Str) (x : Cell) : Prop :=
  ∀ s r, s.depth = d + 1 → View s (w ++ c!"|" :: r) →
    Gives (cell env s) (adv s w.length) fun y => y.inner.eqv false ue x = true

theorem content_reads (hs : env.SchemeSound) {xs : Inlines} (h : CellTextOk env ue L cfg d xs) :
    CellReads env ue d (Inline.textAll L cfg xs) (.content xs) := by
  intro s r hd hv
  obtain ⟨b, t, reg, rest, hxs, hb⟩ := h.first
  have htx : Inline.textAll L cfg xs = b :: (t ++ Inline.textAll L cfg rest) := by rw [hxs]; simp [Inline.textAll, Inline.textOf]
  have no1 : ¬ Begins (Inline.textAll L cfg xs ++ c!"|" :: r) b!"\\/" := fun hb => by
    obtain ⟨ws, v, e, hws, hp⟩ := begins_cell rfl (by decide) hb (by decide)
    exact (h.span ws v e hws).2 hp
  have no2 : ¬ Begins (Inline.textAll L cfg xs ++ c!"|" :: r) b!">" := fun hb => by
    obtain ⟨ws, v, e, hws, hp⟩ := begins_cell rfl (by decide) hb (by decide)
    exact (h.span ws v e hws).1 hp
  obtain ⟨f1, f2⟩ := fails_spans hv no1 no2
  refine Gives.located (Q := fun y : Cell => y.eqv false ue (.content xs) = true) ?_
  refine Gives.alts f1 (Gives.alts f2 (Gives.alts ?_ ?_))
  · refine Fails.map (.of_err ?_)
    unfold columnAlign
    rw [htx] at hv
    rw [bind_ok (opt_er (p := char c!":") (satisfy_run_err hv (by rcases hb with rfl | rfl <;> simp)))]
    have := takeLineWhile1_run (c := c!"-") (by decide) (n := 0) (r := b :: (t ++ Inline.textAll L cfg rest) ++ c!"|" :: r) (by
      rcases hb with rfl | rfl <;> simp) (by simpa using hv)
    rw [bind_er (by simpa using this)]
  · have hc1 : View (cut s (Inline.textAll L cfg xs).length) (Inline.textAll L cfg xs ++ []) := by simpa using View.cut hv
    obtain ⟨ys, hy, hq⟩ := inlines_run hs (.inl rfl) hc1 (by rw [hxs]; simp) (by
      have := h.ok
      rw [hxs] at this ⊢
      exact inlinesOk_blank hb _ this) (by
      have := h.depth
      show s.depth + 1 + _ ≤ _
      omega)
    refine Gives.map (Q := fun y : Located Inlines => Inline.eqvs false ue y.inner xs = true) ?_ fun y hy => hy
    exact Gives.mapParser (takeLineUntil1_run hv h.line h.bar (by decide) (by rw [htx]; simp)) (Gives.of_ok hy hq)

theorem blank_rep (n : Nat) : AllBlank (rep c!" " n) := by
  intro x hx
  rw [(List.mem_replicate.1 hx).2]
  decide

/-- The mark of a span cell. -/
def spanMark : CellSpan → Str
  | .fromLeft => b!">"
  | .fromAbove => b!"\\/"

theorem spanText_parts (W : Nat) (x : CellSpan) :
    ∃ a b, fill W (spanText cfg x) = a ++ (spanMark x ++ b) ∧ AllBlank a ∧ AllBlank b := by
  have one : AllBlank b!" " := blank_rep 1
  have nil : AllBlank [] := by intro y hy; simp at hy
  have app : ∀ n, AllBlank (b!" " ++ rep c!" " n) := fun n => blank_rep (n + 1)
  unfold fill spanText
  cases x <;> cases cfg.tableNoPadding
  · exact ⟨b!" ", b!" " ++ rep c!" " _, by simp [spanMark]; rfl, one, app _⟩
  · exact ⟨[], rep c!" " _, by simp [spanMark]; rfl, nil, blank_rep _⟩
  · exact ⟨b!" ", b!" " ++ rep c!" " _, by simp [spanMark]; rfl, one, app _⟩
  · exact ⟨[], rep c!" " _, by simp [spanMark]; rfl, nil, blank_rep _⟩

theorem spanCell_reads (W : Nat) (x : CellSpan) : CellReads env ue d (fill W (spanText cfg x)) (.span x) := by
  intro s r hd hv
  obtain ⟨a, b, e, ha, hb⟩ := spanText_parts (cfg := cfg) W x
  have hv' : View s (a ++ (spanMark x ++ (b ++ c!"|" :: r))) := by rw [e] at hv; simpa using hv
  rw [e]
  refine Gives.located (Q := fun y : Cell => y.eqv false ue (.span x) = true) ?_
  have hat : ∀ c q, spanMark x = c :: q → ¬ (c = 32 ∨ c = 9) → ∀ y, (spanMark x ++ (b ++ c!"|" :: r)).head? = some y → ¬ (y = 32 ∨ y = 9) := by
    intro c q hc hn y hy
    rw [hc] at hy
    simp at hy
    subst hy
    exact hn
  cases x with
  | fromAbove =>
    exact Gives.alts_fst (Gives.of_ok (map_ok (span_run .fromAbove hv' ha hb (hat _ _ rfl (by decide)))) (by simp [Cell.eqv]))
  | fromLeft =>
    refine Gives.alts (Fails.map (.of_inv fun _ _ e => ?_))
      (Gives.alts_fst (Gives.of_ok (map_ok (span_run .fromLeft hv' ha hb (hat _ _ rfl (by decide)))) (by simp [Cell.eqv])))
    obtain ⟨ws, z, e, hws⟩ := span_begins hv' e
    have h1 := congrArg (List.dropWhile fun x => decide (x = 32 ∨ x = 9)) e
    rw [List.dropWhile_append_of_pos (l₁ := a) fun x hx => by simpa using ha x hx,
      List.dropWhile_append_of_pos (l₁ := ws) fun x hx => by simpa using hws x hx] at h1
    simp [spanMark] at h1

theorem alignCell_reads {W : Nat} (a : Align) (hW : cellNeed L cfg (.align a) ≤ W) :
    CellReads env ue d (cellFull L cfg W (.align a)) (.align a) := by
  intro s r hd hv
  have hhead : ∃ x, (cellFull L cfg W (.align a) ++ c!"|" :: r).head? = some x ∧ (x = c!"-" ∨ x = c!":") := by
    cases a <;> simp only [cellNeed] at hW
    · obtain ⟨m, rfl⟩ : ∃ m, W = m + 1 := ⟨W - 1, by omega⟩
      exact ⟨_, rfl, .inl rfl⟩
    · exact ⟨_, rfl, .inr rfl⟩
    · exact ⟨_, rfl, .inr rfl⟩
    · obtain ⟨m, rfl⟩ : ∃ m, W = m + 2 := ⟨W - 2, by omega⟩
      exact ⟨_, rfl, .inl rfl⟩
  obtain ⟨x, hx, hx'⟩ := hhead
  obtain ⟨f1, f2⟩ := fails_spans hv (no_begins rfl hx (by rcases hx' with rfl | rfl <;> decide) (by rcases hx' with rfl | rfl <;> decide))
    (no_begins rfl hx (by rcases hx' with rfl | rfl <;> decide) (by rcases hx' with rfl | rfl <;> decide))
  refine Gives.located (Q := fun y : Cell => y.eqv false ue (.align a) = true) ?_
  refine Gives.alts f1 (Gives.alts f2 (Gives.alts_fst ?_))
  refine Gives.map (Q := fun y => y = a) ?_ fun y hy => by subst hy; simp [Cell.eqv]
  cases a <;> simp only [cellNeed] at hW
  · rw [align_run (s := s) (r := r) false false (n := W) (by omega) (by simpa [cellFull] using hv)]
    exact ⟨by congr 1; simp [cellFull, rep], rfl⟩
  · rw [align_run (s := s) (r := r) true false (n := W - 1) (by omega) (by simpa [cellFull] using hv)]
    exact ⟨by congr 1; simp [cellFull, rep]; omega, rfl⟩
  · rw [align_run (s := s) (r := r) true true (n := W - 2) (by omega) (by simpa [cellFull] using hv)]
    exact ⟨by congr 1; simp [cellFull, rep]; omega, rfl⟩
  · rw [align_run (s := s) (r := r) false true (n := W - 1) (by omega) (by simpa [cellFull] using hv)]
    exact ⟨by congr 1; simp [cellFull, rep], rfl⟩

theorem cellFull_reads (hs : env.SchemeSound) {W : Nat} {x : Cell} (hW : cellNeed L cfg x ≤ W)
    (h : ∀ xs, x = .content xs → CellTextOk env ue L cfg d xs) : CellReads env ue d (cellFull L cfg W x) x := by
  cases x with
  | content xs => exact content_reads hs (h xs rfl)
  | span x => exact spanCell_reads W x
  | align a => exact alignCell_reads a hW

/-! ## Rows -/

theorem no_cell_eol (h : View s (10 :: r)) : Fails (cell env s) := by
  obtain ⟨f1, f2⟩ := fails_spans h (no_begins (x := 10) rfl rfl (by decide) (by decide))
    (no_begins (x := 10) rfl rfl (by decide) (by decide))
  refine Fails.located (Fails.alts f1 (Fails.alts f2 (Fails.alts (Fails.map (.of_err ?_)) (Fails.map ?_))))
  · unfold columnAlign
    rw [bind_ok (opt_er (p := char c!":") (satisfy_run_err h (by simp)))]
    have := takeLineWhile1_run (c := c!"-") (by decide) (n := 0) (r := 10 :: r) (by simp) (by simpa using h)
    rw [bind_er (by simpa using this)]
  · refine .of_inv fun _ _ e => ?_
    obtain ⟨s1, s2, e1, -⟩ := mapParser_inv e
    have e2 : takeLineUntil1 b!"|" s = .err :=
      takeLineUntil1_run_eol (w := []) (c := c!"|") h ⟨by simp, .inr (.inl ⟨r, rfl, by simp⟩)⟩ (by simp) (by decide)
    rw [e2] at e1
    cases e1

/-- The condition on a cell that is read. -/
def CellIs (ue : Uri → Uri → Bool) (x : Cell) (y : Located Cell) : Prop := y.inner.eqv false ue x = true

theorem row_rest {xs : List (Str × Cell)} (hx : ∀ e ∈ xs, CellReads env ue d e.1 e.2) (hd : s.depth = d)
    (h : View s (c!"|" :: (barred (xs.map (·.1)) ++ 10 :: r))) :
    SepMany (char c!"|") (deeper (cell env)) s (xs.map fun e => CellIs ue e.2) (adv s (barred (xs.map (·.1))).length) := by
  induction xs generalizing s with
  | nil => exact .stop (char_run h) (by decide) (Fails.deeper (no_cell_eol (View.withDepth (View.adv (w := [c!"|"]) h) _)))
  | cons e xs ih =>
    have v1 : View (adv s 1) (e.1 ++ c!"|" :: (barred (xs.map (·.1)) ++ 10 :: r)) := by
      simpa [barred] using View.adv (w := [c!"|"]) h
    have v2 : View (adv s (1 + e.1.length)) (c!"|" :: (barred (xs.map (·.1)) ++ 10 :: r)) := by
      rw [← adv_adv]; exact View.adv v1
    refine .cons (n := 1 + e.1.length) (char_run h) (by decide) ?_ ?_
    · rw [← adv_adv]
      exact Gives.deeper fun _ => hx e (by simp) _ _ (by simpa [Span.withDepth] using hd) (View.withDepth v1 _)
    · have := ih (fun e he => hx e (by simp [he])) (s := adv s (1 + e.1.length)) (by simpa using hd) v2
      rw [adv_adv] at this
      simpa [barred, Nat.add_comm, Nat.add_left_comm, Nat.add_assoc] using this

theorem barred_turn (l : List Str) : ∃ u, c!"|" :: barred l = u ++ [c!"|"] := by
  induction l with
  | nil => exact ⟨[], rfl⟩
  | cons x l ih =>
    obtain ⟨u, hu⟩ := ih
    refine ⟨c!"|" :: (x ++ u), ?_⟩
    have : barred (x :: l) = x ++ (c!"|" :: barred l) := by simp [barred]
    rw [this, hu]
    simp

/-- A row is read. -/
theorem row_gives {e : Str × Cell} {xs : List (Str × Cell)} (hx : ∀ x ∈ e :: xs, CellReads env ue d x.1 x.2) (hd : s.depth = d)
    (h : View s (c!"|" :: (barred ((e :: xs).map (·.1)) ++ 10 :: r))) :
    Gives (row env s) (adv s (c!"|" :: (barred ((e :: xs).map (·.1)) ++ [10])).length)
      (Each ((e :: xs).map fun e => CellIs ue e.2)) := by
  have v1 : View (adv s 1) (e.1 ++ c!"|" :: (barred (xs.map (·.1)) ++ 10 :: r)) := by
    simpa [barred] using View.adv (w := [c!"|"]) h
  have v2 : View (adv (adv s 1) e.1.length) (c!"|" :: (barred (xs.map (·.1)) ++ 10 :: r)) := View.adv v1
  have v3 : View (adv (adv (adv s 1) e.1.length) (barred (xs.map (·.1))).length) (c!"|" :: 10 :: r) := by
    obtain ⟨u, hu⟩ := barred_turn (xs.map (·.1))
    have v2' : View (adv (adv s 1) e.1.length) (u ++ c!"|" :: 10 :: r) := by
      have : c!"|" :: (barred (xs.map (·.1)) ++ 10 :: r) = u ++ c!"|" :: 10 :: r := by
        rw [← List.cons_append, hu]; simp
      rwa [this] at v2
    have := View.adv v2'
    rwa [show u.length = (barred (xs.map (·.1))).length by have := congrArg List.length hu; simpa using this.symm] at this
  refine Gives.bind (Q := Each ((e :: xs).map fun e => CellIs ue e.2)) (s1 := adv (adv (adv (adv s 1) e.1.length) (barred (xs.map (·.1))).length) 1) ?_ ?_
  · refine Gives.bind (Q := fun _ => True) (Gives.of_ok (char_run h) trivial) fun _ _ => ?_
    refine Gives.bind (SepMany.list1 (Q := CellIs ue e.2) (Gives.deeper fun _ => hx e (by simp) _ _ (by simpa [Span.withDepth] using hd) (View.withDepth v1 _))
      (row_rest (fun x h => hx x (by simp [h])) (by simpa using hd) v2)) fun y hy => ?_
    exact Gives.bind (Q := fun _ => True) (Gives.of_ok (char_run v3) trivial) fun _ _ => Gives.pure hy
  · intro y hy
    have v4 : View (adv (adv (adv (adv s 1) e.1.length) (barred (xs.map (·.1))).length) 1) (10 :: r) := View.adv (w := [c!"|"]) v3
    obtain ⟨n, h1, -, -, -, hn⟩ := eol_run v4 (.inr (.inl ⟨r, rfl⟩))
    have hn : n = 1 := hn
    subst hn
    rw [bind_ok h1]
    refine ⟨?_, hy⟩
    simp only [adv_adv]
    congr 1
    simp [barred]
    omega

/-! ## Tables -/

/-- No row of a table begins here. -/
def NoRow (r : Str) : Prop := ∃ ws q, r = ws ++ q ∧ AllBlank ws ∧ ∀ x, q.head? = some x → ¬ (x = 32 ∨ x = 9) ∧ x ≠ c!"|"

theorem no_row (h : View s r) (hr : NoRow r) : Fails (preceded space0 (row env) s) := by
  obtain ⟨ws, q, rfl, hws, hq⟩ := hr
  unfold preceded
  rw [bind_ok (space0_run h (AllBlank.iff.1 hws) fun y hy => isSpace_false.2 (hq y hy).1)]
  refine Fails.bind (Fails.bind (.of_err (satisfy_run_err (View.adv h) fun x hx => ?_)))
  simpa using (hq x hx).2

/-- The cells of a row with their texts can be read. -/
def RowReads (env : Env) (ue : Uri → Uri → Bool) (d : Nat) (xs : List (Str × Cell)) : Prop :=
  xs ≠ [] ∧ ∀ x ∈ xs, CellReads env ue d x.1 x.2

/-- The condition on a row that is read. -/
def RowIs (ue : Uri → Uri → Bool) (xs : List (Str × Cell)) (ys : List (Located Cell)) : Prop :=
  Each (xs.map fun e => CellIs ue e.2) ys

theorem row_run {xs : List (Str × Cell)} (hx : RowReads env ue d xs) (hd : s.depth = d)
    (h : View s (c!"|" :: (barred (xs.map (·.1)) ++ 10 :: r))) :
    Gives (row env s) (adv s (c!"|" :: (barred (xs.map (·.1)) ++ [10])).length) (RowIs ue xs) := by
  obtain ⟨h1, h2⟩ := hx
  cases xs with
  | nil => exact absurd rfl h1
  | cons e xs => exact row_gives h2 hd h

theorem indentAt_blank (hi : AllBlank cfg.indentStr) (i : Nat) (b : Bool) : AllBlank (indentAt cfg i b) := by
  cases b with
  | true => exact allBlank_indent hi i
  | false => intro x hx; simp [indentAt] at hx

theorem lead_blank (hi : AllBlank cfg.indentStr) (ce : Bool) (i : Nat) (b : Bool) :
    AllBlank (indentAt cfg i b ++ (if ce then b!"    " else [])) := by
  intro x hx
  rcases List.mem_append.1 hx with h | h
  · exact indentAt_blank hi i b x h
  · cases ce with
    | true => exact blank_rep 4 x h
    | false => simp at h

theorem rowLines_cons (ce : Bool) (i : Nat) (b : Bool) (cs : List Str) (rest : List (List Str)) :
    rowLines cfg ce i b (cs :: rest) = (indentAt cfg i b ++ (if ce then b!"    " else [])) ++
      ((c!"|" :: (barred cs ++ [10])) ++ rowLines cfg ce i true rest) := by
  simp [rowLines, rowLine]

theorem length_three (a b c : Str) : (a ++ (b ++ c)).length = a.length + b.length + c.length := by
  simp [Nat.add_assoc]

theorem rows_many (hi : AllBlank cfg.indentStr) {ce : Bool} {i : Nat} {b : Bool} {xss : List (List (Str × Cell))}
    (hx : ∀ xs ∈ xss, RowReads env ue d xs) (hd : s.depth = d)
    (h : View s (rowLines cfg ce i b (xss.map fun xs => xs.map (·.1)) ++ r)) (hr : NoRow r) :
    Many (preceded space0 (row env)) s (xss.map (RowIs ue)) (adv s (rowLines cfg ce i b (xss.map fun xs => xs.map (·.1))).length) := by
  induction xss generalizing s b with
  | nil => exact .nil (no_row h hr)
  | cons xs xss ih =>
    rw [List.map_cons] at h
    rw [List.map_cons, List.map_cons]
    rw [rowLines_cons] at h ⊢
    have v1 : View s ((indentAt cfg i b ++ (if ce then b!"    " else [])) ++
        (c!"|" :: (barred (xs.map (·.1)) ++ 10 :: (rowLines cfg ce i true (xss.map fun xs => xs.map (·.1)) ++ r)))) := by
      simpa using h
    have v2 := View.adv v1
    have v3 : View (adv s (indentAt cfg i b ++ (if ce then b!"    " else [])).length)
        ((c!"|" :: (barred (xs.map (·.1)) ++ [10])) ++ (rowLines cfg ce i true (xss.map fun xs => xs.map (·.1)) ++ r)) := by
      simpa using v2
    have v4 := View.adv v3
    have h1 := row_run (hx xs (by simp)) (by simpa using hd) v2
    rw [adv_adv] at h1 v4
    have := ih (fun xs h => hx xs (by simp [h])) (s := adv s _) (b := true) (by simpa using hd) v4
    rw [adv_adv] at this
    refine .cons (Q := RowIs ue xs) (n := (indentAt cfg i b ++ (if ce then b!"    " else [])).length + (c!"|" :: (barred (xs.map (·.1)) ++ [10])).length) ?_ (by simp only [List.length_cons]; omega) ?_
    · exact Gives.bind (Q := fun _ => True) (Gives.of_ok (space0_run v1 (AllBlank.iff.1 (lead_blank hi ce i b)) (by intro y hy; simp at hy; subst hy; rfl)) trivial)
        fun _ _ => h1
    · rw [length_three]
      exact this

theorem each_at {α β : Type} {f : β → α → Prop} : ∀ {l : List β} {ys : List α}, Each (l.map f) ys →
    ys.length = l.length ∧ ∀ (j : Nat) (y : α), ys[j]? = some y → ∃ a, l[j]? = some a ∧ f a y := by
  intro l
  induction l with
  | nil => intro ys h; cases h; exact ⟨rfl, by simp⟩
  | cons a l ih =>
    intro ys h
    cases h with
    | cons hq he =>
      obtain ⟨h1, h2⟩ := ih he
      refine ⟨by simp [h1], fun j y hj => ?_⟩
      cases j with
      | zero => simp at hj; subst hj; exact ⟨a, rfl, hq⟩
      | succ j => exact h2 j y (by simpa using hj)

/-- The cell at a position, for positions with a cell. -/
def Table.cellOf (t : Table) (r c : Nat) : Cell :=
  match t.getCell r c with
  | some x => x.inner
  | none => .align .none

/-- The cells of a table with their texts. -/
def Table.grid (L : OutLib) (cfg : VwCfg) (t : Table) : List (List (Str × Cell)) :=
  (List.range t.rowCnt).map fun r => (List.range t.colCnt).map fun c => (t.cellAt L cfg r c, t.cellOf r c)

theorem grid_text (t : Table) : (t.grid L cfg).map (fun xs => xs.map (·.1)) = (List.range t.rowCnt).map (t.rowAt L cfg) := by
  unfold Table.grid
  rw [List.map_map]
  refine List.map_congr_left fun r _ => ?_
  show List.map _ (List.map _ _) = _
  rw [List.map_map]
  rfl

theorem grid_reads (hs : env.SchemeSound) {t : Table} (h : TableOk env ue L cfg d t) : ∀ xs ∈ t.grid L cfg, RowReads env ue d xs := by
  intro xs hx
  obtain ⟨r, hr, rfl⟩ := List.mem_map.1 hx
  have h0 := (table_rows h).2
  refine ⟨fun e => ?_, fun x hx => ?_⟩
  · have := congrArg List.length e
    simp at this
    omega
  · obtain ⟨c, hc, rfl⟩ := List.mem_map.1 hx
    rw [List.mem_range] at hr hc
    obtain ⟨x, hx⟩ := Option.isSome_iff_exists.1 (h.full r c hr hc)
    show CellReads env ue d (t.cellAt L cfg r c) (t.cellOf r c)
    unfold Table.cellAt Table.cellOf
    rw [hx]
    refine cellFull_reads hs (width_ge_need h.built hx) fun xs hxs => ?_
    obtain ⟨x, reg⟩ := x
    subst hxs
    exact (h.cells r c xs reg hx).2

/-- What is read for the cells of a table is an equal table. -/
theorem grid_same {t : Table} (h : TableOk env ue L cfg d t) {rows : List (List (Located Cell))}
    (he : Each ((t.grid L cfg).map (RowIs ue)) rows) (ce : Bool) :
    Table.eqv false ue { Table.new (tableCells 0 rows) ce with centered := t.centered } t = true ∧
    (!(List.range (Table.new (tableCells 0 rows) ce).rowCnt).all (Table.new (tableCells 0 rows) ce).isDividerRow) = true := by
  obtain ⟨h0r, h0c⟩ := table_rows h
  obtain ⟨hlen, hrow⟩ := each_at he
  have hlen : rows.length = t.rowCnt := by simpa [Table.grid] using hlen
  have hrow : ∀ r row, rows[r]? = some row → row.length = t.colCnt ∧ ∀ c y, row[c]? = some y →
      ∃ x, t.getCell r c = some x ∧ y.inner.eqv false ue x.inner = true := by
    intro r row hr
    obtain ⟨xs, hxs, hq⟩ := hrow r row hr
    have hrl : r < t.rowCnt := by rw [← hlen]; exact (List.getElem?_eq_some_iff.1 hr).1
    have hxs : xs = (List.range t.colCnt).map fun c => (t.cellAt L cfg r c, t.cellOf r c) := by
      simp [Table.grid, hrl] at hxs
      exact hxs.symm
    obtain ⟨h1, h2⟩ := each_at (f := fun e : Str × Cell => CellIs ue e.2) hq
    subst hxs
    refine ⟨by simpa using h1, fun c y hy => ?_⟩
    have hcl : c < t.colCnt := by
      have := (List.getElem?_eq_some_iff.1 hy).1
      simp at h1
      omega
    obtain ⟨e, he, hq⟩ := h2 c y hy
    simp [hcl] at he
    subst he
    obtain ⟨x, hx⟩ := Option.isSome_iff_exists.1 (h.full r c hrl hcl)
    refine ⟨x, hx, ?_⟩
    have : t.cellOf r c = x.inner := by unfold Table.cellOf; rw [hx]
    unfold CellIs at hq
    rwa [this] at hq
  have hmem : ∀ row ∈ rows, row.length = t.colCnt := fun row hm => by
    obtain ⟨r, hr⟩ := List.mem_iff_getElem?.1 hm
    exact (hrow r row hr).1
  have hne : ∀ row ∈ rows, row ≠ [] := fun row hm e => by
    have := hmem row hm
    rw [e] at this
    simp at this
    omega
  have hrc : (Table.new (tableCells 0 rows) ce).rowCnt = t.rowCnt := by rw [Table.rowCnt_new hne, hlen]
  have hcc : (Table.new (tableCells 0 rows) ce).colCnt = t.colCnt := by
    apply Nat.le_antisymm
    · exact (Table.colCnt_new_le ce _).2 fun row hm => by rw [hmem row hm]; exact Nat.le_refl _
    · have hall := (Table.colCnt_new_le (rows := rows) ce _).1 (Nat.le_refl _)
      cases rows with
      | nil => simp at hlen; omega
      | cons row rows =>
        have h1 := hall row (by simp)
        rw [hmem row (by simp)] at h1
        exact h1
  have hcell : ∀ r c y, (Table.new (tableCells 0 rows) ce).getCell r c = some y →
      ∃ x, t.getCell r c = some x ∧ y.inner.eqv false ue x.inner = true := by
    intro r c y hy
    rw [Table.getCell_new] at hy
    obtain ⟨row, h1, h2⟩ := Option.bind_eq_some_iff.1 hy
    exact (hrow r row h1).2 c y h2
  have hback : ∀ r c x, t.getCell r c = some x → ∃ y, (Table.new (tableCells 0 rows) ce).getCell r c = some y := by
    intro r c x hx
    have hb := h.built.bound hx
    rw [Table.getCell_new]
    have h1 : rows[r]? = some rows[r] := List.getElem?_eq_getElem (by omega)
    rw [h1]
    have := (hrow r _ h1).1
    exact ⟨_, List.getElem?_eq_getElem (by omega)⟩
  have hbuilt : (Table.new (tableCells 0 rows) ce).Built := ⟨_, ce, ce, rfl⟩
  refine ⟨?_, ?_⟩
  · have hkeys : ((Table.new (tableCells 0 rows) ce).cells.map (·.1)).Perm (t.cells.map (·.1)) := by
      refine (List.perm_ext_iff_of_nodup ?_ ?_).2 fun p => ?_
      · exact built_distinct hbuilt
      · exact built_distinct h.built
      · obtain ⟨r, c⟩ := p
        constructor
        · intro hp
          obtain ⟨⟨p, y⟩, hm, e⟩ := List.mem_map.1 hp
          dsimp only at e
          subst e
          obtain ⟨x, hx, -⟩ := hcell _ _ _ ((getCell_mem hbuilt).2 hm)
          exact List.mem_map.2 ⟨_, (getCell_mem h.built).1 hx, rfl⟩
        · intro hp
          obtain ⟨⟨p, x⟩, hm, e⟩ := List.mem_map.1 hp
          dsimp only at e
          subst e
          obtain ⟨y, hy⟩ := hback _ _ _ ((getCell_mem h.built).2 hm)
          exact List.mem_map.2 ⟨_, (getCell_mem hbuilt).1 hy, rfl⟩
    have hm : mapEq (locEq false (Cell.eqv false ue)) (Table.new (tableCells 0 rows) ce).cells t.cells = true := by
      refine mapEq_iff.2 ⟨by simpa using hkeys.length_eq, fun k v hk => ?_⟩
      obtain ⟨x, hx, hq⟩ := hcell _ _ _ ((getCell_mem hbuilt).2 hk)
      refine ⟨x, ?_, by simpa [locEq] using hq⟩
      rw [← lookupCell_eq]
      exact hx
    unfold Table.eqv
    simp [hm, hrc, hcc]
  · obtain ⟨r, x, hx, ha⟩ := h.rows
    obtain ⟨y, hy⟩ := hback r 0 x hx
    obtain ⟨x', hx', hq⟩ := hcell r 0 y hy
    rw [hx] at hx'
    cases hx'
    simp only [Bool.not_eq_true', List.all_eq_false]
    refine ⟨r, by rw [List.mem_range, hrc]; exact (h.built.bound hx).1, ?_⟩
    unfold Table.isDividerRow
    rw [hy]
    dsimp only
    cases hi : y.inner with
    | align a =>
      rw [hi] at hq
      cases hxi : x.inner with
      | align a' => exact absurd hxi (ha a')
      | _ => rw [hxi] at hq; simp [Cell.eqv] at hq
    | _ => simp [Table.isAlign]

theorem table_raw (hs : env.SchemeSound) (hi : AllBlank cfg.indentStr) {t : Table} (h : TableOk env ue L cfg d t) {i : Nat} {b : Bool}
    (hd : s.depth = d) (hv : View s (t.text L cfg i b ++ r)) (hr : NoRow r) :
    Gives (tableRaw env s) (adv s (t.text L cfg i b).length) fun y =>
      Table.eqv false ue { y.inner with centered := t.centered } t = true ∧ (indentAt cfg i b = [] → y.inner.centered = t.centered) := by
  unfold Table.text at hv ⊢
  rw [← grid_text] at hv ⊢
  have hg := grid_reads hs h
  have hsame := fun rows he ce => grid_same h (rows := rows) he ce
  have hne : t.grid L cfg ≠ [] := fun e => by
    have := (table_rows h).1
    have := congrArg List.length e
    simp [Table.grid] at this
    omega
  cases hx : t.grid L cfg with
  | nil => exact absurd hx hne
  | cons xs xss =>
    rw [hx] at hv hg hsame
    rw [List.map_cons] at hv ⊢
    rw [rowLines_cons] at hv ⊢
    have v1 : View s ((indentAt cfg i b ++ (if t.centered then b!"    " else [])) ++
        (c!"|" :: (barred (xs.map (·.1)) ++ 10 :: (rowLines cfg t.centered i true (xss.map fun xs => xs.map (·.1)) ++ r)))) := by
      simpa using hv
    have v2 := View.adv v1
    have v3 : View (adv s (indentAt cfg i b ++ (if t.centered then b!"    " else [])).length)
        ((c!"|" :: (barred (xs.map (·.1)) ++ [10])) ++ (rowLines cfg t.centered i true (xss.map fun xs => xs.map (·.1)) ++ r)) := by
      simpa using v2
    have v4 := View.adv v3
    have h1 := row_run (hg xs (by simp)) (by simpa using hd) v2
    rw [adv_adv] at h1 v4
    have hm := rows_many hi (fun xs h => hg xs (by simp [h])) (s := adv s _) (b := true) (by simpa using hd) v4 hr
    rw [adv_adv] at hm
    refine Gives.located (Q := fun y : Table =>
      Table.eqv false ue { y with centered := t.centered } t = true ∧ (indentAt cfg i b = [] → y.centered = t.centered)) ?_
    have hpos : (indentAt cfg i b ++ (if t.centered then b!"    " else []) ++
        ((c!"|" :: (barred (xs.map (·.1)) ++ [10])) ++ rowLines cfg t.centered i true (xss.map fun xs => xs.map (·.1)))).length =
        (indentAt cfg i b ++ (if t.centered then b!"    " else [])).length + (c!"|" :: (barred (xs.map (·.1)) ++ [10])).length +
        (rowLines cfg t.centered i true (xss.map fun xs => xs.map (·.1))).length := by
      exact length_three ..
    rw [hpos]
    refine Gives.mono (Q := fun y : Table => (Table.eqv false ue { y with centered := t.centered } t = true ∧
      (indentAt cfg i b = [] → y.centered = t.centered)) ∧ (!(List.range y.rowCnt).all y.isDividerRow) = true) ?_ fun y hy => hy.1
    refine Gives.verify ?_ fun y hy => hy.2
    refine Gives.bind (Q := fun sp => sp = cut s (indentAt cfg i b ++ (if t.centered then b!"    " else [])).length)
      (Gives.of_ok (space0_run v1 (AllBlank.iff.1 (lead_blank hi _ i b)) (by intro y hy; simp at hy; subst hy; rfl)) rfl) fun sp hsp => ?_
    refine Gives.bind h1 fun y hy => Gives.bind hm.many0 fun ys hys => Gives.pure ?_
    obtain ⟨e1, e2⟩ := hsame (y :: ys) (.cons hy hys) (!sp.isEmpty)
    refine ⟨⟨e1, fun e => ?_⟩, e2⟩
    show (!sp.isEmpty) = t.centered
    rw [hsp, (View.cut v1).isEmpty, e]
    cases t.centered <;> rfl

end Vw
