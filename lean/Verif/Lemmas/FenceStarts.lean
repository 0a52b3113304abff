import Verif.Lemmas.BlockStarts
import Verif.Lemmas.Fences
import Verif.Spec.FenceStarts

/-!
# Blocks of code and of formulas are found
-/

namespace Vw
open P Scan

variable {C : Ctx} {k : Nat} {s : Span}

theorem In.view_all (h : C.In k s) (hs : s.stop = C.inner.length) : View s (C.inner.drop s.start) := by
  have hv := In.sub_view h h.wf.le (Nat.le_refl _)
  rw [show sub C.inner s.stop s.stop = [] by simp [sub], List.append_nil, hs] at hv
  simpa [sub] using hv

theorem codeForm_run {t : Str} {lang : Option Str} {ps : List (Str × Str)} {ls : List Str} (h : View s t)
    (hf : CodeForm t lang ps ls) : ∃ s' x, codeBlock s = .ok s' x ∧ CodeIs x.inner lang ps ls := by
  obtain ⟨ws1, ws, ws2, ws3, r, raw, rfl, h1, h2, h3, h4, h5, h6, h7, h8, h9, h10, rfl⟩ := hf
  obtain ⟨x, hx, hi⟩ := code_run h h1 h2 h3 h4 h5 h6 h7 h8 h9 h10
  exact ⟨_, x, hx, _, hi, Map.mem_collect ps⟩

theorem mathForm_run {t : Str} {en : Option Str} {ls : List Str} (h : View s t)
    (hf : MathForm t en ls) : ∃ s' x, mathBlock s = .ok s' x ∧ x.inner = .math ls en := by
  obtain ⟨ws1, ws, ws2, ws3, r, raw, rfl, h1, h2, h3, h4, h5, h6, h7, h8, rfl⟩ := hf
  obtain ⟨x, hx, hi⟩ := math_run h h1 h2 h3 h4 h5 h6 h7 h8
  exact ⟨_, x, hx, hi⟩

/-- Where the text has one fence there is no other. -/
theorem not_fence {ws r : Str} {a b c d e : Byte} (h : C.inner.drop s.start = ws ++ ([a, b, c] ++ r)) (hw : AllBlank ws)
    (ha : ¬ (a = 32 ∨ a = 9)) (hc : c ≠ d) {n : Nat} (hb : Blanks C s.start (s.start + n)) (hat : At C.inner (s.start + n) [a, e, d]) : False := by
  have hat0 := hat.getElem? 0 (by simp)
  have hj := (firstByte_of (C := C) (q := s.start) (ws := ws) (x := a) h hw ha).1
  have hn := (FirstByte.uniq ⟨by omega, hb, by simpa using hat0, isSpace_false.2 ha⟩ hj).1
  have hat2 := hat.getElem? 2 (by simp)
  have h2 := congrArg (fun l => l[ws.length + 2]?) h
  rw [List.getElem?_drop] at h2
  simp only [List.getElem?_append_right (Nat.le_add_right _ _), Nat.add_sub_cancel_left] at h2
  rw [show s.start + n + 2 = s.start + (ws.length + 2) by omega, h2] at hat2
  simp at hat2
  exact hc hat2

/-- A block of code is what the line is for. -/
def CodeFor (C : Ctx) (q : Nat) (y : Located Block) : Prop :=
  (y.region.offset = q ∧ ∀ lang ps ls, CodeForm (C.inner.drop q) lang ps ls → CodeIs y.inner lang ps ls) ∨
    (y.region.offset ≤ q ∧ q < y.region.offset + y.region.len ∧ (∃ items, y.inner = .list items) ∧ Indented C q)

/-- A block of formulas is what the line is for. -/
def MathFor (C : Ctx) (q : Nat) (y : Located Block) : Prop :=
  (y.region.offset = q ∧ ∀ en ls, MathForm (C.inner.drop q) en ls → y.inner = .math ls en) ∨
    (y.region.offset ≤ q ∧ q < y.region.offset + y.region.len ∧ (∃ items, y.inner = .list items) ∧ Indented C q)

theorem no_item {q : Nat} {ws r : Str} {it : Located (ItemF Block)} (e : C.inner.drop q = ws ++ c!"{" :: r) (hw : AllBlank ws)
    (hi : ItemAt C q it) : False := by
  obtain ⟨hqj, hbl, ty, su, w, hp, ha⟩ := hi
  have hj' := (firstByte_of (C := C) (q := q) (ws := ws) (x := c!"{") e hw (by decide)).1
  obtain ⟨hne, hhd⟩ := hp.head
  cases w with
  | nil => exact hne rfl
  | cons y w' =>
    have h0 := ha.getElem? 0 (by simp)
    simp only [Nat.add_zero, List.getElem?_cons_zero] at h0
    have hy := (FirstByte.uniq ⟨hqj, hbl, h0, isSpace_false.2 (hhd y rfl)⟩ hj').2
    obtain ⟨c, u, e, -, -, -, hc⟩ := hp.first
    have := (List.cons.inj e).1
    omega

theorem codeKind (C : Ctx) : LineKind C
    (fun q => Bol C q ∧ ∃ lang ps ls, CodeForm (C.inner.drop q) lang ps ls) (CodeFor C) := by
  have first : ∀ {q lang ps ls}, CodeForm (C.inner.drop q) lang ps ls →
      ∃ ws r, C.inner.drop q = ws ++ (b!"{{{" ++ r) ∧ AllBlank ws := by
    rintro q lang ps ls ⟨ws1, ws, ws2, ws3, r, raw, e, h1, -⟩
    exact ⟨ws1, _, e, h1⟩
  have hT : InLists C (CodeFor C) := fun q y items hy h1 h2 h3 => .inr ⟨h1, h2, ⟨items, hy⟩, h3⟩
  refine ⟨fun q h => h.1, ?_, ?_, ?_, ?_, ?_, .inl ?_⟩
  · rintro q ⟨-, lang, ps, ls, hf⟩
    obtain ⟨ws, r, e, hw⟩ := first hf
    exact ⟨_, _, (firstByte_of (C := C) (q := q) (ws := ws) (x := c!"{") e hw (by decide)).1, by decide, by decide⟩
  · rintro k s s' y h - hst ⟨-, lang, ps, ls, hf⟩ hr ho
    rcases hr with hr | hr
    · refine .inl ⟨ho, fun lang ps ls hf => ?_⟩
      obtain ⟨_, x, hx, hc⟩ := codeForm_run (In.view_all h (hst hT)) hf
      rw [hr] at hx
      cases hx
      exact hc
    · exfalso
      obtain ⟨hb, ls, en, raw, a, b, n, n', hx', -, -, -, -, -, hfe⟩ := ok_of_run (mathBlock_full h) hr
      obtain ⟨e, he⟩ := hfe.open_
      obtain ⟨ws, r, e, hw⟩ := first hf
      exact not_fence (s := s) e hw (by decide) (by decide) he.blanks he.mark.2
  · rintro q j ⟨-, lang, ps, ls, hf⟩ hj
    obtain ⟨ws, r, e, hw⟩ := first hf
    exact absurd (hj.uniq (firstByte_of (C := C) (q := q) (ws := ws) (x := c!"{") e hw (by decide)).1).2 (by decide)
  · rintro q j ⟨-, lang, ps, ls, hf⟩ hj
    obtain ⟨ws, r, e, hw⟩ := first hf
    exact absurd (hj.uniq (firstByte_of (C := C) (q := q) (ws := ws) (x := c!"{") e hw (by decide)).1).2 (by decide)
  · rintro q it ⟨-, lang, ps, ls, hf⟩ hi
    obtain ⟨ws, r, e, hw⟩ := first hf
    exact (no_item e hw hi).elim
  · rintro k s list h hs hst hlt ⟨hb, lang, ps, ls, hf⟩ - s' u hc
    obtain ⟨-, hc⟩ := not_bind_inv hc
    obtain ⟨-, hc⟩ := not_bind_inv hc
    obtain ⟨-, hc⟩ := not_bind_inv hc
    obtain ⟨-, hc⟩ := not_bind_inv hc
    obtain ⟨he, -⟩ := not_bind_inv hc
    obtain ⟨_, x, hx, -⟩ := codeForm_run (In.view_all h (hst hT)) hf
    rw [he] at hx
    cases hx

theorem mathKind (C : Ctx) : LineKind C
    (fun q => Bol C q ∧ ∃ en ls, MathForm (C.inner.drop q) en ls) (MathFor C) := by
  have first : ∀ {q en ls}, MathForm (C.inner.drop q) en ls →
      ∃ ws r, C.inner.drop q = ws ++ (b!"{{$" ++ r) ∧ AllBlank ws := by
    rintro q en ls ⟨ws1, ws, ws2, ws3, r, raw, e, h1, -⟩
    exact ⟨ws1, _, e, h1⟩
  have hT : InLists C (MathFor C) := fun q y items hy h1 h2 h3 => .inr ⟨h1, h2, ⟨items, hy⟩, h3⟩
  refine ⟨fun q h => h.1, ?_, ?_, ?_, ?_, ?_, .inl ?_⟩
  · rintro q ⟨-, en, ls, hf⟩
    obtain ⟨ws, r, e, hw⟩ := first hf
    exact ⟨_, _, (firstByte_of (C := C) (q := q) (ws := ws) (x := c!"{") e hw (by decide)).1, by decide, by decide⟩
  · rintro k s s' y h - hst ⟨-, en, ls, hf⟩ hr ho
    rcases hr with hr | hr
    · exfalso
      obtain ⟨hb, l, m, ls, raw, a, b, n, n', hx', -, -, -, -, -, hfe⟩ := ok_of_run (codeBlock_full h) hr
      obtain ⟨e, he⟩ := hfe.open_
      obtain ⟨ws, r, e, hw⟩ := first hf
      exact not_fence (s := s) e hw (by decide) (by decide) he.blanks he.mark.2
    · refine .inl ⟨ho, fun en ls hf => ?_⟩
      obtain ⟨_, x, hx, hc⟩ := mathForm_run (In.view_all h (hst hT)) hf
      rw [hr] at hx
      cases hx
      exact hc
  · rintro q j ⟨-, en, ls, hf⟩ hj
    obtain ⟨ws, r, e, hw⟩ := first hf
    exact absurd (hj.uniq (firstByte_of (C := C) (q := q) (ws := ws) (x := c!"{") e hw (by decide)).1).2 (by decide)
  · rintro q j ⟨-, en, ls, hf⟩ hj
    obtain ⟨ws, r, e, hw⟩ := first hf
    exact absurd (hj.uniq (firstByte_of (C := C) (q := q) (ws := ws) (x := c!"{") e hw (by decide)).1).2 (by decide)
  · rintro q it ⟨-, en, ls, hf⟩ hi
    obtain ⟨ws, r, e, hw⟩ := first hf
    exact (no_item e hw hi).elim
  · rintro k s list h hs hst hlt ⟨hb, en, ls, hf⟩ - s' u hc
    obtain ⟨-, hc⟩ := not_bind_inv hc
    obtain ⟨-, hc⟩ := not_bind_inv hc
    obtain ⟨-, hc⟩ := not_bind_inv hc
    obtain ⟨-, hc⟩ := not_bind_inv hc
    obtain ⟨-, hc⟩ := not_bind_inv hc
    obtain ⟨he, -⟩ := not_bind_inv hc
    obtain ⟨_, x, hx, -⟩ := mathForm_run (In.view_all h (hst hT)) hf
    rw [he] at hx
    cases hx

end Vw
