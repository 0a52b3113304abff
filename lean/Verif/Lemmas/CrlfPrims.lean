import Verif.Lemmas.CrlfScan
import Verif.Model.Inline

/-!
# The parsers of bytes and lines on a text with other line endings
-/

namespace Vw
open P Scan
open Mv (All Opt Both)
namespace Cr

variable {M : Cr} {α β γ : Type}

/-- A line is taken up to the same place. -/
theorem Rel.split {s t : Span} (hs : M.Rel s t) {n : Nat} (hn : n ≤ s.asRemaining.length) (hl : 10 ∉ s.asRemaining.take n) :
    M.Two M.Rel M.Line (P.takeSplit s n) (P.takeSplit t n) :=
  .ok (hs.sliceFrom (Img.line hn hl)) (Line.sliceTo hs (Img.line hn hl) hl)

/-- One byte that is not a line ending. -/
theorem Rel.one {s t : Span} (hs : M.Rel s t) {b : Byte} {u : Str} (hb : b ≠ 10) (hu : s.asRemaining = b :: u) :
    M.Rel (s.sliceFrom 1) (t.sliceFrom 1) :=
  hs.sliceFrom (Img.line (by rw [hu]; simp) (by rw [hu]; simpa using fun e => hb (Eq.symm e)))

namespace Par

theorem tag {x : Str} (hx : Plain2 x) : M.Par M.Line (P.tag x) (P.tag x) := by
  intro s t hs
  unfold P.tag
  rw [hs.remaining, prefix_crlf hx]
  split
  · rename_i h
    rw [List.isPrefixOf_iff_prefix] at h
    refine hs.split h.length_le ?_
    rw [← List.prefix_iff_eq_take.1 h]
    exact hx.1
  · exact .err

theorem satisfy {f : Byte → Bool} (h1 : f 10 = false) (h2 : f 13 = false) : M.Par Eq (P.satisfy f) (P.satisfy f) := by
  intro s t hs
  unfold P.satisfy
  rw [hs.remaining]
  cases hu : s.asRemaining with
  | nil => exact .err
  | cons b u =>
    by_cases hb : b = 10
    · subst hb
      rw [crlf_cons_nl]
      simp only [h1, h2, Bool.false_eq_true, if_false]
      exact .err
    · rw [crlf_cons_ne hb]
      dsimp only
      split
      · exact .ok (hs.one hb hu) rfl
      · exact .err

theorem char {c : Byte} (h1 : c ≠ 10) (h2 : c ≠ 13) : M.Par Eq (P.char c) (P.char c) :=
  satisfy (by simpa using fun e => h1 (Eq.symm e)) (by simpa using fun e => h2 (Eq.symm e))

theorem oneOf {c : Str} (h : Plain2 c) : M.Par Eq (P.oneOf c) (P.oneOf c) :=
  satisfy (by simpa using h.1) (by simpa using h.2)

theorem nl_take {f : Byte → Bool} (h : f 10 = false) (u : Str) : 10 ∉ u.take (u.takeWhile f).length := by
  have : u.take (u.takeWhile f).length = u.takeWhile f := (List.prefix_iff_eq_take.1 (List.takeWhile_prefix f)).symm
  rw [this]
  intro hm
  have := (List.all_eq_true.1 (List.all_takeWhile (l := u) (p := f))) 10 hm
  rw [h] at this
  cases this

theorem takeWhile0 {f : Byte → Bool} (h1 : f 10 = false) (h2 : f 13 = false) :
    M.Par M.Line (P.takeWhile0 f) (P.takeWhile0 f) := by
  intro s t hs
  unfold P.takeWhile0
  rw [hs.remaining, takeWhile_crlf h1 h2]
  exact hs.split (List.takeWhile_prefix f).length_le (nl_take h1 _)

theorem takeWhile1 {f : Byte → Bool} (h1 : f 10 = false) (h2 : f 13 = false) :
    M.Par M.Line (P.takeWhile1 f) (P.takeWhile1 f) := by
  intro s t hs
  unfold P.takeWhile1
  rw [hs.remaining, takeWhile_crlf h1 h2]
  split
  · exact .err
  · exact hs.split (List.takeWhile_prefix f).length_le (nl_take h1 _)

theorem space0 : M.Par M.Line P.space0 P.space0 := takeWhile0 rfl rfl

theorem space1 : M.Par M.Line P.space1 P.space1 := takeWhile1 rfl rfl

theorem digit1 : M.Par M.Line P.digit1 P.digit1 := takeWhile1 rfl rfl

theorem take (n : Nat) : M.ParLL M.Line (P.take n) (P.take n) := by
  intro s t hs
  unfold P.take
  rw [hs.remaining]
  split
  · exact .err
  · exact .ok (hs.from (by omega)) (hs.to (by omega))

theorem rest : M.ParL M.Line P.rest P.rest := by
  intro s t hs
  unfold P.rest
  rw [hs.remaining]
  exact .ok (hs.1.sliceFrom (hs.img (Nat.le_refl _))) hs

theorem img_nl {u : Str} : Img (10 :: u) 1 2 := ⟨by simp, by simp⟩

/-- A line ending is read in both texts or in none. -/
theorem ending {s t : Span} (hs : M.Rel s t) :
    (∃ u, s.asRemaining = 10 :: u ∧ P.lineEnding s = .ok (s.sliceFrom 1) (s.sliceTo 1) ∧
      P.lineEnding t = .ok (t.sliceFrom 2) (t.sliceTo 2)) ∨
    (s.asRemaining.head? ≠ some 10 ∧ P.lineEnding s = .err ∧ P.lineEnding t = .err) := by
  have hn := hs.no
  have ht := hs.remaining
  cases hu : s.asRemaining with
  | nil =>
    rw [hu] at ht
    refine .inr ⟨by simp, ?_, ?_⟩
    · simp [P.lineEnding, P.alt, P.tag, hu, List.isPrefixOf]
    · simp [P.lineEnding, P.alt, P.tag, ht, crlf_nil, List.isPrefixOf]
  | cons b u =>
    rw [hu] at ht hn
    by_cases hb : b = 10
    · subst hb
      rw [crlf_cons_nl] at ht
      refine .inl ⟨u, rfl, ?_, ?_⟩
      · simp [P.lineEnding, P.alt, P.tag, hu, List.isPrefixOf, P.takeSplit]
      · simp [P.lineEnding, P.alt, P.tag, ht, List.isPrefixOf, P.takeSplit]
    · rw [crlf_cons_ne hb] at ht
      have h13 : b ≠ 13 := fun e => hn (by simp [e])
      have e1 : (10 == b) = false := by simpa using fun e => hb (Eq.symm e)
      have e2 : (13 == b) = false := by simpa using fun e => h13 (Eq.symm e)
      refine .inr ⟨by simpa using hb, ?_, ?_⟩
      · simp [P.lineEnding, P.alt, P.tag, hu, List.isPrefixOf, e1, e2]
      · simp [P.lineEnding, P.alt, P.tag, ht, List.isPrefixOf, e1, e2]

theorem lineEnding : M.Par M.Rel P.lineEnding P.lineEnding := by
  intro s t hs
  rcases ending hs with ⟨u, hu, e1, e2⟩ | ⟨_, e1, e2⟩
  · rw [e1, e2]
    have : Img s.asRemaining 1 2 := by rw [hu]; exact img_nl
    exact .ok (hs.sliceFrom this) (hs.sliceTo this)
  · rw [e1, e2]; exact .err

theorem memchr_end_none {l : Str} (h : 10 ∉ l) (h' : 13 ∉ l) : memchr (fun b => b == 10 || b == 13) l = none := by
  unfold memchr
  rw [List.findIdx?_eq_none_iff]
  intro x hx
  have e1 : x ≠ 10 := fun e => h (e ▸ hx)
  have e2 : x ≠ 13 := fun e => h' (e ▸ hx)
  simp [e1, e2]

theorem memchr_end {c : Byte} (hc : c = 10 ∨ c = 13) (r : Str) : ∀ {l : Str}, 10 ∉ l → 13 ∉ l →
    memchr (fun b => b == 10 || b == 13) (l ++ c :: r) = some l.length := by
  intro l h h'
  unfold memchr
  induction l with
  | nil => rw [List.nil_append, List.findIdx?_cons]; rcases hc with e | e <;> subst e <;> rfl
  | cons b l ih =>
    simp only [List.mem_cons, not_or] at h h'
    have hb : (b == 10 || b == 13) = false := by simpa using ⟨fun e => h.1 (Eq.symm e), fun e => h'.1 (Eq.symm e)⟩
    rw [List.cons_append, List.findIdx?_cons, hb, ih h.2 h'.2]
    rfl

theorem notLineEnding : M.Par M.Line P.notLineEnding P.notLineEnding := by
  intro s t hs
  have hn := hs.no
  have ht := hs.remaining
  unfold P.notLineEnding
  dsimp only
  rw [ht]
  obtain ⟨l, hl, e | ⟨r, e⟩⟩ := line_split s.asRemaining
  · rw [e] at hn
    have hli : M.Line s t := ⟨hs, by rw [e]; exact hl⟩
    rw [e, crlf_line hl, memchr_end_none hl hn]
    exact .ok (hs.sliceFrom (by rw [e]; exact Img.line (Nat.le_refl _) (by simpa using hl))) hli
  · rw [e] at hn
    have h13 : 13 ∉ l := fun hm => hn (by simp [hm])
    have h1 : matchesAt (l ++ 10 :: r) l.length b!"\n" = true := by
      rw [matchesAt_eq, List.drop_left]; simp [List.isPrefixOf]
    have h2 : matchesAt (l ++ 13 :: 10 :: crlf r) l.length b!"\r\n" = true := by
      rw [matchesAt_eq, List.drop_left]; simp [List.isPrefixOf]
    rw [e, crlf_split hl, memchr_end (.inl rfl) _ hl h13, memchr_end (.inr rfl) _ hl h13]
    dsimp only
    rw [h1, h2, Bool.true_or, Bool.or_true]
    refine hs.split (n := l.length) ?_ ?_
    · rw [e, List.length_append]; omega
    · rw [e, List.take_left]; exact hl

/-! ## Scanners -/

theorem offset (x : Str) : M.ParLL Eq (Scan.offset x) (Scan.offset x) := by
  intro s t hs
  unfold Scan.offset
  simp only [hs.remaining]
  split
  · exact .ok hs rfl
  · exact .err

theorem notContains (x : Str) {p q : P Span} (hp : M.Par M.Line p q) :
    M.Par M.Line (Scan.notContains x p) (Scan.notContains x q) := by
  intro s t hs
  have h := hp s t hs
  unfold Scan.notContains P.not
  revert h
  generalize p s = x1
  generalize q t = y1
  intro h
  cases h with
  | @ok _ _ a b h1 h2 =>
    have := offset x _ _ h2
    revert this
    dsimp only
    generalize Scan.offset x a = x1
    generalize Scan.offset x b = y1
    intro h
    cases h with
    | ok h3 _ => exact .err
    | err => exact .ok h1 h2
    | panic => exact .panic
    | left => exact .left
    | right => exact .right
  | err => exact .err
  | panic => exact .panic
  | left => exact .left
  | right => exact .right

theorem surroundInLine1 {l r : Str} (hl : Plain2 l) (hr : Plain2 r) (h0 : r ≠ []) (h2 : r.length ≤ 2) :
    M.Par M.Line (Scan.surroundInLine1 l r) (Scan.surroundInLine1 l r) := by
  intro s t hs
  have h := tag (M := M) hl s t hs
  unfold Scan.surroundInLine1
  revert h
  generalize P.tag l s = x1
  generalize P.tag l t = y1
  intro h
  cases h with
  | @ok s1 t1 a b h1 _ =>
    obtain ⟨e1, e2⟩ := surround_same hr h0 h2 s1.asRemaining h1.no
    simp only [h1.remaining]
    rw [e1]
    revert e2
    generalize surroundLoop r s1.asRemaining _ _ = o
    intro e2
    cases o with
    | none => exact .err
    | some n =>
      obtain ⟨e3, e4, e5⟩ := e2 n rfl
      have hi := Img.line e3 e4
      have hf := h1.sliceFrom hi
      refine .ok (hf.sliceFrom ?_) (Line.sliceTo h1 hi e4)
      rw [sliceFrom_remaining e3]
      rw [List.isPrefixOf_iff_prefix] at e5
      refine Img.line e5.length_le ?_
      rw [← List.prefix_iff_eq_take.1 e5]
      exact hr.1
  | err => exact .err
  | panic => exact .panic
  | left => exact .left
  | right => exact .right

theorem endOfLineOrInput : M.Par Eq Scan.endOfLineOrInput Scan.endOfLineOrInput := by
  intro s t hs
  unfold Scan.endOfLineOrInput
  simp only [hs.isEmpty]
  split
  · exact .ok hs rfl
  · exact value lineEnding rfl s t hs

end Par

/-- A parser that reads one byte, not a newline. -/
def Steps (p : P α) : Prop := ∀ s s' a, p s = .ok s' a → ∃ b u, s.asRemaining = b :: u ∧ b ≠ 10 ∧ s' = s.sliceFrom 1

/-- The bytes between two places of the text. -/
theorem between {s : Span} {b : Byte} {u : Str} (hu : s.asRemaining = b :: u) :
    (s.sliceFrom 1).start = s.start + 1 ∧ (s.sliceFrom 1).inner = s.inner ∧ (s.inner.take (s.start + 1)).drop s.start = [b] := by
  have hl := rem_length_le s
  rw [hu, List.length_cons] at hl
  refine ⟨?_, rfl, ?_⟩
  · show (if s.start + 1 > s.stop then s.stop else s.start + 1) = _
    rw [if_neg (by omega)]
  · have h1 : s.asRemaining.take 1 = [b] := by rw [hu]; rfl
    rw [rem_take (by rw [hu]; simp)] at h1
    rw [List.drop_take, ← h1]
    congr 1
    omega

theorem take_drop_trans (u : Str) {a b c : Nat} (h1 : a ≤ b) (h2 : b ≤ c) :
    (u.take c).drop a = (u.take b).drop a ++ (u.take c).drop b := by
  rw [List.drop_take, List.drop_take, List.drop_take, show c - a = (b - a) + (c - b) by omega, List.take_add, List.drop_drop,
    show a + (b - a) = b by omega]

theorem Steps.loop {p : P α} (hp : Steps p) : ∀ (n : Nat) (s s' : Span) (xs : List α), many0Loop p n s = .ok s' xs →
    s.start ≤ s'.start ∧ s'.inner = s.inner ∧ 10 ∉ (s.inner.take s'.start).drop s.start
  | 0, _, _, _, h => by cases h
  | n + 1, s, s', xs, h => by
    unfold many0Loop at h
    cases h1 : p s with
    | err =>
      rw [h1] at h
      cases h
      refine ⟨Nat.le_refl _, rfl, ?_⟩
      rw [List.drop_eq_nil_of_le (by rw [List.length_take]; omega)]
      simp
    | panic => rw [h1] at h; cases h
    | diverge => rw [h1] at h; cases h
    | ok s1 a =>
      rw [h1] at h
      simp only at h
      split at h
      · cases h
      · cases hl : many0Loop p n s1 with
        | ok s2 as =>
          rw [hl] at h
          cases h
          obtain ⟨b, u, hu, hb, e⟩ := hp s s1 a h1
          obtain ⟨i1, i2, i3⟩ := Steps.loop hp n s1 s' as hl
          obtain ⟨j1, j2, j3⟩ := between hu
          subst e
          rw [j1] at i1
          rw [j1, j2] at i3
          rw [j2] at i2
          refine ⟨by omega, i2, ?_⟩
          rw [take_drop_trans _ (Nat.le_succ _) i1, j3, List.mem_append, not_or]
          exact ⟨by simpa using fun e => hb (Eq.symm e), i3⟩
        | err => rw [hl] at h; cases h
        | panic => rw [hl] at h; cases h
        | diverge => rw [hl] at h; cases h

namespace Par

/-- What consists of single bytes is in a line. -/
theorem recognizeLine {R : α → α → Prop} {p q : P α} (hp : M.Par R p q)
    (h : ∀ s s' a, p s = .ok s' a → s.start ≤ s'.start ∧ s'.inner = s.inner ∧ 10 ∉ (s.inner.take s'.start).drop s.start) :
    M.Par M.Line (P.recognize p) (P.recognize q) := by
  intro s t hs
  have h1 := recognize hp s t hs
  revert h1
  generalize hx : P.recognize p s = x
  generalize P.recognize q t = y
  intro h1
  cases h1 with
  | ok h2 h3 =>
    refine .ok h2 ⟨h3, ?_⟩
    unfold P.recognize at hx
    cases h4 : p s with
    | ok s1 a =>
      rw [h4] at hx
      simp only at hx
      split at hx
      · cases hx
      · cases hx
        obtain ⟨i1, i2, i3⟩ := h s _ a h4
        show 10 ∉ (s.inner.take (s.start + (_ - s.start))).drop s.start
        rw [Nat.add_sub_cancel' i1]
        exact i3
    | err => rw [h4] at hx; cases hx
    | panic => rw [h4] at hx; cases hx
    | diverge => rw [h4] at hx; cases hx
  | err => exact .err
  | panic => exact .panic
  | left => exact .left
  | right => exact .right

theorem not_ok {p : P α} {s s' : Span} {u : Unit} (h : P.not p s = .ok s' u) : s' = s ∧ p s = .err := by
  unfold P.not at h
  cases h3 : p s with
  | ok => rw [h3] at h; cases h
  | err => rw [h3] at h; cases h; exact ⟨rfl, rfl⟩
  | panic => rw [h3] at h; cases h
  | diverge => rw [h3] at h; cases h

/-- One byte of `take_line_while`. -/
theorem lineStep {c : Byte} (h1 : c ≠ 10) (h2 : c ≠ 13) :
    M.Par Eq (Scan.takeLineWhileStep (P.char c)) (Scan.takeLineWhileStep (P.char c)) := by
  intro s t hs
  have he := Par.not (M := M) endOfLineOrInput s t hs
  unfold Scan.takeLineWhileStep
  revert he
  generalize hx : P.not Scan.endOfLineOrInput s = x1
  generalize hy : P.not Scan.endOfLineOrInput t = y1
  intro he
  cases he with
  | @ok s' t' a b hr _ =>
    have e1 := (not_ok hx).1
    have e2 := (not_ok hy).1
    subst e1 e2
    unfold P.char P.anychar P.satisfy
    dsimp only
    rw [hs.remaining]
    cases hu : s'.asRemaining with
    | nil => exact .err
    | cons b u =>
      by_cases hb : b = 10
      · subst hb
        have e1 : (10 == c) = false := by simpa using fun e => h1 (Eq.symm e)
        have e2 : (13 == c) = false := by simpa using fun e => h2 (Eq.symm e)
        rw [crlf_cons_nl]
        simp only [e1, e2, Bool.false_eq_true, if_false]
        exact .err
      · rw [crlf_cons_ne hb]
        dsimp only
        by_cases hc : (b == c) = true
        · simp only [if_pos hc]
          exact .ok (hs.one hb hu) rfl
        · simp only [if_neg hc]
          exact .err
  | err => exact .err
  | panic => exact .panic
  | left => exact .left
  | right => exact .right

theorem lineStep_steps {c : Byte} (h1 : c ≠ 10) : Steps (Scan.takeLineWhileStep (P.char c)) := by
  intro s s' a h
  unfold Scan.takeLineWhileStep at h
  cases h3 : P.not Scan.endOfLineOrInput s with
  | err => rw [h3] at h; cases h
  | panic => rw [h3] at h; cases h
  | diverge => rw [h3] at h; cases h
  | ok s1 x =>
    rw [h3] at h
    have e := (not_ok h3).1
    subst e
    dsimp only at h
    unfold P.char P.anychar P.satisfy at h
    cases hu : s1.asRemaining with
    | nil => rw [hu] at h; cases h
    | cons b u =>
      rw [hu] at h
      dsimp only at h
      by_cases hc : (b == c) = true
      · simp only [if_pos hc, if_true] at h
        cases h
        refine ⟨_, u, rfl, ?_, rfl⟩
        rw [beq_iff_eq] at hc
        rw [hc]; exact h1
      · simp only [if_neg hc] at h
        cases h

theorem nonEmpty {p q : P Span} (hp : M.Par M.Line p q) :
    M.Par M.Line (P.verify p fun s => !s.isEmpty) (P.verify q fun s => !s.isEmpty) :=
  verify hp fun _ _ h => by rw [h.1.isEmpty]

theorem takeLineWhile1 {c : Byte} (h1 : c ≠ 10) (h2 : c ≠ 13) :
    M.Par M.Line (Scan.takeLineWhile1 (P.char c)) (Scan.takeLineWhile1 (P.char c)) :=
  nonEmpty (recognizeLine (many0 (lineStep h1 h2)) fun _ _ _ h => (lineStep_steps h1).loop _ _ _ _ h)

theorem ofStops {f : Str → Nat} (h : LineStops f) :
    M.Par M.Line (fun s => P.takeSplit s (f s.asRemaining)) (fun s => P.takeSplit s (f s.asRemaining)) := by
  intro s t hs
  obtain ⟨h1, h2, h3⟩ := h s.asRemaining hs.no
  dsimp only
  rw [hs.remaining, h1]
  exact hs.split h2 h3

theorem takeLineUntil {x : Str} (hx : Plain2 x) (h0 : x ≠ []) (h2 : x.length ≤ 2) :
    M.Par M.Line (Scan.takeLineUntil x) (Scan.takeLineUntil x) := ofStops (takeLineUntil_stops hx h0 h2)

theorem takeLineUntil1 {x : Str} (hx : Plain2 x) (h0 : x ≠ []) (h2 : x.length ≤ 2) :
    M.Par M.Line (Scan.takeLineUntil1 x) (Scan.takeLineUntil1 x) := nonEmpty (takeLineUntil hx h0 h2)

theorem takeLineUntil21 {x y : Str} (hx : Plain2 x) (h0 : x ≠ []) (h2 : x.length ≤ 2) (hy : Plain2 y) (h0' : y ≠ [])
    (h2' : y.length ≤ 2) : M.Par M.Line (Scan.takeLineUntil21 x y) (Scan.takeLineUntil21 x y) :=
  nonEmpty (ofStops (takeLineUntil2_stops hx h0 h2 hy h0' h2'))

theorem takeLineUntil31 {x y z : Str} (hx : Plain2 x) (h2 : x.length ≤ 2) (hy : Plain2 y)
    (h2' : y.length ≤ 2) (hz : Plain2 z) (h2'' : z.length ≤ 2) :
    M.Par M.Line (Scan.takeLineUntil31 x y z) (Scan.takeLineUntil31 x y z) :=
  nonEmpty (ofStops (takeLineUntil3_stops hx h2 hy h2' hz h2''))

theorem takeUntilEol : M.Par M.Line Scan.takeUntilEol Scan.takeUntilEol := by
  intro s t hs
  have hn := hs.no
  have ht := hs.remaining
  unfold Scan.takeUntilEol
  dsimp only
  obtain ⟨l, hl, e | ⟨r, e⟩⟩ := line_split s.asRemaining
  · have hli : M.Line s t := ⟨hs, by rw [e]; exact hl⟩
    rw [ht, e, crlf_line hl, memchr_nl_none hl]
    exact rest s t hli
  · rw [e] at hn
    have h13 : 13 ∉ l := fun hm => hn (by simp [hm])
    rw [ht, e, crlf_split hl, memchr_nl hl, memchr_cr hl]
    dsimp only
    rw [crAdjust_nl h13, crAdjust_cr]
    refine hs.split (n := l.length) ?_ ?_
    · rw [e, List.length_append]; omega
    · rw [e, List.take_left]; exact hl

theorem takeUntil {c : Byte} {x : Str} (hx : Plain2 (c :: x)) : M.Par M.Rel (Scan.takeUntil (c :: x)) (Scan.takeUntil (c :: x)) := by
  intro s t hs
  have ht := hs.remaining
  have h1 := offsetLoop_eq (c := c) (t := x) s.asRemaining []
  have h2 := offsetLoop_eq (c := c) (t := x) t.asRemaining []
  have h3 := firstOcc_crlf hx (by simp) s.asRemaining
  simp only [List.nil_append, List.length_nil] at h1 h2
  unfold Scan.takeUntil memchrIter
  dsimp only
  rw [h1, h2, ht]
  cases hf : firstOcc (c :: x) s.asRemaining with
  | none =>
    rw [hf] at h3
    simp only at h3
    rw [h3]
    exact .err
  | some n =>
    rw [hf] at h3
    obtain ⟨n', hi, e⟩ := h3
    rw [e]
    simp only [Option.map_some, Nat.zero_add]
    exact .ok (hs.sliceFrom hi) (hs.sliceTo hi)

theorem takeEnd (n : Nat) : M.ParLL M.Line (Scan.takeEnd n) (Scan.takeEnd n) := by
  intro s t hs
  unfold Scan.takeEnd
  simp only [hs.remaining]
  split
  · exact .err
  · exact .ok (hs.to (by omega)) (hs.from (by omega))

theorem countRemainingBytes : M.ParL Eq Scan.countRemainingBytes Scan.countRemainingBytes := by
  intro s t hs
  unfold Scan.countRemainingBytes
  rw [hs.len]
  exact .ok hs.1 rfl

theorem trimTrailingWhitespace : M.ParLL Eq Scan.trimTrailingWhitespace Scan.trimTrailingWhitespace := by
  intro s t hs
  unfold Scan.trimTrailingWhitespace
  rw [hs.remaining]
  exact .ok (hs.to (by omega)) rfl

theorem space0LL : M.ParLL M.Line P.space0 P.space0 := by
  intro s t hs
  unfold P.space0 P.takeWhile0
  rw [hs.remaining]
  have := (List.takeWhile_prefix isSpace (l := s.asRemaining)).length_le
  exact .ok (hs.from this) (hs.to this)

theorem trimWhitespace : M.ParLL Eq Scan.trimWhitespace Scan.trimWhitespace :=
  ParLL.bindLL_ space0LL trimTrailingWhitespace

theorem ms_nil {s : Span} (hu : s.asRemaining = []) : Scan.singleMultispace s = .err := by
  simp [Scan.singleMultispace, P.value, P.map, P.alt, P.tag, hu, List.isPrefixOf]

theorem ms_nl {s : Span} {u : Str} (hu : s.asRemaining = 10 :: u) : Scan.singleMultispace s = .ok (s.sliceFrom 1) () := by
  simp [Scan.singleMultispace, P.value, P.map, P.alt, P.tag, hu, List.isPrefixOf, P.takeSplit]

theorem ms_cr {s : Span} {u : Str} (hu : s.asRemaining = 13 :: 10 :: u) :
    Scan.singleMultispace s = .ok (s.sliceFrom 2) () := by
  simp [Scan.singleMultispace, P.value, P.map, P.alt, P.tag, hu, List.isPrefixOf, P.takeSplit]

theorem ms_other {s : Span} {b : Byte} {u : Str} (hu : s.asRemaining = b :: u) (h1 : b ≠ 10) (h2 : b ≠ 13) :
    Scan.singleMultispace s = if b = 9 ∨ b = 32 then .ok (s.sliceFrom 1) () else .err := by
  have e1 : (10 == b) = false := by simpa using fun e => h1 (Eq.symm e)
  have e2 : (13 == b) = false := by simpa using fun e => h2 (Eq.symm e)
  by_cases h9 : b = 9
  · subst h9
    simp [Scan.singleMultispace, P.value, P.map, P.alt, P.tag, hu, List.isPrefixOf, P.takeSplit]
  · have e3 : (9 == b) = false := by simpa using fun e => h9 (Eq.symm e)
    by_cases h32 : b = 32
    · subst h32
      simp [Scan.singleMultispace, P.value, P.map, P.alt, P.tag, hu, List.isPrefixOf, P.takeSplit]
    · have e4 : (32 == b) = false := by simpa using fun e => h32 (Eq.symm e)
      simp [Scan.singleMultispace, P.value, P.map, P.alt, P.tag, hu, List.isPrefixOf, e1, e2, e3, e4, h9, h32]

/-- A blank is skipped, or a line ending. -/
theorem singleMultispace : M.Par Eq Scan.singleMultispace Scan.singleMultispace := by
  intro s t hs
  have hn := hs.no
  have ht := hs.remaining
  cases hu : s.asRemaining with
  | nil => rw [hu] at ht; rw [ms_nil hu, ms_nil ht]; exact .err
  | cons b u =>
    rw [hu] at ht hn
    by_cases hb : b = 10
    · subst hb
      rw [crlf_cons_nl] at ht
      rw [ms_nl hu, ms_cr ht]
      have : Img s.asRemaining 1 2 := by rw [hu]; exact img_nl
      exact .ok (hs.sliceFrom this) rfl
    · have h13 : b ≠ 13 := fun e => hn (by simp [e])
      rw [crlf_cons_ne hb] at ht
      rw [ms_other hu hb h13, ms_other ht hb h13]
      split
      · exact .ok (hs.one hb hu) rfl
      · exact .err

/-- One byte of a URI. -/
theorem uriStep : M.Par Eq (P.pair (P.not Scan.singleMultispace) P.anychar) (P.pair (P.not Scan.singleMultispace) P.anychar) := by
  intro s t hs
  have he := Par.not (M := M) singleMultispace s t hs
  unfold P.pair P.bind
  revert he
  generalize hx : P.not Scan.singleMultispace s = x1
  generalize hy : P.not Scan.singleMultispace t = y1
  intro he
  cases he with
  | @ok s' t' a b hr _ =>
    obtain ⟨e1, e3⟩ := not_ok hx
    have e2 := (not_ok hy).1
    subst e1 e2
    dsimp only
    unfold P.anychar P.satisfy
    rw [hs.remaining]
    cases hu : s'.asRemaining with
    | nil => exact .err
    | cons b u =>
      have hb : b ≠ 10 := by
        intro e; subst e
        rw [ms_nl hu] at e3; cases e3
      rw [crlf_cons_ne hb]
      exact .ok (hs.one hb hu) rfl
  | err => exact .err
  | panic => exact .panic
  | left => exact .left
  | right => exact .right

theorem uriStep_steps : Steps (P.pair (P.not Scan.singleMultispace) P.anychar) := by
  intro s s' a h
  unfold P.pair P.bind at h
  cases h3 : P.not Scan.singleMultispace s with
  | err => rw [h3] at h; cases h
  | panic => rw [h3] at h; cases h
  | diverge => rw [h3] at h; cases h
  | ok s1 x =>
    rw [h3] at h
    obtain ⟨e, e3⟩ := not_ok h3
    subst e
    dsimp only at h
    unfold P.anychar P.satisfy at h
    cases hu : s1.asRemaining with
    | nil => rw [hu] at h; cases h
    | cons b u =>
      rw [hu] at h
      cases h
      refine ⟨_, u, rfl, ?_, rfl⟩
      intro e; subst e
      rw [ms_nl hu] at e3; cases e3

theorem uriText : M.Par M.Line Vw.uriText Vw.uriText := by
  refine recognizeLine (many1 uriStep) fun s s' as h => ?_
  unfold P.many1 at h
  generalize hp : P.pair (P.not Scan.singleMultispace) P.anychar = p at h
  have hst : Steps p := hp ▸ uriStep_steps
  unfold P.bind at h
  cases h1 : p s with
  | ok s1 a =>
    rw [h1] at h
    dsimp only at h
    cases h2 : P.many0 p s1 with
    | ok s2 bs =>
      rw [h2] at h
      cases h
      obtain ⟨b, u, hu, hb, e⟩ := hst s s1 a h1
      obtain ⟨i1, i2, i3⟩ := hst.loop _ _ _ _ h2
      obtain ⟨j1, j2, j3⟩ := between hu
      subst e
      rw [j1] at i1
      rw [j1, j2] at i3
      rw [j2] at i2
      refine ⟨by omega, i2, ?_⟩
      rw [take_drop_trans _ (Nat.le_succ _) i1, j3, List.mem_append, not_or]
      exact ⟨by simpa using fun e => hb (Eq.symm e), i3⟩
    | err => rw [h2] at h; cases h
    | panic => rw [h2] at h; cases h
    | diverge => rw [h2] at h; cases h
  | err => rw [h1] at h; cases h
  | panic => rw [h1] at h; cases h
  | diverge => rw [h1] at h; cases h

end Par

theorem Rel.last {s t : Span} (h : M.Rel s t) : t.asConsumed.getLast? = s.asConsumed.getLast? := by
  rw [h.consumed, crlf_last]

namespace Par

theorem wholeWord : M.Par M.Line Scan.wholeWord Scan.wholeWord := by
  intro s t hs
  have e : lastIsWs t.asConsumed = lastIsWs s.asConsumed := by unfold lastIsWs; rw [hs.last]
  unfold Scan.wholeWord
  rw [e]
  generalize lastIsWs s.asConsumed = x
  cases x
  · exact .err
  · exact takeWhile1 (f := fun c => !isAsciiWs c) rfl rfl s t hs

theorem beginningOfLine : M.Par Eq Scan.beginningOfLine Scan.beginningOfLine := by
  intro s t hs
  unfold Scan.beginningOfLine
  have h0 : t.start = 0 ↔ s.start = 0 := by
    rw [hs.start, ← crlfPos_zero M.text, crlfPos_inj, crlfPos_zero]
  simp only [hs.last, h0]
  split
  · exact .ok hs rfl
  · exact .err

theorem relOf {p q : P Span} (h : M.Par M.Line p q) : M.Par M.Rel p q := h.mono fun _ _ h => h.1

theorem blankLine : M.Par M.Line Scan.blankLine Scan.blankLine :=
  preceded beginningOfLine (alt (terminated space1 endOfLineOrInput) (terminated space0 lineEnding))

theorem restOfLine : M.Par M.Line Scan.restOfLine Scan.restOfLine :=
  bind takeUntilEol fun _ _ h => bind_ endOfLineOrInput (pure h)

theorem anyLine : M.Par M.Line Scan.anyLine Scan.anyLine := bind_ beginningOfLine restOfLine

theorem deeper {R : α → α → Prop} {p q : P α} (hp : M.Par R p q) : M.Par R (Scan.deeper p) (Scan.deeper q) := by
  intro s t hs
  unfold Scan.deeper
  rw [hs.depth]
  split
  · exact .panic
  · have h := hp _ _ (hs.withDepth (s.depth + 1))
    revert h
    generalize p _ = x
    generalize q _ = y
    intro h
    cases h with
    | ok h1 h2 => exact .ok h1.shallower h2
    | err => exact .err
    | panic => exact .panic
    | left => exact .left
    | right => exact .right

theorem located {R : α → α → Prop} {p q : P α} (hp : M.Par R p q) : M.Par (M.Loc R) (Scan.located p) (Scan.located q) := by
  intro s t hs
  have h := hp s t hs
  unfold Scan.located
  revert h
  generalize p s = x
  generalize q t = y
  intro h
  cases h with
  | ok h1 h2 =>
    simp only [hs.lt h1]
    split
    · exact .panic
    · rename_i hle
      exact .ok h1 ⟨h2, (hs.withLen h1 hle).region⟩
  | err => exact .err
  | panic => exact .panic
  | left => exact .left
  | right => exact .right

theorem cowStr : M.ParL Eq Scan.cowStr Scan.cowStr := by
  intro s t hs
  unfold Scan.cowStr
  rw [hs.remaining]
  exact .ok hs.1 rfl

theorem strOf {p q : P Span} (hp : M.Par M.Line p q) : M.Par Eq (Scan.strOf p) (Scan.strOf q) := mapParser hp cowStr

end Par
end Cr
end Vw
