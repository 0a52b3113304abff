import Verif.Spec.Crlf
import Verif.Lemmas.Moved
import Verif.Lemmas.Scan

/-!
# Texts with Windows line endings
-/

namespace Vw
open P Scan

/-! ## Bytes -/

theorem crlf_nil : crlf [] = [] := rfl

theorem crlf_cons (b : Byte) (u : Str) : crlf (b :: u) = (if b = 10 then [13, 10] else [b]) ++ crlf u := rfl

theorem crlf_cons_nl (u : Str) : crlf (10 :: u) = 13 :: 10 :: crlf u := rfl

theorem crlf_cons_ne {b : Byte} (h : b ≠ 10) (u : Str) : crlf (b :: u) = b :: crlf u := by
  rw [crlf_cons, if_neg h]; rfl

theorem crlf_append (u v : Str) : crlf (u ++ v) = crlf u ++ crlf v := List.flatMap_append ..

theorem crlf_length (u : Str) : (crlf u).length = u.length + u.count 10 := by
  induction u with
  | nil => rfl
  | cons b u ih =>
    by_cases h : b = 10
    · subst h; simp [crlf_cons_nl, ih]; omega
    · rw [crlf_cons_ne h, List.length_cons, ih, List.length_cons, List.count_cons_of_ne (by simpa using h)]; omega

/-- Texts without newlines stay. -/
theorem crlf_line {u : Str} (h : 10 ∉ u) : crlf u = u := by
  induction u with
  | nil => rfl
  | cons b u ih =>
    simp only [List.mem_cons, not_or] at h
    rw [crlf_cons_ne (fun e => h.1 e.symm), ih h.2]

theorem crlf_take (u : Str) (n : Nat) : (crlf u).take (crlfPos u n) = crlf (u.take n) := by
  conv => lhs; rw [← List.take_append_drop n u, crlf_append]
  have hl : (crlf (u.take n)).length ≤ crlfPos u n := by
    rw [crlf_length, crlfPos, List.length_take]; omega
  rw [List.take_append, List.take_of_length_le (by
    unfold crlfPos at hl ⊢
    rw [List.take_append_drop]; exact hl)]
  rw [List.take_append_drop]
  by_cases hn : n ≤ u.length
  · have : crlfPos u n - (crlf (u.take n)).length = 0 := by
      rw [crlf_length, crlfPos, List.length_take]; omega
    rw [this]; simp
  · rw [List.drop_eq_nil_of_le (by omega)]; simp [crlf_nil]

theorem crlf_drop (u : Str) (n : Nat) : (crlf u).drop (crlfPos u n) = crlf (u.drop n) := by
  conv => lhs; rw [← List.take_append_drop n u, crlf_append]
  have hl : (crlf (u.take n)).length ≤ crlfPos u n := by
    rw [crlf_length, crlfPos, List.length_take]; omega
  rw [List.drop_append, List.take_append_drop, List.drop_eq_nil_of_le hl, List.nil_append]
  by_cases hn : n ≤ u.length
  · have : crlfPos u n - (crlf (u.take n)).length = 0 := by
      rw [crlf_length, crlfPos, List.length_take]; omega
    rw [this]; rfl
  · rw [List.drop_eq_nil_of_le (by omega : u.length ≤ n)]; simp [crlf_nil]

theorem crlfPos_zero (u : Str) : crlfPos u 0 = 0 := by simp [crlfPos]

theorem crlfPos_add (u : Str) (a n : Nat) : crlfPos u (a + n) = crlfPos u a + n + ((u.drop a).take n).count 10 := by
  unfold crlfPos
  rw [List.take_add, List.count_append]
  omega

theorem crlfPos_lt {u : Str} {a b : Nat} : crlfPos u a < crlfPos u b ↔ a < b := by
  rcases Nat.lt_or_ge a b with h | h
  · obtain ⟨k, rfl⟩ := Nat.exists_eq_add_of_le (Nat.le_of_lt h)
    rw [crlfPos_add]; omega
  · obtain ⟨k, rfl⟩ := Nat.exists_eq_add_of_le h
    rw [crlfPos_add]; omega

theorem crlfPos_le {u : Str} {a b : Nat} : crlfPos u a ≤ crlfPos u b ↔ a ≤ b := by
  rw [← Nat.not_lt, ← Nat.not_lt, crlfPos_lt]

theorem crlfPos_inj {u : Str} {a b : Nat} : crlfPos u a = crlfPos u b ↔ a = b := by
  constructor
  · intro h
    have h1 := (crlfPos_le (u := u)).1 (Nat.le_of_eq h)
    have h2 := (crlfPos_le (u := u)).1 (Nat.le_of_eq h.symm)
    omega
  · rintro rfl; rfl

theorem crlf_last (u : Str) : (crlf u).getLast? = u.getLast? := by
  rcases List.eq_nil_or_concat u with e | ⟨v, b, e⟩
  · rw [e]; rfl
  · subst e
    rw [List.concat_eq_append, crlf_append, List.getLast?_concat, crlf_cons]
    by_cases h : b = 10
    · subst h; simp [crlf_nil]
    · rw [if_neg h]; simp [crlf_nil]

/-- Where a prefix of length `n` ends. -/
def Img (u : Str) (n n' : Nat) : Prop := n ≤ u.length ∧ n' = n + (u.take n).count 10

theorem Img.line {u : Str} {n : Nat} (h : n ≤ u.length) (hn : 10 ∉ u.take n) : Img u n n :=
  ⟨h, by rw [List.count_eq_zero.2 hn]; rfl⟩

/-! ## Spans -/

/-- The same place in the text with the other line endings. -/
def Span.crlf (s : Span) : Span := ⟨Vw.crlf s.inner, crlfPos s.inner s.start, crlfPos s.inner s.stop, s.depth⟩

theorem Span.crlf_remaining (s : Span) : s.crlf.asRemaining = Vw.crlf s.asRemaining := by
  unfold Span.asRemaining Span.crlf
  dsimp only
  rw [crlf_take]
  by_cases h : s.start ≤ s.stop
  · rw [← crlf_drop]
    congr 1
    unfold crlfPos
    rw [List.take_take, Nat.min_eq_left h]
  · have h1 : crlfPos s.inner s.stop < crlfPos s.inner s.start := crlfPos_lt.2 (by omega)
    rw [List.drop_eq_nil_of_le (as := s.inner.take s.stop) (by rw [List.length_take]; omega), List.drop_eq_nil_of_le]
    · rfl
    · rw [crlf_length, List.length_take]
      unfold crlfPos at h1 ⊢
      omega

theorem Span.crlf_consumed (s : Span) : s.crlf.asConsumed = Vw.crlf s.asConsumed := crlf_take _ _

theorem rem_length_le (s : Span) : s.asRemaining.length ≤ s.stop - s.start := by
  unfold Span.asRemaining
  rw [List.length_drop, List.length_take]; omega

/-- What is before the end of a prefix of the rest. -/
theorem rem_take {s : Span} {n : Nat} (h : n ≤ s.asRemaining.length) : s.asRemaining.take n = (s.inner.drop s.start).take n := by
  have := rem_length_le s
  unfold Span.asRemaining
  rw [List.drop_take, List.take_take]
  congr 1
  omega

/-- A text without carriage returns. -/
structure Cr where
  text : Str
  no : 13 ∉ text

namespace Cr

variable {M : Cr} {α β γ : Type}

/-- The same place in both texts. -/
def Rel (M : Cr) (s t : Span) : Prop := s.inner = M.text ∧ t = s.crlf

/-- The same place in both texts, up to the end of a line at most. -/
def Line (M : Cr) (s t : Span) : Prop := M.Rel s t ∧ 10 ∉ s.asRemaining

theorem Rel.remaining {s t : Span} (h : M.Rel s t) : t.asRemaining = Vw.crlf s.asRemaining := by
  rw [h.2, Span.crlf_remaining]

theorem Rel.consumed {s t : Span} (h : M.Rel s t) : t.asConsumed = Vw.crlf s.asConsumed := by
  rw [h.2, Span.crlf_consumed]

theorem Rel.start {s t : Span} (h : M.Rel s t) : t.start = crlfPos M.text s.start := by
  rw [h.2, ← h.1]; rfl

theorem Rel.stop {s t : Span} (h : M.Rel s t) : t.stop = crlfPos M.text s.stop := by
  rw [h.2, ← h.1]; rfl

theorem Rel.inner {s t : Span} (h : M.Rel s t) : t.inner = Vw.crlf M.text := by
  rw [h.2, ← h.1]; rfl

theorem Rel.depth {s t : Span} (h : M.Rel s t) : t.depth = s.depth := by rw [h.2]; rfl

theorem Rel.mk' {s t : Span} (h1 : s.inner = M.text) (h2 : t.inner = Vw.crlf M.text) (h3 : t.start = crlfPos M.text s.start)
    (h4 : t.stop = crlfPos M.text s.stop) (h5 : t.depth = s.depth) : M.Rel s t := by
  refine ⟨h1, ?_⟩
  cases t
  simp only at h2 h3 h4 h5
  simp only [Span.crlf, h1, h2, h3, h4, h5]

theorem Rel.no {s t : Span} (h : M.Rel s t) : 13 ∉ s.asRemaining := by
  intro hm
  refine M.no ?_
  rw [← h.1]
  exact List.mem_of_mem_take (List.mem_of_mem_drop hm)

theorem Rel.no_consumed {s t : Span} (h : M.Rel s t) : 13 ∉ s.asConsumed := by
  intro hm
  refine M.no ?_
  rw [← h.1]
  exact List.mem_of_mem_take hm

theorem Line.remaining {s t : Span} (h : M.Line s t) : t.asRemaining = s.asRemaining := by
  rw [h.1.remaining, crlf_line h.2]

theorem Rel.isEmpty {s t : Span} (h : M.Rel s t) : t.isEmpty = s.isEmpty := by
  unfold Span.isEmpty
  rw [remainingLen_eq, remainingLen_eq, h.start, h.stop, Bool.eq_iff_iff]
  simp only [beq_iff_eq, Nat.sub_eq_zero_iff_le]
  exact crlfPos_le

theorem Rel.empty {s t : Span} (h : M.Rel s t) : t.remainingLen = 0 ↔ s.remainingLen = 0 := by
  have := h.isEmpty
  unfold Span.isEmpty at this
  rw [Bool.eq_iff_iff, beq_iff_eq, beq_iff_eq] at this
  exact this

theorem Line.len {s t : Span} (h : M.Line s t) : t.remainingLen = s.remainingLen := by
  obtain ⟨h, hl⟩ := h
  rw [remainingLen_eq, remainingLen_eq, h.start, h.stop]
  by_cases hle : s.start ≤ s.stop
  · obtain ⟨k, hk⟩ := Nat.exists_eq_add_of_le hle
    have e : (M.text.drop s.start).take k = s.asRemaining := by
      unfold Span.asRemaining
      rw [List.drop_take, h.1]
      congr 1
      omega
    rw [hk, crlfPos_add, e, List.count_eq_zero.2 hl]
    omega
  · have : crlfPos M.text s.stop < crlfPos M.text s.start := crlfPos_lt.2 (by omega)
    omega

theorem Line.onlyWs {s t : Span} (h : M.Line s t) : t.isOnlyWhitespace = s.isOnlyWhitespace := by
  simp only [Span.isOnlyWhitespace, h.len, h.remaining]

theorem Rel.pos_add {s t : Span} (h : M.Rel s t) {n n' : Nat} (hi : Img s.asRemaining n n') :
    crlfPos M.text (s.start + n) = t.start + n' := by
  obtain ⟨h1, h2⟩ := hi
  rw [crlfPos_add, h2, h.start, rem_take h1, h.1]
  omega

theorem Rel.advance {s t : Span} (h : M.Rel s t) {n n' : Nat} (hi : Img s.asRemaining n n') :
    M.Rel (s.advanceStartBy n) (t.advanceStartBy n') := by
  have hp := h.pos_add hi
  refine Rel.mk' h.1 h.inner ?_ h.stop h.depth
  show (if t.start + n' > t.stop then t.stop else t.start + n') = crlfPos M.text (if s.start + n > s.stop then s.stop else s.start + n)
  have hc : t.start + n' > t.stop ↔ s.start + n > s.stop := by
    rw [← hp, h.stop]; exact crlfPos_lt
  by_cases hx : s.start + n > s.stop
  · rw [if_pos hx, if_pos (hc.2 hx), h.stop]
  · rw [if_neg hx, if_neg (fun hh => hx (hc.1 hh)), hp]

theorem Rel.sliceFrom {s t : Span} (h : M.Rel s t) {n n' : Nat} (hi : Img s.asRemaining n n') :
    M.Rel (s.sliceFrom n) (t.sliceFrom n') := h.advance hi

theorem Rel.sliceTo {s t : Span} (h : M.Rel s t) {n n' : Nat} (hi : Img s.asRemaining n n') :
    M.Rel (s.sliceTo n) (t.sliceTo n') := by
  have hp := h.pos_add hi
  exact Rel.mk' h.1 h.inner h.start hp.symm h.depth

theorem sliceTo_remaining {s : Span} {n : Nat} (h : n ≤ s.asRemaining.length) : (s.sliceTo n).asRemaining = s.asRemaining.take n := by
  rw [rem_take h]
  show (s.inner.take (s.start + n)).drop s.start = _
  rw [List.drop_take]
  congr 1
  omega

theorem sliceFrom_remaining {s : Span} {n : Nat} (h : n ≤ s.asRemaining.length) :
    (s.sliceFrom n).asRemaining = s.asRemaining.drop n := by
  have := rem_length_le s
  show (s.inner.take s.stop).drop (if s.start + n > s.stop then s.stop else s.start + n) = ((s.inner.take s.stop).drop s.start).drop n
  rw [List.drop_drop]
  split
  · have h0 : n = 0 := by omega
    subst h0
    rw [List.drop_eq_nil_of_le (by rw [List.length_take]; omega), List.drop_eq_nil_of_le (by rw [List.length_take]; omega)]
  · rfl

theorem Line.sliceTo {s t : Span} (h : M.Rel s t) {n n' : Nat} (hi : Img s.asRemaining n n') (hl : 10 ∉ s.asRemaining.take n) :
    M.Line (s.sliceTo n) (t.sliceTo n') :=
  ⟨h.sliceTo hi, by rw [sliceTo_remaining hi.1]; exact hl⟩

/-- Prefixes of a line end at the same distance. -/
theorem Line.img {s t : Span} (h : M.Line s t) {n : Nat} (hn : n ≤ s.asRemaining.length) : Img s.asRemaining n n :=
  Img.line hn fun hm => h.2 (List.mem_of_mem_take hm)

theorem Line.to {s t : Span} (h : M.Line s t) {n : Nat} (hn : n ≤ s.asRemaining.length) : M.Line (s.sliceTo n) (t.sliceTo n) :=
  Line.sliceTo h.1 (h.img hn) fun hm => h.2 (List.mem_of_mem_take hm)

theorem Line.from {s t : Span} (h : M.Line s t) {n : Nat} (hn : n ≤ s.asRemaining.length) :
    M.Line (s.sliceFrom n) (t.sliceFrom n) :=
  ⟨h.1.sliceFrom (h.img hn), by rw [sliceFrom_remaining hn]; exact fun hm => h.2 (List.mem_of_mem_drop hm)⟩

theorem Rel.withDepth {s t : Span} (h : M.Rel s t) (n : Nat) : M.Rel (s.withDepth n) (t.withDepth n) :=
  ⟨h.1, by rw [h.2]; rfl⟩

theorem Rel.shallower {s t : Span} (h : M.Rel s t) : M.Rel s.withShallowerDepth t.withShallowerDepth := by
  unfold Span.withShallowerDepth
  rw [h.depth]
  exact h.withDepth _

theorem Rel.lt {s t s' t' : Span} (h : M.Rel s t) (h' : M.Rel s' t') : t'.start < t.start ↔ s'.start < s.start := by
  rw [h.start, h'.start]; exact crlfPos_lt

theorem Rel.eq_iff {s t s' t' : Span} (h : M.Rel s t) (h' : M.Rel s' t') : t' = t ↔ s' = s := by
  constructor
  · intro e
    have e1 := congrArg Span.start e
    have e2 := congrArg Span.stop e
    have e3 := congrArg Span.depth e
    rw [h.start, h'.start, crlfPos_inj] at e1
    rw [h.stop, h'.stop, crlfPos_inj] at e2
    rw [h.depth, h'.depth] at e3
    have e4 := h'.1.trans h.1.symm
    cases s; cases s'
    simp only at e1 e2 e3 e4
    rw [e1, e2, e3, e4]
  · rintro rfl
    rw [h.2, h'.2]

/-- Up to a later place. -/
theorem Rel.upTo {s t s' t' : Span} (h : M.Rel s t) (h' : M.Rel s' t') (hle : ¬ s'.start < s.start) :
    M.Rel (s.sliceTo (s'.start - s.start)) (t.sliceTo (t'.start - t.start)) := by
  have hle' : ¬ t'.start < t.start := fun hh => hle ((h.lt h').1 hh)
  refine Rel.mk' h.1 h.inner h.start ?_ h.depth
  show t.start + (t'.start - t.start) = crlfPos M.text (s.start + (s'.start - s.start))
  rw [show s.start + (s'.start - s.start) = s'.start by omega, ← h'.start]
  omega

/-- From a later place. -/
theorem Rel.fromThere {s t s' t' : Span} (h : M.Rel s t) (h' : M.Rel s' t') (hle : ¬ s'.start < s.start) :
    M.Rel (s.advanceStartBy (s'.start - s.start)) (t.advanceStartBy (t'.start - t.start)) := by
  have hle' : ¬ t'.start < t.start := fun hh => hle ((h.lt h').1 hh)
  refine Rel.mk' h.1 h.inner ?_ h.stop h.depth
  show (if t.start + (t'.start - t.start) > t.stop then t.stop else t.start + (t'.start - t.start)) =
    crlfPos M.text (if s.start + (s'.start - s.start) > s.stop then s.stop else s.start + (s'.start - s.start))
  rw [show s.start + (s'.start - s.start) = s'.start by omega, show t.start + (t'.start - t.start) = t'.start by omega]
  have hc : t'.start > t.stop ↔ s'.start > s.stop := by
    rw [h'.start, h.stop]; exact crlfPos_lt
  by_cases hx : s'.start > s.stop
  · rw [if_pos hx, if_pos (hc.2 hx), h.stop]
  · rw [if_neg hx, if_neg (fun hh => hx (hc.1 hh)), h'.start]

theorem Rel.withLen {s t s' t' : Span} (h : M.Rel s t) (h' : M.Rel s' t') (hle : ¬ s'.start < s.start) :
    M.Rel (s.withLength (s'.start - s.start)) (t.withLength (t'.start - t.start)) := by
  have hle' : ¬ t'.start < t.start := fun hh => hle ((h.lt h').1 hh)
  have hc : t'.start < t.stop ↔ s'.start < s.stop := by
    rw [h'.start, h.stop]; exact crlfPos_lt
  unfold Span.withLength
  rw [remainingLen_eq, remainingLen_eq]
  by_cases hx : s'.start < s.stop
  · have hx' := hc.2 hx
    rw [if_pos (by omega), if_pos (by omega)]
    exact h.upTo h' hle
  · have hx' : ¬ t'.start < t.stop := fun hh => hx (hc.1 hh)
    rw [if_neg (by omega), if_neg (by omega)]
    exact h

theorem Rel.region {s t : Span} (h : M.Rel s t) : Region.ofSpan t = (Region.ofSpan s).crlf M.text := by
  simp only [Region.ofSpan, Region.crlf, remainingLen_eq, h.depth, h.start, h.stop]
  by_cases hle : s.start ≤ s.stop
  · rw [show s.start + (s.stop - s.start) = s.stop by omega]
  · have : crlfPos M.text s.stop < crlfPos M.text s.start := crlfPos_lt.2 (by omega)
    rw [show s.stop - s.start = 0 by omega, Nat.add_zero, Nat.sub_self]
    congr 1
    omega

end Cr
end Vw
