import Verif.Lemmas.Scan2
import Verif.Spec.Lines

/-!
# Forward runs of the scanners

`View s r`: `r` is the text a span still covers. The lemmas here say what a scanner
returns on a span whose text is known, which is what the completeness proofs need.
-/

namespace Vw
open P Scan

/-- The span covers the text `r`. -/
structure View (s : Span) (r : Str) : Prop where
  rem : s.asRemaining = r
  le : s.start ≤ s.stop
  hi : s.stop ≤ s.inner.length

/-- The span without its first `n` bytes. -/
def adv (s : Span) (n : Nat) : Span := { s with start := s.start + n }

/-- The first `n` bytes of the span. -/
def cut (s : Span) (n : Nat) : Span := { s with stop := s.start + n }

@[simp] theorem adv_zero (s : Span) : adv s 0 = s := rfl

@[simp] theorem adv_adv (s : Span) (n m : Nat) : adv (adv s n) m = adv s (n + m) := by
  simp [adv, Nat.add_assoc]

@[simp] theorem adv_start (s : Span) (n : Nat) : (adv s n).start = s.start + n := rfl
@[simp] theorem adv_stop (s : Span) (n : Nat) : (adv s n).stop = s.stop := rfl
@[simp] theorem adv_inner (s : Span) (n : Nat) : (adv s n).inner = s.inner := rfl
@[simp] theorem adv_depth (s : Span) (n : Nat) : (adv s n).depth = s.depth := rfl
@[simp] theorem cut_start (s : Span) (n : Nat) : (cut s n).start = s.start := rfl
@[simp] theorem cut_stop (s : Span) (n : Nat) : (cut s n).stop = s.start + n := rfl
@[simp] theorem cut_inner (s : Span) (n : Nat) : (cut s n).inner = s.inner := rfl

theorem View.ofStr (t : Str) : View (Span.ofStr t) t :=
  ⟨by simp [Span.ofStr, Span.asRemaining], by simp [Span.ofStr], by simp [Span.ofStr]⟩

namespace View
variable {s : Span} {r w : Str}

theorem len (h : View s r) : s.start + r.length = s.stop := by
  have h1 := h.rem; have h2 := h.le; have h3 := h.hi
  rw [← h1]; simp [Span.asRemaining]; omega

theorem remLen (h : View s r) : s.remainingLen = r.length := by
  have := h.len; have := h.le
  unfold Span.remainingLen; rw [if_pos h.le]; omega

theorem isEmpty (h : View s r) : s.isEmpty = r.isEmpty := by
  unfold Span.isEmpty; rw [h.remLen]; cases r <;> simp

theorem adv (h : View s (w ++ r)) : View (adv s w.length) r := by
  have h1 := h.len
  simp at h1
  refine ⟨?_, by simp; omega, h.hi⟩
  have := h.rem
  simp only [Span.asRemaining, Vw.adv] at this ⊢
  rw [← List.drop_drop, this]; simp

theorem cut (h : View s (w ++ r)) : View (cut s w.length) w := by
  have h1 := h.len
  simp at h1
  have h2 := h.hi
  refine ⟨?_, by simp, by simp; omega⟩
  have := congrArg (List.take w.length) h.rem
  simp only [Span.asRemaining, Vw.cut, List.drop_take, List.take_take, List.take_left'] at this ⊢
  have hlen : w.length ≤ s.stop - s.start := by omega
  rw [Nat.min_eq_left hlen] at this
  simpa using this

end View

variable {s : Span} {r w : Str}

theorem takeSplit_run (h : View s (w ++ r)) :
    takeSplit s w.length = .ok (adv s w.length) (cut s w.length) := by
  have := h.len
  simp at this
  rw [takeSplit_eq (by omega)]; rfl

theorem sliceFrom_run (h : View s (w ++ r)) : s.sliceFrom w.length = adv s w.length := by
  have := h.len
  simp at this
  simp only [Span.sliceFrom, Span.advanceStartBy]
  rw [if_neg (by omega)]; rfl

theorem takeWhile_run {f : Byte → Bool} (hw : ∀ x ∈ w, f x = true)
    (hr : ∀ x, r.head? = some x → f x = false) : (w ++ r).takeWhile f = w := by
  rw [List.takeWhile_append_of_pos hw]
  cases r with
  | nil => simp
  | cons a t => simp [hr a rfl]

theorem takeWhile0_run {f : Byte → Bool} (h : View s (w ++ r)) (hw : ∀ x ∈ w, f x = true)
    (hr : ∀ x, r.head? = some x → f x = false) :
    takeWhile0 f s = .ok (adv s w.length) (cut s w.length) := by
  unfold takeWhile0
  rw [h.rem, takeWhile_run hw hr, takeSplit_run h]

theorem takeWhile1_run {f : Byte → Bool} (h : View s (w ++ r)) (hn : w ≠ [])
    (hw : ∀ x ∈ w, f x = true) (hr : ∀ x, r.head? = some x → f x = false) :
    takeWhile1 f s = .ok (adv s w.length) (cut s w.length) := by
  unfold takeWhile1
  rw [h.rem, takeWhile_run hw hr, if_neg (by simpa using hn), takeSplit_run h]

theorem space0_run (h : View s (w ++ r)) (hw : ∀ x ∈ w, isSpace x = true)
    (hr : ∀ x, r.head? = some x → isSpace x = false) :
    space0 s = .ok (adv s w.length) (cut s w.length) := takeWhile0_run h hw hr

theorem tag_run (h : View s (w ++ r)) : tag w s = .ok (adv s w.length) (cut s w.length) := by
  unfold tag
  rw [h.rem, if_pos (by simp [List.isPrefixOf_iff_prefix]), takeSplit_run h]

theorem tag_run_err (h : View s r) (hp : ¬ w <+: r) : tag w s = .err := by
  unfold tag
  rw [h.rem, if_neg (by simpa [List.isPrefixOf_iff_prefix] using hp)]

theorem satisfy_run {f : Byte → Bool} {c : Byte} (h : View s (c :: r)) (hc : f c = true) :
    satisfy f s = .ok (adv s 1) c := by
  unfold satisfy
  rw [h.rem]
  simp only [hc, if_true]
  have := sliceFrom_run (w := [c]) (r := r) h
  simp only [List.length_singleton] at this
  rw [this]

theorem satisfy_run_err {f : Byte → Bool} (h : View s r)
    (hr : ∀ x, r.head? = some x → f x = false) : satisfy f s = .err := by
  unfold satisfy
  rw [h.rem]
  cases r with
  | nil => rfl
  | cons a t => simp [hr a rfl]

theorem lineEnding_run_n (h : View s (10 :: r)) : lineEnding s = .ok (adv s 1) (cut s 1) := by
  unfold lineEnding alt
  rw [tag_run (w := b!"\n") (r := r) h]; rfl

theorem lineEnding_run_rn (h : View s (13 :: 10 :: r)) :
    lineEnding s = .ok (adv s 2) (cut s 2) := by
  unfold lineEnding alt
  rw [tag_run_err (w := b!"\n") h (by simp), tag_run (w := b!"\r\n") (r := r) h]; rfl

/-- The text after an optional line end. -/
theorem lineLen_le (r : Str) : lineLen r ≤ r.length := by
  induction r with
  | nil => simp [lineLen]
  | cons b r ih =>
    unfold lineLen
    split <;> simp <;> omega

theorem lineLen_append (hw : 10 ∉ w) : lineLen (w ++ r) = w.length + lineLen r := by
  induction w with
  | nil => simp
  | cons b w ih =>
    simp only [List.mem_cons, not_or] at hw
    rw [List.cons_append, lineLen, if_neg (fun h => hw.1 h.symm), ih hw.2, List.length_cons]
    omega

theorem eol_run (h : View s r) (he : EolHere r) :
    ∃ n, endOfLineOrInput s = .ok (adv s n) () ∧ n ≤ r.length ∧ View (adv s n) (r.drop n) ∧
      (r = [] ∧ n = 0 ∨ r.take n = b!"\n" ∨ r.take n = b!"\r\n") ∧ n = lineLen r := by
  unfold endOfLineOrInput
  rw [h.isEmpty]
  rcases he with rfl | ⟨t, rfl⟩ | ⟨t, rfl⟩
  · exact ⟨0, rfl, by simp, h, .inl ⟨rfl, rfl⟩, rfl⟩
  · refine ⟨1, ?_, by simp, View.adv (w := [10]) h, .inr (.inl rfl), by simp [lineLen]⟩
    simp [P.value, P.map, lineEnding_run_n h]
  · refine ⟨2, ?_, by simp, View.adv (w := [13, 10]) h, .inr (.inr rfl), by simp [lineLen]⟩
    simp [P.value, P.map, lineEnding_run_rn h]

theorem eol_run_err (h : View s r) (he : ¬ EolHere r) : endOfLineOrInput s = .err := by
  unfold endOfLineOrInput
  rw [h.isEmpty]
  have h1 : r ≠ [] := fun e => he (.inl e)
  rw [if_neg (by simpa using h1)]
  unfold P.value P.map lineEnding alt
  rw [tag_run_err (w := b!"\n") h, tag_run_err (w := b!"\r\n") h]
  · rintro ⟨t, rfl⟩; exact he (.inr (.inr ⟨t, rfl⟩))
  · rintro ⟨t, rfl⟩; exact he (.inr (.inl ⟨t, rfl⟩))

theorem memchr_run {f : Byte → Bool} {c : Byte} (hw : ∀ x ∈ w, f x = false) (hc : f c = true) :
    memchr f (w ++ c :: r) = some w.length := by
  unfold memchr
  rw [List.findIdx?_append, List.findIdx?_eq_none_iff.2 (by simpa using hw)]
  simp [List.findIdx?_cons, hc]

theorem memchr_run_none {f : Byte → Bool} (hw : ∀ x ∈ w, f x = false) : memchr f w = none := by
  unfold memchr
  exact List.findIdx?_eq_none_iff.2 (by simpa using hw)

theorem lineSplit_exists (t : Str) : ∃ w r, t = w ++ r ∧ LineSplit w r := by
  by_cases h : 10 ∈ t
  · obtain ⟨w, r, rfl, hw⟩ := List.eq_append_cons_of_mem h
    by_cases hl : w.getLast? = some 13
    · obtain ⟨w', rfl⟩ := List.getLast?_eq_some_iff.1 hl
      exact ⟨w', 13 :: 10 :: r, by simp, by simp at hw; exact hw, .inr (.inr ⟨r, rfl⟩)⟩
    · exact ⟨w, 10 :: r, rfl, hw, .inr (.inl ⟨r, rfl, hl⟩)⟩
  · exact ⟨t, [], by simp, h, .inl rfl⟩

theorem takeUntilEol_run (h : View s (w ++ r)) (hl : LineSplit w r) :
    takeUntilEol s = .ok (adv s w.length) (cut s w.length) := by
  obtain ⟨hw, hr⟩ := hl
  have hw' : ∀ x ∈ w, (x == 10) = false := by
    intro x hx
    have : x ≠ 10 := fun e => hw (e ▸ hx)
    simpa using this
  unfold takeUntilEol
  simp only [h.rem]
  rcases hr with rfl | ⟨t, rfl, hlast⟩ | ⟨t, rfl⟩
  · rw [memchr_run_none (by simpa using hw')]
    simp only [rest, h.rem]
    rw [sliceFrom_run (w := w ++ []) (r := []) (by simpa using h)]
    have := h.len
    simp at this
    simp [cut, this]
  · rw [memchr_run hw' (by simp)]
    simp only
    rw [show crAdjust (w ++ 10 :: t) w.length = w.length by
      unfold crAdjust
      rw [if_neg]
      rintro ⟨h1, h2⟩
      rw [List.getElem?_append_left (by omega), ← List.getLast?_eq_getElem?] at h2
      exact hlast h2]
    exact takeSplit_run h
  · have e : w ++ 13 :: 10 :: t = (w ++ [13]) ++ 10 :: t := by simp
    have hw2 : ∀ x ∈ w ++ [13], (x == 10) = false := by
      intro x hx
      rcases List.mem_append.1 hx with hx | hx
      · exact hw' x hx
      · simp at hx; subst hx; rfl
    have hc : crAdjust ((w ++ [13]) ++ 10 :: t) (w ++ [13]).length = w.length := by
      unfold crAdjust
      rw [if_pos (by simp)]
      simp
    rw [e, memchr_run hw2 (by simp)]
    simp only [hc]
    exact takeSplit_run h

/-! ## Combinators -/

section
variable {α β : Type} {s' : Span}

theorem bind_ok {p : P α} {f : α → P β} {a : α} (h : p s = .ok s' a) : P.bind p f s = f a s' := by
  unfold P.bind; rw [h]

theorem bind_er {p : P α} {f : α → P β} (h : p s = .err) : P.bind p f s = .err := by
  unfold P.bind; rw [h]

theorem bind_pn {p : P α} {f : α → P β} {r : Reason} (h : p s = .panic r) :
    P.bind p f s = .panic r := by
  unfold P.bind; rw [h]

theorem bind_dv {p : P α} {f : α → P β} (h : p s = .diverge) : P.bind p f s = .diverge := by
  unfold P.bind; rw [h]

theorem located_pn {p : P α} {r : Reason} (h : p s = .panic r) : located p s = .panic r := by
  unfold located; rw [h]

theorem located_dv {p : P α} (h : p s = .diverge) : located p s = .diverge := by
  unfold located; rw [h]

theorem map_ok {p : P α} {f : α → β} {a : α} (h : p s = .ok s' a) : P.map p f s = .ok s' (f a) := by
  unfold P.map; rw [h]

theorem map_er {p : P α} {f : α → β} (h : p s = .err) : P.map p f s = .err := by
  unfold P.map; rw [h]

theorem verify_ok {p : P α} {f : α → Bool} {a : α} (h : p s = .ok s' a) :
    verify p f s = if f a then .ok s' a else .err := by
  unfold verify; rw [h]

theorem verify_er {p : P α} {f : α → Bool} (h : p s = .err) : verify p f s = .err := by
  unfold verify; rw [h]

theorem alt_ok {p q : P α} {a : α} (h : p s = .ok s' a) : alt p q s = .ok s' a := by
  unfold alt; rw [h]

theorem alt_er {p q : P α} (h : p s = .err) : alt p q s = q s := by
  unfold alt; rw [h]

theorem alts_er {p q : P α} {ps : List (P α)} (h : p s = .err) :
    alts (p :: q :: ps) s = alts (q :: ps) s := alt_er h

theorem alts_fst {p q : P α} {ps : List (P α)} {a : α} (h : p s = .ok s' a) :
    alts (p :: q :: ps) s = .ok s' a := alt_ok h

theorem peek_ok {p : P α} {a : α} (h : p s = .ok s' a) : peek p s = .ok s a := by
  unfold peek; rw [h]

theorem peek_er {p : P α} (h : p s = .err) : peek p s = .err := by
  unfold peek; rw [h]

theorem not_ok {p : P α} {a : α} (h : p s = .ok s' a) : P.not p s = .err := by
  unfold P.not; rw [h]

theorem not_er {p : P α} (h : p s = .err) : P.not p s = .ok s () := by
  unfold P.not; rw [h]

theorem opt_ok {p : P α} {a : α} (h : p s = .ok s' a) : opt p s = .ok s' (some a) := by
  unfold opt; rw [h]

theorem opt_er {p : P α} (h : p s = .err) : opt p s = .ok s none := by
  unfold opt; rw [h]

theorem mapParser_ok {p : P Span} {q : P β} {o s2 : Span} {b : β} (h : p s = .ok s' o)
    (hq : q o = .ok s2 b) : mapParser p q s = .ok s' b := by
  unfold mapParser; rw [h]; simp only [hq]

theorem mapParser_er {p : P Span} {q : P β} (h : p s = .err) : mapParser p q s = .err := by
  unfold mapParser; rw [h]

theorem strOf_ok {p : P Span} {o : Span} (h : p s = .ok s' o) :
    strOf p s = .ok s' o.asRemaining := mapParser_ok h rfl

theorem strOf_er {p : P Span} (h : p s = .err) : strOf p s = .err := mapParser_er h

theorem located_run {p : P α} {a : α} {n : Nat} {r : Str} (hv : View s r) (hn : n ≤ r.length)
    (h : p s = .ok (adv s n) a) : located p s = .ok (adv s n) ⟨a, ⟨s.start, n, s.depth⟩⟩ := by
  unfold located
  rw [h]
  simp only
  rw [if_neg (by simp), adv_start]
  have h1 := hv.len
  have h2 : s.start + n - s.start = n := by omega
  rw [h2]
  unfold Span.withLength
  rw [hv.remLen]
  split
  · simp [Region.ofSpan, Span.remainingLen]
  · rename_i h3
    have : n = r.length := by omega
    subst this
    simp [Region.ofSpan, hv.remLen]

theorem located_er {p : P α} (h : p s = .err) : located p s = .err := by
  unfold located; rw [h]

theorem recognize_run {p : P α} {a : α} {n : Nat} (h : p s = .ok (adv s n) a) :
    recognize p s = .ok (adv s n) (cut s n) := by
  unfold recognize
  rw [h]
  simp only
  rw [if_neg (by simp), adv_start]
  have h2 : s.start + n - s.start = n := by omega
  rw [h2]
  rfl

end

/-! ## Inversions -/

section
variable {α β : Type} {s' : Span}

theorem bind_inv {p : P α} {f : α → P β} {b : β} (h : P.bind p f s = .ok s' b) :
    ∃ s1 a, p s = .ok s1 a ∧ f a s1 = .ok s' b := by
  unfold P.bind at h
  cases hp : p s with
  | ok s1 a => rw [hp] at h; exact ⟨s1, a, rfl, h⟩
  | _ => rw [hp] at h; cases h

theorem map_inv {p : P α} {f : α → β} {b : β} (h : P.map p f s = .ok s' b) :
    ∃ a, p s = .ok s' a ∧ b = f a := by
  unfold P.map at h
  cases hp : p s with
  | ok s1 a => rw [hp] at h; cases h; exact ⟨a, rfl, rfl⟩
  | _ => rw [hp] at h; cases h

theorem value_inv {p : P α} {c b : β} (h : P.value c p s = .ok s' b) :
    ∃ a, p s = .ok s' a ∧ b = c := map_inv h

theorem verify_inv {p : P α} {f : α → Bool} {a : α} (h : verify p f s = .ok s' a) :
    p s = .ok s' a ∧ f a = true := by
  unfold verify at h
  cases hp : p s with
  | ok s1 b =>
    rw [hp] at h
    simp only at h
    split at h
    · cases h; exact ⟨rfl, by assumption⟩
    · cases h
  | _ => rw [hp] at h; cases h

theorem peek_inv {p : P α} {a : α} (h : peek p s = .ok s' a) : s' = s ∧ ∃ s1, p s = .ok s1 a := by
  unfold peek at h
  cases hp : p s with
  | ok s1 b => rw [hp] at h; cases h; exact ⟨rfl, s1, rfl⟩
  | _ => rw [hp] at h; cases h

theorem mapParser_inv {p : P Span} {q : P β} {b : β} (h : mapParser p q s = .ok s' b) :
    ∃ o s2, p s = .ok s' o ∧ q o = .ok s2 b := by
  unfold mapParser at h
  cases hp : p s with
  | ok s1 o =>
    rw [hp] at h
    simp only at h
    cases hq : q o with
    | ok s2 c => rw [hq] at h; cases h; exact ⟨o, s2, rfl, hq⟩
    | _ => rw [hq] at h; cases h
  | _ => rw [hp] at h; cases h

theorem strOf_inv {p : P Span} {b : Str} (h : strOf p s = .ok s' b) :
    ∃ o, p s = .ok s' o ∧ b = o.asRemaining := by
  obtain ⟨o, s2, h1, h2⟩ := mapParser_inv h
  cases h2
  exact ⟨o, h1, rfl⟩

theorem located_inv {p : P α} {x : Located α} (h : located p s = .ok s' x) :
    p s = .ok s' x.inner ∧ x.region = Region.ofSpan (s.withLength (s'.start - s.start)) := by
  unfold located at h
  cases hp : p s with
  | ok s1 b =>
    rw [hp] at h
    simp only at h
    split at h
    · cases h
    · cases h; exact ⟨rfl, rfl⟩
  | _ => rw [hp] at h; cases h

theorem alt_inv {p q : P α} {a : α} (h : alt p q s = .ok s' a) :
    p s = .ok s' a ∨ (p s = .err ∧ q s = .ok s' a) := by
  unfold alt at h
  cases hp : p s with
  | ok s1 b => rw [hp] at h; exact .inl h
  | err => rw [hp] at h; exact .inr ⟨rfl, h⟩
  | _ => rw [hp] at h; cases h

theorem alts_cons_inv {p q : P α} {ps : List (P α)} {a : α} (h : alts (p :: q :: ps) s = .ok s' a) :
    p s = .ok s' a ∨ (p s = .err ∧ alts (q :: ps) s = .ok s' a) := alt_inv h

theorem opt_inv {p : P α} {a : Option α} (h : opt p s = .ok s' a) :
    (∃ b, p s = .ok s' b ∧ a = some b) ∨ (p s = .err ∧ s' = s ∧ a = none) := by
  unfold opt at h
  cases hp : p s with
  | ok s1 b => rw [hp] at h; cases h; exact .inl ⟨b, rfl, rfl⟩
  | err => rw [hp] at h; cases h; exact .inr ⟨rfl, rfl, rfl⟩
  | _ => rw [hp] at h; cases h

theorem deeper_inv {p : P α} {a : α} (h : deeper p s = .ok s' a) :
    ∃ s1, p (s.withDepth (s.depth + 1)) = .ok s1 a ∧ s' = s1.withShallowerDepth := by
  unfold deeper at h
  split at h
  · cases h
  · cases hp : p (s.withDepth (s.depth + 1)) with
    | ok s1 b => rw [hp] at h; cases h; exact ⟨s1, rfl, rfl⟩
    | _ => rw [hp] at h; cases h

end

theorem View.withDepth {s : Span} {r : Str} (h : View s r) (d : Nat) : View (s.withDepth d) r :=
  ⟨h.rem, h.le, h.hi⟩

/-! ## Runs of one byte -/

theorem lineStep_run {c : Byte} (hc : c ≠ 10 ∧ c ≠ 13) (h : View s (c :: r)) :
    takeLineWhileStep (char c) s = .ok (adv s 1) c := by
  have he : endOfLineOrInput s = .err := by
    refine eol_run_err h ?_
    rintro (h | ⟨t, h⟩ | ⟨t, h⟩)
    · cases h
    · exact hc.1 (by simpa using congrArg List.head? h)
    · exact hc.2 (by simpa using congrArg List.head? h)
  unfold takeLineWhileStep
  rw [not_er he]
  simp only
  unfold char
  rw [satisfy_run h (by simp)]
  exact satisfy_run h rfl

theorem lineStep_run_err {c : Byte} (h : View s r) (hr : r.head? ≠ some c) :
    takeLineWhileStep (char c) s = .err := by
  unfold takeLineWhileStep
  by_cases he : EolHere r
  · obtain ⟨n, hn, -⟩ := eol_run h he
    rw [not_ok hn]
  · rw [not_er (eol_run_err h he)]
    simp only
    unfold char
    rw [satisfy_run_err h]
    intro x hx
    have : x ≠ c := fun e => hr (e ▸ hx)
    simpa using this

theorem many0_char_run {c : Byte} (hc : c ≠ 10 ∧ c ≠ 13) (hr : r.head? ≠ some c) :
    ∀ (n fuel : Nat) (s : Span), n < fuel → View s (List.replicate n c ++ r) →
      ∃ l, many0Loop (takeLineWhileStep (char c)) fuel s = .ok (adv s n) l := by
  intro n
  induction n with
  | zero =>
    intro fuel s hf h
    cases fuel with
    | zero => omega
    | succ f =>
      unfold many0Loop
      rw [lineStep_run_err (by simpa using h) hr]
      exact ⟨_, rfl⟩
  | succ n ih =>
    intro fuel s hf h
    cases fuel with
    | zero => omega
    | succ f =>
      unfold many0Loop
      rw [List.replicate_succ, List.cons_append] at h
      rw [lineStep_run hc h]
      simp only
      rw [if_neg (by
        intro e
        have := congrArg Span.start e
        simp at this)]
      obtain ⟨l, hl⟩ := ih f (adv s 1) (by omega) (View.adv (w := [c]) h)
      rw [hl]
      exact ⟨_, by rw [adv_adv, Nat.add_comm]⟩

theorem takeLineWhile_run {c : Byte} (hc : c ≠ 10 ∧ c ≠ 13) {n : Nat} (hr : r.head? ≠ some c)
    (h : View s (List.replicate n c ++ r)) :
    takeLineWhile (char c) s = .ok (adv s n) (cut s n) := by
  obtain ⟨l, hl⟩ := many0_char_run hc hr n (s.remainingLen + 1) s
    (by rw [h.remLen]; simp; omega) h
  exact recognize_run hl

theorem takeLineWhile1_run {c : Byte} (hc : c ≠ 10 ∧ c ≠ 13) {n : Nat} (hr : r.head? ≠ some c)
    (h : View s (List.replicate n c ++ r)) :
    takeLineWhile1 (char c) s = if n = 0 then .err else .ok (adv s n) (cut s n) := by
  unfold takeLineWhile1
  rw [verify_ok (takeLineWhile_run hc hr h)]
  have := View.cut h
  rw [List.length_replicate] at this
  rw [this.isEmpty]
  cases n <;> simp

/-- Every text is a run of a byte followed by a text that does not begin with it. -/
theorem run_exists (c : Byte) (t : Str) : ∃ n r, t = List.replicate n c ++ r ∧ r.head? ≠ some c := by
  induction t with
  | nil => exact ⟨0, [], rfl, by simp⟩
  | cons x t ih =>
    by_cases hx : x = c
    · obtain ⟨n, r, rfl, hr⟩ := ih
      exact ⟨n + 1, r, by simp [List.replicate_succ, hx], hr⟩
    · exact ⟨0, x :: t, rfl, by simpa using hx⟩

/-- Every text is blanks followed by a text that does not begin with a blank. -/
theorem while_exists (f : Byte → Bool) (t : Str) :
    ∃ w r, t = w ++ r ∧ (∀ x ∈ w, f x = true) ∧ ∀ x, r.head? = some x → f x = false := by
  induction t with
  | nil => exact ⟨[], [], rfl, by simp, by simp⟩
  | cons x t ih =>
    by_cases hx : f x = true
    · obtain ⟨w, r, rfl, hw, hr⟩ := ih
      exact ⟨x :: w, r, rfl, by simpa [hx] using hw, hr⟩
    · exact ⟨[], x :: t, rfl, by simp, by simpa using hx⟩

/-! ## Ends of spans -/

theorem takeEnd_run {e : Str} (h : View s (w ++ e)) :
    takeEnd e.length s = .ok (cut s w.length) (adv s w.length) := by
  unfold takeEnd
  simp only [h.rem]
  have h1 : (w ++ e).length - e.length = w.length := by simp
  rw [if_neg (by simp), h1, sliceFrom_run h]
  rfl

theorem takeEnd_inv {n : Nat} {s' o : Span} (h : View s r) (ht : takeEnd n s = .ok s' o) :
    ∃ w e, r = w ++ e ∧ e.length = n ∧ s' = cut s w.length ∧ o = adv s w.length := by
  have hle : n ≤ r.length := by
    unfold takeEnd at ht
    simp only [h.rem] at ht
    split at ht
    · cases ht
    · omega
  have he : r = r.take (r.length - n) ++ r.drop (r.length - n) := by simp
  have hl : (r.drop (r.length - n)).length = n := by simp; omega
  have := takeEnd_run (he ▸ h)
  rw [hl, ht] at this
  cases this
  exact ⟨_, _, he, hl, rfl, rfl⟩

theorem take_run (h : View s (w ++ r)) : take w.length s = .ok (adv s w.length) (cut s w.length) := by
  unfold take
  rw [h.rem, if_neg (by simp), takeSplit_run h]

theorem take_inv {n : Nat} {s' o : Span} (h : View s r) (ht : take n s = .ok s' o) :
    ∃ w e, r = w ++ e ∧ w.length = n ∧ s' = adv s w.length ∧ o = cut s w.length := by
  have hle : n ≤ r.length := by
    unfold take at ht
    simp only [h.rem] at ht
    split at ht
    · cases ht
    · omega
  have he : r = r.take n ++ r.drop n := by simp
  have hl : (r.take n).length = n := by simp; omega
  have := take_run (he ▸ h)
  rw [hl, ht] at this
  cases this
  exact ⟨r.take n, r.drop n, he, hl, by rw [hl], by rw [hl]⟩

theorem countTrailingWs_run (hr : ∀ x ∈ r, isSpace x = true)
    (hw : ∀ x, w.getLast? = some x → isSpace x = false) : countTrailingWs (w ++ r) = r.length := by
  unfold countTrailingWs
  rw [List.reverse_append, takeWhile_run (by simpa using hr), List.length_reverse]
  intro x hx
  rw [List.head?_reverse] at hx
  exact hw x hx

theorem trimTrailing_run (h : View s (w ++ r)) (hr : ∀ x ∈ r, isSpace x = true)
    (hw : ∀ x, w.getLast? = some x → isSpace x = false) :
    trimTrailingWhitespace s = .ok (cut s w.length) () := by
  unfold trimTrailingWhitespace
  rw [h.rem, countTrailingWs_run hr hw]
  have h1 : (w ++ r).length - r.length = w.length := by simp
  rw [h1]; rfl

/-- Every text is a text that does not end in a blank followed by blanks. -/
theorem trail_exists (f : Byte → Bool) (t : Str) :
    ∃ w r, t = w ++ r ∧ (∀ x ∈ r, f x = true) ∧ ∀ x, w.getLast? = some x → f x = false := by
  obtain ⟨w, r, h, hw, hr⟩ := while_exists f t.reverse
  refine ⟨r.reverse, w.reverse, ?_, by simpa using hw, ?_⟩
  · rw [← List.reverse_append, ← h, List.reverse_reverse]
  · intro x hx
    rw [List.getLast?_reverse] at hx
    exact hr x hx

theorem trim_run {m : Str} {e : Str} (h : View s (w ++ (m ++ e))) (hw : ∀ x ∈ w, isSpace x = true)
    (he : ∀ x ∈ e, isSpace x = true)
    (hm : ∀ x, (m ++ e).head? = some x → isSpace x = false)
    (hm2 : ∀ x, m.getLast? = some x → isSpace x = false) :
    trimWhitespace s = .ok (cut (adv s w.length) m.length) () := by
  unfold trimWhitespace
  rw [bind_ok (space0_run h hw hm)]
  exact trimTrailing_run h.adv he hm2

theorem bol_run {s : Span} (h : s.start = 0 ∨ s.asConsumed.getLast? = some 10) :
    beginningOfLine s = .ok s () := by
  unfold beginningOfLine; rw [if_pos h]

end Vw
