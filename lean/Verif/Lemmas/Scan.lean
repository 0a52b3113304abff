import Verif.Lemmas.Core

/-!
# Facts about the scanning utilities
-/

namespace Vw
open P Scan

variable {C : Ctx} {k : Nat}

/-- `pat` occurs in `s` at position `i`. -/
def At (s : Str) (i : Nat) (pat : Str) : Prop := (s.drop i).take pat.length = pat

/-- `pat` occurs at `i` and ends before `stop`. -/
def AtIn (s : Str) (stop i : Nat) (pat : Str) : Prop := i + pat.length ≤ stop ∧ At s i pat

/-- There is a line ending (`\n` or `\r\n`) at `i`, before `stop`. -/
def LineEndAt (s : Str) (stop i : Nat) : Prop :=
  (i < stop ∧ s[i]? = some 10) ∨ (i + 1 < stop ∧ s[i]? = some 13 ∧ s[i + 1]? = some 10)

theorem matchesAt_iff (s : Str) (i : Nat) (pat : Str) :
    matchesAt s i pat = true ↔ At s i pat := by
  simp [matchesAt, At]

theorem At.getElem? {s : Str} {i : Nat} {pat : Str} (h : At s i pat) (j : Nat)
    (hj : j < pat.length) : s[i + j]? = pat[j]? := by
  unfold At at h
  have : ((s.drop i).take pat.length)[j]? = s[i + j]? := by
    rw [List.getElem?_take, if_pos hj, List.getElem?_drop]
  rw [← this, h]

theorem At.le {s : Str} {i : Nat} {pat : Str} (h : At s i pat) (hp : pat ≠ []) :
    i + pat.length ≤ s.length := by
  unfold At at h
  have hl := congrArg List.length h
  simp at hl
  have : 0 < pat.length := List.length_pos_iff.2 hp
  omega

theorem at_iff_sub {s : Str} {i : Nat} {pat : Str} : At s i pat ↔ sub s i (i + pat.length) = pat := by
  unfold At sub
  rw [List.drop_take]
  simp

theorem at_singleton {s : Str} {i : Nat} {c : Byte} : At s i [c] ↔ s[i]? = some c := by
  unfold At
  constructor
  · intro h
    have := congrArg (·[0]?) h
    simpa [List.getElem?_take, List.getElem?_drop] using this
  · intro h
    apply List.ext_getElem?
    intro j
    cases j with
    | zero => simpa [List.getElem?_take, List.getElem?_drop] using h
    | succ j => simp [List.getElem?_take]

theorem Ctx.Wf.at_rem {s : Span} (h : C.Wf k s) (i : Nat) (pat : Str) (hp : pat ≠ []) :
    At s.asRemaining i pat ↔ AtIn C.inner s.stop (s.start + i) pat := by
  constructor
  · intro ha
    have hle := ha.le hp
    rw [h.remLen] at hle
    have := h.le
    refine ⟨by omega, ?_⟩
    unfold At at ha ⊢
    rw [h.rem, sub_drop, sub_take _ _ _ _ (by omega)] at ha
    exact at_iff_sub.2 ha
  · rintro ⟨hle, ha⟩
    unfold At
    rw [h.rem, sub_drop, sub_take _ _ _ _ hle]
    exact at_iff_sub.1 ha

theorem Ctx.Wf.rem_some {s : Span} (h : C.Wf k s) {i : Nat} {b : Byte} :
    s.asRemaining[i]? = some b ↔ s.start + i < s.stop ∧ C.inner[s.start + i]? = some b := by
  rw [h.getElem?]
  split
  · simp_all
  · constructor
    · intro h; cases h
    · intro h; omega

theorem Ctx.B_of_lt {i : Nat} {b : Byte} (h : C.inner[i]? = some b) (hb : b < 128) : C.B i := by
  intro _ b' hb' hc
  rw [h] at hb'
  cases hb'
  exact absurd hc.1 (by omega)

theorem Ctx.B_succ {i : Nat} {b : Byte} (h : C.inner[i]? = some b) (hb : b < 128) :
    C.B (i + 1) := fun hu => hu.succ i b h hb

theorem Ctx.B_length : C.B C.inner.length := by
  intro _ b hb
  simp at hb

theorem takeSplit_eq {s : Span} {n : Nat} (h : s.start + n ≤ s.stop) :
    takeSplit s n = .ok { s with start := s.start + n } { s with stop := s.start + n } := by
  unfold takeSplit Span.sliceFrom Span.sliceTo Span.advanceStartBy Span.advanceEndBy
  rw [if_neg (by omega)]

/-- Outcome of a parser that splits the span at the new start. -/
structure Split (C : Ctx) (s s' o : Span) : Prop where
  good : C.Good s s'
  out : o = { s with stop := s'.start }

theorem takeSplit_ok {s : Span} {n : Nat} (hn : s.start + n ≤ s.stop)
    (hb : C.B (s.start + n)) {Q : Span → Span → Prop}
    (hQ : Q { s with start := s.start + n } { s with stop := s.start + n }) :
    C.Ok (takeSplit s n) (fun s' o => Split C s s' o ∧ Q s' o) := by
  rw [takeSplit_eq hn]
  refine ⟨⟨⟨⟨rfl, rfl, rfl, ?_, ?_⟩, hb⟩, rfl⟩, hQ⟩
  · show s.start ≤ s.start + n; omega
  · exact hn

theorem Split.sub {s s' o : Span} (h : Split C s s' o) : Sub s o := by
  obtain ⟨⟨⟨i, st, d, l, u⟩, b⟩, rfl⟩ := h
  refine ⟨rfl, rfl, ?_, ?_, ?_⟩ <;> simp <;> omega

theorem Split.in {s s' o : Span} (h : Split C s s' o) (hs : C.In k s) : C.In k o := by
  refine ⟨hs.wf.sub (h.sub), ?_, ?_⟩
  · rw [h.out]; exact hs.bs
  · rw [h.out]; exact h.good.b

theorem Split.rem {s s' o : Span} (h : Split C s s' o) (hs : C.Wf k s) :
    o.asRemaining = Vw.sub C.inner s.start s'.start := by
  rw [asRemaining_eq, h.out, hs.inner]

/-! ## Positions -/

/-- `ps` are the positions from `lo` on whose byte satisfies `p`. -/
inductive PosFrom (p : Byte → Bool) (bytes : Str) : Nat → List Nat → Prop where
  | nil {lo} : (∀ i b, lo ≤ i → bytes[i]? = some b → p b = false) → PosFrom p bytes lo []
  | cons {lo pos b ps} : lo ≤ pos → bytes[pos]? = some b → p b = true →
      (∀ i b, lo ≤ i → i < pos → bytes[i]? = some b → p b = false) →
      PosFrom p bytes (pos + 1) ps → PosFrom p bytes lo (pos :: ps)

theorem PosFrom.weaken {p : Byte → Bool} {bytes : Str} {lo : Nat} {ps : List Nat}
    (h : PosFrom p bytes (lo + 1) ps) (hlo : ∀ b, bytes[lo]? = some b → p b = false) :
    PosFrom p bytes lo ps := by
  cases h with
  | nil h =>
    refine .nil fun i b hi hb => ?_
    rcases Nat.lt_or_ge lo i with h' | h'
    · exact h i b h' hb
    · have : i = lo := by omega
      subst this; exact hlo b hb
  | cons h1 h2 h3 h4 h5 =>
    refine .cons (by omega) h2 h3 (fun i b hi hlt hb => ?_) h5
    rcases Nat.lt_or_ge lo i with h' | h'
    · exact h4 i b h' hlt hb
    · have : i = lo := by omega
      subst this; exact hlo b hb

theorem memchrIterFrom_pos (p : Byte → Bool) (bytes : Str) (pre : Str) :
    PosFrom p (pre ++ bytes) pre.length (memchrIterFrom pre.length p bytes) := by
  induction bytes generalizing pre with
  | nil =>
    refine .nil fun i b hi hb => ?_
    simp at hb
    have := List.getElem?_eq_none (l := pre) hi
    simp_all
  | cons x xs ih =>
    have ih := ih (pre ++ [x])
    simp only [List.length_append, List.length_cons, List.length_nil, List.append_assoc,
      List.cons_append, List.nil_append, Nat.zero_add] at ih
    have hx : (pre ++ x :: xs)[pre.length]? = some x := by simp
    unfold memchrIterFrom
    split
    · rename_i h
      exact .cons (Nat.le_refl _) hx h (by intro i b h1 h2; omega) ih
    · rename_i h
      refine ih.weaken ?_
      intro b hb
      rw [hx] at hb
      cases hb
      simpa using h

theorem memchrIter_pos (p : Byte → Bool) (bytes : Str) :
    PosFrom p bytes 0 (memchrIter p bytes) := memchrIterFrom_pos p bytes []

/-! ## Single bytes and tags -/

theorem satisfy_ok {s : Span} (h : C.Wf k s) (f : Byte → Bool) :
    C.Ok (satisfy f s) (fun s' b => s' = { s with start := s.start + 1 } ∧ s.start < s.stop ∧
      C.inner[s.start]? = some b ∧ f b = true) := by
  unfold satisfy
  cases hr : s.asRemaining with
  | nil => simp [Ctx.Ok]
  | cons b bs =>
    simp only
    split
    · rename_i hf
      have h0 : s.asRemaining[0]? = some b := by rw [hr]; rfl
      rw [h.rem_some] at h0
      simp only [Ctx.Ok, Span.sliceFrom, Span.advanceStartBy]
      rw [if_neg (by omega)]
      exact ⟨rfl, by omega, h0.2, hf⟩
    · simp [Ctx.Ok]

theorem satisfy_good {s : Span} (h : C.In k s) (f : Byte → Bool) (hf : ∀ b, f b = true → b < 128) :
    C.Ok (satisfy f s) (fun s' b => C.Good s s' ∧ s'.start = s.start + 1 ∧ s.start < s.stop ∧
      C.inner[s.start]? = some b ∧ f b = true) := by
  refine (satisfy_ok h.wf f).mono ?_
  rintro s' b ⟨rfl, h1, h2, h3⟩
  refine ⟨⟨⟨rfl, rfl, rfl, ?_, ?_⟩, ?_⟩, rfl, h1, h2, h3⟩
  · simp
  · simp; omega
  · exact Ctx.B_succ h2 (hf b h3)

theorem satisfy_err {s : Span} (h : C.Wf k s) (f : Byte → Bool) (he : satisfy f s = .err)
    {b : Byte} (hlt : s.start < s.stop) (hb : C.inner[s.start]? = some b) : f b = false := by
  have h0 : s.asRemaining[0]? = some b := by rw [h.rem_some]; exact ⟨by omega, hb⟩
  unfold satisfy at he
  cases hr : s.asRemaining with
  | nil => rw [hr] at h0; simp at h0
  | cons x xs =>
    rw [hr] at h0 he
    simp at h0
    subst h0
    simp only at he
    split at he
    · cases he
    · simp_all

theorem char_good {s : Span} (h : C.In k s) (c : Byte) (hc : c < 128 := by decide) :
    C.Ok (char c s) (fun s' b => C.Good s s' ∧ s'.start = s.start + 1 ∧ s.start < s.stop ∧
      C.inner[s.start]? = some c ∧ b = c) := by
  refine (satisfy_good h _ ?_).mono ?_
  · intro b hb
    have : b = c := by simpa using hb
    omega
  · rintro s' b ⟨h1, h2, h3, h4, h5⟩
    have : b = c := by simpa using h5
    subst this
    exact ⟨h1, h2, h3, h4, rfl⟩

theorem isPrefixOf_iff_at {t s : Str} : t.isPrefixOf s = true ↔ At s 0 t := by
  rw [List.isPrefixOf_iff_prefix, List.prefix_iff_eq_take]
  unfold At
  simp [eq_comm]

theorem tag_wf {s : Span} (h : C.Wf k s) (t : Str) (ht : t ≠ []) :
    C.Ok (tag t s) (fun s' o => s' = { s with start := s.start + t.length } ∧
      o = { s with stop := s.start + t.length } ∧ AtIn C.inner s.stop s.start t) := by
  unfold tag
  split
  · rename_i hp
    have ha := (h.at_rem 0 t ht).1 (isPrefixOf_iff_at.1 hp)
    simp only [Nat.add_zero] at ha
    rw [takeSplit_eq ha.1]
    exact ⟨rfl, rfl, ha⟩
  · simp [Ctx.Ok]

theorem tag_good {s : Span} (h : C.In k s) (t : Str) (ht : t ≠ [] := by decide)
    (ha : ∀ b ∈ t, b < 128 := by decide) :
    C.Ok (tag t s) (fun s' o => Split C s s' o ∧ s'.start = s.start + t.length ∧
      AtIn C.inner s.stop s.start t) := by
  refine (tag_wf h.wf t ht).mono ?_
  rintro s' o ⟨rfl, rfl, h3⟩
  refine ⟨⟨⟨⟨rfl, rfl, rfl, ?_, ?_⟩, ?_⟩, rfl⟩, rfl, h3⟩
  · simp
  · exact h3.1
  · have hl : 0 < t.length := List.length_pos_iff.2 ht
    have := h3.2.getElem? (t.length - 1) (by omega)
    have hm : t[t.length - 1]? = some (t[t.length - 1]'(by omega)) := by
      rw [List.getElem?_eq_getElem]
    rw [hm] at this
    have hb := Ctx.B_succ (C := C) this (ha _ (List.getElem_mem _))
    simpa [show s.start + (t.length - 1) + 1 = s.start + t.length by omega] using hb

theorem tag_err {s : Span} (h : C.Wf k s) (t : Str) (ht : t ≠ []) (he : tag t s = .err) :
    ¬ AtIn C.inner s.stop s.start t := by
  intro ha
  have := (h.at_rem 0 t ht).2 (by simpa using ha)
  unfold tag at he
  rw [if_pos (isPrefixOf_iff_at.2 this)] at he
  cases he

/-! ## Longest prefixes -/

theorem takeWhile_facts (f : Byte → Bool) (l : Str) :
    (l.takeWhile f).length ≤ l.length ∧
    (∀ i b, i < (l.takeWhile f).length → l[i]? = some b → f b = true) ∧
    (∀ b, l[(l.takeWhile f).length]? = some b → f b = false) := by
  induction l with
  | nil => simp
  | cons x xs ih =>
    simp only [List.takeWhile_cons]
    split
    · rename_i hx
      refine ⟨by simp [ih.1], ?_, ?_⟩
      · intro i b hi hb
        cases i with
        | zero => simp at hb; subst hb; exact hx
        | succ i =>
          simp at hb hi
          exact ih.2.1 i b hi hb
      · intro b hb
        simp at hb
        exact ih.2.2 b hb
    · rename_i hx
      refine ⟨by simp, by simp, ?_⟩
      intro b hb
      simp at hb
      subst hb
      simpa using hx

/-- What a longest-prefix parser takes. -/
structure Took (C : Ctx) (f : Byte → Bool) (s s' : Span) : Prop where
  all : ∀ i b, s.start ≤ i → i < s'.start → C.inner[i]? = some b → f b = true
  stop : ∀ b, s'.start < s.stop → C.inner[s'.start]? = some b → f b = false

theorem Wf_get {s : Span} (h : C.Wf k s) {i : Nat} (hi : i < s.stop) :
    ∃ b, C.inner[i]? = some b := by
  have := h.hi
  exact ⟨C.inner[i]'(by omega), List.getElem?_eq_getElem _⟩

theorem takeWhile_split {s : Span} (h : C.In k s) (f : Byte → Bool)
    (hf : (∀ b, f b = true → b < 128) ∨ (∀ b, f b = false → b < 128)) :
    C.Ok (takeSplit s (s.asRemaining.takeWhile f).length)
      (fun s' o => Split C s s' o ∧ (s'.start = s.start + (s.asRemaining.takeWhile f).length ∧
        Took C f s s')) := by
  obtain ⟨h1, h2, h3⟩ := takeWhile_facts f s.asRemaining
  rw [h.wf.remLen] at h1
  have hle := h.wf.le
  generalize hn : (s.asRemaining.takeWhile f).length = n at h1 h2 h3 ⊢
  have hall : ∀ i b, s.start ≤ i → i < s.start + n → C.inner[i]? = some b → f b = true := by
    intro i b hi1 hi2 hb
    refine h2 (i - s.start) b (by omega) ?_
    rw [h.wf.rem_some, show s.start + (i - s.start) = i by omega]
    exact ⟨by omega, hb⟩
  have hstop : ∀ b, s.start + n < s.stop → C.inner[s.start + n]? = some b → f b = false := by
    intro b hlt hb
    exact h3 b (h.wf.rem_some.2 ⟨hlt, hb⟩)
  refine takeSplit_ok (by omega) ?_ (Q := fun s' _ => s'.start = s.start + n ∧ Took C f s s')
    ⟨rfl, ⟨hall, hstop⟩⟩
  rcases hf with hf | hf
  · cases n with
    | zero => exact h.bs
    | succ n =>
      obtain ⟨b, hb⟩ := Wf_get h.wf (i := s.start + n) (by omega)
      exact Ctx.B_succ hb (hf b (hall _ b (by omega) (by omega) hb))
  · rcases Nat.lt_or_ge (s.start + n) s.stop with hlt | hge
    · obtain ⟨b, hb⟩ := Wf_get h.wf hlt
      exact Ctx.B_of_lt hb (hf b (hstop b hlt hb))
    · rw [show s.start + n = s.stop by omega]; exact h.be

theorem takeWhile0_good {s : Span} (h : C.In k s) (f : Byte → Bool)
    (hf : (∀ b, f b = true → b < 128) ∨ (∀ b, f b = false → b < 128)) :
    C.Ok (takeWhile0 f s) (fun s' o => Split C s s' o ∧ Took C f s s') :=
  (takeWhile_split h f hf).mono fun _ _ h => ⟨h.1, h.2.2⟩

theorem takeWhile1_good {s : Span} (h : C.In k s) (f : Byte → Bool)
    (hf : (∀ b, f b = true → b < 128) ∨ (∀ b, f b = false → b < 128)) :
    C.Ok (takeWhile1 f s) (fun s' o => Split C s s' o ∧ Took C f s s' ∧ s.start < s'.start) := by
  unfold takeWhile1
  split
  · simp [Ctx.Ok]
  · exact (takeWhile_split h f hf).mono fun _ _ h => ⟨h.1, h.2.2, by have := h.2.1; omega⟩

theorem isSpace_lt {b : Byte} (h : isSpace b = true) : b < 128 := by
  simp [isSpace] at h; omega

theorem space0_good {s : Span} (h : C.In k s) :
    C.Ok (space0 s) (fun s' o => Split C s s' o ∧ Took C isSpace s s') :=
  takeWhile0_good h _ (.inl fun _ => isSpace_lt)

theorem space1_good {s : Span} (h : C.In k s) :
    C.Ok (space1 s) (fun s' o => Split C s s' o ∧ Took C isSpace s s' ∧ s.start < s'.start) :=
  takeWhile1_good h _ (.inl fun _ => isSpace_lt)

/-- `space0` always succeeds. -/
theorem space0_total (s : Span) : ∃ s' o, space0 s = .ok s' o := ⟨_, _, rfl⟩

theorem takeWhile1_err {s : Span} (h : C.Wf k s) {f : Byte → Bool} (he : takeWhile1 f s = .err)
    {b : Byte} (hlt : s.start < s.stop) (hb : C.inner[s.start]? = some b) : f b = false := by
  unfold takeWhile1 at he
  split at he
  · rename_i h0
    have := (takeWhile_facts f s.asRemaining).2.2
    rw [h0] at this
    exact this b (h.rem_some.2 ⟨by omega, hb⟩)
  · simp [takeSplit] at he

/-! ## Line endings -/

theorem lineEnding_good {s : Span} (h : C.In k s) :
    C.Ok (lineEnding s) (fun s' _ => C.Good s s' ∧ s.start < s'.start ∧
      LineEndAt C.inner s.stop s.start ∧ C.inner[s'.start - 1]? = some 10) := by
  unfold lineEnding
  refine Ctx.Ok.alt ((tag_good h _).mono ?_) (fun _ => (tag_good h _).mono ?_)
  · rintro s' o ⟨h1, h2, h3⟩
    simp at h2
    have := at_singleton.1 h3.2
    refine ⟨h1.good, by omega, .inl ⟨?_, this⟩, ?_⟩
    · have := h3.1; simp at this; omega
    · rw [h2, show s.start + 1 - 1 = s.start by omega]; exact this
  · rintro s' o ⟨h1, h2, h3⟩
    simp at h2
    have h0 := h3.2.getElem? 0 (by simp)
    have h1' := h3.2.getElem? 1 (by simp)
    simp at h0 h1'
    have hl := h3.1
    simp at hl
    refine ⟨h1.good, by omega, .inr ⟨by omega, h0, h1'⟩, ?_⟩
    rw [h2, show s.start + 2 - 1 = s.start + 1 by omega]; exact h1'

theorem lineEnding_err {s : Span} (h : C.Wf k s) (he : lineEnding s = .err) :
    ¬ LineEndAt C.inner s.stop s.start := by
  unfold lineEnding P.alt at he
  cases h1 : tag b!"\n" s with
  | err =>
    rw [h1] at he
    have e1 := tag_err h _ (by simp) h1
    have e2 := tag_err h _ (by simp) he
    rintro (⟨hl, hb⟩ | ⟨hl, hb, hb'⟩)
    · exact e1 ⟨by simp; omega, at_singleton.2 hb⟩
    · refine e2 ⟨by simp; omega, ?_⟩
      apply List.ext_getElem?
      intro j
      rw [List.getElem?_take, List.getElem?_drop]
      match j with
      | 0 => simpa using hb
      | 1 => simpa using hb'
      | j + 2 => simp; intro h; omega
  | ok a b => rw [h1] at he; simp at he
  | panic r => rw [h1] at he; simp at he
  | diverge => rw [h1] at he; simp at he

/-- The start is at the beginning of a line of the whole text. -/
def Bol (C : Ctx) (i : Nat) : Prop := i = 0 ∨ C.inner[i - 1]? = some 10

theorem endOfLineOrInput_good {s : Span} (h : C.In k s) :
    C.Ok (endOfLineOrInput s) (fun s' _ => C.Good s s' ∧
      ((s.start = s.stop ∧ s' = s) ∨ (s.start < s'.start ∧
        LineEndAt C.inner s.stop s.start ∧ C.inner[s'.start - 1]? = some 10))) := by
  unfold endOfLineOrInput
  split
  · rename_i he
    exact ⟨Ctx.Good.refl h, .inl ⟨h.wf.isEmpty.1 he, rfl⟩⟩
  · refine Ctx.Ok.value ((lineEnding_good h).mono ?_)
    rintro s' o ⟨h1, h2, h3, h4⟩
    exact ⟨h1, .inr ⟨h2, h3, h4⟩⟩

theorem endOfLineOrInput_err {s : Span} (h : C.Wf k s) (he : endOfLineOrInput s = .err) :
    s.start < s.stop ∧ ¬ LineEndAt C.inner s.stop s.start := by
  unfold endOfLineOrInput at he
  split at he
  · cases he
  · rename_i hne
    have hle := h.le
    rw [h.isEmpty] at hne
    refine ⟨by omega, lineEnding_err h ?_⟩
    unfold P.value P.map at he
    cases hl : lineEnding s <;> simp_all

theorem LineEndAt.byte {s : Str} {stop i : Nat} (h : LineEndAt s stop i) :
    ∃ b, s[i]? = some b ∧ b < 128 := by
  rcases h with ⟨_, h⟩ | ⟨_, h, _⟩
  · exact ⟨10, h, by omega⟩
  · exact ⟨13, h, by omega⟩

theorem LineEndAt.lt {s : Str} {stop i : Nat} (h : LineEndAt s stop i) : i < stop := by
  rcases h with ⟨h, _⟩ | ⟨h, _, _⟩ <;> omega

/-! ## Scanning to a pattern or a line end -/

/-- Exit condition of the line scanners. -/
def Exit (C : Ctx) (pats : List Str) (s s' : Span) : Prop :=
  s'.start = s.stop ∨ LineEndAt C.inner s.stop s'.start ∨
    ∃ p ∈ pats, AtIn C.inner s.stop s'.start p

/-- No newline and none of the patterns in the part taken. -/
def Clear (C : Ctx) (pats : List Str) (s s' : Span) : Prop :=
  ∀ i, s.start ≤ i → i < s'.start → C.inner[i]? ≠ some 10 ∧ ∀ p ∈ pats, ¬ AtIn C.inner s.stop i p

/-- Relative version of the exit and clear conditions on a byte string. -/
structure ScanRes (pats : List Str) (bytes : Str) (n : Nat) : Prop where
  le : n ≤ bytes.length
  clear : ∀ i, i < n → bytes[i]? ≠ some 10 ∧ ∀ p ∈ pats, ¬ At bytes i p
  exit : n = bytes.length ∨ LineEndAt bytes bytes.length n ∨ ∃ p ∈ pats, At bytes n p

theorem ScanRes.split {s : Span} (h : C.In k s) {pats : List Str} {n : Nat}
    (hp : ∀ p ∈ pats, ∃ c t, p = c :: t ∧ c < 128) (hr : ScanRes pats s.asRemaining n) :
    C.Ok (takeSplit s n) (fun s' o => Split C s s' o ∧ (Clear C pats s s' ∧ Exit C pats s s')) := by
  obtain ⟨h1, h2, h3⟩ := hr
  rw [h.wf.remLen] at h1
  have hle := h.wf.le
  have hne : ∀ p ∈ pats, p ≠ [] := by
    intro p hm
    obtain ⟨c, t, rfl, _⟩ := hp p hm
    simp
  have hexit : Exit C pats s { s with start := s.start + n } := by
    rcases h3 with h3 | h3 | ⟨p, hm, h3⟩
    · left; rw [h.wf.remLen] at h3; simp; omega
    · right; left
      rw [h.wf.remLen] at h3
      rcases h3 with ⟨a, b⟩ | ⟨a, b, c⟩
      · left; exact ⟨by simp; omega, (h.wf.rem_some.1 b).2⟩
      · right
        refine ⟨by simp; omega, (h.wf.rem_some.1 b).2, ?_⟩
        have := (h.wf.rem_some.1 c).2
        simpa [Nat.add_assoc] using this
    · right; right; exact ⟨p, hm, (h.wf.at_rem n p (hne p hm)).1 h3⟩
  refine takeSplit_ok (by omega) ?_
    (Q := fun s' _ => Clear C pats s s' ∧ Exit C pats s s') ⟨?_, hexit⟩
  · rcases hexit with he | he | ⟨p, hm, he⟩
    · simp at he; rw [he]; exact h.be
    · obtain ⟨b, hb, hlt⟩ := he.byte
      exact Ctx.B_of_lt hb hlt
    · obtain ⟨c, t, rfl, hc⟩ := hp p hm
      have := he.2.getElem? 0 (by simp)
      simp at this
      exact Ctx.B_of_lt this hc
  · intro i hi1 hi2
    simp at hi2
    obtain ⟨e1, e2⟩ := h2 (i - s.start) (by omega)
    refine ⟨?_, ?_⟩
    · intro hb
      apply e1
      rw [h.wf.rem_some, show s.start + (i - s.start) = i by omega]
      exact ⟨by omega, hb⟩
    · intro p hm ha
      apply e2 p hm
      rw [h.wf.at_rem _ p (hne p hm), show s.start + (i - s.start) = i by omega]
      exact ha

theorem crAdjust_res {pats : List Str} {bytes : Str} {pos : Nat} (hb : bytes[pos]? = some 10)
    (hclear : ∀ i, i < pos → bytes[i]? ≠ some 10 ∧ ∀ p ∈ pats, ¬ At bytes i p) :
    ScanRes pats bytes (crAdjust bytes pos) := by
  have hlt : pos < bytes.length := (List.getElem?_eq_some_iff.1 hb).1
  unfold crAdjust
  split
  · rename_i h
    refine ⟨by omega, fun i hi => hclear i (by omega), .inr (.inl (.inr ⟨by omega, h.2, ?_⟩))⟩
    rw [show pos - 1 + 1 = pos by omega]; exact hb
  · exact ⟨by omega, hclear, .inr (.inl (.inl ⟨hlt, hb⟩))⟩

theorem not_at_of_head {bytes : Str} {i : Nat} {p : Str} (hp : p ≠ [])
    (h : ∀ b, bytes[i]? = some b → (b == p.headD 0) = false) : ¬ At bytes i p := by
  intro ha
  obtain ⟨c, t, rfl⟩ := List.exists_cons_of_ne_nil hp
  have := ha.getElem? 0 (by simp)
  simp at this
  simpa using h c this

theorem takeLineUntilLoop_res (pat bytes : Str) (hp : pat ≠ []) (hl : pat.length ≤ 2)
    (lo : Nat) (ps : List Nat) (hlo : lo ≤ bytes.length)
    (hpos : PosFrom (fun b => b == 10 || b == pat.headD 0) bytes lo ps)
    (hclear : ∀ i, i < lo → bytes[i]? ≠ some 10 ∧ ¬ At bytes i pat) :
    ScanRes [pat] bytes (takeLineUntilLoop pat bytes ps) := by
  have skip : ∀ i, (∀ b, bytes[i]? = some b → (b == 10 || b == pat.headD 0) = false) →
      bytes[i]? ≠ some 10 ∧ ¬ At bytes i pat := by
    intro i h
    refine ⟨fun hb => by simpa using h _ hb, not_at_of_head hp fun b hb => ?_⟩
    have := h b hb
    simp at this ⊢
    exact this.2
  induction hpos with
  | nil h =>
    rename_i lo
    refine ⟨Nat.le_refl _, fun i hi => ?_, .inl rfl⟩
    simp only [List.mem_singleton, forall_eq]
    rcases Nat.lt_or_ge i lo with h' | h'
    · exact hclear i h'
    · exact skip i fun b hb => h i b h' hb
  | cons h1 h2 h3 h4 h5 ih =>
    rename_i lo pos b ps
    have hlt : pos < bytes.length := (List.getElem?_eq_some_iff.1 h2).1
    have hcl : ∀ i, i < pos → bytes[i]? ≠ some 10 ∧ ¬ At bytes i pat := by
      intro i hi
      rcases Nat.lt_or_ge i lo with h' | h'
      · exact hclear i h'
      · exact skip i fun b hb => h4 i b h' hi hb
    unfold takeLineUntilLoop
    split
    · rename_i hb
      exact crAdjust_res hb (by simpa using hcl)
    · rename_i hb
      split
      · rename_i hov
        have hpl : pos + 1 = bytes.length := by omega
        refine ⟨Nat.le_refl _, fun i hi => ?_, .inl rfl⟩
        simp only [List.mem_singleton, forall_eq]
        rcases Nat.lt_or_ge i pos with h' | h'
        · exact hcl i h'
        · have : i = pos := by omega
          subst this
          refine ⟨hb, fun ha => ?_⟩
          have := ha.le hp
          omega
      · split
        · rename_i hm
          exact ⟨by omega, by simpa using hcl, .inr (.inr ⟨pat, by simp, (matchesAt_iff ..).1 hm⟩)⟩
        · rename_i hm
          refine ih (by omega) ?_
          intro i hi
          rcases Nat.lt_or_ge i pos with h' | h'
          · exact hcl i h'
          · have : i = pos := by omega
            subst this
            exact ⟨hb, fun ha => hm ((matchesAt_iff ..).2 ha)⟩

/-- A pattern usable with the line scanners: non-empty, at most two bytes,
beginning with an ASCII byte. -/
def PatOk (p : Str) : Prop := p ≠ [] ∧ p.length ≤ 2 ∧ ∃ c t, p = c :: t ∧ c < 128

theorem takeLineUntil_good {s : Span} (h : C.In k s) (pat : Str) (hp : PatOk pat) :
    C.Ok (takeLineUntil pat s) (fun s' o => Split C s s' o ∧ Clear C [pat] s s' ∧
      Exit C [pat] s s') := by
  unfold takeLineUntil
  refine ScanRes.split h (by simpa using hp.2.2) ?_
  exact takeLineUntilLoop_res pat _ hp.1 hp.2.1 0 _ (by omega) (memchrIter_pos _ _)
    (by intro i hi; omega)

theorem verify_nonempty {p : P Span} {s : Span} (h : C.In k s) {Q : Span → Prop}
    (hp : C.Ok (p s) (fun s' o => Split C s s' o ∧ Q s')) :
    C.Ok (verify p (fun o => !o.isEmpty) s) (fun s' o => Split C s s' o ∧ Q s' ∧
      s.start < s'.start) := by
  refine Ctx.Ok.verify (hp.mono ?_)
  rintro s' o ⟨h1, h2⟩ he
  refine ⟨h1, h2, ?_⟩
  have hin := h1.in h
  have : ¬ o.isEmpty = true := by simpa using he
  rw [hin.wf.isEmpty, h1.out] at this
  have := h1.good.step.le
  simp at *
  omega

theorem takeLineUntil1_good {s : Span} (h : C.In k s) (pat : Str) (hp : PatOk pat) :
    C.Ok (takeLineUntil1 pat s) (fun s' o => Split C s s' o ∧ (Clear C [pat] s s' ∧
      Exit C [pat] s s') ∧ s.start < s'.start) :=
  verify_nonempty h (Q := fun s' => Clear C [pat] s s' ∧ Exit C [pat] s s')
    (takeLineUntil_good h pat hp)

theorem takeLineUntil2Loop_res (p1 p2 bytes : Str) (hp1 : p1 ≠ []) (hp2 : p2 ≠ [])
    (lo : Nat) (ps : List Nat) (hlo : lo ≤ bytes.length)
    (hpos : PosFrom (fun b => b == 10 || b == p1.headD 0 || b == p2.headD 0) bytes lo ps)
    (hclear : ∀ i, i < lo → bytes[i]? ≠ some 10 ∧ ¬ At bytes i p1 ∧ ¬ At bytes i p2) :
    ScanRes [p1, p2] bytes (takeLineUntil2Loop p1 p2 bytes ps) := by
  have skip : ∀ i, (∀ b, bytes[i]? = some b →
        (b == 10 || b == p1.headD 0 || b == p2.headD 0) = false) →
      bytes[i]? ≠ some 10 ∧ ¬ At bytes i p1 ∧ ¬ At bytes i p2 := by
    intro i h
    refine ⟨fun hb => by simpa using h _ hb, not_at_of_head hp1 fun b hb => ?_,
      not_at_of_head hp2 fun b hb => ?_⟩
    · have := h b hb
      simp at this ⊢
      exact this.1.2
    · have := h b hb
      simp at this ⊢
      exact this.2
  induction hpos with
  | nil h =>
    rename_i lo
    refine ⟨Nat.le_refl _, fun i hi => ?_, .inl rfl⟩
    simp only [List.mem_cons, List.not_mem_nil, or_false, forall_eq_or_imp, forall_eq]
    rcases Nat.lt_or_ge i lo with h' | h'
    · exact hclear i h'
    · exact skip i fun b hb => h i b h' hb
  | cons h1 h2 h3 h4 h5 ih =>
    rename_i lo pos b ps
    have hlt : pos < bytes.length := (List.getElem?_eq_some_iff.1 h2).1
    have hcl : ∀ i, i < pos → bytes[i]? ≠ some 10 ∧ ¬ At bytes i p1 ∧ ¬ At bytes i p2 := by
      intro i hi
      rcases Nat.lt_or_ge i lo with h' | h'
      · exact hclear i h'
      · exact skip i fun b hb => h4 i b h' hi hb
    unfold takeLineUntil2Loop
    split
    · rename_i hb
      exact crAdjust_res hb (by simpa using hcl)
    · rename_i hb
      split
      · rename_i hm
        refine ⟨by omega, by simpa using hcl, .inr (.inr ?_)⟩
        simp only [Bool.or_eq_true, Bool.and_eq_true, matchesAt_iff] at hm
        rcases hm with hm | hm
        · exact ⟨p1, by simp, hm.2⟩
        · exact ⟨p2, by simp, hm.2⟩
      · rename_i hm
        refine ih (by omega) ?_
        intro i hi
        rcases Nat.lt_or_ge i pos with h' | h'
        · exact hcl i h'
        · have : i = pos := by omega
          subst this
          simp only [Bool.or_eq_true, Bool.and_eq_true, matchesAt_iff, decide_eq_true_eq,
            not_or, not_and] at hm
          exact ⟨hb, fun ha => hm.1 (ha.le hp1) ha, fun ha => hm.2 (ha.le hp2) ha⟩

theorem takeLineUntil2_good {s : Span} (h : C.In k s) (p1 p2 : Str) (h1 : PatOk p1)
    (h2 : PatOk p2) :
    C.Ok (takeLineUntil2 p1 p2 s) (fun s' o => Split C s s' o ∧ Clear C [p1, p2] s s' ∧
      Exit C [p1, p2] s s') := by
  unfold takeLineUntil2
  refine ScanRes.split h ?_ ?_
  · intro p hp
    simp at hp
    rcases hp with rfl | rfl
    · exact h1.2.2
    · exact h2.2.2
  · exact takeLineUntil2Loop_res p1 p2 _ h1.1 h2.1 0 _ (by omega) (memchrIter_pos _ _)
      (by intro i hi; omega)

theorem takeLineUntil21_good {s : Span} (h : C.In k s) (p1 p2 : Str) (h1 : PatOk p1)
    (h2 : PatOk p2) :
    C.Ok (takeLineUntil21 p1 p2 s) (fun s' o => Split C s s' o ∧ (Clear C [p1, p2] s s' ∧
      Exit C [p1, p2] s s') ∧ s.start < s'.start) :=
  verify_nonempty h (Q := fun s' => Clear C [p1, p2] s s' ∧ Exit C [p1, p2] s s')
    (takeLineUntil2_good h p1 p2 h1 h2)

theorem memchr_facts (f : Byte → Bool) (l : Str) :
    match memchr f l with
    | some i => (∃ b, l[i]? = some b ∧ f b = true) ∧ ∀ (j : Nat) b, j < i → l[j]? = some b → f b = false
    | none => ∀ (j : Nat) b, l[j]? = some b → f b = false := by
  unfold memchr
  cases h : l.findIdx? f with
  | none =>
    simp only
    intro j b hb
    rw [List.findIdx?_eq_none_iff] at h
    exact h b (List.mem_of_getElem? hb)
  | some i =>
    simp only
    rw [List.findIdx?_eq_some_iff_getElem] at h
    obtain ⟨hi, h1, h2⟩ := h
    refine ⟨⟨l[i], List.getElem?_eq_getElem _, h1⟩, ?_⟩
    intro j b hj hb
    obtain ⟨hj', rfl⟩ := List.getElem?_eq_some_iff.1 hb
    simpa using h2 j hj

theorem linePos_res (pats : List Str) (bytes : Str) (lp : Nat)
    (hlp : (memchr (· == 10) bytes).map (crAdjust bytes) = some lp)
    (hclear : ∀ i, i < lp → ∀ p ∈ pats, ¬ At bytes i p) : ScanRes pats bytes lp := by
  have := memchr_facts (· == 10) bytes
  cases hm : memchr (· == 10) bytes with
  | none => rw [hm] at hlp; simp at hlp
  | some pos =>
    rw [hm] at hlp this
    simp at hlp this
    obtain ⟨h1, h2⟩ := this
    have hlt : pos < bytes.length := (List.getElem?_eq_some_iff.1 h1).1
    subst hlp
    unfold crAdjust at hclear ⊢
    split
    · rename_i hc
      rw [if_pos hc] at hclear
      refine ⟨by omega, fun i hi => ⟨fun hb => ?_, hclear i hi⟩, .inr (.inl (.inr ⟨by omega, hc.2, ?_⟩))⟩
      · exact h2 i 10 (by omega) hb rfl
      · rw [show pos - 1 + 1 = pos by omega]; exact h1
    · rename_i hc
      rw [if_neg hc] at hclear
      refine ⟨by omega, fun i hi => ⟨fun hb => ?_, hclear i hi⟩, .inr (.inl (.inl ⟨hlt, h1⟩))⟩
      exact h2 i 10 (by omega) hb rfl

theorem takeLineUntil3Loop_res (p1 p2 p3 bytes : Str) (hp1 : p1 ≠ []) (hp2 : p2 ≠ [])
    (hp3 : p3 ≠ []) (linePos : Option Nat)
    (hlp : (memchr (· == 10) bytes).map (crAdjust bytes) = linePos)
    (lo : Nat) (ps : List Nat) (hlo : lo ≤ bytes.length)
    (hpos : PosFrom (fun b => b == p1.headD 0 || b == p2.headD 0 || b == p3.headD 0) bytes lo ps)
    (hlo2 : ∀ lp, linePos = some lp → lo ≤ lp)
    (hclear : ∀ i, i < lo → ¬ At bytes i p1 ∧ ¬ At bytes i p2 ∧ ¬ At bytes i p3) :
    ScanRes [p1, p2, p3] bytes (takeLineUntil3Loop p1 p2 p3 bytes linePos ps) := by
  have skip : ∀ i, (∀ b, bytes[i]? = some b →
        (b == p1.headD 0 || b == p2.headD 0 || b == p3.headD 0) = false) →
      ¬ At bytes i p1 ∧ ¬ At bytes i p2 ∧ ¬ At bytes i p3 := by
    intro i h
    refine ⟨not_at_of_head hp1 fun b hb => ?_, not_at_of_head hp2 fun b hb => ?_,
      not_at_of_head hp3 fun b hb => ?_⟩ <;>
    · have := h b hb
      simp at this ⊢
      omega
  have nonl : linePos = none → ∀ i : Nat, bytes[i]? ≠ some 10 := by
    intro hn i hb
    rw [hn] at hlp
    have := memchr_facts (· == 10) bytes
    cases hm : memchr (· == 10) bytes with
    | none => rw [hm] at this; simpa using this i 10 hb
    | some pos => rw [hm] at hlp; simp at hlp
  have lineNl : ∀ lp, linePos = some lp → ∀ i, i < lp → bytes[i]? ≠ some 10 := by
    intro lp h i hi
    exact ((linePos_res [] bytes lp (by rw [hlp, h]) (by simp)).clear i hi).1
  have nl : ∀ i, (∀ lp, linePos = some lp → i < lp) → bytes[i]? ≠ some 10 := by
    intro i h
    cases hl : linePos with
    | none => exact nonl hl i
    | some lp => exact lineNl lp hl i (h lp hl)
  induction hpos with
  | nil h =>
    rename_i lo
    have hcl : ∀ i, ¬ At bytes i p1 ∧ ¬ At bytes i p2 ∧ ¬ At bytes i p3 := by
      intro i
      rcases Nat.lt_or_ge i lo with h' | h'
      · exact hclear i h'
      · exact skip i fun b hb => h i b h' hb
    unfold takeLineUntil3Loop
    cases linePos with
    | none =>
      refine ⟨Nat.le_refl _, fun i hi => ⟨nonl rfl i, ?_⟩, .inl rfl⟩
      simpa using hcl i
    | some lp =>
      refine linePos_res _ bytes lp hlp ?_
      intro i _
      simpa using hcl i
  | cons h1 h2 h3 h4 h5 ih =>
    rename_i lo pos b ps
    have hlt : pos < bytes.length := (List.getElem?_eq_some_iff.1 h2).1
    have hcl : ∀ i, i < pos → ¬ At bytes i p1 ∧ ¬ At bytes i p2 ∧ ¬ At bytes i p3 := by
      intro i hi
      rcases Nat.lt_or_ge i lo with h' | h'
      · exact hclear i h'
      · exact skip i fun b hb => h4 i b h' hi hb
    have main : (∀ lp, linePos = some lp → pos < lp) →
        ScanRes [p1, p2, p3] bytes
          (if (pos + p1.length ≤ bytes.length && matchesAt bytes pos p1)
            || (pos + p2.length ≤ bytes.length && matchesAt bytes pos p2)
            || (pos + p3.length ≤ bytes.length && matchesAt bytes pos p3) then pos
          else takeLineUntil3Loop p1 p2 p3 bytes linePos ps) := by
      intro hlpos
      split
      · rename_i hm
        refine ⟨by omega, fun i hi => ⟨nl i fun lp hl => ?_, by simpa using hcl i hi⟩,
          .inr (.inr ?_)⟩
        · have := hlpos lp hl; omega
        · simp only [Bool.or_eq_true, Bool.and_eq_true, matchesAt_iff] at hm
          rcases hm with (hm | hm) | hm
          · exact ⟨p1, by simp, hm.2⟩
          · exact ⟨p2, by simp, hm.2⟩
          · exact ⟨p3, by simp, hm.2⟩
      · rename_i hm
        refine ih (by omega) (fun lp hl => hlpos lp hl) ?_
        intro i hi
        rcases Nat.lt_or_ge i pos with h' | h'
        · exact hcl i h'
        · have : i = pos := by omega
          subst this
          simp only [Bool.or_eq_true, Bool.and_eq_true, matchesAt_iff, decide_eq_true_eq,
            not_or, not_and] at hm
          exact ⟨fun ha => hm.1.1 (ha.le hp1) ha, fun ha => hm.1.2 (ha.le hp2) ha,
            fun ha => hm.2 (ha.le hp3) ha⟩
    unfold takeLineUntil3Loop
    cases linePos with
    | none => exact main (by simp)
    | some lp =>
      simp only
      split
      · rename_i hle
        refine linePos_res _ bytes lp hlp ?_
        intro i hi
        simpa using hcl i (by omega)
      · rename_i hle
        exact main (by intro lp' h'; cases h'; omega)

theorem takeLineUntil3_good {s : Span} (h : C.In k s) (p1 p2 p3 : Str) (h1 : PatOk p1)
    (h2 : PatOk p2) (h3 : PatOk p3) :
    C.Ok (takeLineUntil3 p1 p2 p3 s) (fun s' o => Split C s s' o ∧ Clear C [p1, p2, p3] s s' ∧
      Exit C [p1, p2, p3] s s') := by
  unfold takeLineUntil3
  refine ScanRes.split h ?_ ?_
  · intro p hp
    simp at hp
    rcases hp with rfl | rfl | rfl
    · exact h1.2.2
    · exact h2.2.2
    · exact h3.2.2
  · exact takeLineUntil3Loop_res p1 p2 p3 _ h1.1 h2.1 h3.1 _ rfl 0 _ (by omega)
      (memchrIter_pos _ _) (by intro lp _; omega) (by intro i hi; omega)

theorem takeLineUntil31_good {s : Span} (h : C.In k s) (p1 p2 p3 : Str) (h1 : PatOk p1)
    (h2 : PatOk p2) (h3 : PatOk p3) :
    C.Ok (takeLineUntil31 p1 p2 p3 s) (fun s' o => Split C s s' o ∧ (Clear C [p1, p2, p3] s s' ∧
      Exit C [p1, p2, p3] s s') ∧ s.start < s'.start) :=
  verify_nonempty h (Q := fun s' => Clear C [p1, p2, p3] s s' ∧ Exit C [p1, p2, p3] s s')
    (takeLineUntil3_good h p1 p2 p3 h1 h2 h3)

theorem rest_eq {s : Span} (h : C.Wf k s) : rest s = .ok { s with start := s.stop } s := by
  have hle := h.le
  unfold rest Span.sliceFrom Span.advanceStartBy
  rw [h.remLen]
  congr 2
  rw [if_neg (by omega)]; omega

theorem takeUntilEol_good {s : Span} (h : C.In k s) :
    C.Ok (takeUntilEol s) (fun s' o => Split C s s' o ∧ Clear C [] s s' ∧ Exit C [] s s') := by
  unfold takeUntilEol
  simp only
  have := memchr_facts (· == 10) s.asRemaining
  cases hm : memchr (· == 10) s.asRemaining with
  | none =>
    rw [hm] at this
    simp only at this ⊢
    rw [rest_eq h.wf]
    have hle := h.wf.le
    refine ⟨⟨⟨⟨rfl, rfl, rfl, hle, Nat.le_refl _⟩, h.be⟩, rfl⟩, ?_, .inl rfl⟩
    intro i hi1 hi2
    refine ⟨fun hb => ?_, by simp⟩
    simp at hi2
    have := this (i - s.start) 10 (by
      rw [h.wf.rem_some, show s.start + (i - s.start) = i by omega]; exact ⟨by omega, hb⟩)
    simp at this
  | some pos =>
    rw [hm] at this
    simp only at this ⊢
    refine ScanRes.split h (by simp) ?_
    obtain ⟨⟨b, hb, hb'⟩, h2⟩ := this
    have : b = 10 := by simpa using hb'
    subst this
    refine crAdjust_res hb fun i hi => ⟨fun hb => ?_, by simp⟩
    have := h2 i 10 hi hb
    simp at this

/-- `take_until_end_of_line_or_input` always succeeds. -/
theorem takeUntilEol_total (s : Span) : ∃ s' o, takeUntilEol s = .ok s' o := by
  unfold takeUntilEol
  simp only
  cases memchr (· == 10) s.asRemaining with
  | none => exact ⟨_, _, rfl⟩
  | some p => exact ⟨_, _, rfl⟩

theorem restOfLine_good {s : Span} (h : C.In k s) :
    C.Ok (restOfLine s) (fun s' o => C.Good s s' ∧ o.start = s.start ∧
      Sub s o ∧ C.B o.stop ∧
      (∀ i, s.start ≤ i → i < o.stop → C.inner[i]? ≠ some 10) ∧
      ((s'.start = s.stop ∧ o.stop = s.stop) ∨
        (s.start < s'.start ∧ LineEndAt C.inner s.stop o.stop ∧ C.inner[s'.start - 1]? = some 10))) := by
  unfold restOfLine
  refine Ctx.Ok.bind' (takeUntilEol_good h) ?_
  rintro s1 o ⟨hsp, hc, he⟩
  have hin := h.good hsp.good
  refine Ctx.Ok.bind' (endOfLineOrInput_good hin) ?_
  rintro s2 _ ⟨hg, hor⟩
  refine Ctx.Ok.pure ⟨hsp.good.trans hg, by rw [hsp.out], hsp.sub, ?_, ?_, ?_⟩
  · rw [hsp.out]; exact hsp.good.b
  · intro i h1 h2
    rw [hsp.out] at h2
    exact (hc i h1 h2).1
  · have hle := hsp.good.step.le
    have hst := hsp.good.step.stop
    rw [hsp.out]
    rcases hor with ⟨h1, rfl⟩ | ⟨h1, h2, h3⟩
    · left; exact ⟨by omega, by simp; omega⟩
    · right
      rw [hst] at h2
      exact ⟨by omega, h2, h3⟩

theorem beginningOfLine_good {s : Span} (h : C.In k s) :
    C.Ok (beginningOfLine s) (fun s' _ => s' = s ∧ Bol C s.start) := by
  unfold beginningOfLine
  split
  · rename_i hb
    refine ⟨rfl, ?_⟩
    rcases hb with hb | hb
    · exact .inl hb
    · right
      have hle := h.wf.le
      have hhi := h.wf.hi
      unfold Span.asConsumed at hb
      rw [List.getLast?_eq_getElem?, h.wf.inner] at hb
      simp only [List.length_take, List.getElem?_take] at hb
      rw [Nat.min_eq_left (by omega)] at hb
      split at hb
      · exact hb
      · cases hb
  · simp [Ctx.Ok]

theorem beginningOfLine_err {s : Span} (h : C.Wf k s) (he : beginningOfLine s = .err) :
    ¬ Bol C s.start := by
  unfold beginningOfLine at he
  split at he
  · cases he
  · rename_i hb
    rintro (h0 | h0)
    · exact hb (.inl h0)
    · by_cases hz : s.start = 0
      · exact hb (.inl hz)
      · apply hb
        right
        have hle := h.le
        have hhi := h.hi
        unfold Span.asConsumed
        rw [List.getLast?_eq_getElem?, h.inner]
        simp only [List.length_take, List.getElem?_take]
        rw [Nat.min_eq_left (by omega), if_pos (by omega)]
        exact h0

theorem anyLine_good {s : Span} (h : C.In k s) :
    C.Ok (anyLine s) (fun s' o => C.Good s s' ∧ o.start = s.start ∧
      Sub s o ∧ C.B o.stop ∧
      (∀ i, s.start ≤ i → i < o.stop → C.inner[i]? ≠ some 10) ∧
      ((s'.start = s.stop ∧ o.stop = s.stop) ∨
        (s.start < s'.start ∧ LineEndAt C.inner s.stop o.stop ∧ C.inner[s'.start - 1]? = some 10))) := by
  unfold anyLine
  refine Ctx.Ok.bind' (beginningOfLine_good h) ?_
  rintro s' _ ⟨rfl, _⟩
  exact restOfLine_good h

/-- All bytes in `[a, b)` are blanks. -/
def Blanks (C : Ctx) (a b : Nat) : Prop :=
  ∀ i x, a ≤ i → i < b → C.inner[i]? = some x → isSpace x = true

theorem blankLine_good {s : Span} (h : C.In k s) :
    C.Ok (blankLine s) (fun s' _ => C.Good s s' ∧ s.start < s'.start ∧ Bol C s.start ∧
      (s'.start = s.stop ∨ C.inner[s'.start - 1]? = some 10)) := by
  unfold blankLine
  refine Ctx.Ok.preceded ((beginningOfLine_good h).mono ?_)
  rintro s' _ ⟨rfl, hbol⟩
  refine Ctx.Ok.alt ?_ fun _ => ?_
  · refine Ctx.Ok.terminated ((space1_good h).mono ?_)
    rintro s1 o ⟨hsp, _, hlt⟩
    refine (endOfLineOrInput_good (h.good hsp.good)).mono ?_
    rintro s2 _ ⟨hg, hor⟩
    have := hg.step.le
    refine ⟨hsp.good.trans hg, by omega, hbol, ?_⟩
    have hst := hsp.good.step.stop
    rcases hor with ⟨h1, rfl⟩ | ⟨_, _, h3⟩
    · left; omega
    · right; exact h3
  · refine Ctx.Ok.terminated ((space0_good h).mono ?_)
    rintro s1 o ⟨hsp, _⟩
    refine (lineEnding_good (h.good hsp.good)).mono ?_
    rintro s2 _ ⟨hg, hlt, _, h3⟩
    have := hsp.good.step.le
    exact ⟨hsp.good.trans hg, by omega, hbol, .inr h3⟩

end Vw
