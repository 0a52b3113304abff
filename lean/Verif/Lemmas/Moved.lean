import Verif.Spec.Moved
import Verif.Lemmas.Core

/-!
# Parsing the same text further on

`M.Par R p q`: on an input and the same input behind more text, which is empty or ends with a newline, `p` and
`q` do the same and yield values related by `R`.
-/

namespace Vw
open P Scan

/-- The span with `pre` in front of the text. -/
def Span.later (pre : Str) (s : Span) : Span :=
  ⟨pre ++ s.inner, pre.length + s.start, pre.length + s.stop, s.depth⟩

/-- A text and what is put in front of it. -/
structure Mv where
  pre : Str
  text : Str
  bol : pre = [] ∨ pre.getLast? = some 10
  ne : text ≠ []

namespace Mv

variable {M : Mv} {α β γ : Type}

/-- The distance. -/
abbrev k (M : Mv) : Nat := M.pre.length

/-- The same place in both texts. -/
def Rel (M : Mv) (s t : Span) : Prop := s.inner = M.text ∧ t = s.later M.pre

/-- Outcomes that agree. -/
inductive Two (M : Mv) (R : α → α → Prop) : Res α → Res α → Prop
  | ok {s t : Span} {a b : α} : M.Rel s t → R a b → Two M R (.ok s a) (.ok t b)
  | err : Two M R .err .err
  | panic {r : Reason} : Two M R (.panic r) (.panic r)
  | diverge : Two M R .diverge .diverge

/-- Parsers that agree. -/
def Par (M : Mv) (R : α → α → Prop) (p q : P α) : Prop := ∀ s t, M.Rel s t → M.Two R (p s) (q t)

/-- Lists with related members. -/
inductive All (R : α → α → Prop) : List α → List α → Prop
  | nil : All R [] []
  | cons {a b : α} {as bs : List α} : R a b → All R as bs → All R (a :: as) (b :: bs)

/-- Optional values that are related. -/
inductive Opt (R : α → α → Prop) : Option α → Option α → Prop
  | none : Opt R none none
  | some {a b : α} : R a b → Opt R (some a) (some b)

/-- Pairs with related parts. -/
def Both (R : α → α → Prop) (S : β → β → Prop) (x y : α × β) : Prop := R x.1 y.1 ∧ S x.2 y.2

/-- Located values at the same place. -/
def Loc (M : Mv) (R : α → α → Prop) (x y : Located α) : Prop := R x.inner y.inner ∧ y.region = x.region.moved M.k

theorem All.eq {xs ys : List α} (h : All Eq xs ys) : xs = ys := by
  induction h with
  | nil => rfl
  | cons h _ ih => rw [h, ih]

theorem All.append {R : α → α → Prop} {xs ys xs' ys' : List α} (h : All R xs ys) (h' : All R xs' ys') :
    All R (xs ++ xs') (ys ++ ys') := by
  induction h with
  | nil => exact h'
  | cons h _ ih => exact .cons h ih

theorem All.graph {g : α → α} {xs ys : List α} (h : All (fun x y => y = g x) xs ys) : ys = xs.map g := by
  induction h with
  | nil => rfl
  | cons h _ ih => rw [List.map_cons, ← ih, h]

theorem All.mono {R S : α → α → Prop} {xs ys : List α} (h : All R xs ys) (hR : ∀ a b, R a b → S a b) : All S xs ys := by
  induction h with
  | nil => exact .nil
  | cons h _ ih => exact .cons (hR _ _ h) ih

theorem All.map {R : α → α → Prop} {S : β → β → Prop} {f g : α → β} {xs ys : List α} (h : All R xs ys)
    (hR : ∀ a b, R a b → S (f a) (g b)) : All S (xs.map f) (ys.map g) := by
  induction h with
  | nil => exact .nil
  | cons h _ ih => exact .cons (hR _ _ h) ih

theorem Opt.eq {x y : Option α} (h : Opt Eq x y) : x = y := by
  cases h with
  | none => rfl
  | some h => rw [h]

theorem Both.eq {x y : α × β} (h : Both Eq Eq x y) : x = y := Prod.ext h.1 h.2

/-! ## Spans -/

theorem later_remaining (pre : Str) (s : Span) : (s.later pre).asRemaining = s.asRemaining := by
  simp only [Span.asRemaining, Span.later]
  rw [List.take_length_add_append, List.drop_length_add_append]

theorem later_consumed (pre : Str) (s : Span) : (s.later pre).asConsumed = pre ++ s.asConsumed := by
  simp only [Span.asConsumed, Span.later]
  rw [List.take_length_add_append]

theorem later_len (pre : Str) (s : Span) : (s.later pre).remainingLen = s.remainingLen := by
  rw [remainingLen_eq, remainingLen_eq]
  simp only [Span.later]
  omega

theorem later_isEmpty (pre : Str) (s : Span) : (s.later pre).isEmpty = s.isEmpty := by
  simp only [Span.isEmpty, later_len]

theorem later_advance (pre : Str) (s : Span) (n : Nat) : (s.later pre).advanceStartBy n = (s.advanceStartBy n).later pre := by
  have h1 : (s.later pre).start = pre.length + s.start := rfl
  have h2 : (s.later pre).stop = pre.length + s.stop := rfl
  unfold Span.advanceStartBy
  by_cases h : s.start + n > s.stop
  · rw [if_pos h, if_pos (by omega)]; rfl
  · rw [if_neg h, if_neg (by omega)]
    simp only [Span.later, Span.mk.injEq, true_and, and_true]
    omega

theorem later_advanceEnd (pre : Str) (s : Span) (n : Nat) : (s.later pre).advanceEndBy n = (s.advanceEndBy n).later pre := by
  simp only [Span.advanceEndBy, Span.later, Span.mk.injEq, true_and, and_true]
  omega

theorem later_sliceFrom (pre : Str) (s : Span) (n : Nat) : (s.later pre).sliceFrom n = (s.sliceFrom n).later pre :=
  later_advance pre s n

theorem later_sliceTo (pre : Str) (s : Span) (n : Nat) : (s.later pre).sliceTo n = (s.sliceTo n).later pre :=
  later_advanceEnd pre s n

theorem later_withLength (pre : Str) (s : Span) (n : Nat) : (s.later pre).withLength n = (s.withLength n).later pre := by
  simp only [Span.withLength, later_len]
  split
  · simp only [Span.later, Span.mk.injEq, true_and, and_true]
    omega
  · rfl

theorem later_trimStart (pre : Str) (s : Span) : (s.later pre).trimStart = s.trimStart.later pre := by
  simp only [Span.trimStart, later_remaining, later_advance]

theorem later_onlyWs (pre : Str) (s : Span) : (s.later pre).isOnlyWhitespace = s.isOnlyWhitespace := by
  simp only [Span.isOnlyWhitespace, later_len, later_remaining]

theorem later_inj {pre : Str} {s s' : Span} : s.later pre = s'.later pre ↔ s = s' := by
  constructor
  · intro h
    cases s; cases s'
    simp only [Span.later, Span.mk.injEq, List.append_cancel_left_eq] at h ⊢
    exact ⟨h.1, by omega, by omega, h.2.2.2⟩
  · rintro rfl; rfl

theorem later_start_lt {pre : Str} {s s' : Span} : (s'.later pre).start < (s.later pre).start ↔ s'.start < s.start := by
  simp only [Span.later]; omega

theorem later_start_sub {pre : Str} {s s' : Span} : (s'.later pre).start - (s.later pre).start = s'.start - s.start := by
  simp only [Span.later]; omega

theorem Rel.remaining {s t : Span} (h : M.Rel s t) : t.asRemaining = s.asRemaining := by
  rw [h.2, later_remaining]

theorem Rel.len {s t : Span} (h : M.Rel s t) : t.remainingLen = s.remainingLen := by
  rw [h.2, later_len]

theorem Rel.isEmpty {s t : Span} (h : M.Rel s t) : t.isEmpty = s.isEmpty := by
  rw [h.2, later_isEmpty]

theorem Rel.onlyWs {s t : Span} (h : M.Rel s t) : t.isOnlyWhitespace = s.isOnlyWhitespace := by
  rw [h.2, later_onlyWs]

theorem Rel.advance {s t : Span} (h : M.Rel s t) (n : Nat) : M.Rel (s.advanceStartBy n) (t.advanceStartBy n) :=
  ⟨h.1, by rw [h.2, later_advance]⟩

theorem Rel.sliceFrom {s t : Span} (h : M.Rel s t) (n : Nat) : M.Rel (s.sliceFrom n) (t.sliceFrom n) :=
  h.advance n

theorem Rel.sliceTo {s t : Span} (h : M.Rel s t) (n : Nat) : M.Rel (s.sliceTo n) (t.sliceTo n) :=
  ⟨h.1, by rw [h.2, later_sliceTo]⟩

theorem Rel.withLength {s t : Span} (h : M.Rel s t) (n : Nat) : M.Rel (s.withLength n) (t.withLength n) :=
  ⟨by rw [← h.1]; unfold Span.withLength; split <;> rfl, by rw [h.2, later_withLength]⟩

theorem Rel.withDepth {s t : Span} (h : M.Rel s t) (n : Nat) : M.Rel (s.withDepth n) (t.withDepth n) :=
  ⟨h.1, by rw [h.2]; rfl⟩

theorem Rel.depth {s t : Span} (h : M.Rel s t) : t.depth = s.depth := by rw [h.2]; rfl

theorem Rel.shallower {s t : Span} (h : M.Rel s t) : M.Rel s.withShallowerDepth t.withShallowerDepth := by
  unfold Span.withShallowerDepth
  rw [h.depth]
  exact h.withDepth _

theorem Rel.trimStart {s t : Span} (h : M.Rel s t) : M.Rel s.trimStart t.trimStart :=
  ⟨h.1, by rw [h.2, later_trimStart]⟩

theorem Rel.region {s t : Span} (h : M.Rel s t) : Region.ofSpan t = (Region.ofSpan s).moved M.k := by
  simp only [Region.ofSpan, Region.moved, h.len, h.depth]
  rw [h.2]
  rfl

theorem Rel.lt {s t s' t' : Span} (h : M.Rel s t) (h' : M.Rel s' t') : t'.start < t.start ↔ s'.start < s.start := by
  rw [h.2, h'.2]; exact later_start_lt

theorem Rel.diff {s t s' t' : Span} (h : M.Rel s t) (h' : M.Rel s' t') : t'.start - t.start = s'.start - s.start := by
  rw [h.2, h'.2]; exact later_start_sub

theorem Rel.eq_iff {s t s' t' : Span} (h : M.Rel s t) (h' : M.Rel s' t') : t' = t ↔ s' = s := by
  rw [h.2, h'.2]; exact later_inj

/-! ## Combinators -/

theorem Two.mono {R S : α → α → Prop} {x y : Res α} (h : M.Two R x y) (hR : ∀ a b, R a b → S a b) : M.Two S x y := by
  cases h with
  | ok h1 h2 => exact .ok h1 (hR _ _ h2)
  | err => exact .err
  | panic => exact .panic
  | diverge => exact .diverge

namespace Par

theorem mono {R S : α → α → Prop} {p q : P α} (h : M.Par R p q) (hR : ∀ a b, R a b → S a b) : M.Par S p q :=
  fun s t hs => (h s t hs).mono hR

theorem pure {R : α → α → Prop} {a b : α} (h : R a b) : M.Par R (P.pure a) (P.pure b) :=
  fun _ _ hs => .ok hs h

theorem fail {R : α → α → Prop} : M.Par R P.fail P.fail := fun _ _ _ => .err

theorem bind {R : α → α → Prop} {S : β → β → Prop} {p q : P α} {f g : α → P β} (hp : M.Par R p q)
    (hf : ∀ a b, R a b → M.Par S (f a) (g b)) : M.Par S (P.bind p f) (P.bind q g) := by
  intro s t hs
  have h := hp s t hs
  unfold P.bind
  revert h
  generalize p s = x
  generalize q t = y
  intro h
  cases h with
  | ok h1 h2 => exact hf _ _ h2 _ _ h1
  | err => exact .err
  | panic => exact .panic
  | diverge => exact .diverge

/-- The first value is the same. -/
theorem bindE {S : β → β → Prop} {p q : P α} {f g : α → P β} (hp : M.Par Eq p q)
    (hf : ∀ a, M.Par S (f a) (g a)) : M.Par S (P.bind p f) (P.bind q g) :=
  bind hp fun a b e => by subst e; exact hf a

/-- The first value is not used. -/
theorem bind_ {R : α → α → Prop} {S : β → β → Prop} {p q : P α} {f g : P β} (hp : M.Par R p q)
    (hf : M.Par S f g) : M.Par S (P.bind p fun _ => f) (P.bind q fun _ => g) :=
  bind hp fun _ _ _ => hf

theorem map {R : α → α → Prop} {S : β → β → Prop} {p q : P α} {f g : α → β} (hp : M.Par R p q)
    (hf : ∀ a b, R a b → S (f a) (g b)) : M.Par S (P.map p f) (P.map q g) := by
  intro s t hs
  have h := hp s t hs
  unfold P.map
  revert h
  generalize p s = x
  generalize q t = y
  intro h
  cases h with
  | ok h1 h2 => exact .ok h1 (hf _ _ h2)
  | err => exact .err
  | panic => exact .panic
  | diverge => exact .diverge

theorem mapE {S : β → β → Prop} {p q : P α} {f g : α → β} (hp : M.Par Eq p q)
    (hf : ∀ a, S (f a) (g a)) : M.Par S (P.map p f) (P.map q g) :=
  map hp fun a b e => by subst e; exact hf a

theorem value {R : α → α → Prop} {S : β → β → Prop} {p q : P α} {a b : β} (hp : M.Par R p q)
    (h : S a b) : M.Par S (P.value a p) (P.value b q) := map hp fun _ _ _ => h

theorem alt {R : α → α → Prop} {p q p' q' : P α} (hp : M.Par R p q) (hq : M.Par R p' q') :
    M.Par R (P.alt p p') (P.alt q q') := by
  intro s t hs
  have h := hp s t hs
  unfold P.alt
  revert h
  generalize p s = x
  generalize q t = y
  intro h
  cases h with
  | ok h1 h2 => exact .ok h1 h2
  | err => exact hq s t hs
  | panic => exact .panic
  | diverge => exact .diverge

theorem alts_nil {R : α → α → Prop} : M.Par R (P.alts []) (P.alts []) := fail

theorem alts_cons {R : α → α → Prop} {p q : P α} {ps qs : List (P α)} (hp : M.Par R p q) (hl : ps.length = qs.length)
    (hq : M.Par R (P.alts ps) (P.alts qs)) : M.Par R (P.alts (p :: ps)) (P.alts (q :: qs)) := by
  cases ps with
  | nil => cases qs with
    | nil => exact hp
    | cons => cases hl
  | cons => cases qs with
    | nil => cases hl
    | cons => exact alt hp hq

theorem not {R : α → α → Prop} {p q : P α} (hp : M.Par R p q) : M.Par Eq (P.not p) (P.not q) := by
  intro s t hs
  have h := hp s t hs
  unfold P.not
  revert h
  generalize p s = x
  generalize q t = y
  intro h
  cases h with
  | ok h1 h2 => exact .err
  | err => exact .ok hs rfl
  | panic => exact .panic
  | diverge => exact .diverge

theorem peek {R : α → α → Prop} {p q : P α} (hp : M.Par R p q) : M.Par R (P.peek p) (P.peek q) := by
  intro s t hs
  have h := hp s t hs
  unfold P.peek
  revert h
  generalize p s = x
  generalize q t = y
  intro h
  cases h with
  | ok h1 h2 => exact .ok hs h2
  | err => exact .err
  | panic => exact .panic
  | diverge => exact .diverge

theorem opt {R : α → α → Prop} {p q : P α} (hp : M.Par R p q) : M.Par (Opt R) (P.opt p) (P.opt q) := by
  intro s t hs
  have h := hp s t hs
  unfold P.opt
  revert h
  generalize p s = x
  generalize q t = y
  intro h
  cases h with
  | ok h1 h2 => exact .ok h1 (.some h2)
  | err => exact .ok hs .none
  | panic => exact .panic
  | diverge => exact .diverge

theorem optE {p q : P α} (hp : M.Par Eq p q) : M.Par Eq (P.opt p) (P.opt q) :=
  (opt hp).mono fun _ _ => Opt.eq

theorem verify {R : α → α → Prop} {p q : P α} {f g : α → Bool} (hp : M.Par R p q)
    (hf : ∀ a b, R a b → f a = g b) : M.Par R (P.verify p f) (P.verify q g) := by
  intro s t hs
  have h := hp s t hs
  unfold P.verify
  revert h
  generalize p s = x
  generalize q t = y
  intro h
  cases h with
  | ok h1 h2 =>
    simp only [hf _ _ h2]
    split
    · exact .ok h1 h2
    · exact .err
  | err => exact .err
  | panic => exact .panic
  | diverge => exact .diverge

theorem mapOpt {R : α → α → Prop} {S : β → β → Prop} {p q : P α} {f g : α → Option β} (hp : M.Par R p q)
    (hf : ∀ a b, R a b → Opt S (f a) (g b)) : M.Par S (P.mapOpt p f) (P.mapOpt q g) := by
  intro s t hs
  have h := hp s t hs
  unfold P.mapOpt
  revert h
  generalize p s = x
  generalize q t = y
  intro h
  cases h with
  | @ok _ _ a b h1 h2 =>
    have := hf _ _ h2
    revert this
    dsimp only
    generalize f a = x
    generalize g b = y
    intro h
    cases h with
    | none => exact .err
    | some h => exact .ok h1 h
  | err => exact .err
  | panic => exact .panic
  | diverge => exact .diverge

theorem mapOptE {R : α → α → Prop} {p q : P α} {f g : α → Option β} (hp : M.Par R p q)
    (hf : ∀ a b, R a b → f a = g b) : M.Par Eq (P.mapOpt p f) (P.mapOpt q g) :=
  mapOpt hp fun a b h => by
    rw [hf a b h]
    cases g b with
    | none => exact .none
    | some => exact .some rfl

theorem mapParser {S : β → β → Prop} {p q : P Span} {p' q' : P β} (hp : M.Par M.Rel p q)
    (hq : M.Par S p' q') : M.Par S (P.mapParser p p') (P.mapParser q q') := by
  intro s t hs
  have h := hp s t hs
  unfold P.mapParser
  revert h
  generalize p s = x
  generalize q t = y
  intro h
  cases h with
  | @ok _ _ a b h1 h2 =>
    have := hq _ _ h2
    revert this
    dsimp only
    generalize p' a = x
    generalize q' b = y
    intro h
    cases h with
    | ok _ h => exact .ok h1 h
    | err => exact .err
    | panic => exact .panic
    | diverge => exact .diverge
  | err => exact .err
  | panic => exact .panic
  | diverge => exact .diverge

theorem preceded {R : α → α → Prop} {S : β → β → Prop} {p q : P α} {p' q' : P β} (hp : M.Par R p q)
    (hq : M.Par S p' q') : M.Par S (P.preceded p p') (P.preceded q q') := bind_ hp hq

theorem terminated {R : α → α → Prop} {S : β → β → Prop} {p q : P α} {p' q' : P β} (hp : M.Par R p q)
    (hq : M.Par S p' q') : M.Par R (P.terminated p p') (P.terminated q q') :=
  bind hp fun _ _ h => bind_ hq (pure h)

theorem delimited {R : α → α → Prop} {S : β → β → Prop} {T : γ → γ → Prop} {p q : P α} {p' q' : P β} {p'' q'' : P γ}
    (hp : M.Par R p q) (hq : M.Par S p' q') (hr : M.Par T p'' q'') :
    M.Par S (P.delimited p p' p'') (P.delimited q q' q'') :=
  bind_ hp (bind hq fun _ _ h => bind_ hr (pure h))

theorem pair {R : α → α → Prop} {S : β → β → Prop} {p q : P α} {p' q' : P β} (hp : M.Par R p q)
    (hq : M.Par S p' q') : M.Par (Both R S) (P.pair p p') (P.pair q q') :=
  bind hp fun _ _ h => bind hq fun _ _ h' => pure ⟨h, h'⟩

theorem pairE {p q : P α} {p' q' : P β} (hp : M.Par Eq p q)
    (hq : M.Par Eq p' q') : M.Par Eq (P.pair p p') (P.pair q q') :=
  (pair hp hq).mono fun _ _ => Both.eq

theorem separatedPair {R : α → α → Prop} {S : β → β → Prop} {T : γ → γ → Prop} {p q : P α} {p' q' : P β} {p'' q'' : P γ}
    (hp : M.Par R p q) (hq : M.Par S p' q') (hr : M.Par T p'' q'') :
    M.Par (Both R T) (P.separatedPair p p' p'') (P.separatedPair q q' q'') :=
  bind hp fun _ _ h => bind_ hq (bind hr fun _ _ h' => pure ⟨h, h'⟩)

theorem recognize {R : α → α → Prop} {p q : P α} (hp : M.Par R p q) : M.Par M.Rel (P.recognize p) (P.recognize q) := by
  intro s t hs
  have h := hp s t hs
  unfold P.recognize
  revert h
  generalize p s = x
  generalize q t = y
  intro h
  cases h with
  | ok h1 h2 =>
    simp only [hs.lt h1, hs.diff h1]
    split
    · exact .panic
    · exact .ok h1 (hs.sliceTo _)
  | err => exact .err
  | panic => exact .panic
  | diverge => exact .diverge

theorem allConsuming {R : α → α → Prop} {p q : P α} (hp : M.Par R p q) :
    M.Par R (P.allConsuming p) (P.allConsuming q) := by
  intro s t hs
  have h := hp s t hs
  unfold P.allConsuming
  revert h
  generalize p s = x
  generalize q t = y
  intro h
  cases h with
  | ok h1 h2 =>
    simp only [h1.len]
    split
    · exact .ok h1 h2
    · exact .err
  | err => exact .err
  | panic => exact .panic
  | diverge => exact .diverge

theorem many0Loop {R : α → α → Prop} {p q : P α} (hp : M.Par R p q) (n : Nat) :
    M.Par (All R) (P.many0Loop p n) (P.many0Loop q n) := by
  induction n with
  | zero => exact fun _ _ _ => .diverge
  | succ n ih =>
    intro s t hs
    have h := hp s t hs
    unfold P.many0Loop
    revert h
    generalize p s = x
    generalize q t = y
    intro h
    cases h with
    | @ok s' t' a b h1 h2 =>
      simp only [hs.eq_iff h1]
      split
      · exact .err
      · have h := ih _ _ h1
        revert h
        generalize P.many0Loop p n s' = x
        generalize P.many0Loop q n t' = y
        intro h
        cases h with
        | ok h3 h4 => exact .ok h3 (.cons h2 h4)
        | err => exact .err
        | panic => exact .panic
        | diverge => exact .diverge
    | err => exact .ok hs .nil
    | panic => exact .panic
    | diverge => exact .diverge

theorem many0 {R : α → α → Prop} {p q : P α} (hp : M.Par R p q) : M.Par (All R) (P.many0 p) (P.many0 q) := by
  intro s t hs
  unfold P.many0
  rw [hs.len]
  exact many0Loop hp _ s t hs

theorem many1 {R : α → α → Prop} {p q : P α} (hp : M.Par R p q) : M.Par (All R) (P.many1 p) (P.many1 q) :=
  bind hp fun _ _ h => bind (many0 hp) fun _ _ h' => pure (.cons h h')

theorem many0E {p q : P α} (hp : M.Par Eq p q) : M.Par Eq (P.many0 p) (P.many0 q) :=
  (many0 hp).mono fun _ _ => All.eq

theorem many1E {p q : P α} (hp : M.Par Eq p q) : M.Par Eq (P.many1 p) (P.many1 q) :=
  (many1 hp).mono fun _ _ => All.eq

theorem sepLoop {Q : β → β → Prop} {R : α → α → Prop} {sep sep' : P β} {p q : P α} (hsep : M.Par Q sep sep') (hp : M.Par R p q)
    (n : Nat) : M.Par (All R) (P.sepLoop sep p n) (P.sepLoop sep' q n) := by
  induction n with
  | zero => exact fun _ _ _ => .diverge
  | succ n ih =>
    intro s t hs
    have h := hsep s t hs
    unfold P.sepLoop
    revert h
    generalize sep s = x
    generalize sep' t = y
    intro h
    cases h with
    | @ok s' t' a b h1 h2 =>
      simp only [hs.eq_iff h1]
      split
      · exact .err
      · have h := hp _ _ h1
        revert h
        generalize p s' = x
        generalize q t' = y
        intro h
        cases h with
        | @ok s' t' a b h3 h4 =>
          have h := ih _ _ h3
          dsimp only
          revert h
          generalize P.sepLoop sep p n s' = x
          generalize P.sepLoop sep' q n t' = y
          intro h
          cases h with
          | ok h5 h6 => exact .ok h5 (.cons h4 h6)
          | err => exact .err
          | panic => exact .panic
          | diverge => exact .diverge
        | err => exact .ok hs .nil
        | panic => exact .panic
        | diverge => exact .diverge
    | err => exact .ok hs .nil
    | panic => exact .panic
    | diverge => exact .diverge

theorem sepTail {Q : β → β → Prop} {R : α → α → Prop} {sep sep' : P β} {p q : P α} (hsep : M.Par Q sep sep') (hp : M.Par R p q) :
    M.Par (All R) (P.sepTail sep p) (P.sepTail sep' q) := by
  intro s t hs
  unfold P.sepTail
  rw [hs.len]
  exact sepLoop hsep hp _ s t hs

theorem separatedList1 {Q : β → β → Prop} {R : α → α → Prop} {sep sep' : P β} {p q : P α} (hsep : M.Par Q sep sep')
    (hp : M.Par R p q) : M.Par (All R) (P.separatedList1 sep p) (P.separatedList1 sep' q) :=
  bind hp fun _ _ h => bind (sepTail hsep hp) fun _ _ h' => pure (.cons h h')

theorem separatedList0 {Q : β → β → Prop} {R : α → α → Prop} {sep sep' : P β} {p q : P α} (hsep : M.Par Q sep sep')
    (hp : M.Par R p q) : M.Par (All R) (P.separatedList0 sep p) (P.separatedList0 sep' q) := by
  intro s t hs
  have h := hp s t hs
  unfold P.separatedList0
  revert h
  generalize p s = x
  generalize q t = y
  intro h
  cases h with
  | ok h1 h2 => exact map (sepTail hsep hp) (fun _ _ h' => All.cons h2 h') _ _ h1
  | err => exact .ok hs .nil
  | panic => exact .panic
  | diverge => exact .diverge

/-! ## Primitives -/

theorem takeSplit {s t : Span} (hs : M.Rel s t) (n : Nat) : M.Two M.Rel (P.takeSplit s n) (P.takeSplit t n) :=
  .ok (hs.sliceFrom n) (hs.sliceTo n)

theorem tag (x : Str) : M.Par M.Rel (P.tag x) (P.tag x) := by
  intro s t hs
  unfold P.tag
  rw [hs.remaining]
  split
  · exact takeSplit hs _
  · exact .err

theorem satisfy (f : Byte → Bool) : M.Par Eq (P.satisfy f) (P.satisfy f) := by
  intro s t hs
  unfold P.satisfy
  rw [hs.remaining]
  split
  · exact .err
  · split
    · exact .ok (hs.sliceFrom 1) rfl
    · exact .err

theorem char (c : Byte) : M.Par Eq (P.char c) (P.char c) := satisfy _

theorem anychar : M.Par Eq P.anychar P.anychar := satisfy _

theorem oneOf (c : Str) : M.Par Eq (P.oneOf c) (P.oneOf c) := satisfy _

theorem takeWhile0 (f : Byte → Bool) : M.Par M.Rel (P.takeWhile0 f) (P.takeWhile0 f) := by
  intro s t hs
  unfold P.takeWhile0
  rw [hs.remaining]
  exact takeSplit hs _

theorem takeWhile1 (f : Byte → Bool) : M.Par M.Rel (P.takeWhile1 f) (P.takeWhile1 f) := by
  intro s t hs
  unfold P.takeWhile1
  rw [hs.remaining]
  split
  · exact .err
  · exact takeSplit hs _

theorem space0 : M.Par M.Rel P.space0 P.space0 := takeWhile0 _

theorem space1 : M.Par M.Rel P.space1 P.space1 := takeWhile1 _

theorem digit1 : M.Par M.Rel P.digit1 P.digit1 := takeWhile1 _

theorem take (n : Nat) : M.Par M.Rel (P.take n) (P.take n) := by
  intro s t hs
  unfold P.take
  rw [hs.remaining]
  split
  · exact .err
  · exact takeSplit hs _

theorem rest : M.Par M.Rel P.rest P.rest := by
  intro s t hs
  unfold P.rest
  rw [hs.remaining]
  exact .ok (hs.sliceFrom _) hs

theorem restLen : M.Par Eq P.restLen P.restLen := by
  intro s t hs
  unfold P.restLen
  rw [hs.remaining]
  exact .ok hs rfl

theorem lineEnding : M.Par M.Rel P.lineEnding P.lineEnding := alt (tag _) (tag _)

theorem notLineEnding : M.Par M.Rel P.notLineEnding P.notLineEnding := by
  intro s t hs
  unfold P.notLineEnding
  simp only [hs.remaining]
  split
  · exact .ok (hs.sliceFrom _) hs
  · split
    · exact .ok (hs.sliceFrom _) (hs.sliceTo _)
    · exact .err

/-! ## Scanners -/

theorem offset (x : Str) : M.Par Eq (Scan.offset x) (Scan.offset x) := by
  intro s t hs
  unfold Scan.offset
  simp only [hs.remaining]
  split
  · exact .ok hs rfl
  · exact .err

theorem notContains (x : Str) {p q : P Span} (hp : M.Par M.Rel p q) :
    M.Par M.Rel (Scan.notContains x p) (Scan.notContains x q) := by
  intro s t hs
  have h := hp s t hs
  unfold Scan.notContains
  revert h
  generalize p s = x1
  generalize q t = y1
  intro h
  cases h with
  | @ok _ _ a b h1 h2 =>
    have := not (offset x) _ _ h2
    revert this
    dsimp only
    generalize P.not (Scan.offset x) a = x1
    generalize P.not (Scan.offset x) b = y1
    intro h
    cases h with
    | ok h3 _ => exact .ok h1 h3
    | err => exact .err
    | panic => exact .panic
    | diverge => exact .diverge
  | err => exact .err
  | panic => exact .panic
  | diverge => exact .diverge

theorem surroundInLine1 (l r : Str) : M.Par M.Rel (Scan.surroundInLine1 l r) (Scan.surroundInLine1 l r) := by
  intro s t hs
  have h := tag (M := M) l s t hs
  unfold Scan.surroundInLine1
  revert h
  generalize P.tag l s = x1
  generalize P.tag l t = y1
  intro h
  cases h with
  | @ok _ _ a b h1 h2 =>
    simp only [h1.remaining]
    split
    · exact .ok ((h1.sliceFrom _).sliceFrom _) (h1.sliceTo _)
    · exact .err
  | err => exact .err
  | panic => exact .panic
  | diverge => exact .diverge

theorem endOfLineOrInput : M.Par Eq Scan.endOfLineOrInput Scan.endOfLineOrInput := by
  intro s t hs
  unfold Scan.endOfLineOrInput
  simp only [hs.isEmpty]
  split
  · exact .ok hs rfl
  · exact value lineEnding rfl s t hs

theorem takeLineWhileStep {R : α → α → Prop} {p q : P α} (hp : M.Par R p q) :
    M.Par Eq (Scan.takeLineWhileStep p) (Scan.takeLineWhileStep q) := by
  intro s t hs
  have h := not (M := M) endOfLineOrInput s t hs
  unfold Scan.takeLineWhileStep
  revert h
  generalize P.not Scan.endOfLineOrInput s = x1
  generalize P.not Scan.endOfLineOrInput t = y1
  intro h
  cases h with
  | @ok s' t' a b h1 h2 =>
    have := hp _ _ h1
    revert this
    dsimp only
    generalize p s' = x1
    generalize q t' = y1
    intro h
    cases h with
    | ok h3 _ => exact anychar _ _ h1
    | err => exact .err
    | panic => exact .panic
    | diverge => exact .diverge
  | err => exact .err
  | panic => exact .panic
  | diverge => exact .diverge

theorem nonEmpty {p q : P Span} (hp : M.Par M.Rel p q) :
    M.Par M.Rel (P.verify p fun s => !s.isEmpty) (P.verify q fun s => !s.isEmpty) :=
  verify hp fun _ _ h => by rw [h.isEmpty]

theorem takeLineWhile1 {R : α → α → Prop} {p q : P α} (hp : M.Par R p q) :
    M.Par M.Rel (Scan.takeLineWhile1 p) (Scan.takeLineWhile1 q) :=
  nonEmpty (recognize (many0 (takeLineWhileStep hp)))

theorem takeLineUntil (x : Str) : M.Par M.Rel (Scan.takeLineUntil x) (Scan.takeLineUntil x) := by
  intro s t hs
  unfold Scan.takeLineUntil
  simp only [hs.remaining]
  exact takeSplit hs _

theorem takeLineUntil1 (x : Str) : M.Par M.Rel (Scan.takeLineUntil1 x) (Scan.takeLineUntil1 x) :=
  nonEmpty (takeLineUntil x)

theorem takeLineUntil21 (x y : Str) : M.Par M.Rel (Scan.takeLineUntil21 x y) (Scan.takeLineUntil21 x y) := by
  refine nonEmpty fun s t hs => ?_
  unfold Scan.takeLineUntil2
  simp only [hs.remaining]
  exact takeSplit hs _

theorem takeLineUntil31 (x y z : Str) : M.Par M.Rel (Scan.takeLineUntil31 x y z) (Scan.takeLineUntil31 x y z) := by
  refine nonEmpty fun s t hs => ?_
  unfold Scan.takeLineUntil3
  simp only [hs.remaining]
  exact takeSplit hs _

theorem takeUntilEol : M.Par M.Rel Scan.takeUntilEol Scan.takeUntilEol := by
  intro s t hs
  unfold Scan.takeUntilEol
  simp only [hs.remaining]
  split
  · exact takeSplit hs _
  · exact rest s t hs

theorem takeUntil (x : Str) : M.Par M.Rel (Scan.takeUntil x) (Scan.takeUntil x) := by
  intro s t hs
  unfold Scan.takeUntil
  simp only [hs.remaining]
  split
  · exact takeSplit hs _
  · exact .err

theorem takeEnd (n : Nat) : M.Par M.Rel (Scan.takeEnd n) (Scan.takeEnd n) := by
  intro s t hs
  unfold Scan.takeEnd
  simp only [hs.remaining]
  split
  · exact .err
  · exact .ok (hs.sliceTo _) (hs.sliceFrom _)

theorem countRemainingBytes : M.Par Eq Scan.countRemainingBytes Scan.countRemainingBytes := by
  intro s t hs
  unfold Scan.countRemainingBytes
  rw [hs.len]
  exact .ok hs rfl

theorem singleMultispace : M.Par Eq Scan.singleMultispace Scan.singleMultispace :=
  value (alt (tag _) (alt (tag _) (alt (tag _) (tag _)))) rfl

theorem trimTrailingWhitespace : M.Par Eq Scan.trimTrailingWhitespace Scan.trimTrailingWhitespace := by
  intro s t hs
  unfold Scan.trimTrailingWhitespace
  rw [hs.remaining]
  exact .ok (hs.sliceTo _) rfl

theorem trimWhitespace : M.Par Eq Scan.trimWhitespace Scan.trimWhitespace := bind_ space0 trimTrailingWhitespace

end Par

theorem Rel.consumed {s t : Span} (h : M.Rel s t) : t.asConsumed = M.pre ++ s.asConsumed := by
  rw [h.2, later_consumed]

theorem Rel.last_ws {s t : Span} (h : M.Rel s t) : lastIsWs t.asConsumed = lastIsWs s.asConsumed := by
  rw [h.consumed]
  unfold lastIsWs
  rw [List.getLast?_append]
  cases hc : s.asConsumed.getLast? with
  | some => rfl
  | none =>
    rcases M.bol with e | e
    · rw [e]; rfl
    · simp only [e, Option.or]; rfl

theorem Rel.bol {s t : Span} (h : M.Rel s t) :
    (t.start = 0 ∨ t.asConsumed.getLast? = some 10) ↔ (s.start = 0 ∨ s.asConsumed.getLast? = some 10) := by
  have ht : t.start = M.k + s.start := by rw [h.2]; rfl
  rw [h.consumed, ht, List.getLast?_append]
  by_cases h0 : s.start = 0
  · have hc : s.asConsumed = [] := by unfold Span.asConsumed; rw [h0]; rfl
    rw [hc, h0]
    rcases M.bol with e | e
    · rw [k, e]; simp
    · simp [e]
  · have hc : s.asConsumed ≠ [] := by
      unfold Span.asConsumed
      rw [h.1]
      have := M.ne
      cases hm : M.text with
      | nil => exact absurd hm this
      | cons => cases hs : s.start with
        | zero => exact absurd hs h0
        | succ => simp
    cases hl : s.asConsumed.getLast? with
    | none => rw [List.getLast?_eq_none_iff] at hl; exact absurd hl hc
    | some x =>
      constructor
      · rintro (h1 | h1)
        · omega
        · exact .inr h1
      · rintro (h1 | h1)
        · exact absurd h1 h0
        · exact .inr h1

namespace Par

theorem wholeWord : M.Par M.Rel Scan.wholeWord Scan.wholeWord := by
  intro s t hs
  unfold Scan.wholeWord
  rw [hs.last_ws]
  split
  · exact takeWhile1 _ s t hs
  · exact .err

theorem beginningOfLine : M.Par Eq Scan.beginningOfLine Scan.beginningOfLine := by
  intro s t hs
  unfold Scan.beginningOfLine
  simp only [hs.bol]
  split
  · exact .ok hs rfl
  · exact .err

theorem blankLine : M.Par M.Rel Scan.blankLine Scan.blankLine :=
  preceded beginningOfLine (alt (terminated space1 endOfLineOrInput) (terminated space0 lineEnding))

theorem restOfLine : M.Par M.Rel Scan.restOfLine Scan.restOfLine :=
  bind takeUntilEol fun _ _ h => bind_ endOfLineOrInput (pure h)

theorem anyLine : M.Par M.Rel Scan.anyLine Scan.anyLine := bind_ beginningOfLine restOfLine

theorem deeper {R : α → α → Prop} {p q : P α} (hp : M.Par R p q) : M.Par R (Scan.deeper p) (Scan.deeper q) := by
  intro s t hs
  unfold Scan.deeper
  rw [hs.depth]
  split
  · exact .panic
  · have h := hp _ _ (hs.withDepth (s.depth + 1))
    revert h
    generalize p _ = x
    generalize q _ = y
    intro h
    cases h with
    | ok h1 h2 => exact .ok h1.shallower h2
    | err => exact .err
    | panic => exact .panic
    | diverge => exact .diverge

theorem located {R : α → α → Prop} {p q : P α} (hp : M.Par R p q) : M.Par (M.Loc R) (Scan.located p) (Scan.located q) := by
  intro s t hs
  have h := hp s t hs
  unfold Scan.located
  revert h
  generalize p s = x
  generalize q t = y
  intro h
  cases h with
  | ok h1 h2 =>
    simp only [hs.lt h1, hs.diff h1]
    split
    · exact .panic
    · exact .ok h1 ⟨h2, (hs.withLength _).region⟩
  | err => exact .err
  | panic => exact .panic
  | diverge => exact .diverge

theorem cowStr : M.Par Eq Scan.cowStr Scan.cowStr := by
  intro s t hs
  unfold Scan.cowStr
  rw [hs.remaining]
  exact .ok hs rfl

theorem strOf {p q : P Span} (hp : M.Par M.Rel p q) : M.Par Eq (Scan.strOf p) (Scan.strOf q) := mapParser hp cowStr

end Par
end Mv
end Vw
