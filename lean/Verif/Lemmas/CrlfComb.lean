import Verif.Lemmas.Crlf

/-!
# Parsing the same text with other line endings

`M.Par R p q`: on a text without carriage returns, and at the same place of the text with `\r\n`, `p` and `q` do
the same and yield values related by `R`. Either may run out of fuel, as the amounts of fuel differ.
-/

namespace Vw
open P Scan
open Mv (All Opt Both)
namespace Cr

variable {M : Cr} {α β γ : Type}

/-- Outcomes that agree; what is left is related by `J`. -/
inductive Two (M : Cr) (J : Span → Span → Prop) (R : α → α → Prop) : Res α → Res α → Prop
  | ok {s t : Span} {a b : α} : J s t → R a b → Two M J R (.ok s a) (.ok t b)
  | err : Two M J R .err .err
  | panic {r : Reason} : Two M J R (.panic r) (.panic r)
  | left {y : Res α} : Two M J R .diverge y
  | right {x : Res α} : Two M J R x .diverge

/-- Parsers that agree. -/
def Par (M : Cr) (R : α → α → Prop) (p q : P α) : Prop := ∀ s t, M.Rel s t → M.Two M.Rel R (p s) (q t)

/-- Parsers that agree on single lines. -/
def ParL (M : Cr) (R : α → α → Prop) (p q : P α) : Prop := ∀ s t, M.Line s t → M.Two M.Rel R (p s) (q t)

/-- Parsers that agree on single lines and leave single lines. -/
def ParLL (M : Cr) (R : α → α → Prop) (p q : P α) : Prop := ∀ s t, M.Line s t → M.Two M.Line R (p s) (q t)

/-- Located values at the same place. -/
def Loc (M : Cr) (R : α → α → Prop) (x y : Located α) : Prop := R x.inner y.inner ∧ y.region = x.region.crlf M.text

/-! ## Combinators -/

theorem Two.mono {R S : α → α → Prop} {x y : Res α} {J : Span → Span → Prop} (h : M.Two J R x y) (hR : ∀ a b, R a b → S a b) : M.Two J S x y := by
  cases h with
  | ok h1 h2 => exact .ok h1 (hR _ _ h2)
  | err => exact .err
  | panic => exact .panic
  | left => exact .left
  | right => exact .right

namespace Par

theorem mono {R S : α → α → Prop} {p q : P α} (h : M.Par R p q) (hR : ∀ a b, R a b → S a b) : M.Par S p q :=
  fun s t hs => (h s t hs).mono hR

theorem pure {R : α → α → Prop} {a b : α} (h : R a b) : M.Par R (P.pure a) (P.pure b) :=
  fun _ _ hs => .ok hs h

theorem line {R : α → α → Prop} {p q : P α} (h : M.Par R p q) : M.ParL R p q := fun s t hs => h s t hs.1

theorem fail {R : α → α → Prop} : M.Par R P.fail P.fail := fun _ _ _ => .err

theorem bind {R : α → α → Prop} {S : β → β → Prop} {p q : P α} {f g : α → P β} (hp : M.Par R p q)
    (hf : ∀ a b, R a b → M.Par S (f a) (g b)) : M.Par S (P.bind p f) (P.bind q g) := by
  intro s t hs
  have h := hp s t hs
  unfold P.bind
  revert h
  generalize p s = x
  generalize q t = y
  intro h
  cases h with
  | ok h1 h2 => exact hf _ _ h2 _ _ h1
  | err => exact .err
  | panic => exact .panic
  | left => exact .left
  | right => exact .right

/-- The first value is the same. -/
theorem bindE {S : β → β → Prop} {p q : P α} {f g : α → P β} (hp : M.Par Eq p q)
    (hf : ∀ a, M.Par S (f a) (g a)) : M.Par S (P.bind p f) (P.bind q g) :=
  bind hp fun a b e => by subst e; exact hf a

/-- The first value is not used. -/
theorem bind_ {R : α → α → Prop} {S : β → β → Prop} {p q : P α} {f g : P β} (hp : M.Par R p q)
    (hf : M.Par S f g) : M.Par S (P.bind p fun _ => f) (P.bind q fun _ => g) :=
  bind hp fun _ _ _ => hf

theorem map {R : α → α → Prop} {S : β → β → Prop} {p q : P α} {f g : α → β} (hp : M.Par R p q)
    (hf : ∀ a b, R a b → S (f a) (g b)) : M.Par S (P.map p f) (P.map q g) := by
  intro s t hs
  have h := hp s t hs
  unfold P.map
  revert h
  generalize p s = x
  generalize q t = y
  intro h
  cases h with
  | ok h1 h2 => exact .ok h1 (hf _ _ h2)
  | err => exact .err
  | panic => exact .panic
  | left => exact .left
  | right => exact .right

theorem mapE {S : β → β → Prop} {p q : P α} {f g : α → β} (hp : M.Par Eq p q)
    (hf : ∀ a, S (f a) (g a)) : M.Par S (P.map p f) (P.map q g) :=
  map hp fun a b e => by subst e; exact hf a

theorem value {R : α → α → Prop} {S : β → β → Prop} {p q : P α} {a b : β} (hp : M.Par R p q)
    (h : S a b) : M.Par S (P.value a p) (P.value b q) := map hp fun _ _ _ => h

theorem alt {R : α → α → Prop} {p q p' q' : P α} (hp : M.Par R p q) (hq : M.Par R p' q') :
    M.Par R (P.alt p p') (P.alt q q') := by
  intro s t hs
  have h := hp s t hs
  unfold P.alt
  revert h
  generalize p s = x
  generalize q t = y
  intro h
  cases h with
  | ok h1 h2 => exact .ok h1 h2
  | err => exact hq s t hs
  | panic => exact .panic
  | left => exact .left
  | right => exact .right

theorem alts_nil {R : α → α → Prop} : M.Par R (P.alts []) (P.alts []) := fail

theorem alts_cons {R : α → α → Prop} {p q : P α} {ps qs : List (P α)} (hp : M.Par R p q) (hl : ps.length = qs.length)
    (hq : M.Par R (P.alts ps) (P.alts qs)) : M.Par R (P.alts (p :: ps)) (P.alts (q :: qs)) := by
  cases ps with
  | nil => cases qs with
    | nil => exact hp
    | cons => cases hl
  | cons => cases qs with
    | nil => cases hl
    | cons => exact alt hp hq

theorem not {R : α → α → Prop} {p q : P α} (hp : M.Par R p q) : M.Par Eq (P.not p) (P.not q) := by
  intro s t hs
  have h := hp s t hs
  unfold P.not
  revert h
  generalize p s = x
  generalize q t = y
  intro h
  cases h with
  | ok h1 h2 => exact .err
  | err => exact .ok hs rfl
  | panic => exact .panic
  | left => exact .left
  | right => exact .right

theorem peek {R : α → α → Prop} {p q : P α} (hp : M.Par R p q) : M.Par R (P.peek p) (P.peek q) := by
  intro s t hs
  have h := hp s t hs
  unfold P.peek
  revert h
  generalize p s = x
  generalize q t = y
  intro h
  cases h with
  | ok h1 h2 => exact .ok hs h2
  | err => exact .err
  | panic => exact .panic
  | left => exact .left
  | right => exact .right

theorem opt {R : α → α → Prop} {p q : P α} (hp : M.Par R p q) : M.Par (Opt R) (P.opt p) (P.opt q) := by
  intro s t hs
  have h := hp s t hs
  unfold P.opt
  revert h
  generalize p s = x
  generalize q t = y
  intro h
  cases h with
  | ok h1 h2 => exact .ok h1 (.some h2)
  | err => exact .ok hs .none
  | panic => exact .panic
  | left => exact .left
  | right => exact .right

theorem optE {p q : P α} (hp : M.Par Eq p q) : M.Par Eq (P.opt p) (P.opt q) :=
  (opt hp).mono fun _ _ => Mv.Opt.eq

theorem verify {R : α → α → Prop} {p q : P α} {f g : α → Bool} (hp : M.Par R p q)
    (hf : ∀ a b, R a b → f a = g b) : M.Par R (P.verify p f) (P.verify q g) := by
  intro s t hs
  have h := hp s t hs
  unfold P.verify
  revert h
  generalize p s = x
  generalize q t = y
  intro h
  cases h with
  | ok h1 h2 =>
    simp only [hf _ _ h2]
    split
    · exact .ok h1 h2
    · exact .err
  | err => exact .err
  | panic => exact .panic
  | left => exact .left
  | right => exact .right

theorem mapOpt {R : α → α → Prop} {S : β → β → Prop} {p q : P α} {f g : α → Option β} (hp : M.Par R p q)
    (hf : ∀ a b, R a b → Opt S (f a) (g b)) : M.Par S (P.mapOpt p f) (P.mapOpt q g) := by
  intro s t hs
  have h := hp s t hs
  unfold P.mapOpt
  revert h
  generalize p s = x
  generalize q t = y
  intro h
  cases h with
  | @ok _ _ a b h1 h2 =>
    have := hf _ _ h2
    revert this
    dsimp only
    generalize f a = x
    generalize g b = y
    intro h
    cases h with
    | none => exact .err
    | some h => exact .ok h1 h
  | err => exact .err
  | panic => exact .panic
  | left => exact .left
  | right => exact .right

theorem mapOptE {R : α → α → Prop} {p q : P α} {f g : α → Option β} (hp : M.Par R p q)
    (hf : ∀ a b, R a b → f a = g b) : M.Par Eq (P.mapOpt p f) (P.mapOpt q g) :=
  mapOpt hp fun a b h => by
    rw [hf a b h]
    cases g b with
    | none => exact .none
    | some => exact .some rfl

theorem mapParser {K : Span → Span → Prop} {S : β → β → Prop} {p q : P Span} {p' q' : P β} (hp : M.Par K p q)
    (hq : ∀ a b, K a b → M.Two M.Rel S (p' a) (q' b)) : M.Par S (P.mapParser p p') (P.mapParser q q') := by
  intro s t hs
  have h := hp s t hs
  unfold P.mapParser
  revert h
  generalize p s = x
  generalize q t = y
  intro h
  cases h with
  | @ok _ _ a b h1 h2 =>
    have := hq _ _ h2
    revert this
    dsimp only
    generalize p' a = x
    generalize q' b = y
    intro h
    cases h with
    | ok _ h => exact .ok h1 h
    | err => exact .err
    | panic => exact .panic
    | left => exact .left
    | right => exact .right
  | err => exact .err
  | panic => exact .panic
  | left => exact .left
  | right => exact .right

theorem preceded {R : α → α → Prop} {S : β → β → Prop} {p q : P α} {p' q' : P β} (hp : M.Par R p q)
    (hq : M.Par S p' q') : M.Par S (P.preceded p p') (P.preceded q q') := bind_ hp hq

theorem terminated {R : α → α → Prop} {S : β → β → Prop} {p q : P α} {p' q' : P β} (hp : M.Par R p q)
    (hq : M.Par S p' q') : M.Par R (P.terminated p p') (P.terminated q q') :=
  bind hp fun _ _ h => bind_ hq (pure h)

theorem delimited {R : α → α → Prop} {S : β → β → Prop} {T : γ → γ → Prop} {p q : P α} {p' q' : P β} {p'' q'' : P γ}
    (hp : M.Par R p q) (hq : M.Par S p' q') (hr : M.Par T p'' q'') :
    M.Par S (P.delimited p p' p'') (P.delimited q q' q'') :=
  bind_ hp (bind hq fun _ _ h => bind_ hr (pure h))

theorem pair {R : α → α → Prop} {S : β → β → Prop} {p q : P α} {p' q' : P β} (hp : M.Par R p q)
    (hq : M.Par S p' q') : M.Par (Both R S) (P.pair p p') (P.pair q q') :=
  bind hp fun _ _ h => bind hq fun _ _ h' => pure ⟨h, h'⟩

theorem pairE {p q : P α} {p' q' : P β} (hp : M.Par Eq p q)
    (hq : M.Par Eq p' q') : M.Par Eq (P.pair p p') (P.pair q q') :=
  (pair hp hq).mono fun _ _ => Mv.Both.eq

theorem separatedPair {R : α → α → Prop} {S : β → β → Prop} {T : γ → γ → Prop} {p q : P α} {p' q' : P β} {p'' q'' : P γ}
    (hp : M.Par R p q) (hq : M.Par S p' q') (hr : M.Par T p'' q'') :
    M.Par (Both R T) (P.separatedPair p p' p'') (P.separatedPair q q' q'') :=
  bind hp fun _ _ h => bind_ hq (bind hr fun _ _ h' => pure ⟨h, h'⟩)

theorem recognize {R : α → α → Prop} {p q : P α} (hp : M.Par R p q) : M.Par M.Rel (P.recognize p) (P.recognize q) := by
  intro s t hs
  have h := hp s t hs
  unfold P.recognize
  revert h
  generalize p s = x
  generalize q t = y
  intro h
  cases h with
  | ok h1 h2 =>
    simp only [hs.lt h1]
    split
    · exact .panic
    · rename_i hle
      exact .ok h1 (hs.upTo h1 hle)
  | err => exact .err
  | panic => exact .panic
  | left => exact .left
  | right => exact .right

theorem allConsuming {R : α → α → Prop} {p q : P α} (hp : M.Par R p q) :
    M.Par R (P.allConsuming p) (P.allConsuming q) := by
  intro s t hs
  have h := hp s t hs
  unfold P.allConsuming
  revert h
  generalize p s = x
  generalize q t = y
  intro h
  cases h with
  | ok h1 h2 =>
    simp only [h1.empty]
    split
    · exact .ok h1 h2
    · exact .err
  | err => exact .err
  | panic => exact .panic
  | left => exact .left
  | right => exact .right

theorem many0Loop {R : α → α → Prop} {p q : P α} (hp : M.Par R p q) (n : Nat) :
    ∀ m, M.Par (All R) (P.many0Loop p n) (P.many0Loop q m) := by
  induction n with
  | zero => exact fun _ _ _ _ => .left
  | succ n ih =>
    intro m s t hs
    cases m with
    | zero => exact .right
    | succ m =>
    have h := hp s t hs
    unfold P.many0Loop
    revert h
    generalize p s = x
    generalize q t = y
    intro h
    cases h with
    | @ok s' t' a b h1 h2 =>
      simp only [hs.eq_iff h1]
      split
      · exact .err
      · have h := ih m _ _ h1
        revert h
        generalize P.many0Loop p n s' = x
        generalize P.many0Loop q m t' = y
        intro h
        cases h with
        | ok h3 h4 => exact .ok h3 (.cons h2 h4)
        | err => exact .err
        | panic => exact .panic
        | left => exact .left
        | right => exact .right
    | err => exact .ok hs .nil
    | panic => exact .panic
    | left => exact .left
    | right => exact .right

theorem many0 {R : α → α → Prop} {p q : P α} (hp : M.Par R p q) : M.Par (All R) (P.many0 p) (P.many0 q) := by
  intro s t hs
  unfold P.many0
  exact many0Loop hp _ _ s t hs

theorem many1 {R : α → α → Prop} {p q : P α} (hp : M.Par R p q) : M.Par (All R) (P.many1 p) (P.many1 q) :=
  bind hp fun _ _ h => bind (many0 hp) fun _ _ h' => pure (.cons h h')

theorem many0E {p q : P α} (hp : M.Par Eq p q) : M.Par Eq (P.many0 p) (P.many0 q) :=
  (many0 hp).mono fun _ _ => Mv.All.eq

theorem many1E {p q : P α} (hp : M.Par Eq p q) : M.Par Eq (P.many1 p) (P.many1 q) :=
  (many1 hp).mono fun _ _ => Mv.All.eq

theorem sepLoop {Q : β → β → Prop} {R : α → α → Prop} {sep sep' : P β} {p q : P α} (hsep : M.Par Q sep sep') (hp : M.Par R p q)
    (n : Nat) : ∀ m, M.Par (All R) (P.sepLoop sep p n) (P.sepLoop sep' q m) := by
  induction n with
  | zero => exact fun _ _ _ _ => .left
  | succ n ih =>
    intro m s t hs
    cases m with
    | zero => exact .right
    | succ m =>
    have h := hsep s t hs
    unfold P.sepLoop
    revert h
    generalize sep s = x
    generalize sep' t = y
    intro h
    cases h with
    | @ok s' t' a b h1 h2 =>
      simp only [hs.eq_iff h1]
      split
      · exact .err
      · have h := hp _ _ h1
        revert h
        generalize p s' = x
        generalize q t' = y
        intro h
        cases h with
        | @ok s' t' a b h3 h4 =>
          have h := ih m _ _ h3
          dsimp only
          revert h
          generalize P.sepLoop sep p n s' = x
          generalize P.sepLoop sep' q m t' = y
          intro h
          cases h with
          | ok h5 h6 => exact .ok h5 (.cons h4 h6)
          | err => exact .err
          | panic => exact .panic
          | left => exact .left
          | right => exact .right
        | err => exact .ok hs .nil
        | panic => exact .panic
        | left => exact .left
        | right => exact .right
    | err => exact .ok hs .nil
    | panic => exact .panic
    | left => exact .left
    | right => exact .right

theorem sepTail {Q : β → β → Prop} {R : α → α → Prop} {sep sep' : P β} {p q : P α} (hsep : M.Par Q sep sep') (hp : M.Par R p q) :
    M.Par (All R) (P.sepTail sep p) (P.sepTail sep' q) := by
  intro s t hs
  unfold P.sepTail
  exact sepLoop hsep hp _ _ s t hs

theorem separatedList1 {Q : β → β → Prop} {R : α → α → Prop} {sep sep' : P β} {p q : P α} (hsep : M.Par Q sep sep')
    (hp : M.Par R p q) : M.Par (All R) (P.separatedList1 sep p) (P.separatedList1 sep' q) :=
  bind hp fun _ _ h => bind (sepTail hsep hp) fun _ _ h' => pure (.cons h h')

theorem separatedList0 {Q : β → β → Prop} {R : α → α → Prop} {sep sep' : P β} {p q : P α} (hsep : M.Par Q sep sep')
    (hp : M.Par R p q) : M.Par (All R) (P.separatedList0 sep p) (P.separatedList0 sep' q) := by
  intro s t hs
  have h := hp s t hs
  unfold P.separatedList0
  revert h
  generalize p s = x
  generalize q t = y
  intro h
  cases h with
  | ok h1 h2 => exact map (sepTail hsep hp) (fun _ _ h' => All.cons h2 h') _ _ h1
  | err => exact .ok hs .nil
  | panic => exact .panic
  | left => exact .left
  | right => exact .right

end Par

namespace ParL

theorem map {R : α → α → Prop} {S : β → β → Prop} {p q : P α} {f g : α → β} (hp : M.ParL R p q)
    (hf : ∀ a b, R a b → S (f a) (g b)) : M.ParL S (P.map p f) (P.map q g) := by
  intro s t hs
  have h := hp s t hs
  unfold P.map
  revert h
  generalize p s = x
  generalize q t = y
  intro h
  cases h with
  | ok h1 h2 => exact .ok h1 (hf _ _ h2)
  | err => exact .err
  | panic => exact .panic
  | left => exact .left
  | right => exact .right

theorem alt {R : α → α → Prop} {p q p' q' : P α} (hp : M.ParL R p q) (hq : M.ParL R p' q') :
    M.ParL R (P.alt p p') (P.alt q q') := by
  intro s t hs
  have h := hp s t hs
  unfold P.alt
  revert h
  generalize p s = x
  generalize q t = y
  intro h
  cases h with
  | ok h1 h2 => exact .ok h1 h2
  | err => exact hq s t hs
  | panic => exact .panic
  | left => exact .left
  | right => exact .right

end ParL

namespace ParLL

/-- What follows reads the rest of the line. -/
theorem bind {R : α → α → Prop} {S : β → β → Prop} {p q : P α} {f g : α → P β} (hp : M.ParLL R p q)
    (hf : ∀ a b, R a b → M.ParL S (f a) (g b)) : M.ParL S (P.bind p f) (P.bind q g) := by
  intro s t hs
  have h := hp s t hs
  unfold P.bind
  revert h
  generalize p s = x
  generalize q t = y
  intro h
  cases h with
  | ok h1 h2 => exact hf _ _ h2 _ _ h1
  | err => exact .err
  | panic => exact .panic
  | left => exact .left
  | right => exact .right

theorem bind_ {R : α → α → Prop} {S : β → β → Prop} {p q : P α} {f g : P β} (hp : M.ParLL R p q)
    (hf : M.ParL S f g) : M.ParL S (P.bind p fun _ => f) (P.bind q fun _ => g) :=
  bind hp fun _ _ _ => hf

theorem bindLL_ {R : α → α → Prop} {S : β → β → Prop} {p q : P α} {f g : P β} (hp : M.ParLL R p q)
    (hf : M.ParLL S f g) : M.ParLL S (P.bind p fun _ => f) (P.bind q fun _ => g) := by
  intro s t hs
  have h := hp s t hs
  unfold P.bind
  revert h
  generalize p s = x
  generalize q t = y
  intro h
  cases h with
  | ok h1 h2 => exact hf _ _ h1
  | err => exact .err
  | panic => exact .panic
  | left => exact .left
  | right => exact .right

theorem peek {R : α → α → Prop} {p q : P α} (hp : M.ParLL R p q) : M.ParLL R (P.peek p) (P.peek q) := by
  intro s t hs
  have h := hp s t hs
  unfold P.peek
  revert h
  generalize p s = x
  generalize q t = y
  intro h
  cases h with
  | ok h1 h2 => exact .ok hs h2
  | err => exact .err
  | panic => exact .panic
  | left => exact .left
  | right => exact .right

theorem verify {R : α → α → Prop} {p q : P α} {f g : α → Bool} (hp : M.ParLL R p q)
    (hf : ∀ a b, R a b → f a = g b) : M.ParLL R (P.verify p f) (P.verify q g) := by
  intro s t hs
  have h := hp s t hs
  unfold P.verify
  revert h
  generalize p s = x
  generalize q t = y
  intro h
  cases h with
  | ok h1 h2 =>
    simp only [hf _ _ h2]
    split
    · exact .ok h1 h2
    · exact .err
  | err => exact .err
  | panic => exact .panic
  | left => exact .left
  | right => exact .right

end ParLL
end Cr
end Vw
