import Verif.Lemmas.Run

/-!
# Runs up to panics

`Gives r s' Q`: the outcome `r` is a success that leaves `s'` with a value satisfying
`Q`, or a panic or exhausted fuel. `Fails r`: the outcome is no success.
-/

namespace Vw
open P Scan

variable {α β γ : Type} {s s' s1 s2 : Span}

/-- A success leaving `s'` with `Q`, or an abort. -/
def Gives (r : Res α) (s' : Span) (Q : α → Prop) : Prop :=
  match r with
  | .ok s1 y => s1 = s' ∧ Q y
  | .err => False
  | .panic _ => True
  | .diverge => True

/-- No success. -/
def Fails (r : Res α) : Prop :=
  match r with
  | .ok _ _ => False
  | _ => True

theorem Gives.of_ok {r : Res α} {y : α} {Q : α → Prop} (h : r = .ok s' y) (hq : Q y) : Gives r s' Q := by
  subst h; exact ⟨rfl, hq⟩

theorem Gives.inv {r : Res α} {Q : α → Prop} {y : α} (h : Gives r s' Q) (e : r = .ok s1 y) : s1 = s' ∧ Q y := by
  subst e; exact h

theorem Gives.mono {r : Res α} {Q Q' : α → Prop} (h : Gives r s' Q) (hq : ∀ y, Q y → Q' y) : Gives r s' Q' := by
  cases r with
  | ok s1 y => exact ⟨h.1, hq _ h.2⟩
  | _ => exact h

theorem Gives.at {r : Res α} {Q : α → Prop} (h : Gives r s' Q) (e : s' = s1) : Gives r s1 Q := e ▸ h

theorem Fails.of_err {r : Res α} (h : r = .err) : Fails r := by subst h; trivial

theorem Fails.of_inv {r : Res α} (h : ∀ s' y, r = .ok s' y → False) : Fails r := by
  cases r with
  | ok s1 y => exact h _ _ rfl
  | _ => trivial

theorem Fails.inv {r : Res α} {y : α} (h : Fails r) (e : r = .ok s1 y) : False := by subst e; exact h

section
variable {p : P α} {f : α → P β} {q : P β} {Q : α → Prop} {R : β → Prop}

theorem Gives.bind (h : Gives (p s) s1 Q) (hf : ∀ y, Q y → Gives (f y s1) s2 R) : Gives (P.bind p f s) s2 R := by
  unfold P.bind
  cases hp : p s with
  | ok s3 y =>
    rw [hp] at h
    obtain ⟨rfl, hq⟩ := h
    exact hf y hq
  | err => rw [hp] at h; exact h.elim
  | _ => trivial

theorem Fails.bind (h : Fails (p s)) : Fails (P.bind p f s) := by
  unfold P.bind
  cases hp : p s with
  | ok s3 y => rw [hp] at h; exact h.elim
  | _ => trivial

theorem Fails.bind2 (h : Gives (p s) s1 Q) (hf : ∀ y, Q y → Fails (f y s1)) : Fails (P.bind p f s) := by
  unfold P.bind
  cases hp : p s with
  | ok s3 y =>
    rw [hp] at h
    obtain ⟨rfl, hq⟩ := h
    exact hf y hq
  | _ => trivial

theorem Gives.pure {a : α} (h : Q a) : Gives (P.pure a s) s Q := ⟨rfl, h⟩

theorem Gives.map {g : α → β} (h : Gives (p s) s1 Q) (hg : ∀ y, Q y → R (g y)) : Gives (P.map p g s) s1 R := by
  unfold P.map
  cases hp : p s with
  | ok s3 y => rw [hp] at h; exact ⟨h.1, hg _ h.2⟩
  | err => rw [hp] at h; exact h.elim
  | _ => trivial

theorem Fails.map {g : α → β} (h : Fails (p s)) : Fails (P.map p g s) := by
  unfold P.map
  cases hp : p s with
  | ok s3 y => rw [hp] at h; exact h.elim
  | _ => trivial

theorem Gives.verify {f : α → Bool} (h : Gives (p s) s1 Q) (hf : ∀ y, Q y → f y = true) :
    Gives (P.verify p f s) s1 Q := by
  unfold P.verify
  cases hp : p s with
  | ok s3 y => rw [hp] at h; simp only; rw [if_pos (hf y h.2)]; exact h
  | err => rw [hp] at h; exact h.elim
  | _ => trivial

theorem Fails.verify {f : α → Bool} (h : Fails (p s)) : Fails (P.verify p f s) := by
  unfold P.verify
  cases hp : p s with
  | ok s3 y => rw [hp] at h; exact h.elim
  | _ => trivial

theorem Fails.verify2 {f : α → Bool} (h : Gives (p s) s1 Q) (hf : ∀ y, Q y → f y = false) :
    Fails (P.verify p f s) := by
  unfold P.verify
  cases hp : p s with
  | ok s3 y => rw [hp] at h; simp only; rw [if_neg (by simp [hf y h.2])]; trivial
  | _ => trivial

theorem Gives.alt {p q : P α} (hp : Fails (p s)) (hq : Gives (q s) s1 Q) : Gives (P.alt p q s) s1 Q := by
  unfold P.alt
  cases h : p s with
  | ok s3 y => rw [h] at hp; exact hp.elim
  | err => exact hq
  | _ => trivial

theorem Gives.alt_fst {p q : P α} (hp : Gives (p s) s1 Q) : Gives (P.alt p q s) s1 Q := by
  unfold P.alt
  cases h : p s with
  | ok s3 y => rw [h] at hp; exact hp
  | err => rw [h] at hp; exact hp.elim
  | _ => trivial

theorem Fails.alt {p q : P α} (hp : Fails (p s)) (hq : Fails (q s)) : Fails (P.alt p q s) := by
  unfold P.alt
  cases h : p s with
  | ok s3 y => rw [h] at hp; exact hp.elim
  | err => exact hq
  | _ => trivial

theorem Gives.alts {p q : P α} {ps : List (P α)} (hp : Fails (p s)) (hq : Gives (P.alts (q :: ps) s) s1 Q) :
    Gives (P.alts (p :: q :: ps) s) s1 Q := Gives.alt hp hq

theorem Gives.alts_fst {p q : P α} {ps : List (P α)} (hp : Gives (p s) s1 Q) :
    Gives (P.alts (p :: q :: ps) s) s1 Q := Gives.alt_fst hp

theorem Fails.alts {p q : P α} {ps : List (P α)} (hp : Fails (p s)) (hq : Fails (P.alts (q :: ps) s)) :
    Fails (P.alts (p :: q :: ps) s) := Fails.alt hp hq

theorem Gives.not (h : Fails (p s)) : Gives (P.not p s) s fun _ => True := by
  unfold P.not
  cases hp : p s with
  | ok s3 y => rw [hp] at h; exact h.elim
  | err => exact ⟨rfl, trivial⟩
  | _ => trivial

theorem Fails.not (h : Gives (p s) s1 Q) : Fails (P.not p s) := by
  unfold P.not
  cases hp : p s with
  | err => rw [hp] at h; exact h.elim
  | _ => trivial

theorem Gives.opt_some (h : Gives (p s) s1 Q) : Gives (P.opt p s) s1 fun o => ∃ y, o = some y ∧ Q y := by
  unfold P.opt
  cases hp : p s with
  | ok s3 y => rw [hp] at h; exact ⟨h.1, _, rfl, h.2⟩
  | err => rw [hp] at h; exact h.elim
  | _ => trivial

theorem Gives.opt_none (h : Fails (p s)) : Gives (P.opt p s) s fun o => o = none := by
  unfold P.opt
  cases hp : p s with
  | ok s3 y => rw [hp] at h; exact h.elim
  | err => exact ⟨rfl, rfl⟩
  | _ => trivial

theorem Gives.mapParser {p : P Span} {o : Span} (h : p s = .ok s1 o) (hq : Gives (q o) s2 R) :
    Gives (P.mapParser p q s) s1 R := by
  unfold P.mapParser
  rw [h]
  dsimp only
  cases hp : q o with
  | ok s3 y => rw [hp] at hq; exact ⟨rfl, hq.2⟩
  | err => rw [hp] at hq; exact hq.elim
  | _ => trivial

theorem Gives.located (h : Gives (p s) s1 Q) : Gives (located p s) s1 fun x => Q x.inner := by
  unfold Scan.located
  cases hp : p s with
  | ok s3 y =>
    rw [hp] at h
    obtain ⟨rfl, h⟩ := h
    simp only
    split
    · trivial
    · exact ⟨rfl, h⟩
  | err => rw [hp] at h; exact h.elim
  | _ => trivial

theorem Fails.located (h : Fails (p s)) : Fails (located p s) := by
  unfold Scan.located
  cases hp : p s with
  | ok s3 y => rw [hp] at h; exact h.elim
  | _ => trivial

theorem Gives.deeper {n : Nat} (h : s.depth < 65535 →
      Gives (p (s.withDepth (s.depth + 1))) (adv (s.withDepth (s.depth + 1)) n) Q) :
    Gives (deeper p s) (adv s n) Q := by
  unfold Scan.deeper
  split
  · trivial
  · rename_i hd
    have h := h (by omega)
    cases hp : p (s.withDepth (s.depth + 1)) with
    | ok s3 y =>
      rw [hp] at h
      obtain ⟨rfl, h⟩ := h
      exact ⟨by simp [adv, Span.withDepth, Span.withShallowerDepth], h⟩
    | err => rw [hp] at h; exact h.elim
    | _ => trivial

theorem Fails.deeper (h : Fails (p (s.withDepth (s.depth + 1)))) : Fails (deeper p s) := by
  unfold Scan.deeper
  split
  · trivial
  · cases hp : p (s.withDepth (s.depth + 1)) with
    | ok s3 y => rw [hp] at h; exact h.elim
    | _ => trivial

end

/-! ## Loops -/

/-- The values satisfy the conditions one by one. -/
inductive Each : List (α → Prop) → List α → Prop where
  | nil : Each [] []
  | cons {Q : α → Prop} {Qs : List (α → Prop)} {y : α} {ys : List α} : Q y → Each Qs ys → Each (Q :: Qs) (y :: ys)

/-- Successive rounds of `p`, the last of which fails. -/
inductive Many (p : P α) : Span → List (α → Prop) → Span → Prop where
  | nil {s : Span} : Fails (p s) → Many p s [] s
  | cons {s : Span} {n : Nat} {Q : α → Prop} {Qs : List (α → Prop)} {s2 : Span} :
      Gives (p s) (adv s n) Q → 0 < n → Many p (adv s n) Qs s2 → Many p s (Q :: Qs) s2

theorem Many.loop {p : P α} {Qs : List (α → Prop)} (h : Many p s Qs s') :
    ∀ fuel, Gives (many0Loop p fuel s) s' (Each Qs) := by
  induction h with
  | nil h =>
    intro fuel
    cases fuel with
    | zero => trivial
    | succ n =>
      unfold many0Loop
      cases hp : p _ with
      | ok s1 y => rw [hp] at h; exact h.elim
      | err => exact ⟨rfl, .nil⟩
      | _ => trivial
  | @cons s n Q Qs s2 h hn _ ih =>
    intro fuel
    cases fuel with
    | zero => trivial
    | succ k =>
      unfold many0Loop
      cases hp : p s with
      | ok s1 y =>
        rw [hp] at h
        obtain ⟨rfl, hq⟩ := h
        simp only
        rw [if_neg (by
          intro e
          have := congrArg Span.start e
          simp at this
          omega)]
        have := ih k
        cases hl : many0Loop p k (adv s n) with
        | ok s3 ys => rw [hl] at this; exact ⟨this.1, .cons hq this.2⟩
        | err => rw [hl] at this; exact this.elim
        | _ => trivial
      | err => rw [hp] at h; exact h.elim
      | _ => trivial

theorem Many.many0 {p : P α} {Qs : List (α → Prop)} (h : Many p s Qs s') : Gives (many0 p s) s' (Each Qs) :=
  h.loop _

theorem Many.many1 {p : P α} {Q : α → Prop} {Qs : List (α → Prop)} {n : Nat} (h : Gives (p s) (adv s n) Q)
    (hm : Many p (adv s n) Qs s') : Gives (many1 p s) s' (Each (Q :: Qs)) :=
  Gives.bind h fun _ hy => Gives.bind hm.many0 fun _ hys => Gives.pure (.cons hy hys)

theorem Fails.many1 {p : P α} (h : Fails (p s)) : Fails (many1 p s) := Fails.bind h

/-- Successive rounds of `sep` and `p`. -/
inductive SepMany (sep : P β) (p : P α) : Span → List (α → Prop) → Span → Prop where
  | nil {s : Span} : Fails (sep s) → SepMany sep p s [] s
  | stop {s : Span} {m : Nat} {y : β} : sep s = .ok (adv s m) y → 0 < m → Fails (p (adv s m)) → SepMany sep p s [] s
  | cons {s : Span} {m n : Nat} {y : β} {Q : α → Prop} {Qs : List (α → Prop)} {s2 : Span} :
      sep s = .ok (adv s m) y → 0 < m → Gives (p (adv s m)) (adv s n) Q → SepMany sep p (adv s n) Qs s2 →
      SepMany sep p s (Q :: Qs) s2

theorem SepMany.loop {sep : P β} {p : P α} {Qs : List (α → Prop)} (h : SepMany sep p s Qs s') :
    ∀ fuel, Gives (sepLoop sep p fuel s) s' (Each Qs) := by
  induction h with
  | nil h =>
    intro fuel
    cases fuel with
    | zero => trivial
    | succ n =>
      unfold sepLoop
      cases hp : sep _ with
      | ok s1 y => rw [hp] at h; exact h.elim
      | err => exact ⟨rfl, .nil⟩
      | _ => trivial
  | @stop s m y h hm hf =>
    intro fuel
    cases fuel with
    | zero => trivial
    | succ n =>
      unfold sepLoop
      rw [h]
      simp only
      rw [if_neg (by
        intro e
        have := congrArg Span.start e
        simp at this
        omega)]
      cases hp : p (adv s m) with
      | ok s1 y => rw [hp] at hf; exact hf.elim
      | err => exact ⟨rfl, .nil⟩
      | _ => trivial
  | @cons s m n y Q Qs s2 h hm hg _ ih =>
    intro fuel
    cases fuel with
    | zero => trivial
    | succ k =>
      unfold sepLoop
      rw [h]
      simp only
      rw [if_neg (by
        intro e
        have := congrArg Span.start e
        simp at this
        omega)]
      cases hp : p (adv s m) with
      | ok s1 y =>
        rw [hp] at hg
        obtain ⟨rfl, hq⟩ := hg
        have := ih k
        simp only
        cases hl : sepLoop sep p k (adv s n) with
        | ok s3 ys => rw [hl] at this; exact ⟨this.1, .cons hq this.2⟩
        | err => rw [hl] at this; exact this.elim
        | _ => trivial
      | err => rw [hp] at hg; exact hg.elim
      | _ => trivial

theorem SepMany.list1 {sep : P β} {p : P α} {Q : α → Prop} {Qs : List (α → Prop)} {n : Nat}
    (h : Gives (p s) (adv s n) Q) (hm : SepMany sep p (adv s n) Qs s') :
    Gives (separatedList1 sep p s) s' (Each (Q :: Qs)) :=
  Gives.bind h fun _ hy => Gives.bind (hm.loop _) fun _ hys => Gives.pure (.cons hy hys)

end Vw
