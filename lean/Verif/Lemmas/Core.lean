import Verif.Model.Blocks
import Verif.Spec.Inline

/-!
# Basic facts about spans and the proof rules for parsers
-/

namespace Vw

theorem sub_length (s : Str) (a b : Nat) (h : b ≤ s.length) :
    (sub s a b).length = b - a := by
  simp [sub]; omega

theorem sub_getElem? (s : Str) (a b i : Nat) :
    (sub s a b)[i]? = if a + i < b then s[a + i]? else none := by
  simp only [sub, List.getElem?_drop, List.getElem?_take]

theorem sub_self (s : Str) (a : Nat) : sub s a a = [] := by
  simp [sub]

theorem sub_append (s : Str) (a b c : Nat) (h1 : a ≤ b) (h2 : b ≤ c) :
    sub s a b ++ sub s b c = sub s a c := by
  apply List.ext_getElem?
  intro i
  rw [List.getElem?_append]
  simp only [sub_getElem?]
  have hl : (sub s a b).length = min b s.length - a := by simp [sub]
  rw [hl]
  split
  · rw [if_pos (by omega), if_pos (by omega)]
  · by_cases hb : b ≤ s.length
    · have : b + (i - (min b s.length - a)) = a + i := by omega
      rw [this]
    · have e1 : s[a + i]? = none := by
        rw [List.getElem?_eq_none_iff]; omega
      have e2 : s[b + (i - (min b s.length - a))]? = none := by
        rw [List.getElem?_eq_none_iff]; omega
      simp [e1, e2]

theorem sub_take (s : Str) (a b n : Nat) (h : a + n ≤ b) :
    (sub s a b).take n = sub s a (a + n) := by
  apply List.ext_getElem?
  intro i
  simp only [List.getElem?_take, sub_getElem?]
  split
  · rw [if_pos (by omega), if_pos (by omega)]
  · rw [if_neg (by omega)]

theorem sub_drop (s : Str) (a b n : Nat) :
    (sub s a b).drop n = sub s (a + n) b := by
  simp [sub, List.drop_drop]

theorem sub_all (s : Str) : sub s 0 s.length = s := by simp [sub]

theorem mem_sub {s : Str} {a b : Nat} {x : Byte} :
    x ∈ sub s a b ↔ ∃ i, a ≤ i ∧ i < b ∧ s[i]? = some x := by
  rw [List.mem_iff_getElem?]
  simp only [sub_getElem?]
  constructor
  · rintro ⟨i, h⟩
    split at h
    · exact ⟨a + i, by omega, by omega, h⟩
    · cases h
  · rintro ⟨i, h1, h2, h3⟩
    refine ⟨i - a, ?_⟩
    rw [if_pos (by omega), show a + (i - a) = i by omega, h3]

theorem sub_infix (s : Str) (a b : Nat) : sub s a b <:+: s :=
  (List.drop_suffix _ _).isInfix.trans (List.take_prefix _ _).isInfix

theorem mem_of_mem_sub {s : Str} {a b : Nat} {x : Byte} (h : x ∈ sub s a b) : x ∈ s := by
  obtain ⟨i, _, _, h⟩ := mem_sub.1 h
  exact List.mem_of_getElem? h

/-! ## Steps -/

/-- `s'` is `s` with its start moved forward inside the span. -/
structure Step (s s' : Span) : Prop where
  inner : s'.inner = s.inner
  stop : s'.stop = s.stop
  depth : s'.depth = s.depth
  le : s.start ≤ s'.start
  hi : s'.start ≤ s.stop

/-- `o` is a part of `s` at the same depth. -/
structure Sub (s o : Span) : Prop where
  inner : o.inner = s.inner
  depth : o.depth = s.depth
  lo : s.start ≤ o.start
  mid : o.start ≤ o.stop
  hi : o.stop ≤ s.stop

theorem Step.refl {s : Span} (h : s.start ≤ s.stop) : Step s s :=
  ⟨rfl, rfl, rfl, Nat.le_refl _, h⟩

theorem Step.trans {a b c : Span} (h1 : Step a b) (h2 : Step b c) : Step a c := by
  obtain ⟨i1, s1, d1, l1, u1⟩ := h1
  obtain ⟨i2, s2, d2, l2, u2⟩ := h2
  exact ⟨i2.trans i1, s2.trans s1, d2.trans d1, by omega, by omega⟩

theorem Step.eq_of_start {s s' : Span} (h : Step s s') (e : s'.start = s.start) : s' = s := by
  obtain ⟨i, st, d, _, _⟩ := h
  cases s; cases s'; simp_all

theorem Step.sub {s s' : Span} (h : Step s s') : Sub s s' := by
  obtain ⟨i, st, d, l, u⟩ := h
  exact ⟨i, d, l, by omega, by omega⟩

theorem Sub.trans {a b c : Span} (h1 : Sub a b) (h2 : Sub b c) : Sub a c := by
  obtain ⟨i1, d1, l1, m1, u1⟩ := h1
  obtain ⟨i2, d2, l2, m2, u2⟩ := h2
  exact ⟨i2.trans i1, d2.trans d1, by omega, m2, by omega⟩

theorem asRemaining_eq (s : Span) : s.asRemaining = sub s.inner s.start s.stop := rfl

theorem remainingLen_eq (s : Span) : s.remainingLen = s.stop - s.start := by
  unfold Span.remainingLen; split <;> omega

/-! ## Character boundaries -/

/-- A UTF-8 continuation byte. -/
def isCont (b : Byte) : Prop := 128 ≤ b ∧ b < 192

/-- Position `i` is a character boundary of `s`. -/
def Bdry (s : Str) (i : Nat) : Prop := ∀ b, s[i]? = some b → ¬ isCont b

/-- Facts that hold for every valid UTF-8 string: it does not begin with a
continuation byte and a byte after an ASCII byte is not a continuation byte. -/
structure Utf8ish (s : Str) : Prop where
  zero : Bdry s 0
  succ : ∀ i b, s[i]? = some b → b < 128 → Bdry s (i + 1)

/-! ## Context -/

/-- What is fixed during a parse: the libraries, the text and a bound on depth. -/
structure Ctx where
  env : Env
  inner : Str
  D : Nat

namespace Ctx

/-- The text from `p` to some `j` is read as a raw link. -/
def RawFrom (C : Ctx) (p : Nat) : Prop :=
  ∃ j u sc, p < j ∧ j ≤ C.inner.length ∧ C.env.uri (sub C.inner p j) = some u ∧
    u.scheme = some sc ∧ sc ∈ rawSchemes

/-- A word begins at `p`: there is nothing or ASCII whitespace before it. -/
def WordFrom (C : Ctx) (p : Nat) : Prop :=
  p = 0 ∨ ∃ b, C.inner[p - 1]? = some b ∧ isAsciiWs b = true

/-- Panics that are possible, with the conditions under which they can occur: a word
beginning with a raw link has a colon; there is white space outside ASCII, or the text is
not UTF-8; the URI library rejects the anchor of a diary link. -/
def Allow (C : Ctx) : Reason → Prop
  | .textUnderflow => ∃ p q, C.WordFrom p ∧ C.RawFrom p ∧ p < q ∧ C.inner[q]? = some c!":" ∧
      ∀ i, p ≤ i → i < q → ∀ b, C.inner[i]? = some b → isAsciiWs b = false
  | .dedentBoundary => (∃ i, 2 ≤ wsCharLen (C.inner.drop i)) ∨ ¬ Utf8ish C.inner
  | .diaryUnwrap => (b!"[[diary:" <:+: C.inner) ∧ (C.env.uri [] = none ∨
      ∃ a, a ≠ [] ∧ (c!"#" :: joinWith b!"#" a) <:+: C.inner ∧
        C.env.uri (c!"#" :: joinWith b!"%23" a) = none)
  | .depthOverflow => 65535 ≤ C.D
  | .offsetUnderflow => False

/-- Boundary condition, required only for UTF-8 text. -/
def B (C : Ctx) (i : Nat) : Prop := Utf8ish C.inner → Bdry C.inner i

/-- A span of the text with `k` levels of depth to spare. -/
structure Wf (C : Ctx) (k : Nat) (s : Span) : Prop where
  inner : s.inner = C.inner
  le : s.start ≤ s.stop
  hi : s.stop ≤ C.inner.length
  depth : s.depth + (s.stop - s.start) + k ≤ C.D

/-- A span of the text between character boundaries. -/
structure In (C : Ctx) (k : Nat) (s : Span) : Prop where
  wf : C.Wf k s
  bs : C.B s.start
  be : C.B s.stop

/-- The result is not divergence, a panic is an allowed one and a success
satisfies `Q`. -/
def Ok {α} (C : Ctx) (r : Res α) (Q : Span → α → Prop) : Prop :=
  match r with
  | .ok s a => Q s a
  | .err => True
  | .panic x => C.Allow x
  | .diverge => False

/-- Successful steps end inside the span at a boundary. -/
structure Good (C : Ctx) (s s' : Span) : Prop where
  step : Step s s'
  b : C.B s'.start

end Ctx

variable {C : Ctx} {k : Nat}

theorem Ctx.Wf.step {s s' : Span} (h : C.Wf k s) (st : Step s s') : C.Wf k s' := by
  obtain ⟨i, l, u, d⟩ := h
  obtain ⟨i', st', d', l', u'⟩ := st
  refine ⟨i'.trans i, by omega, by omega, ?_⟩
  rw [st', d']; omega

theorem Ctx.Wf.step_lt {s s' : Span} (h : C.Wf k s) (st : Step s s') (hlt : s.start < s'.start) :
    C.Wf (k + (s'.start - s.start)) s' := by
  obtain ⟨i, l, u, d⟩ := h
  obtain ⟨i', st', d', l', u'⟩ := st
  refine ⟨i'.trans i, by omega, by omega, ?_⟩
  rw [st', d']; omega

theorem Ctx.Wf.sub {s o : Span} (h : C.Wf k s) (st : Sub s o) : C.Wf k o := by
  obtain ⟨i, l, u, d⟩ := h
  obtain ⟨i', d', l', m', u'⟩ := st
  refine ⟨i'.trans i, by omega, by omega, ?_⟩
  rw [d']; omega

theorem Ctx.Wf.mono {s : Span} {j : Nat} (h : C.Wf k s) (le : j ≤ k) : C.Wf j s := by
  obtain ⟨i, l, u, d⟩ := h
  exact ⟨i, l, u, by omega⟩

theorem Ctx.In.mono {s : Span} {j : Nat} (h : C.In k s) (le : j ≤ k) : C.In j s :=
  ⟨h.wf.mono le, h.bs, h.be⟩

theorem Ctx.In.good {s s' : Span} (h : C.In k s) (g : C.Good s s') : C.In k s' := by
  obtain ⟨wf, _, be⟩ := h
  refine ⟨wf.step g.step, g.b, ?_⟩
  rw [g.step.stop]; exact be

theorem Ctx.In.good_lt {s s' : Span} (h : C.In k s) (g : C.Good s s') (hlt : s.start < s'.start) :
    C.In (k + (s'.start - s.start)) s' := by
  obtain ⟨wf, _, be⟩ := h
  refine ⟨wf.step_lt g.step hlt, g.b, ?_⟩
  rw [g.step.stop]; exact be

theorem Ctx.Good.refl {s : Span} (h : C.In k s) : C.Good s s := ⟨Step.refl h.wf.le, h.bs⟩

theorem Ctx.Good.trans {a b c : Span} (h1 : C.Good a b) (h2 : C.Good b c) : C.Good a c :=
  ⟨h1.step.trans h2.step, h2.b⟩

theorem Ctx.Wf.remLen {s : Span} (h : C.Wf k s) : s.asRemaining.length = s.stop - s.start := by
  rw [asRemaining_eq, sub_length]
  rw [h.inner]; exact h.hi

theorem Ctx.Wf.getElem? {s : Span} (h : C.Wf k s) (i : Nat) :
    s.asRemaining[i]? = if s.start + i < s.stop then C.inner[s.start + i]? else none := by
  rw [asRemaining_eq, sub_getElem?, h.inner]

theorem Ctx.Wf.rem {s : Span} (h : C.Wf k s) : s.asRemaining = Vw.sub C.inner s.start s.stop := by
  rw [asRemaining_eq, h.inner]

theorem Ctx.Wf.isEmpty {s : Span} (h : C.Wf k s) : s.isEmpty = true ↔ s.start = s.stop := by
  have := h.le
  unfold Span.isEmpty; rw [remainingLen_eq]; simp; omega

/-! ## Rules -/

namespace Ctx.Ok

theorem mono {α} {r : Res α} {Q Q' : Span → α → Prop} (h : C.Ok r Q)
    (imp : ∀ s a, Q s a → Q' s a) : C.Ok r Q' := by
  cases r <;> simp_all [Ctx.Ok]

theorem and {α} {r : Res α} {Q Q' : Span → α → Prop} (h : C.Ok r Q) (h' : C.Ok r Q') :
    C.Ok r (fun s a => Q s a ∧ Q' s a) := by
  cases r <;> simp_all [Ctx.Ok]

/-- Strengthen the postcondition by the fact that the parser returned it. -/
theorem self {α} {r : Res α} {Q : Span → α → Prop} (h : C.Ok r Q) :
    C.Ok r (fun s a => Q s a ∧ r = .ok s a) := by
  cases r <;> simp_all [Ctx.Ok]

theorem pure {α} {a : α} {s : Span} {Q : Span → α → Prop} (h : Q s a) : C.Ok (P.pure a s) Q := h

theorem bind {α β} {p : P α} {f : α → P β} {s : Span} {Q : Span → β → Prop}
    (h : C.Ok (p s) (fun s' a => C.Ok (f a s') Q)) : C.Ok (P.bind p f s) Q := by
  unfold P.bind; cases hp : p s <;> simp_all [Ctx.Ok]

theorem bind' {α β} {p : P α} {f : α → P β} {s : Span} {Q : Span → β → Prop}
    {Q1 : Span → α → Prop} (h : C.Ok (p s) Q1)
    (h2 : ∀ s' a, Q1 s' a → C.Ok (f a s') Q) : C.Ok (P.bind p f s) Q :=
  bind (h.mono h2)

theorem map {α β} {p : P α} {f : α → β} {s : Span} {Q : Span → β → Prop}
    (h : C.Ok (p s) (fun s' a => Q s' (f a))) : C.Ok (P.map p f s) Q := by
  unfold P.map; cases hp : p s <;> simp_all [Ctx.Ok]

theorem value {α β} {p : P α} {b : β} {s : Span} {Q : Span → β → Prop}
    (h : C.Ok (p s) (fun s' _ => Q s' b)) : C.Ok (P.value b p s) Q := map h

theorem alt {α} {p q : P α} {s : Span} {Q : Span → α → Prop}
    (h : C.Ok (p s) Q) (h' : p s = .err → C.Ok (q s) Q) : C.Ok (P.alt p q s) Q := by
  unfold P.alt; cases hp : p s <;> simp_all [Ctx.Ok]

theorem alts_nil {α} {s : Span} {Q : Span → α → Prop} : C.Ok (P.alts [] s) Q := by
  simp [P.alts, P.fail, Ctx.Ok]

theorem alts_cons {α} {p : P α} {ps : List (P α)} {s : Span} {Q : Span → α → Prop}
    (h : C.Ok (p s) Q) (h' : C.Ok (P.alts ps s) Q) : C.Ok (P.alts (p :: ps) s) Q := by
  cases ps with
  | nil => exact h
  | cons q ps => exact alt h (fun _ => h')

theorem alts {α} {ps : List (P α)} {s : Span} {Q : Span → α → Prop}
    (h : ∀ p ∈ ps, C.Ok (p s) Q) : C.Ok (P.alts ps s) Q := by
  induction ps with
  | nil => exact alts_nil
  | cons p ps ih =>
    exact alts_cons (h p (by simp)) (ih (fun q hq => h q (by simp [hq])))

theorem not {α} {p : P α} {s : Span} {Q : Span → Unit → Prop}
    (h : C.Ok (p s) (fun _ _ => True)) (h' : p s = .err → Q s ()) : C.Ok (P.not p s) Q := by
  unfold P.not; cases hp : p s <;> simp_all [Ctx.Ok]

theorem peek {α} {p : P α} {s : Span} {Q : Span → α → Prop}
    (h : C.Ok (p s) (fun _ a => Q s a)) : C.Ok (P.peek p s) Q := by
  unfold P.peek; cases hp : p s <;> simp_all [Ctx.Ok]

theorem opt {α} {p : P α} {s : Span} {Q : Span → Option α → Prop}
    (h : C.Ok (p s) (fun s' a => Q s' (some a))) (h' : p s = .err → Q s none) :
    C.Ok (P.opt p s) Q := by
  unfold P.opt; cases hp : p s <;> simp_all [Ctx.Ok]

theorem verify {α} {p : P α} {f : α → Bool} {s : Span} {Q : Span → α → Prop}
    (h : C.Ok (p s) (fun s' a => f a = true → Q s' a)) : C.Ok (P.verify p f s) Q := by
  unfold P.verify
  cases hp : p s with
  | ok s' a =>
    simp only [hp, Ctx.Ok] at h ⊢
    by_cases hf : f a = true <;> simp_all
  | _ => simp_all [Ctx.Ok]

theorem mapOpt {α β} {p : P α} {f : α → Option β} {s : Span} {Q : Span → β → Prop}
    (h : C.Ok (p s) (fun s' a => ∀ b, f a = some b → Q s' b)) : C.Ok (P.mapOpt p f s) Q := by
  unfold P.mapOpt
  cases hp : p s with
  | ok s' a =>
    simp only [hp, Ctx.Ok] at h ⊢
    cases hf : f a with
    | none => simp
    | some b => simpa using h b hf
  | _ => simp_all [Ctx.Ok]

theorem mapParser {β} {p : P Span} {q : P β} {s : Span} {Q : Span → β → Prop}
    (h : C.Ok (p s) (fun s' o => C.Ok (q o) (fun _ b => Q s' b))) :
    C.Ok (P.mapParser p q s) Q := by
  unfold P.mapParser
  cases hp : p s with
  | ok s' o =>
    simp only [hp, Ctx.Ok] at h ⊢
    cases hq : q o <;> simp_all
  | _ => simp_all [Ctx.Ok]

theorem preceded {α β} {p : P α} {q : P β} {s : Span} {Q : Span → β → Prop}
    (h : C.Ok (p s) (fun s' _ => C.Ok (q s') Q)) : C.Ok (P.preceded p q s) Q := bind h

theorem terminated {α β} {p : P α} {q : P β} {s : Span} {Q : Span → α → Prop}
    (h : C.Ok (p s) (fun s' a => C.Ok (q s') (fun s'' _ => Q s'' a))) :
    C.Ok (P.terminated p q s) Q := bind (h.mono fun _ _ h => bind h)

theorem delimited {α β γ} {p : P α} {q : P β} {r : P γ} {s : Span} {Q : Span → β → Prop}
    (h : C.Ok (p s) (fun s1 _ => C.Ok (q s1) (fun s2 b => C.Ok (r s2) (fun s3 _ => Q s3 b)))) :
    C.Ok (P.delimited p q r s) Q :=
  bind (h.mono fun _ _ h => bind (h.mono fun _ _ h => bind h))

theorem pair {α β} {p : P α} {q : P β} {s : Span} {Q : Span → α × β → Prop}
    (h : C.Ok (p s) (fun s1 a => C.Ok (q s1) (fun s2 b => Q s2 (a, b)))) :
    C.Ok (P.pair p q s) Q :=
  bind (h.mono fun _ _ h => bind h)

theorem separatedPair {α β γ} {p : P α} {q : P β} {r : P γ} {s : Span}
    {Q : Span → α × γ → Prop}
    (h : C.Ok (p s) (fun s1 a => C.Ok (q s1) (fun s2 _ => C.Ok (r s2) (fun s3 c => Q s3 (a, c))))) :
    C.Ok (P.separatedPair p q r s) Q :=
  bind (h.mono fun _ _ h => bind (h.mono fun _ _ h => bind h))

theorem allConsuming {α} {p : P α} {s : Span} {Q : Span → α → Prop}
    (h : C.Ok (p s) (fun s' a => s'.remainingLen = 0 → Q s' a)) :
    C.Ok (P.allConsuming p s) Q := by
  unfold P.allConsuming
  cases hp : p s with
  | ok s' a =>
    simp only [hp, Ctx.Ok] at h ⊢
    by_cases hf : s'.remainingLen = 0 <;> simp_all
  | _ => simp_all [Ctx.Ok]

theorem recognize {α} {p : P α} {s : Span} {Q : Span → Span → Prop}
    (h : C.Ok (p s) (fun s' _ => Step s s' ∧ Q s' { s with stop := s'.start })) :
    C.Ok (P.recognize p s) Q := by
  unfold P.recognize
  cases hp : p s with
  | ok s' a =>
    simp only [hp, Ctx.Ok] at h ⊢
    rw [if_neg (by have := h.1.le; omega)]
    have e : s.sliceTo (s'.start - s.start) = { s with stop := s'.start } := by
      have := h.1.le
      simp only [Span.sliceTo, Span.advanceEndBy]
      congr 1; omega
    rw [e]; exact h.2
  | _ => simp_all [Ctx.Ok]

theorem located {α} {p : P α} {s : Span} {Q : Span → Located α → Prop}
    (h : C.Ok (p s) (fun s' a => Step s s' ∧
      Q s' ⟨a, ⟨s.start, s'.start - s.start, s.depth⟩⟩)) :
    C.Ok (Scan.located p s) Q := by
  unfold Scan.located
  cases hp : p s with
  | ok s' a =>
    simp only [hp, Ctx.Ok] at h ⊢
    have hle := h.1.le
    have hhi := h.1.hi
    rw [if_neg (by omega)]
    have e : Region.ofSpan (s.withLength (s'.start - s.start))
        = ⟨s.start, s'.start - s.start, s.depth⟩ := by
      unfold Span.withLength
      rw [remainingLen_eq]
      split
      · simp [Region.ofSpan, remainingLen_eq]
      · simp only [Region.ofSpan, remainingLen_eq, Region.mk.injEq, true_and, and_true]
        omega
    rw [e]; exact h.2
  | _ => simp_all [Ctx.Ok]

theorem deeper {α} {p : P α} {s : Span} {Q : Span → α → Prop} (hw : C.Wf (k + 1) s)
    (h : C.Ok (p (s.withDepth (s.depth + 1)))
      (fun s' a => s'.depth = s.depth + 1 ∧ Q (s'.withDepth s.depth) a)) :
    C.Ok (Scan.deeper p s) Q := by
  unfold Scan.deeper
  split
  · show 65535 ≤ C.D
    have := hw.depth
    omega
  · cases hp : p (s.withDepth (s.depth + 1)) with
    | ok s' a =>
      simp only [hp, Ctx.Ok] at h ⊢
      have e : s'.withShallowerDepth = s'.withDepth s.depth := by
        simp only [Span.withShallowerDepth, h.1]
        simp
      rw [e]; exact h.2
    | _ => simp_all [Ctx.Ok]

/-- Rule for the loop of `many0`: `I` is the invariant and `T s as s'` relates
start, results and end. -/
theorem many0Loop {α} {p : P α} {I : Span → Prop} {T : Span → List α → Span → Prop}
    (h : ∀ s, I s → C.Ok (p s) (fun s' a => Step s s' ∧ (s.start < s'.start →
      I s' ∧ ∀ as s'', T s' as s'' → T s (a :: as) s'')))
    (hnil : ∀ s, I s → p s = .err → T s [] s)
    (n : Nat) (s : Span) (hs : I s) (hle : s.start ≤ s.stop) (hn : s.stop - s.start < n) :
    C.Ok (P.many0Loop p n s) (fun s' as => Step s s' ∧ I s' ∧ p s' = .err ∧ T s as s') := by
  induction n generalizing s with
  | zero => omega
  | succ n ih =>
    unfold P.many0Loop
    have hp := h s hs
    cases hps : p s with
    | err => simp only [Ctx.Ok]; exact ⟨Step.refl hle, hs, hps, hnil s hs hps⟩
    | panic r => rw [hps] at hp; exact hp
    | diverge => rw [hps] at hp; exact hp
    | ok s' a =>
      rw [hps] at hp
      simp only [Ctx.Ok] at hp
      obtain ⟨st, hp⟩ := hp
      simp only
      split
      · simp [Ctx.Ok]
      · rename_i hne
        have hlt : s.start < s'.start := by
          have := st.le
          rcases Nat.lt_or_ge s.start s'.start with h | h
          · exact h
          · exact absurd (st.eq_of_start (by omega)) hne
        obtain ⟨hI, hT⟩ := hp hlt
        have hst := st.stop
        have hhi := st.hi
        have := ih s' hI (by omega) (by omega)
        cases hm : P.many0Loop p n s' with
        | ok s'' as =>
          rw [hm] at this
          simp only [Ctx.Ok] at this ⊢
          exact ⟨st.trans this.1, this.2.1, this.2.2.1, hT _ _ this.2.2.2⟩
        | err => simp [Ctx.Ok]
        | panic r => rw [hm] at this; exact this
        | diverge => rw [hm] at this; exact this

theorem many0 {α} {p : P α} {I : Span → Prop} {T : Span → List α → Span → Prop} {s : Span}
    (h : ∀ s, I s → C.Ok (p s) (fun s' a => Step s s' ∧ (s.start < s'.start →
      I s' ∧ ∀ as s'', T s' as s'' → T s (a :: as) s'')))
    (hnil : ∀ s, I s → p s = .err → T s [] s)
    (hs : I s) (hle : s.start ≤ s.stop) :
    C.Ok (P.many0 p s) (fun s' as => Step s s' ∧ I s' ∧ p s' = .err ∧ T s as s') := by
  unfold P.many0
  exact many0Loop h hnil _ s hs hle (by rw [remainingLen_eq]; omega)

theorem many1 {α} {p : P α} {I : Span → Prop} {T : Span → List α → Span → Prop} {s : Span}
    (h : ∀ s, I s → C.Ok (p s) (fun s' a => Step s s' ∧ s.start < s'.start ∧
      I s' ∧ ∀ as s'', T s' as s'' → T s (a :: as) s''))
    (hnil : ∀ s, I s → p s = .err → T s [] s)
    (hs : I s) :
    C.Ok (P.many1 p s) (fun s' as => Step s s' ∧ s.start < s'.start ∧ I s' ∧ p s' = .err ∧
      T s as s' ∧ as ≠ []) := by
  unfold P.many1
  refine bind' (h s hs) ?_
  rintro s1 a ⟨st, hlt, hI, hT⟩
  have hst := st.stop
  have hhi := st.hi
  refine bind' (many0 (T := T) (I := I) (fun s hs => (h s hs).mono ?_) hnil hI (by omega)) ?_
  · rintro s' a ⟨st, _, hI, hT⟩
    exact ⟨st, fun _ => ⟨hI, hT⟩⟩
  · rintro s2 as ⟨st2, hI2, hp2, hT2⟩
    refine pure ⟨st.trans st2, ?_, hI2, hp2, hT _ _ hT2, by simp⟩
    have := st2.le
    omega

/-- Rule for the tail of `separated_list`. -/
theorem sepLoop {α β} {sep : P β} {p : P α} {I : Span → Prop} {R : α → Prop}
    (h : ∀ s, I s → C.Ok (sep s) (fun s1 _ => Step s s1 ∧ (s.start < s1.start →
      C.Ok (p s1) (fun s2 a => Step s1 s2 ∧ I s2 ∧ R a))))
    (n : Nat) (s : Span) (hs : I s) (hle : s.start ≤ s.stop) (hn : s.stop - s.start < n) :
    C.Ok (P.sepLoop sep p n s) (fun s' as => Step s s' ∧ I s' ∧ ∀ a ∈ as, R a) := by
  induction n generalizing s with
  | zero => omega
  | succ n ih =>
    unfold P.sepLoop
    have hp := h s hs
    cases hps : sep s with
    | err => simp only [Ctx.Ok]; exact ⟨Step.refl hle, hs, by simp⟩
    | panic r => rw [hps] at hp; exact hp
    | diverge => rw [hps] at hp; exact hp
    | ok s1 b =>
      rw [hps] at hp
      simp only [Ctx.Ok] at hp
      obtain ⟨st, hp⟩ := hp
      simp only
      split
      · simp [Ctx.Ok]
      · rename_i hne
        have hlt : s.start < s1.start := by
          have := st.le
          rcases Nat.lt_or_ge s.start s1.start with h | h
          · exact h
          · exact absurd (st.eq_of_start (by omega)) hne
        have hp := hp hlt
        cases hpp : p s1 with
        | err => simp only [Ctx.Ok]; exact ⟨Step.refl hle, hs, by simp⟩
        | panic r => rw [hpp] at hp; exact hp
        | diverge => rw [hpp] at hp; exact hp
        | ok s2 a =>
          rw [hpp] at hp
          obtain ⟨st2, hI2, hR⟩ := hp
          have hst := st.stop
          have hst2 := st2.stop
          have hhi := st2.hi
          have hle2 := st2.le
          have := ih s2 hI2 (by omega) (by omega)
          simp only
          cases hm : P.sepLoop sep p n s2 with
          | ok s3 as =>
            rw [hm] at this
            simp only [Ctx.Ok] at this ⊢
            refine ⟨(st.trans st2).trans this.1, this.2.1, ?_⟩
            intro x hx
            rcases List.mem_cons.1 hx with rfl | hx
            · exact hR
            · exact this.2.2 x hx
          | err => simp [Ctx.Ok]
          | panic r => rw [hm] at this; exact this
          | diverge => rw [hm] at this; exact this

theorem separatedList1 {α β} {sep : P β} {p : P α} {I : Span → Prop} {R : α → Prop} {s : Span}
    (h0 : C.Ok (p s) (fun s2 a => Step s s2 ∧ I s2 ∧ R a))
    (h : ∀ s, I s → C.Ok (sep s) (fun s1 _ => Step s s1 ∧ (s.start < s1.start →
      C.Ok (p s1) (fun s2 a => Step s1 s2 ∧ I s2 ∧ R a)))) :
    C.Ok (P.separatedList1 sep p s) (fun s' as => Step s s' ∧ I s' ∧ ∀ a ∈ as, R a) := by
  unfold P.separatedList1
  refine bind' h0 ?_
  rintro s1 a ⟨st, hI, hR⟩
  have hst := st.stop
  have hhi := st.hi
  have hl := sepLoop h (s1.remainingLen + 1) s1 hI (by omega) (by rw [remainingLen_eq]; omega)
  refine bind' (p := P.sepTail sep p) hl ?_
  rintro s2 as ⟨st2, hI2, hR2⟩
  refine pure ⟨st.trans st2, hI2, ?_⟩
  intro x hx
  rcases List.mem_cons.1 hx with rfl | hx
  · exact hR
  · exact hR2 x hx

theorem separatedList0 {α β} {sep : P β} {p : P α} {I : Span → Prop} {R : α → Prop} {s : Span}
    (hs : I s) (hle : s.start ≤ s.stop)
    (h0 : C.Ok (p s) (fun s2 a => Step s s2 ∧ I s2 ∧ R a))
    (h : ∀ s, I s → C.Ok (sep s) (fun s1 _ => Step s s1 ∧ (s.start < s1.start →
      C.Ok (p s1) (fun s2 a => Step s1 s2 ∧ I s2 ∧ R a)))) :
    C.Ok (P.separatedList0 sep p s) (fun s' as => Step s s' ∧ I s' ∧ ∀ a ∈ as, R a) := by
  unfold P.separatedList0
  cases hp : p s with
  | err => simp only [Ctx.Ok]; exact ⟨Step.refl hle, hs, by simp⟩
  | panic r => rw [hp] at h0; exact h0
  | diverge => rw [hp] at h0; exact h0
  | ok s1 a =>
    rw [hp] at h0
    obtain ⟨st, hI, hR⟩ := h0
    have hst := st.stop
    have hhi := st.hi
    have hl := sepLoop h (s1.remainingLen + 1) s1 hI (by omega) (by rw [remainingLen_eq]; omega)
    simp only
    refine map (p := P.sepTail sep p) (Ctx.Ok.mono hl ?_)
    rintro s2 as ⟨st2, hI2, hR2⟩
    refine ⟨st.trans st2, hI2, ?_⟩
    intro x hx
    rcases List.mem_cons.1 hx with rfl | hx
    · exact hR
    · exact hR2 x hx

end Ctx.Ok
end Vw
