import Verif.Lemmas.Cost
import Verif.Lemmas.Always
import Verif.Lemmas.BlocksD

/-!
# Lists are read at least this often
-/

namespace Vw
open P Scan K

variable {α β : Type} {C : Ctx} {s s' s1 : Span}

namespace K

theorem bind_inv {k : K α} {f : α → K β} {b : β} (h : (bind k f s).1 = .ok s' b) :
    ∃ s1 a, (k s).1 = .ok s1 a ∧ (f a s1).1 = .ok s' b ∧ (bind k f s).2 = (k s).2 + (f a s1).2 := by
  unfold bind at h ⊢
  rcases hk : k s with ⟨r, n⟩
  rw [hk] at h
  cases r with
  | ok s1 a => exact ⟨s1, a, rfl, h, rfl⟩
  | _ => cases h

theorem map_inv {k : K α} {f : α → β} {b : β} (h : (map k f s).1 = .ok s' b) :
    ∃ a, (k s).1 = .ok s' a ∧ b = f a ∧ (map k f s).2 = (k s).2 := by
  unfold map at h ⊢
  rcases hk : k s with ⟨r, n⟩
  rw [hk] at h
  cases r with
  | ok s1 a => cases h; exact ⟨a, rfl, rfl, rfl⟩
  | _ => cases h

theorem alt_inv {k l : K α} {a : α} (h : (alt k l s).1 = .ok s' a) :
    ((k s).1 = .ok s' a ∧ (alt k l s).2 = (k s).2) ∨
      ((k s).1 = .err ∧ (l s).1 = .ok s' a ∧ (alt k l s).2 = (k s).2 + (l s).2) := by
  unfold alt at h ⊢
  rcases hk : k s with ⟨r, n⟩
  rw [hk] at h
  cases r with
  | ok s1 b => exact .inl ⟨h, rfl⟩
  | err => exact .inr ⟨rfl, h, rfl⟩
  | _ => cases h

theorem deeper_inv {k : K α} {a : α} (h : (deeper k s).1 = .ok s' a) :
    ∃ s1, (k (s.withDepth (s.depth + 1))).1 = .ok s1 a ∧ s' = s1.withShallowerDepth ∧
      (deeper k s).2 = (k (s.withDepth (s.depth + 1))).2 := by
  have h : Scan.deeper (fun s => (k s).1) s = .ok s' a := h
  unfold Scan.deeper at h
  by_cases hd : s.depth ≥ 65535
  · rw [if_pos hd] at h; cases h
  · rw [if_neg hd] at h
    unfold deeper
    rw [if_neg hd]
    cases hk : (k (s.withDepth (s.depth + 1))).1 with
    | ok s1 b => simp only [hk] at h; cases h; exact ⟨s1, rfl, rfl, rfl⟩
    | _ => simp only [hk] at h; cases h

theorem located_inv {k : K α} {x : Located α} (h : (located k s).1 = .ok s' x) :
    (k s).1 = .ok s' x.inner ∧ (located k s).2 = (k s).2 :=
  ⟨(Vw.located_inv (p := fun s => (k s).1) h).1, rfl⟩

/-- The rounds of a loop. -/
inductive Loop (k : K α) : Span → List α → Span → Nat → Prop where
  | nil {s : Span} : (k s).1 = .err → Loop k s [] s (k s).2
  | cons {s s1 s' : Span} {a : α} {as : List α} {n : Nat} : (k s).1 = .ok s1 a → Loop k s1 as s' n →
      Loop k s (a :: as) s' ((k s).2 + n)

theorem loop_inv {k : K α} : ∀ {m : Nat} {s : Span} {as : List α}, (many0Loop k m s).1 = .ok s' as →
    Loop k s as s' (many0Loop k m s).2 := by
  intro m
  induction m with
  | zero => intro s as h; cases h
  | succ m ih =>
    intro s as h
    rcases hk : k s with ⟨r, n⟩
    have e1 : (k s).1 = r := by rw [hk]
    have e2 : (k s).2 = n := by rw [hk]
    unfold many0Loop at h ⊢
    simp only [hk] at h ⊢
    cases r with
    | err => cases h; rw [← e2]; exact .nil e1
    | ok s1 a =>
      simp only at h ⊢
      by_cases he : s1 = s
      · rw [if_pos he] at h; cases h
      · rw [if_neg he] at h ⊢
        rcases hl : many0Loop k m s1 with ⟨r, j⟩
        rw [hl] at h
        cases r with
        | ok s2 bs =>
          cases h
          have := ih (s := s1) (as := bs) (by rw [hl])
          rw [hl] at this
          rw [← e2]
          exact .cons e1 this
        | _ => cases h
    | _ => cases h

theorem many0_inv {k : K α} {as : List α} (h : (many0 k s).1 = .ok s' as) : Loop k s as s' (many0 k s).2 :=
  loop_inv h

/-- The last round fails. -/
theorem Loop.last {k : K α} {as : List α} {n : Nat} (h : Loop k s as s' n) : (k s').1 = .err ∧ (k s').2 ≤ n := by
  induction h with
  | nil h => exact ⟨h, Nat.le_refl _⟩
  | cons _ _ ih => exact ⟨ih.1, by omega⟩

end K

/-! ## Paragraphs -/

theorem In.view {k : Nat} (h : C.In k s) : View s s.asRemaining :=
  ⟨rfl, h.wf.le, by rw [h.wf.inner]; exact h.wf.hi⟩

theorem PrefixText.no_header {ty : ItemType} {su : Suffix} {w : Str} (h : PrefixText ty su w) : w.head? ≠ some c!"=" := by
  have run : ∀ {f : Byte → Prop} {w r : Str}, RunOf f w r → ¬ f 61 → ∃ c q, w = c :: q ∧ c ≠ 61 := by
    intro f w r h hf
    cases w with
    | nil => exact absurd rfl h.1
    | cons c q => exact ⟨c, q, rfl, fun e => hf (e ▸ h.2.1 c (by simp))⟩
  have num : ∀ {w r : Str}, NumberWord w r ty → ∃ c q, w = c :: q ∧ c ≠ 61 := by
    intro w r h
    cases ty with
    | number => exact run h (by unfold DigitByte; omega)
    | lowerRoman => exact run h (by unfold LowerRomanByte; decide)
    | upperRoman => exact run h (by unfold UpperRomanByte; decide)
    | lowerAlpha => exact run h.1 (by unfold LowerByte; omega)
    | upperAlpha => exact run h.1 (by unfold UpperByte; omega)
    | _ => exact h.elim
  cases h with
  | period h => obtain ⟨c, q, rfl, hc⟩ := num h; simpa using hc
  | paren h => obtain ⟨c, q, rfl, hc⟩ := num h; simpa using hc
  | _ => decide

/-- Where a list begins, it is read once to end the paragraph before it. -/
theorem paraLineK_list {k : Nat} {lk : K (Located Block)} {lp : P (Located Block)} (hi : C.In k s) (he : Er lk lp)
    (hl : ListLike lp) {x : Located Block}
    (h : (paraLineK C.env lk s).1 = .err) (hd : definitionList C.env s = .err) (ho : (lk s).1 = .ok s' x) :
    (lk s).2 ≤ (paraLineK C.env lk s).2 := by
  have hh : header C.env s = .err := by
    cases hh : header C.env s with
    | err => rfl
    | ok s1 y =>
      exfalso
      obtain ⟨ws, ty, su, w, r, e, hw, hp⟩ := hl _ _ _ _ (In.view hi) (he s ▸ ho)
      have hb := header_begins (In.view hi) hh
      rw [e] at hb
      cases w with
      | nil => exact hp.head.1 rfl
      | cons c q =>
        have h1 := hb.strip hw (t := c :: q ++ r) (fun x hx => hp.head.2 x (by simpa using hx)) (by decide) (by decide)
        obtain ⟨z, hz⟩ := h1
        cases hz
        exact hp.no_header rfl
    | panic r =>
      simp [paraLineK, continueParagraphK, K.bind, K.lift, P.not, hh] at h
    | diverge =>
      simp [paraLineK, continueParagraphK, K.bind, K.lift, P.not, hh] at h
  have e : paraLineK C.env lk s = (.err, (lk s).2) := by
    simp [paraLineK, continueParagraphK, K.bind, K.lift, K.not, P.not, hh, hd, ho]
  rw [e]
  exact Nat.le_refl _

/-- The paragraph ends where no further line is read. -/
theorem paragraphK_end {lk : K (Located Block)} {x : Located Block} (h : (paragraphK C.env lk s).1 = .ok s' x) :
    (∃ ls, x.inner = .paragraph ls) ∧ (paraLineK C.env lk s').1 = .err ∧
      (paraLineK C.env lk s').2 ≤ (paragraphK C.env lk s).2 := by
  obtain ⟨h1, e1⟩ := K.located_inv h
  unfold paragraphK
  rw [e1]
  obtain ⟨ls, h2, e2, e3⟩ := K.map_inv h1
  rw [e3]
  obtain ⟨s1, a, -, h3, e4⟩ := K.bind_inv h2
  obtain ⟨s2, as, h4, h5, e5⟩ := K.bind_inv h3
  have h5 : Res.ok s2 (a :: as) = .ok s' ls := h5
  cases h5
  have := (K.many0_inv h4).last
  refine ⟨⟨_, e2⟩, this.1, ?_⟩
  unfold K.many1
  rw [e4, e5]
  omega

/-! ## Nested blocks -/

/-- Neither a list nor a paragraph. -/
def Block.Plain (x : Block) : Prop := x.weight = 0 ∧ x.isPara = false

theorem located_plain {p : P Block} (h : Always p Block.Plain) : Always (located p) fun x => x.inner.Plain :=
  fun _ _ _ e => h _ _ _ (Vw.located_inv e).1

theorem plain_header (env : Env) : Always (header env) fun x => x.inner.Plain :=
  located_plain (.bind' fun _ => .bind' fun _ => .bind' fun _ => .bind' fun _ => .bind' fun _ => .pure ⟨rfl, rfl⟩)

theorem plain_defs (env : Env) : Always (definitionList env) fun x => x.inner.Plain :=
  located_plain (.map' fun _ => ⟨rfl, rfl⟩)

theorem plain_table (env : Env) : Always (table env) fun x => x.inner.Plain := .map' fun _ => ⟨rfl, rfl⟩

theorem plain_nestedTable (env : Env) : Always (nestedTable env) fun x => x.inner.Plain := .map' fun _ => ⟨rfl, rfl⟩

theorem plain_code : Always codeBlock fun x => x.inner.Plain :=
  located_plain (.bind' fun _ => .bind' fun _ => .bind' fun _ => .bind' fun _ => .pure ⟨rfl, rfl⟩)

theorem plain_math : Always mathBlock fun x => x.inner.Plain :=
  located_plain (.bind' fun _ => .bind' fun _ => .bind' fun _ => .bind' fun _ => .pure ⟨rfl, rfl⟩)

theorem plain_arrow : Always arrowBlockquote fun x => x.inner.Plain := located_plain (.map' fun _ => ⟨rfl, rfl⟩)

theorem plain_quote : Always blockquote fun x => x.inner.Plain :=
  .alt (located_plain (.map' fun _ => ⟨rfl, rfl⟩)) plain_arrow

theorem plain_divider : Always divider fun x => x.inner.Plain :=
  located_plain (.bind' fun _ => .bind' fun _ => .bind' fun _ => .pure ⟨rfl, rfl⟩)

theorem plain_placeholder (env : Env) : Always (placeholder env) fun x => x.inner.Plain := by
  unfold placeholder
  refine .bind' fun _ => .bind (located_plain (.map' fun _ => ⟨rfl, rfl⟩)) fun _ h => .bind' fun _ => .pure h

/-- What an alternative without lists yields weighs nothing. -/
theorem lift_inv {p : P (Located Block)} (h : Always p fun x => x.inner.Plain) {l : K (Located Block)} {x : Located Block}
    (e : (K.alt (.lift p) l s).1 = .ok s' x) :
    x.inner.Plain ∨ (p s = .err ∧ (l s).1 = .ok s' x ∧ (K.alt (.lift p) l s).2 = (l s).2) := by
  rcases K.alt_inv e with ⟨h1, -⟩ | ⟨h1, h2, h3⟩
  · exact .inl (h _ _ _ h1)
  · exact .inr ⟨h1, h2, by rw [h3]; simp [K.lift]⟩

/-- The results of nested blocks. -/
theorem nestedK_inv {lk : K (Located Block)} {x : Located Block} (h : (nestedK C.env lk s).1 = .ok s' x) :
    x.inner.Plain ∨ (definitionList C.env s = .err ∧ (lk s).1 = .ok s' x ∧ (nestedK C.env lk s).2 = (lk s).2) ∨
      ((paragraphK C.env lk s).1 = .ok s' x ∧ (paragraphK C.env lk s).2 ≤ (nestedK C.env lk s).2) := by
  rcases lift_inv (plain_defs _) h with h1 | ⟨h1, h2, h3⟩
  · exact .inl h1
  have h3 : (nestedK C.env lk s).2 = _ := h3
  rw [h3]
  rcases K.alt_inv h2 with ⟨h4, h5⟩ | ⟨h4, h5, h6⟩
  · exact .inr (.inl ⟨h1, h4, h5⟩)
  rcases lift_inv (plain_nestedTable _) h5 with h7 | ⟨-, h7, e1⟩
  · exact .inl h7
  rcases lift_inv plain_code h7 with h8 | ⟨-, h8, e2⟩
  · exact .inl h8
  rcases lift_inv plain_math h8 with h9 | ⟨-, h9, e3⟩
  · exact .inl h9
  rcases lift_inv plain_arrow h9 with h10 | ⟨-, h10, e4⟩
  · exact .inl h10
  refine .inr (.inr ⟨h10, ?_⟩)
  have e1 : (K.alts [.lift (nestedTable C.env), .lift codeBlock, .lift mathBlock, .lift arrowBlockquote, paragraphK C.env lk] s).2 = _ := e1
  have e2 : (K.alts [.lift codeBlock, .lift mathBlock, .lift arrowBlockquote, paragraphK C.env lk] s).2 = _ := e2
  have e3 : (K.alts [.lift mathBlock, .lift arrowBlockquote, paragraphK C.env lk] s).2 = _ := e3
  have e4 : (K.alts [.lift arrowBlockquote, paragraphK C.env lk] s).2 = (paragraphK C.env lk s).2 := e4
  show _ ≤ (K.alt lk (K.alts [.lift (nestedTable C.env), .lift codeBlock, .lift mathBlock, .lift arrowBlockquote, paragraphK C.env lk]) s).2
  rw [h6, e1, e2, e3, e4]
  omega

/-- What is known of how often lists are read on short enough spans. -/
def NestedLow (C : Ctx) (nk : K (Located Block)) (n : Nat) : Prop :=
  ∀ k t t' x, C.In (k + 2) t → t.stop - t.start < n → (nk t).1 = .ok t' x →
    x.inner.weight ≤ (nk t).2 ∧
      (x.inner.isPara = true → ∀ t'' y, (nk t').1 = .ok t'' y → y.inner.weight ≤ (nk t).2)

/-- The contents of an item after the first one. -/
def contK (nk : K (Located Block)) (ind : Nat) : K (Located Block) :=
  .bind (.lift (verify indentationPeek (fun level => decide (level > ind)))) fun _ => .deeper nk

theorem peek_verify_inv {f : Nat → Bool} {a : Nat} (h : verify indentationPeek f s = .ok s' a) : s' = s := by
  unfold verify indentationPeek P.map peek at h
  cases h0 : space0 s with
  | ok s1 o =>
    rw [h0] at h
    simp only at h
    split at h
    · cases h; rfl
    · cases h
  | _ => rw [h0] at h; cases h

theorem weightConts_cons (tw : Bool) (x : Located Block) (xs : List (Located Block)) :
    Block.weightConts tw (x :: xs) = (if tw then 2 else 1) * x.inner.weight + Block.weightConts x.inner.isPara xs := by
  obtain ⟨x, _⟩ := x
  rw [Block.weightConts]

theorem isPara_weight {x : Block} (h : x.isPara = true) : x.weight = 0 := by
  cases x <;> first | rfl | cases h

/-- The contents of an item. -/
theorem contsLow {nk : K (Located Block)} {np : P (Located Block)} {n k ind : Nat} (he : Er nk np) (hn : NestedOk C np n)
    (hl : NestedLow C nk n) : ∀ {xs : List (Located Block)} {s s' : Span} {c : Nat}, Loop (contK nk ind) s xs s' c →
      C.In (k + 3) s → s.stop - s.start < n → ∀ (tw : Bool) (e : Nat),
      (tw = true → ∀ t y, (nk (s.withDepth (s.depth + 1))).1 = .ok t y → y.inner.weight ≤ e) →
      Block.weightConts tw xs ≤ c + (if tw then e else 0) := by
  intro xs
  induction xs with
  | nil => intro s s' c _ _ _ tw e _; simp [Block.weightConts]
  | cons x xs ih =>
    intro s s' c h hi hs tw e htw
    cases h with
    | cons h1 h2 =>
      rename_i s1 m
      obtain ⟨s0, a, h0, h1', e1⟩ := K.bind_inv h1
      have := peek_verify_inv (f := fun level => decide (level > ind)) h0
      subst this
      obtain ⟨s2, h3, rfl, e2⟩ := K.deeper_inv h1'
      have hi1 : C.In (k + 2) (s0.withDepth (s0.depth + 1)) := withDepth_in (hi.mono (by omega))
      have hb : BlockRes C _ s2 x := ok_of_run (hn k _ hi1 hs) (he _ ▸ h3)
      have hd : s2.depth = s0.depth + 1 := hb.good.step.depth
      have hst : s2.stop = s0.stop := hb.good.step.stop
      have hle : s0.start ≤ s2.start := hb.good.step.le
      have hhi : s2.start ≤ s0.stop := hb.good.step.hi
      have hsh : s2.withShallowerDepth = { s0 with start := s2.start } := by
        unfold Span.withShallowerDepth Span.withDepth
        rw [hd]
        have : s2.inner = s0.inner := hb.good.step.inner
        simp [this, hst]
      obtain ⟨l1, l2⟩ := hl k _ _ _ hi1 hs h3
      have ec : (contK nk ind s0).2 = (nk (s0.withDepth (s0.depth + 1))).2 := by
        unfold contK; rw [e1, e2]; simp [K.lift]
      rw [weightConts_cons]
      have hg : C.Good s0 s2.withShallowerDepth := by
        rw [hsh]; exact ⟨⟨rfl, rfl, rfl, hle, hhi⟩, hb.good.b⟩
      have := ih h2 (hi.good hg) (by rw [hsh]; show s0.stop - s2.start < n; omega) x.inner.isPara
        (nk (s0.withDepth (s0.depth + 1))).2 (fun hp t y hy => l2 hp t y (by
          have e : s2.withShallowerDepth.withDepth (s2.withShallowerDepth.depth + 1) = s2 := by
            rw [hsh]
            have h1 : s2.inner = s0.inner := hb.good.step.inner
            cases s2; simp_all [Span.withDepth]
          rw [e] at hy
          exact hy))
      rw [ec]
      have hx : tw = true → x.inner.weight ≤ e := fun ht => htw ht _ _ h3
      by_cases hp : x.inner.isPara = true
      · rw [hp] at this ⊢
        rw [isPara_weight hp]
        simp only [if_true] at this
        cases tw <;> simp <;> omega
      · have hp : x.inner.isPara = false := by simpa using hp
        rw [hp] at this ⊢
        simp only [Bool.false_eq_true, if_false] at this
        cases tw
        · simp; omega
        · have := hx rfl
          simp
          omega

/-- The tail of an item. -/
theorem tailLow {nk : K (Located Block)} {np : P (Located Block)} {n k ind : Nat} (he : Er nk np) (hn : NestedOk C np n)
    (hl : NestedLow C nk n) (hi : C.In (k + 3) s) (hs : s.stop - s.start < n) {r : Option Todo × List (Located Block)}
    (h : (listItemTailK nk ind s).1 = .ok s' r) : Block.weightConts false r.2 ≤ (listItemTailK nk ind s).2 := by
  obtain ⟨s1, td, h1, h, e1⟩ := K.bind_inv h
  unfold listItemTailK
  rw [e1]
  have g1 : C.Good s s1 := ok_of_run (Q := fun s' _ => C.Good s s') (opt_good hi ((todoStatus_ok hi).mono fun _ _ h => h.1)) h1
  have hi1 := hi.good g1
  have l1 := g1.step.le
  have st1 := g1.step.stop
  obtain ⟨s3, x, h2, h, e2⟩ := K.bind_inv h
  rw [e2]
  obtain ⟨s2, h3, rfl, e3⟩ := K.deeper_inv h2
  rw [e3]
  obtain ⟨s4, xs, h4, h, e4⟩ := K.bind_inv h
  rw [e4]
  cases h
  have hs1 : s1.stop - s1.start < n := by omega
  have hi2 : C.In (k + 2) (s1.withDepth (s1.depth + 1)) := withDepth_in (hi1.mono (by omega))
  have hb : BlockRes C _ s2 x := ok_of_run (hn k _ hi2 hs1) (he _ ▸ h3)
  have hd : s2.depth = s1.depth + 1 := hb.good.step.depth
  have hst : s2.stop = s1.stop := hb.good.step.stop
  have hin : s2.inner = s1.inner := hb.good.step.inner
  have hle : s1.start ≤ s2.start := hb.good.step.le
  have hhi : s2.start ≤ s1.stop := hb.good.step.hi
  have hsh : s2.withShallowerDepth = { s1 with start := s2.start } := by
    unfold Span.withShallowerDepth Span.withDepth
    rw [hd]
    simp [hin, hst]
  have hg : C.Good s1 s2.withShallowerDepth := by
    rw [hsh]; exact ⟨⟨rfl, rfl, rfl, hle, hhi⟩, hb.good.b⟩
  obtain ⟨w1, w2⟩ := hl k _ _ _ hi2 hs1 h3
  have := contsLow (ind := ind) he hn hl (K.many0_inv h4) (hi1.good hg) (by rw [hsh]; show s1.stop - s2.start < n; omega) x.inner.isPara
    (nk (s1.withDepth (s1.depth + 1))).2 (fun hp t y hy => w2 hp t y (by
      have e : s2.withShallowerDepth.withDepth (s2.withShallowerDepth.depth + 1) = s2 := by
        rw [hsh]
        cases s2; simp_all [Span.withDepth]
      rw [e] at hy
      exact hy))
  rw [weightConts_cons]
  unfold contK at this
  by_cases hp : x.inner.isPara = true
  · rw [hp] at this ⊢
    rw [isPara_weight hp]
    simp only [if_true, Nat.mul_zero, Nat.zero_add] at this ⊢
    omega
  · have hp : x.inner.isPara = false := by simpa using hp
    rw [hp] at this ⊢
    simp only [Bool.false_eq_true, if_false] at this ⊢
    omega

/-- An item. -/
theorem itemLow {nk : K (Located Block)} {np : P (Located Block)} {n k : Nat} (he : Er nk np) (hn : NestedOk C np n)
    (hl : NestedLow C nk n) (hi : C.In (k + 1) s) (hs : s.stop - s.start < n + 2) {r : Nat × Located ListItem}
    (h : (listItemK nk s).1 = .ok s' r) : Block.weightConts false r.2.inner.contents ≤ (listItemK nk s).2 := by
  obtain ⟨s0, u, h1, hh, e1⟩ := K.bind_inv h
  unfold listItemK
  rw [e1]
  have e0 : s0 = s := (ok_of_run (beginningOfLine_good hi) h1).1
  subst e0
  clear h
  obtain ⟨s1, ind, h2, h, e2⟩ := K.bind_inv hh
  rw [e2]
  have g1 : C.Good s0 s1 := ok_of_run (Q := fun s' _ => C.Good s0 s') ((indentationConsume_ok hi).mono fun _ _ h => h.1) h2
  have hi1 := hi.good g1
  have l1 := g1.step.le
  have st1 := g1.step.stop
  cases h3 : itemLines ind s1 with
  | ok s2 o =>
    simp only [h3] at h ⊢
    obtain ⟨g2, -, ho⟩ := ok_of_run (itemLines_ok hi1 ind) h3
    have hsub : Sub s1 o := by
      rw [ho]; exact ⟨rfl, rfl, Nat.le_refl _, g2.step.le, g2.step.hi⟩
    have hoin : C.In (k + 1) o := hi1.sub hsub (by rw [ho]; exact hi1.bs) (by rw [ho]; exact g2.b)
    have hio := hsub.hi
    have hos : o.start = s1.start := by rw [ho]
    rcases hb : listItemBodyK nk ind o with ⟨q, c⟩
    rw [hb] at h
    cases q with
    | ok o' item =>
      simp only at h ⊢
      have hr : r.2 = item := by
        split at h
        · cases h
        · cases h; rfl
      rw [hr]
      have h4 : (listItemBodyK nk ind o).1 = .ok o' item := by rw [hb]
      have hc : (listItemBodyK nk ind o).2 = c := by rw [hb]
      obtain ⟨h5, e5⟩ := K.located_inv h4
      obtain ⟨a, h6, e6, e7⟩ := K.map_inv h5
      obtain ⟨o1, pf, h7, h8, e8⟩ := K.bind_inv h6
      obtain ⟨o2, tl, h9, h10, e9⟩ := K.bind_inv h8
      have h10 : Res.ok o2 (pf, tl) = .ok o' a := h10
      cases h10
      obtain ⟨go1, lto1⟩ := ok_of_run (listItemPrefix_ok hoin) h7
      have ho1 : C.In (k + 3) o1 := (hoin.good_lt go1 (by omega)).mono (by omega)
      have hst := go1.step.stop
      have hle1 := ho1.wf.le
      have := tailLow he hn hl ho1 (by omega) h9
      rw [e6]
      have hc2 : c = (listItemTailK nk ind o1).2 := by
        rw [← hc]
        unfold listItemBodyK
        rw [e5, e7, e8, e9]
        simp [K.lift]
      rw [hc2]
      exact Nat.le_trans this (by omega)
    | _ => cases h
  | _ => simp only [h3] at h; cases h

theorem weightItems_cons (x : Located ListItem) (xs : List (Located ListItem)) :
    Block.weightItems (x :: xs) = Block.weightConts false x.inner.contents + Block.weightItems xs := by
  obtain ⟨⟨_, _, _, _, _⟩, _⟩ := x
  rw [Block.weightItems]

theorem weightItems_assign : ∀ (i : Nat) (xs : List (Located ListItem)),
    Block.weightItems (assignPos i xs) = Block.weightItems xs := by
  intro i xs
  induction xs generalizing i with
  | nil => rfl
  | cons x xs ih => rw [assignPos, weightItems_cons, weightItems_cons, ih]

theorem weightItems_ty (ty : ItemType) : ∀ xs : List (Located ListItem),
    Block.weightItems (xs.map fun x => ⟨{ x.inner with ty := ty }, x.region⟩) = Block.weightItems xs := by
  intro xs
  induction xs with
  | nil => rfl
  | cons x xs ih => rw [List.map_cons, weightItems_cons, weightItems_cons, ih]

/-- A list. -/
theorem listLow {nk : K (Located Block)} {np : P (Located Block)} {n k : Nat} (he : Er nk np) (hn : NestedOk C np n)
    (hl : NestedLow C nk n) (hi : C.In (k + 2) s) (hs : s.stop - s.start < n + 2) {x : Located Block}
    (h : (listK nk s).1 = .ok s' x) : x.inner.weight ≤ (listK nk s).2 := by
  have deep : ∀ {t t' : Span} {r : Nat × Located ListItem}, C.In (k + 2) t → t.stop - t.start < n + 2 →
      (K.deeper (listItemK nk) t).1 = .ok t' r → C.Good t t' ∧
      Block.weightConts false r.2.inner.contents ≤ (K.deeper (listItemK nk) t).2 := by
    intro t t' r ht hts h
    refine ⟨(ok_of_run (deeperItem_ok ht hn hts) (er_deeper (er_item he) t ▸ h)).1, ?_⟩
    obtain ⟨t1, h1, rfl, e1⟩ := K.deeper_inv h
    rw [e1]
    exact itemLow he hn hl (k := k) (withDepth_in (ht.mono (by omega))) hts h1
  have h : (K.located _ s).1 = .ok s' x := h
  obtain ⟨h1, e1⟩ := K.located_inv h
  show _ ≤ (K.located _ s).2 + 1
  rw [e1]
  obtain ⟨s1, ⟨ind, item⟩, h2, h1, e2⟩ := K.bind_inv h1
  rw [e2]
  obtain ⟨g1, w1⟩ := deep hi hs h2
  obtain ⟨s2, items, h3, h1, e3⟩ := K.bind_inv h1
  simp only at e3 ⊢
  rw [e3]
  have h1 : Res.ok s2 (Block.list (normalizeItems (item :: assignPos 1 items))) = .ok s' x.inner := h1
  have hx : x.inner = Block.list (normalizeItems (item :: assignPos 1 items)) := by
    injection h1 with _ h1; exact h1.symm
  rw [hx, Block.weight, normalizeItems, weightItems_cons, weightItems_ty, weightItems_assign]
  have loop : ∀ {xs : List (Located ListItem)} {t t' : Span} {c : Nat},
      Loop (.bind (.lift (verify indentationPeek (fun level => decide (level = ind))))
        fun _ => .map (.deeper (listItemK nk)) (·.2)) t xs t' c → C.In (k + 2) t → t.stop - t.start < n + 2 →
      Block.weightItems xs ≤ c := by
    intro xs
    induction xs with
    | nil => intro t t' c _ _ _; simp [Block.weightItems]
    | cons y ys ih =>
      intro t t' c h ht hts
      cases h with
      | cons h1 h2 =>
        obtain ⟨t0, a, h0, h1', e1⟩ := K.bind_inv h1
        have := peek_verify_inv (f := fun level => decide (level = ind)) h0
        subst this
        obtain ⟨r, h3, hr, e3⟩ := K.map_inv h1'
        obtain ⟨g, w⟩ := deep ht hts h3
        have l := g.step.le
        have st := g.step.stop
        have := ih h2 (ht.good g) (by omega)
        rw [weightItems_cons, hr, e1, e3]
        have w : Block.weightConts false r.2.inner.contents ≤ _ := w
        omega
  have l := g1.step.le
  have st := g1.step.stop
  have := loop (K.many0_inv h3) (hi.good g1) (by omega)
  simp only at w1
  omega

/-- Nested blocks. -/
theorem nestedLow : ∀ n, NestedLow C (nestedFK C.env n) n := by
  intro n
  induction n with
  | zero => intro k t t' x _ h; omega
  | succ n ih =>
    intro k t t' x hi ht h
    have hlist : ∀ {u u' : Span} {y : Located Block}, C.In (k + 2) u → u.stop - u.start < n + 2 →
        (listK (nestedFK C.env n) u).1 = .ok u' y → y.inner.weight ≤ (listK (nestedFK C.env n) u).2 :=
      fun hu hus h => listLow (er_nestedF n) (nestedF_ok n) ih hu hus h
    have h : (nestedK C.env (listK (nestedFK C.env n)) t).1 = .ok t' x := h
    show x.inner.weight ≤ (nestedK C.env (listK (nestedFK C.env n)) t).2 ∧ (_ → ∀ t'' y,
      (nestedK C.env (listK (nestedFK C.env n)) t').1 = .ok t'' y → _ ≤ (nestedK C.env (listK (nestedFK C.env n)) t).2)
    rcases nestedK_inv h with hp | ⟨-, h1, e1⟩ | ⟨h1, e1⟩
    · exact ⟨by rw [hp.1]; omega, fun hh => by rw [hp.2] at hh; cases hh⟩
    · refine ⟨by rw [e1]; exact hlist hi (by omega) h1, fun hh => ?_⟩
      exfalso
      have h1 : (K.located _ t).1 = .ok t' x := h1
      obtain ⟨h2, -⟩ := K.located_inv h1
      obtain ⟨s1, ⟨ind, item⟩, -, h2, -⟩ := K.bind_inv h2
      obtain ⟨s2, items, -, h2, -⟩ := K.bind_inv h2
      have h2 : Res.ok s2 (Block.list (normalizeItems (item :: assignPos 1 items))) = .ok t' x.inner := h2
      injection h2 with _ h2
      rw [← h2] at hh
      cases hh
    · obtain ⟨⟨ls, hx⟩, h2, e2⟩ := paragraphK_end h1
      refine ⟨by rw [hx]; simp [Block.weight], fun _ t'' y hy => ?_⟩
      have hb : BlockRes C t t' x := ok_of_run (nestedF_ok (n + 1) k t hi ht) (er_nestedF (n + 1) t ▸ h)
      have hi' := hi.good hb.good
      have l := hb.good.step.le
      have st := hb.good.step.stop
      rcases nestedK_inv hy with hp | ⟨h3, h4, -⟩ | ⟨h4, -⟩
      · rw [hp.1]; omega
      · have w1 := hlist hi' (by omega) h4
        have w2 := paraLineK_list hi' (er_list (er_nestedF n)) (listLike_listOf _) h2 h3 h4
        omega
      · obtain ⟨⟨ls, hx⟩, -⟩ := paragraphK_end h4
        rw [hx]
        simp [Block.weight]

end Vw
