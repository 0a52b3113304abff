import Verif.Lemmas.BlocksC
import Verif.Lemmas.ListPrefix

/-!
# Facts about paragraphs, lists and pages
-/

namespace Vw
open P Scan

variable {C : Ctx} {k : Nat}

/-! ## When repetition fails -/

theorem many0Loop_ne_err {α} {p : P α} {I : Span → Prop}
    (h : ∀ s, I s → ∀ s' a, p s = .ok s' a → s' ≠ s ∧ I s') (n : Nat) (s : Span) (hs : I s) :
    many0Loop p n s ≠ .err := by
  induction n generalizing s with
  | zero => simp [many0Loop]
  | succ n ih =>
    unfold many0Loop
    cases hp : p s with
    | ok s' a =>
      obtain ⟨h1, h2⟩ := h s hs s' a hp
      simp only [if_neg h1]
      have := ih s' h2
      cases hm : many0Loop p n s' with
      | err => exact absurd hm this
      | _ => simp
    | _ => simp

theorem many0_ne_err {α} {p : P α} {I : Span → Prop}
    (h : ∀ s, I s → ∀ s' a, p s = .ok s' a → s' ≠ s ∧ I s') {s : Span} (hs : I s) :
    many0 p s ≠ .err := many0Loop_ne_err h _ s hs

theorem many1_err {α} {p : P α} {I : Span → Prop}
    (h : ∀ s, I s → ∀ s' a, p s = .ok s' a → s' ≠ s ∧ I s') {s : Span} (hs : I s)
    (he : many1 p s = .err) : p s = .err := by
  unfold many1 at he
  rcases bind_err he with he | ⟨s1, a, h1, h2⟩
  · exact he
  · rcases bind_err h2 with h2 | ⟨_, _, _, h3⟩
    · exact absurd h2 (many0_ne_err h (h s hs _ _ h1).2)
    · cases h3

theorem ok_of_run {α} {r : Res α} {Q : Span → α → Prop} {s' : Span} {a : α} (h : C.Ok r Q)
    (hr : r = .ok s' a) : Q s' a := by
  subst hr; exact h

theorem inlineContainer_err {s : Span} (h : C.In (k + 1) s)
    (he : inlineContainer C.env s = .err) :
    s.start = s.stop ∨ LineEndAt C.inner s.stop s.start := by
  have he := deeper_err (many1_err (I := fun t => C.In (k + 1) t) ?_ h (located_err he))
  · have := inlineElement_err (withDepth_in h) he
    exact this
  · intro t ht t' x hx
    obtain ⟨g, lt, _⟩ := ok_of_run (deeper_inline_ok ht) hx
    exact ⟨fun e => by rw [e] at lt; omega, ht.good g⟩

/-! ## Blank lines -/

theorem blankLine_err {s : Span} (h : C.In k s) (hb : Bol C s.start) (hlt : s.start < s.stop)
    (he : blankLine s = .err) {s1 o : Span} (hs1 : space0 s = .ok s1 o) :
    s1.start < s1.stop ∧ ¬ LineEndAt C.inner s1.stop s1.start := by
  have hw := ok_of_run (space0_good h) hs1
  have h1 := h.good hw.1.good
  unfold blankLine preceded at he
  rcases bind_err he with he | ⟨s', _, hr, he'⟩
  · exact absurd hb (beginningOfLine_err h.wf he)
  · have := (ok_of_run (beginningOfLine_good h) hr).1
    subst this
    obtain ⟨e1, e2⟩ := alt_err he'
    have e2' := terminated_err e2 hs1
    refine ⟨?_, lineEnding_err h1.wf e2'⟩
    rcases Nat.lt_or_ge s1.start s1.stop with hh | hh
    · exact hh
    · exfalso
      have hst := hw.1.good.step.stop
      have hs1' : space1 s' = .ok s1 o := by
        unfold space1 takeWhile1
        unfold space0 takeWhile0 at hs1
        rw [if_neg, hs1]
        intro h0
        rw [h0] at hs1
        have hts := hw.2.all
        simp only [takeSplit, Res.ok.injEq] at hs1
        have := hs1.1
        rw [← this] at hh hst
        simp only [Span.sliceFrom, Span.advanceStartBy] at hh hst
        split at hh <;> simp_all <;> omega
      have e1' := terminated_err e1 hs1'
      have := (endOfLineOrInput_err h1.wf e1').1
      omega


/-! ## Paragraphs -/

/-- Outcome of a parser of one row of a paragraph. -/
structure ParaRow (C : Ctx) (s s' : Span) (xs : Inlines) : Prop where
  good : C.Good s s'
  lt : s.start < s'.start
  ends : Ends C s s'
  row : Rows C (s.depth + 1) s.start [xs] s'.start

theorem Rows.mono {d a a' b b' : Nat} {xs : List Inlines} (h : Rows C d a xs b)
    (ha : Gap C [] a' a) (hb : Gap C [] b b') : Rows C d a' xs b' := by
  induction h generalizing a' with
  | nil h => exact .nil ((ha.trans h).trans hb)
  | cons h1 h2 h3 h4 ih => exact .cons (ha.trans h1) h2 h3 (ih .refl hb)

theorem continueParagraph_ok {s : Span} (h : C.In (k + 2) s) {list : P (Located Block)}
    (hl : C.Ok (list s) (BlockRes C s)) :
    C.Ok (continueParagraphOf C.env list s) (fun s' _ => s' = s) := by
  have tr : ∀ {α} {r : Res α} {Q : Span → α → Prop}, C.Ok r Q → C.Ok r (fun _ _ => True) :=
    fun h => h.mono fun _ _ _ => trivial
  have nt : ∀ {α} {p : P α}, C.Ok (p s) (fun _ _ => True) →
      C.Ok (P.not p s) (fun s' _ => s' = s) := fun h => Ctx.Ok.not h fun _ => rfl
  have h1 : C.In (k + 1) s := h.mono (by omega)
  unfold continueParagraphOf
  refine Ctx.Ok.bind' (nt (tr (header_ok h1))) ?_; intro s' _ e; rw [e]
  refine Ctx.Ok.bind' (nt (tr (definitionList_ok h))) ?_; intro s' _ e; rw [e]
  refine Ctx.Ok.bind' (nt (tr hl)) ?_; intro s' _ e; rw [e]
  refine Ctx.Ok.bind' (nt (tr (table_ok h))) ?_; intro s' _ e; rw [e]
  refine Ctx.Ok.bind' (nt (tr (codeBlock_ok h))) ?_; intro s' _ e; rw [e]
  refine Ctx.Ok.bind' (nt (tr (mathBlock_ok h))) ?_; intro s' _ e; rw [e]
  refine Ctx.Ok.bind' (nt (tr (blankLine_good h))) ?_; intro s' _ e; rw [e]
  refine Ctx.Ok.bind' (nt (tr (arrowBlockquote_ok h))) ?_; intro s' _ e; rw [e]
  refine Ctx.Ok.bind' (nt (tr (divider_ok h))) ?_; intro s' _ e; rw [e]
  refine Ctx.Ok.bind' (nt (tr (placeholder_ok h))) ?_; intro s' _ e; rw [e]
  exact Ctx.Ok.pure rfl

theorem paragraphRow_ok {s : Span} (h : C.In (k + 2) s) {list : P (Located Block)}
    (hl : C.Ok (list s) (BlockRes C s)) :
    C.Ok (delimited (continueParagraphOf C.env list) (paragraphLine C.env) endOfLineOrInput s)
      (ParaRow C s) := by
  refine Ctx.Ok.delimited ((continueParagraph_ok h hl).mono ?_)
  intro s' _ e
  rw [e]
  refine Ctx.Ok.bind' (space0_good h) ?_
  rintro s1 _ ⟨hsp1, tk1⟩
  have h1 : C.In (k + 1) s1 := (h.good hsp1.good).mono (by omega)
  refine Ctx.Ok.map ((inlineContainer_ok h1).mono ?_)
  rintro s2 x ⟨hc, _⟩
  refine (endOfLine_full (h1.good hc.good)).mono ?_
  intro s3 _ he
  have g := hsp1.good.trans hc.good
  have l1 := hsp1.good.step.le
  have l2 := hc.lt
  have l3 := he.good.step.le
  refine ⟨g.trans he.good, by omega, he.ends.of_good g, ?_⟩
  have ht := hc.tile
  rw [hsp1.good.step.depth] at ht
  exact .cons (tk1.gap hsp1.good) ht hc.ne (.nil he.gap)

theorem paragraphOf_ok {s : Span} (h : C.In (k + 2) s) {list : P (Located Block)}
    (hl : ∀ t, C.In (k + 2) t → t.stop - t.start ≤ s.stop - s.start → C.Ok (list t) (BlockRes C t)) :
    C.Ok (paragraphOf C.env list s) (BlockRes C s) := by
  refine located_block (Ctx.Ok.map ((Ctx.Ok.many1 (I := fun t => C.In (k + 2) t ∧ Step s t)
    (T := fun t rows t' => C.Good t t' ∧ (t' = t ∨ Ends C t t') ∧
      Rows C (s.depth + 1) t.start rows t'.start) ?_ ?_ ⟨h, Step.refl h.wf.le⟩).mono ?_))
  · rintro t ⟨ht, hst⟩
    have h1 := hst.le
    have h2 := hst.stop
    refine (paragraphRow_ok ht (hl t ht (by omega))).mono ?_
    intro t1 xs hx
    refine ⟨hx.good.step, hx.lt, ⟨ht.good hx.good, hst.trans hx.good.step⟩, ?_⟩
    rintro as t2 ⟨g2, he2, hT⟩
    refine ⟨hx.good.trans g2, .inr ?_, ?_⟩
    · rcases he2 with rfl | he2
      · exact hx.ends
      · exact he2.of_good hx.good
    · have hr := hx.row
      rw [hst.depth] at hr
      cases hr with
      | cons h1 h2 h3 h4 =>
        cases h4 with
        | nil h5 => exact .cons h1 h2 h3 (hT.mono h5 .refl)
  · rintro t ⟨ht, _⟩ _
    exact ⟨Ctx.Good.refl ht, .inl rfl, .nil .refl⟩
  · rintro s' rows ⟨_, lt, _, _, ⟨g, he, hT⟩, hne⟩
    refine ⟨g, lt, ?_, .paragraph hT hne⟩
    rcases he with rfl | he
    · omega
    · exact he

/-! ## Lists -/

theorem indentationConsume_ok {s : Span} (h : C.In k s) :
    C.Ok (indentationConsume s) (fun s' _ => C.Good s s' ∧ Gap C [] s.start s'.start) :=
  Ctx.Ok.map ((space0_good h).mono fun _ _ h => ⟨h.1.good, h.2.gap h.1.good⟩)

theorem indentationPeek_ok {s : Span} (h : C.In k s) :
    C.Ok (indentationPeek s) (fun s' _ => s' = s) :=
  Ctx.Ok.map (Ctx.Ok.peek ((space0_good h).mono fun _ _ _ => rfl))

theorem indentVerify_ok {s : Span} (h : C.In k s) (f : Nat → Bool) :
    C.Ok (verify indentationPeek f s) (fun s' _ => s' = s) :=
  Ctx.Ok.verify ((indentationPeek_ok h).mono fun _ _ h _ => h)

/-- Like `tag_good`, with only the facts needed for prefixes. -/
theorem tag_lt {s : Span} (h : C.In k s) (t : Str) (ht : t ≠ []) (hta : ∀ b ∈ t, b < 128) :
    C.Ok (tag t s) (fun s' _ => C.Good s s' ∧ s'.start = s.start + t.length) :=
  (tag_good h t ht hta).mono fun _ _ h => ⟨h.1.good, h.2.1⟩

/-- Like `tag_good`, with the text. -/
theorem tag_sub {s : Span} (h : C.In k s) (t : Str) (ht : t ≠ []) (hta : ∀ b ∈ t, b < 128) :
    C.Ok (tag t s) (fun s' _ => C.Good s s' ∧ sub C.inner s.start s'.start = t) :=
  (tag_good h t ht hta).mono fun _ _ h => ⟨h.1.good, by rw [h.2.1]; exact h.2.2.2.sub⟩

theorem todoStatus_ok {s : Span} (h : C.In k s) :
    C.Ok (todoStatus s) (fun s' t => C.Good s s' ∧
      sub C.inner s.start s'.start = todoText (some t)) := by
  refine Ctx.Ok.bind' (tag_sub h _ (by decide) (by decide)) ?_
  rintro s1 _ ⟨g1, e1⟩
  have h1 := h.good g1
  refine Ctx.Ok.bind' (Q1 := fun s' t => C.Good s1 s' ∧ sub C.inner s1.start s'.start = todoMark t)
    (Ctx.Ok.alts ?_) ?_
  · intro p hp
    simp only [List.mem_cons, List.not_mem_nil, or_false] at hp
    rcases hp with rfl | rfl | rfl | rfl | rfl | rfl <;>
      exact Ctx.Ok.value ((tag_sub h1 _ (by decide) (by decide)).mono fun _ _ h => h)
  rintro s2 t ⟨g2, e2⟩
  refine Ctx.Ok.bind' (tag_sub (h1.good g2) _ (by decide) (by decide)) ?_
  rintro s3 _ ⟨g3, e3⟩
  refine Ctx.Ok.pure ⟨(g1.trans g2).trans g3, ?_⟩
  rw [← sub_append C.inner s.start s1.start s3.start g1.step.le (g2.trans g3).step.le,
    ← sub_append C.inner s1.start s2.start s3.start g2.step.le g3.step.le, e1, e2, e3]
  rfl

theorem orderedType_ok {s : Span} (h : C.In k s) :
    C.Ok (orderedType s) (fun s' _ => C.Good s s' ∧ s.start < s'.start) := by
  have tw : ∀ f : Byte → Bool, (∀ b, f b = true → b < 128) →
      C.Ok (takeWhile1 f s) (fun s' _ => C.Good s s' ∧ s.start < s'.start) := fun f hf =>
    (takeWhile1_good h f (.inl hf)).mono fun _ _ h => ⟨h.1.good, h.2.2⟩
  have ro : ∀ cs : Str, (∀ b ∈ cs, b < 128) →
      C.Ok (many1 (oneOf cs) s) (fun s' _ => C.Good s s' ∧ s.start < s'.start) := by
    intro cs hcs
    refine (Ctx.Ok.many1 (I := fun t => C.In k t) (T := fun t _ t' => C.Good t t') ?_ ?_ h).mono ?_
    · intro t ht
      refine (satisfy_good ht _ ?_).mono ?_
      · intro b hb
        exact hcs b (by simpa using hb)
      · rintro t' b ⟨g, h2, _⟩
        exact ⟨g.step, by omega, ht.good g, fun _ _ h => g.trans h⟩
    · intro t ht _
      exact Ctx.Good.refl ht
    · rintro s' _ ⟨_, lt, _, _, g, _⟩
      exact ⟨g, lt⟩
  refine Ctx.Ok.alts ?_
  intro p hp
  simp only [List.mem_cons, List.not_mem_nil, or_false] at hp
  rcases hp with rfl | rfl | rfl | rfl | rfl
  · exact Ctx.Ok.value (tw _ (by intro b; simp [isDigit]; omega))
  · exact Ctx.Ok.value (ro _ (by decide))
  · exact Ctx.Ok.value (ro _ (by decide))
  · exact Ctx.Ok.value (tw _ (by intro b; simp [isLower]; omega))
  · exact Ctx.Ok.value (tw _ (by intro b; simp [isUpper]; omega))

theorem listItemPrefix_ok {s : Span} (h : C.In k s) :
    C.Ok (listItemPrefix s) (fun s' _ => C.Good s s' ∧ s.start + 2 ≤ s'.start) := by
  refine Ctx.Ok.alts ?_
  intro p hp
  simp only [List.mem_cons, List.not_mem_nil, or_false] at hp
  rcases hp with rfl | rfl | rfl | rfl
  · exact Ctx.Ok.value ((tag_lt h _ (by decide) (by decide)).mono fun _ _ h => ⟨h.1, by
      have := h.2; simp at this; omega⟩)
  · exact Ctx.Ok.value ((tag_lt h _ (by decide) (by decide)).mono fun _ _ h => ⟨h.1, by
      have := h.2; simp at this; omega⟩)
  · refine Ctx.Ok.pair ((orderedType_ok h).mono ?_)
    rintro s1 _ ⟨g1, lt1⟩
    have h1 := h.good g1
    refine Ctx.Ok.alt ?_ fun _ => ?_ <;>
    · refine Ctx.Ok.value ((tag_lt h1 _ (by decide) (by decide)).mono ?_)
      rintro s2 _ ⟨g2, e2⟩
      simp at e2
      exact ⟨g1.trans g2, by omega⟩
  · refine Ctx.Ok.pair (Ctx.Ok.value ((tag_lt h _ (by decide) (by decide)).mono ?_))
    rintro s1 _ ⟨g1, e1⟩
    refine Ctx.Ok.value ((tag_lt (h.good g1) _ (by decide) (by decide)).mono ?_)
    rintro s2 _ ⟨g2, e2⟩
    simp at e1 e2
    exact ⟨g1.trans g2, by omega⟩

theorem BlocksAt.mono {d a a' b : Nat} {xs : List (Located Block)} (h : BlocksAt C d a xs b)
    (ha : Gap C [] a' a) : BlocksAt C d a' xs b := by
  cases h with
  | nil h => exact .nil (ha.trans h)
  | cons h1 h2 h3 h4 => exact .cons (ha.trans h1) h2 h3 h4

/-- A block result followed by more blocks. -/
theorem BlockRes.cons {s s' : Span} {x : Located Block} {xs : List (Located Block)} {a b : Nat}
    (h : BlockRes C s s' x) (ha : Gap C [] a s.start) (hr : BlocksAt C s.depth s'.start xs b) :
    BlocksAt C s.depth a (x :: xs) b := by
  have hlen := h.len
  have hreg := h.region
  have hgap := h.gap
  have hblk := h.block
  obtain ⟨x, r⟩ := x
  simp only at hlen hreg hgap hblk
  rw [hreg]
  refine .cons ha hlen hblk (hr.mono ?_)
  rcases hgap with e | ⟨lt, _, e⟩
  · rw [e]; exact .refl
  · refine .of_sub (by omega) fun y hy => ?_
    rcases e with e | e <;> rw [e] at hy <;> simp at hy <;> simp [hy] <;> omega

theorem deeperBlock_ok {s : Span} (h : C.In (k + 1) s) {p : P (Located Block)}
    (hp : C.Ok (p (s.withDepth (s.depth + 1))) (BlockRes C (s.withDepth (s.depth + 1)))) :
    C.Ok (Scan.deeper p s) (fun s' x => C.Good s s' ∧ s.start < s'.start ∧ Ends C s s' ∧
      ∀ a b xs, Gap C [] a s.start → BlocksAt C (s.depth + 1) s'.start xs b →
        BlocksAt C (s.depth + 1) a (x :: xs) b) := by
  refine deeper_rule h (hp.mono ?_)
  intro s' x hx
  exact ⟨hx.good, hx.lt, hx.ends, fun a b xs ha hr => hx.cons ha hr⟩

/-- What is known of `nested_block_element` on short enough spans. -/
def NestedOk (C : Ctx) (nested : P (Located Block)) (n : Nat) : Prop :=
  ∀ k t, C.In (k + 2) t → t.stop - t.start < n → C.Ok (nested t) (BlockRes C t)

theorem listItemTail_ok {s : Span} {n : Nat} (h : C.In (k + 3) s) {nested : P (Located Block)}
    (hn : NestedOk C nested n) (hsn : s.stop - s.start < n) (ind : Nat) :
    C.Ok (listItemTailOf nested ind s) (fun s' r => C.Good s s' ∧ Ends C s s' ∧ r.2 ≠ [] ∧
      ∃ o, s.start ≤ o ∧ sub C.inner s.start o = todoText r.1 ∧
        BlocksAt C (s.depth + 1) o r.2 s'.start) := by
  have nest : ∀ t, C.In (k + 3) t → Step s t →
      C.Ok (Scan.deeper nested t) (fun t' x => C.Good t t' ∧ t.start < t'.start ∧ Ends C t t' ∧
      ∀ a b xs, Gap C [] a t.start → BlocksAt C (s.depth + 1) t'.start xs b →
        BlocksAt C (s.depth + 1) a (x :: xs) b) := by
    intro t ht hst
    have h1 := hst.le
    have h2 := hst.stop
    have := deeperBlock_ok (p := nested) (ht.mono (j := k + 2 + 1) (by omega))
      (hn k (t.withDepth (t.depth + 1)) (withDepth_in (k := k + 2) (ht.mono (by omega)))
      (by show t.stop - t.start < n; omega))
    rw [hst.depth] at this
    exact this
  refine Ctx.Ok.bind' (Q1 := fun s' t => C.Good s s' ∧ sub C.inner s.start s'.start = todoText t)
    (Ctx.Ok.opt ((todoStatus_ok h).mono fun _ _ h => h)
      fun _ => ⟨Ctx.Good.refl h, by rw [sub_self]; rfl⟩) ?_
  rintro s1 todo ⟨g1, e1⟩
  have h1 := h.good g1
  refine Ctx.Ok.bind' (nest s1 h1 g1.step) ?_
  rintro s2 x ⟨g2, lt2, he2, hx⟩
  have h2 := h1.good g2
  refine Ctx.Ok.bind' (Ctx.Ok.many0 (I := fun t => C.In (k + 3) t ∧ Step s t)
    (T := fun t xs t' => C.Good t t' ∧ (t' = t ∨ Ends C t t') ∧
      BlocksAt C (s.depth + 1) t.start xs t'.start) ?_ ?_ ⟨h2, (g1.trans g2).step⟩ h2.wf.le) ?_
  · rintro t ⟨ht, hst⟩
    refine Ctx.Ok.preceded ((indentVerify_ok ht _).mono ?_)
    intro t0 _ e
    rw [e]
    refine (nest t ht hst).mono ?_
    rintro t1 y ⟨gt1, lt1, he1, hy⟩
    refine ⟨gt1.step, fun _ => ⟨⟨ht.good gt1, hst.trans gt1.step⟩, ?_⟩⟩
    rintro as t2 ⟨gt2, het2, hT⟩
    refine ⟨gt1.trans gt2, .inr ?_, hy _ _ _ .refl hT⟩
    rcases het2 with rfl | het2
    · exact he1
    · exact het2.of_good gt1
  · rintro t ⟨ht, _⟩ _
    exact ⟨Ctx.Good.refl ht, .inl rfl, .nil .refl⟩
  rintro s3 xs ⟨_, _, _, g3, he3, hT⟩
  refine Ctx.Ok.pure ⟨(g1.trans g2).trans g3, ?_, by simp, s1.start, g1.step.le, e1,
    hx _ _ _ .refl hT⟩
  rcases he3 with rfl | he3
  · exact he2.of_good g1
  · exact he3.of_good (g1.trans g2)

theorem itemLines_ok {s : Span} (h : C.In k s) (ind : Nat) :
    C.Ok (itemLines ind s) (fun s' o => C.Good s s' ∧ Ends C s s' ∧
      o = { s with stop := s'.start }) := by
  refine Ctx.Ok.recognize (Ctx.Ok.pair ((restOfLine_line h).mono ?_))
  rintro s1 _ ⟨g1, he1, _⟩
  have h1 := h.good g1
  refine (Ctx.Ok.many0 (I := fun t => C.In k t)
    (T := fun t _ t' => C.Good t t' ∧ (t' = t ∨ Ends C t t')) ?_ ?_ h1 h1.wf.le).mono ?_
  · intro t ht
    refine Ctx.Ok.preceded ((indentVerify_ok ht _).mono ?_)
    intro t0 _ e
    rw [e]
    refine (restOfLine_line ht).mono ?_
    rintro t1 _ ⟨gt1, het1, _⟩
    refine ⟨gt1.step, fun _ => ⟨ht.good gt1, ?_⟩⟩
    rintro as t2 ⟨gt2, het2⟩
    refine ⟨gt1.trans gt2, .inr ?_⟩
    rcases het2 with rfl | het2
    · exact het1
    · exact het2.of_good gt1
  · intro t ht _
    exact ⟨Ctx.Good.refl ht, .inl rfl⟩
  · rintro s2 _ ⟨_, _, _, g2, he2⟩
    refine ⟨(g1.trans g2).step, g1.trans g2, ?_, rfl⟩
    rcases he2 with rfl | he2
    · exact he1
    · exact he2.of_good g1

/-- Outcome of the parser of a list item. -/
structure ItemRes (C : Ctx) (s s' : Span) (x : Located ListItem) : Prop where
  good : C.Good s s'
  lt : s.start < s'.start
  ends : Ends C s s'
  pos : x.inner.pos = 0
  written : ItemWritten C.inner x x.inner.ty
  cons : ∀ a b xs, Gap C [] a s.start → ItemsAt C s.depth s'.start xs b →
    ItemsAt C s.depth a (x :: xs) b

theorem listItemOf_ok {s : Span} {n : Nat} (h : C.In (k + 1) s) {nested : P (Located Block)}
    (hn : NestedOk C nested n) (hsn : s.stop - s.start < n + 2) :
    C.Ok (listItemOf nested s) (fun s' r => ItemRes C s s' r.2) := by
  refine bol_rule h fun _ => ?_
  refine Ctx.Ok.bind' (indentationConsume_ok h) ?_
  rintro s1 ind ⟨g1, gap1⟩
  have h1 := h.good g1
  have l1 := g1.step.le
  have st1 := g1.step.stop
  have hil := itemLines_ok h1 ind
  simp only
  cases hrun : itemLines ind s1 with
  | err => trivial
  | panic r => rw [hrun] at hil; exact hil
  | diverge => rw [hrun] at hil; exact hil
  | ok s2 o =>
    rw [hrun] at hil
    obtain ⟨g2, he2, ho⟩ := hil
    simp only
    have hsub : Sub s1 o := by
      rw [ho]; exact ⟨rfl, rfl, Nat.le_refl _, g2.step.le, g2.step.hi⟩
    have hoin : C.In (k + 1) o := h1.sub hsub (by rw [ho]; exact h1.bs) (by rw [ho]; exact g2.b)
    have hio := hsub.hi
    have hos : o.start = s1.start := by rw [ho]
    have hmid := hsub.mid
    have hitem : C.Ok (located (P.map (P.pair listItemPrefix (listItemTailOf nested ind))
          (fun ((ty, suffix), (todo, contents)) =>
            (⟨ty, suffix, 0, contents, todo⟩ : ListItem))) o) (fun o' x => C.Good o o' ∧
        o.start < o'.start ∧ Ends C o o' ∧ x.inner.contents ≠ [] ∧
        (∃ ty w m, o.start ≤ m ∧ PrefixText ty x.inner.suffix w ∧
          sub C.inner o.start m = w ++ todoText x.inner.todo ∧
          BlocksAt C (o.depth + 1) m x.inner.contents o'.start) ∧
        x.region = ⟨o.start, o'.start - o.start, o.depth⟩ ∧ x.inner.pos = 0 ∧
        ItemWritten C.inner x x.inner.ty) := by
      refine Ctx.Ok.located (Ctx.Ok.map (Ctx.Ok.pair ((listItemPrefix_ok hoin).self.mono ?_)))
      rintro o1 ⟨ty, suffix⟩ ⟨⟨go1, lto1⟩, hpre⟩
      have ho1 : C.In (k + 3) o1 := (hoin.good_lt go1 (by omega)).mono (by omega)
      have hst := go1.step.stop
      have hle1 := ho1.wf.le
      refine (listItemTail_ok ho1 hn (by omega) ind).mono ?_
      rintro o2 ⟨todo, cs⟩ ⟨go2, heo2, hne, m, hm, htodo, hbl⟩
      have lo2 := go2.step.le
      rw [go1.step.depth] at hbl
      obtain ⟨w, r, er, eo, hw⟩ := listItemPrefix_inv
        (In.sub_view hoin go1.step.le go1.step.hi) hpre
      have ew : w = sub C.inner o.start o1.start := by
        refine (List.append_inj er ?_).1.symm
        rw [sub_length _ _ _ (by have := hoin.wf.hi; have := go1.step.hi; omega), eo]
        simp
      refine ⟨(go1.trans go2).step, go1.trans go2, by omega, heo2.of_good go1, hne,
        ⟨ty, w, m, by have := go1.step.le; omega, hw, ?_, hbl⟩, rfl, rfl, ?_⟩
      · rw [← sub_append C.inner o.start o1.start m go1.step.le hm, ← ew, htodo]
      refine ⟨w, sub C.inner o1.start o2.start, ?_, hw⟩
      rw [ew, sub_append _ _ _ _ go1.step.le lo2]
      show sub C.inner o.start (o.start + (o2.start - o.start)) = _
      congr 1
      have := go1.step.le
      omega
    cases hrun2 : located (P.map (P.pair listItemPrefix (listItemTailOf nested ind))
          (fun ((ty, suffix), (todo, contents)) =>
            (⟨ty, suffix, 0, contents, todo⟩ : ListItem))) o with
    | err => trivial
    | panic r => rw [hrun2] at hitem; exact hitem
    | diverge => rw [hrun2] at hitem; exact hitem
    | ok o' x =>
      rw [hrun2] at hitem
      obtain ⟨go, lto, heo, hne, hbl, hreg, hpos, hwr⟩ := hitem
      simp only
      rw [if_neg (by omega)]
      have hhi := go.step.hi
      have hadv : s1.advanceStartBy (o'.start - s1.start) = { s1 with start := o'.start } := by
        unfold Span.advanceStartBy
        rw [if_neg (by omega)]
        congr 1
        omega
      rw [hadv]
      have g3 : C.Good s1 { s1 with start := o'.start } :=
        ⟨⟨rfl, rfl, rfl, by show s1.start ≤ o'.start; omega, by show o'.start ≤ s1.stop; omega⟩, go.b⟩
      refine ⟨g1.trans g3, by show s.start < o'.start; omega, ?_, hpos, hwr, ?_⟩
      · refine Ends.of_good g1 ?_
        rcases heo with e | e
        · have hstop : o.stop = s2.start := by rw [ho]
          have e' : o'.start = s2.start := by omega
          rcases he2 with e2 | e2
          · exact .inl (by show o'.start = s1.stop; omega)
          · exact .inr (by show C.inner[o'.start - 1]? = _; rw [e']; exact e2)
        · exact .inr e
      · intro a b xs ha hr
        obtain ⟨x, r⟩ := x
        simp only at hreg hne hbl
        have hd : o.depth = s.depth := by rw [ho]; exact g1.step.depth
        rw [hreg, hd]
        obtain ⟨ty, w, m, hm1, hm2, hm3, hbl⟩ := hbl
        rw [hd] at hbl
        have e : o.start + (o'.start - o.start) = o'.start := by omega
        refine .cons (by rw [hos]; exact ha.trans gap1) (by omega) hne hm1 hm2 hm3
          (by rw [e]; exact hbl) ?_
        rw [e]
        exact hr

theorem itemsAt_assign {d a b : Nat} {xs : List (Located ListItem)} (i : Nat)
    (h : ItemsAt C d a xs b) : ItemsAt C d a (assignPos i xs) b := by
  induction xs generalizing a i with
  | nil => exact h
  | cons x xs ih =>
    cases h with
    | cons h1 h2 h3 p1 p2 p3 h4 h5 => exact .cons h1 h2 h3 p1 p2 p3 h4 (ih _ h5)

theorem itemsAt_ty {d a b : Nat} {xs : List (Located ListItem)} (ty : ItemType)
    (h : ItemsAt C d a xs b) :
    ItemsAt C d a (xs.map (fun x => ⟨{ x.inner with ty := ty }, x.region⟩)) b := by
  induction xs generalizing a with
  | nil => exact h
  | cons x xs ih =>
    cases h with
    | cons h1 h2 h3 p1 p2 p3 h4 h5 => exact .cons h1 h2 h3 p1 p2 p3 h4 (ih h5)

theorem itemsAt_normalize {d a b : Nat} {xs : List (Located ListItem)}
    (h : ItemsAt C d a xs b) : ItemsAt C d a (normalizeItems xs) b := by
  cases xs with
  | nil => exact h
  | cons x xs =>
    cases h with
    | cons h1 h2 h3 p1 p2 p3 h4 h5 => exact .cons h1 h2 h3 p1 p2 p3 h4 (itemsAt_ty _ h5)

theorem assignPos_getElem? (xs : List (Located ListItem)) (i j : Nat) :
    (assignPos i xs)[j]? = (xs[j]?).map (fun x => ⟨{ x.inner with pos := i + j }, x.region⟩) := by
  induction xs generalizing i j with
  | nil => simp [assignPos]
  | cons x xs ih =>
    cases j with
    | zero => simp [assignPos]
    | succ j => simp [assignPos, ih, Nat.add_assoc, Nat.add_comm 1]

theorem listForm_normalize {text : Str} {x : Located ListItem} {xs : List (Located ListItem)}
    (hp : x.inner.pos = 0) (hx : ItemWritten text x x.inner.ty)
    (hxs : ∀ y ∈ xs, ∃ ty, ItemWritten text y ty) :
    ListForm text (normalizeItems (x :: assignPos 1 xs)) := by
  refine ⟨?_, ?_, ?_, ?_⟩
  · intro i y hy
    cases i with
    | zero => simp [normalizeItems] at hy; rw [← hy]; exact hp
    | succ i =>
      simp only [normalizeItems, List.getElem?_cons_succ, List.getElem?_map, assignPos_getElem?,
        Option.map_map] at hy
      cases hz : xs[i]? with
      | none => rw [hz] at hy; simp at hy
      | some z =>
        rw [hz] at hy
        simp at hy
        rw [← hy]
        exact Nat.add_comm _ _
  · intro y hy h hh
    simp only [normalizeItems, List.head?_cons, Option.some.injEq] at hh
    subst hh
    simp only [normalizeItems, List.mem_cons, List.mem_map] at hy
    rcases hy with rfl | ⟨z, _, rfl⟩ <;> rfl
  · intro h hh
    simp only [normalizeItems, List.head?_cons, Option.some.injEq] at hh
    subst hh
    exact hx
  · intro y hy
    simp only [normalizeItems, List.mem_cons, List.mem_map] at hy
    rcases hy with rfl | ⟨z, hz, rfl⟩
    · exact ⟨_, hx⟩
    · obtain ⟨j, hj⟩ := List.getElem?_of_mem hz
      rw [assignPos_getElem?] at hj
      cases hu : xs[j]? with
      | none => rw [hu] at hj; simp at hj
      | some u =>
        rw [hu] at hj
        simp at hj
        obtain ⟨ty, hty⟩ := hxs u (List.mem_of_getElem? hu)
        subst hj
        exact ⟨ty, hty⟩

theorem deeperItem_ok {s : Span} {n : Nat} (h : C.In (k + 2) s) {nested : P (Located Block)}
    (hn : NestedOk C nested n) (hsn : s.stop - s.start < n + 2) :
    C.Ok (Scan.deeper (listItemOf nested) s) (fun s' r => C.Good s s' ∧ s.start < s'.start ∧
      Ends C s s' ∧ (r.2.inner.pos = 0 ∧ ItemWritten C.inner r.2 r.2.inner.ty) ∧
      ∀ a b xs, Gap C [] a s.start → ItemsAt C (s.depth + 1) s'.start xs b →
        ItemsAt C (s.depth + 1) a (r.2 :: xs) b) := by
  refine deeper_rule h ((listItemOf_ok (withDepth_in h) hn hsn).mono ?_)
  intro s' r hr
  exact ⟨hr.good, hr.lt, hr.ends, ⟨hr.pos, hr.written⟩,
    fun a b xs ha hx => hr.cons a b xs ha hx⟩

theorem listOf_ok {s : Span} {n : Nat} (h : C.In (k + 2) s) {nested : P (Located Block)}
    (hn : NestedOk C nested n) (hsn : s.stop - s.start < n + 2) :
    C.Ok (listOf nested s) (BlockRes C s) := by
  refine located_block ?_
  refine Ctx.Ok.bind' (deeperItem_ok h hn hsn) ?_
  rintro s1 ⟨ind, item⟩ ⟨g1, lt1, he1, ⟨hp0, hw0⟩, hitem⟩
  have h1 := h.good g1
  refine Ctx.Ok.bind' (Ctx.Ok.many0 (I := fun t => C.In (k + 2) t ∧ Step s t)
    (T := fun t xs t' => C.Good t t' ∧ (t' = t ∨ Ends C t t') ∧
      (∀ x ∈ xs, ∃ ty, ItemWritten C.inner x ty) ∧
      ItemsAt C (s.depth + 1) t.start xs t'.start) ?_ ?_ ⟨h1, g1.step⟩ h1.wf.le) ?_
  · rintro t ⟨ht, hst⟩
    refine Ctx.Ok.preceded ((indentVerify_ok ht _).mono ?_)
    intro t0 _ e
    rw [e]
    have e1 := hst.le
    have e2 := hst.stop
    refine Ctx.Ok.map ((deeperItem_ok ht hn (by omega)).mono ?_)
    rintro t1 r ⟨gt1, ltt1, het1, ⟨-, hwr⟩, hr⟩
    refine ⟨gt1.step, fun _ => ⟨⟨ht.good gt1, hst.trans gt1.step⟩, ?_⟩⟩
    rintro as t2 ⟨gt2, het2, hws, hT⟩
    rw [hst.depth] at hr
    refine ⟨gt1.trans gt2, .inr ?_, List.forall_mem_cons.2 ⟨⟨_, hwr⟩, hws⟩, hr _ _ _ .refl hT⟩
    rcases het2 with rfl | het2
    · exact het1
    · exact het2.of_good gt1
  · rintro t ⟨ht, _⟩ _
    exact ⟨Ctx.Good.refl ht, .inl rfl, by simp, .nil .refl⟩
  rintro s2 items ⟨_, _, _, g2, he2, hws, hT⟩
  have l2 := g2.step.le
  refine Ctx.Ok.pure ⟨g1.trans g2, by omega, ?_, .list ?_ (listForm_normalize hp0 hw0 hws) ?_⟩
  · rcases he2 with rfl | he2
    · exact he1
    · exact he2.of_good g1
  · simp [normalizeItems]
  · exact itemsAt_normalize (hitem _ _ _ .refl (itemsAt_assign 1 hT))

/-! ## Nested blocks -/

theorem nestedOf_ok {t : Span} (ht : C.In (k + 2) t) {list : P (Located Block)}
    (hl : ∀ u, C.In (k + 2) u → u.stop - u.start ≤ t.stop - t.start →
      C.Ok (list u) (BlockRes C u)) : C.Ok (nestedOf C.env list t) (BlockRes C t) := by
  refine Ctx.Ok.alts ?_
  intro p hp
  simp only [List.mem_cons, List.not_mem_nil, or_false] at hp
  rcases hp with rfl | rfl | rfl | rfl | rfl | rfl | rfl
  · exact definitionList_ok ht
  · exact hl t ht (Nat.le_refl _)
  · exact nestedTable_ok ht
  · exact codeBlock_ok ht
  · exact mathBlock_ok ht
  · exact arrowBlockquote_ok ht
  · exact paragraphOf_ok ht hl

theorem nestedF_ok (n : Nat) : NestedOk C (nestedF C.env n) n := by
  induction n with
  | zero => intro k t _ hn; omega
  | succ n ih =>
    intro k t ht hn
    exact nestedOf_ok ht fun u hu hut => listOf_ok hu ih (by omega)

theorem list_ok {s : Span} (h : C.In (k + 2) s) : C.Ok (list C.env s) (BlockRes C s) :=
  listOf_ok h (nestedF_ok _) (by rw [remainingLen_eq]; omega)

theorem paragraph_ok {s : Span} (h : C.In (k + 2) s) : C.Ok (paragraph C.env s) (BlockRes C s) :=
  paragraphOf_ok h fun _ ht _ => list_ok ht

/-! ## Pages -/

theorem topLevel_ok {s : Span} (h : C.In (k + 2) s) : C.Ok (topLevel C.env s) (BlockRes C s) := by
  refine Ctx.Ok.alts ?_
  intro p hp
  simp only [List.mem_cons, List.not_mem_nil, or_false] at hp
  rcases hp with rfl | rfl | rfl | rfl | rfl | rfl | rfl | rfl | rfl | rfl
  · exact header_ok (h.mono (j := k + 1) (by omega))
  · exact definitionList_ok h
  · exact list_ok h
  · exact table_ok h
  · exact codeBlock_ok h
  · exact mathBlock_ok h
  · exact blockquote_ok h
  · exact divider_ok h
  · exact placeholder_ok h
  · exact paragraph_ok h

theorem not_of_err {α} {p : P α} {s : Span} (h : p s = .err) : P.not p s = .ok s () := by
  unfold P.not; rw [h]

theorem bind_of_ok {α β} {p : P α} {f : α → P β} {s s' : Span} {a : α} (h : p s = .ok s' a) :
    P.bind p f s = f a s' := by
  unfold P.bind; rw [h]

/-- At the beginning of a line some block or a blank line is found. -/
theorem maybeBlock_err {s : Span} (h : C.In (k + 2) s) (hb : Bol C s.start)
    (he : maybeBlock C.env s = .err) : s.start = s.stop := by
  obtain ⟨eblank, etop⟩ := alt_err he
  have eblank := value_err eblank
  have etop := alts_err (map_err etop)
  have e1 := etop (header C.env) (by simp)
  have e2 := etop (definitionList C.env) (by simp)
  have e3 := etop (list C.env) (by simp)
  have e4 := etop (table C.env) (by simp)
  have e5 := etop codeBlock (by simp)
  have e6 := etop mathBlock (by simp)
  have e7 := (alt_err (etop blockquote (by simp))).2
  have e8 := etop divider (by simp)
  have e9 := etop (placeholder C.env) (by simp)
  have e10 := etop (paragraph C.env) (by simp)
  have hle := h.wf.le
  rcases Nat.lt_or_ge s.start s.stop with hlt | hge
  rotate_left
  · omega
  exfalso
  unfold paragraph paragraphOf at e10
  have e11 := many1_err (I := fun t => C.In (k + 2) t) ?_ h (map_err (located_err e10))
  · unfold delimited at e11
    have hc : continueParagraphOf C.env (list C.env) s = .ok s () := by
      unfold continueParagraphOf
      rw [bind_of_ok (not_of_err e1), bind_of_ok (not_of_err e2), bind_of_ok (not_of_err e3),
        bind_of_ok (not_of_err e4), bind_of_ok (not_of_err e5), bind_of_ok (not_of_err e6),
        bind_of_ok (not_of_err eblank), bind_of_ok (not_of_err e7), bind_of_ok (not_of_err e8),
        bind_of_ok (not_of_err e9)]
      rfl
    rw [bind_of_ok hc] at e11
    rcases bind_err e11 with e | ⟨s1, xs, hp, e⟩
    · unfold paragraphLine at e
      rcases bind_err e with e | ⟨s1, o, hs, e⟩
      · exact absurd e (by simp [space0, takeWhile0, takeSplit])
      · have hw := ok_of_run (space0_good h) hs
        have h1 := h.good hw.1.good
        have hbl := blankLine_err h hb hlt eblank hs
        rcases inlineContainer_err (h1.mono (j := k + 1) (by omega)) (map_err e) with hh | hh
        · omega
        · exact hbl.2 hh
    · have hpl : C.Ok (paragraphLine C.env s) (fun s' _ => C.Good s s' ∧
          (s'.start = s.stop ∨ LineEndAt C.inner s.stop s'.start)) := by
        refine Ctx.Ok.bind' (space0_good h) ?_
        rintro s1 _ ⟨hsp1, _⟩
        have h1 : C.In (k + 1) s1 := (h.good hsp1.good).mono (by omega)
        refine Ctx.Ok.map ((inlineContainer_ok h1).mono ?_)
        rintro s2 x ⟨hc, _⟩
        have hex := hc.exit
        rw [hsp1.good.step.stop] at hex
        exact ⟨hsp1.good.trans hc.good, hex⟩
      obtain ⟨g, hex⟩ := ok_of_run hpl hp
      have h1 := h.good g
      rcases bind_err e with e | ⟨_, _, _, e⟩
      · have := endOfLineOrInput_err h1.wf e
        have hst := g.step.stop
        rw [hst] at this
        rcases hex with hh | hh
        · omega
        · exact this.2 hh
      · cases e
  · intro t ht t' x hx
    have := ok_of_run (paragraphRow_ok ht (list_ok ht)) hx
    exact ⟨fun e => by have := this.lt; rw [e] at this; omega, ht.good this.good⟩

/-- The lines that the page parser skips. -/
structure BlankRes (C : Ctx) (s s' : Span) : Prop where
  good : C.Good s s'
  lt : s.start < s'.start
  bol : Bol C s.start
  ends : Ends C s s'
  blank : ∃ m, s.start ≤ m ∧ Blanks C s.start m ∧ EolAt C { s with start := m } s'

theorem maybeBlock_ok {s : Span} (h : C.In (k + 2) s) :
    C.Ok (maybeBlock C.env s) (fun s' r => (r = none ∧ BlankRes C s s') ∨
      (∃ x, r = some x ∧ BlockRes C s s' x ∧ topLevel C.env s = .ok s' x ∧ blankLine s = .err)) := by
  refine Ctx.Ok.alt ?_ fun he => ?_
  · refine Ctx.Ok.value ((blankLine_full h).mono ?_)
    rintro s' _ ⟨h1, h2, h3, h4, h5⟩
    exact .inl ⟨rfl, h1, h2, h3, h4, h5⟩
  · refine Ctx.Ok.map ((topLevel_ok h).self.mono ?_)
    rintro s' x ⟨hx, hrun⟩
    exact .inr ⟨x, rfl, hx, hrun, value_err he⟩

/-- The sequence of blank lines and blocks that makes up a page. -/
inductive PageAt (C : Ctx) : Span → List (Option (Located Block)) → Span → Prop where
  | nil {s} : PageAt C s [] s
  | blank {s s1 s2 xs} : BlankRes C s s1 → PageAt C s1 xs s2 → PageAt C s (none :: xs) s2
  | block {s s1 s2 x xs} : Bol C s.start → C.In 2 s → BlockRes C s s1 x →
      topLevel C.env s = .ok s1 x → blankLine s = .err → PageAt C s1 xs s2 →
      PageAt C s (some x :: xs) s2

theorem bol_next {s s' : Span} (g : C.Good s s') (e : Ends C s s') (hlt : s'.start < s'.stop) :
    Bol C s'.start := by
  have hst := g.step.stop
  rcases e with e | e
  · omega
  · exact .inr e

theorem maybeBlock_progress {s s' : Span} {r : Option (Located Block)} (h : C.In (k + 2) s)
    (hr : maybeBlock C.env s = .ok s' r) :
    C.Good s s' ∧ s.start < s'.start ∧ Ends C s s' := by
  rcases ok_of_run (maybeBlock_ok h) hr with ⟨_, hb⟩ | ⟨x, _, hb, _⟩
  · exact ⟨hb.good, hb.lt, hb.ends⟩
  · exact ⟨hb.good, hb.lt, hb.ends⟩

theorem page_ok {s : Span} (h : C.In 2 s) (hb : s.start = s.stop ∨ Bol C s.start) :
    C.Ok (page C.env s) (fun s' pg => s'.start = s'.stop ∧ Step s s' ∧
      ∃ es, pg.elements = es.filterMap id ∧ PageAt C s es s') := by
  refine Ctx.Ok.map (Ctx.Ok.allConsuming ((Ctx.Ok.many0
    (I := fun t => C.In 2 t ∧ (t.start = t.stop ∨ Bol C t.start))
    (T := fun t es t' => PageAt C t es t') ?_ ?_ ⟨h, hb⟩ h.wf.le).mono ?_))
  · rintro t ⟨ht, htb⟩
    refine (maybeBlock_ok (k := 0) ht).mono ?_
    intro t' r hr
    have hg : C.Good t t' ∧ t.start < t'.start ∧ Ends C t t' := by
      rcases hr with ⟨_, hb⟩ | ⟨x, _, hb, _⟩
      · exact ⟨hb.good, hb.lt, hb.ends⟩
      · exact ⟨hb.good, hb.lt, hb.ends⟩
    obtain ⟨g, lt, he⟩ := hg
    refine ⟨g.step, fun _ => ⟨⟨ht.good g, ?_⟩, ?_⟩⟩
    · rcases he with e | e
      · exact .inl (by rw [e, g.step.stop])
      · exact .inr (.inr e)
    · intro as t'' hT
      rcases hr with ⟨rfl, hbl⟩ | ⟨x, rfl, hbl, hrun, herr⟩
      · exact .blank hbl hT
      · refine .block ?_ ht hbl hrun herr hT
        rcases htb with e | e
        · have := g.step.hi; omega
        · exact e
  · intro t _ _
    exact .nil
  · rintro s' es ⟨hst, ⟨hin, _⟩, _, hT⟩ hrem
    have := hin.wf.le
    rw [remainingLen_eq] at hrem
    exact ⟨by omega, hst, es, rfl, hT⟩

/-- The page parser accepts. -/
theorem page_ne_err {s : Span} (h : C.In 2 s) (hb : s.start = s.stop ∨ Bol C s.start) :
    page C.env s ≠ .err := by
  intro he
  have he := map_err he
  have hok : C.Ok (many0 (maybeBlock C.env) s) (fun s' _ => C.In 2 s' ∧ s'.start = s'.stop) := by
    refine (Ctx.Ok.many0 (I := fun t => C.In 2 t ∧ (t.start = t.stop ∨ Bol C t.start))
      (T := fun _ _ _ => True) ?_ ?_ ⟨h, hb⟩ h.wf.le).mono ?_
    · rintro t ⟨ht, htb⟩
      refine ((maybeBlock_ok (k := 0) ht).self).mono ?_
      rintro t' r ⟨_, hr⟩
      obtain ⟨g, lt, he⟩ := maybeBlock_progress (k := 0) ht hr
      refine ⟨g.step, fun _ => ⟨⟨ht.good g, ?_⟩, fun _ _ _ => trivial⟩⟩
      rcases he with e | e
      · exact .inl (by rw [e, g.step.stop])
      · exact .inr (.inr e)
    · intros; trivial
    · rintro s' _ ⟨_, ⟨h1, h2⟩, h3, _⟩
      refine ⟨h1, ?_⟩
      rcases h2 with h2 | h2
      · exact h2
      · exact maybeBlock_err (k := 0) h1 h2 h3
  unfold allConsuming at he
  cases hm : many0 (maybeBlock C.env) s with
  | ok s' es =>
    rw [hm] at he hok
    simp only at he
    rw [if_pos] at he
    · cases he
    · obtain ⟨_, h2⟩ := hok
      rw [remainingLen_eq]; omega
  | err =>
    refine many0_ne_err (I := fun t => C.In 2 t) ?_ h hm
    intro t ht t' r hr
    obtain ⟨g, lt, _⟩ := maybeBlock_progress (k := 0) ht hr
    exact ⟨fun e => by rw [e] at lt; omega, ht.good g⟩
  | panic r => rw [hm] at he; cases he
  | diverge => rw [hm] at he; cases he

end Vw
