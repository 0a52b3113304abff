import Verif.Lemmas.BlocksB
import Verif.Lemmas.Run

/-!
# Facts about definition lists and tables
-/

namespace Vw
open P Scan

variable {C : Ctx} {k : Nat}

/-! ## Definition lists -/

theorem deeper_rule {α} {p : P α} {s : Span} {Q : Span → α → Prop} (h : C.In (k + 1) s)
    (hp : C.Ok (p (s.withDepth (s.depth + 1))) (fun s' a =>
      C.Good (s.withDepth (s.depth + 1)) s' ∧ Q (s'.withDepth s.depth) a)) :
    C.Ok (Scan.deeper p s) (fun s' a => C.Good s s' ∧ Q s' a) := by
  refine Ctx.Ok.deeper h.wf (hp.mono ?_)
  rintro s' a ⟨g, hq⟩
  have hi : s'.inner = s.inner := g.step.inner
  have hst : s'.stop = s.stop := g.step.stop
  exact ⟨g.step.depth, ⟨⟨hi, hst, rfl, g.step.le, g.step.hi⟩, g.b⟩, hq⟩

theorem restInlines_ok {s : Span} (h : C.In (k + 1) s) {p : P Span}
    {Q : Span → Prop}
    (hp : C.Ok (p s) (fun s' o => Split C s s' o ∧ Q s' ∧
      ∀ i, s.start ≤ i → i < s'.start → C.inner[i]? ≠ some 10)) :
    C.Ok (mapParser p (P.map (inlineContainer C.env) (·.inner)) s) (fun s' xs => C.Good s s' ∧
      s.start < s'.start ∧ xs ≠ [] ∧ Q s' ∧ Tile C (s.depth + 1) s.start xs s'.start) := by
  refine Ctx.Ok.mapParser (hp.mono ?_)
  rintro s' o ⟨hsp, hq, hnl⟩
  have ho := hsp.in h
  refine Ctx.Ok.map ((inlineContainer_ok ho).mono ?_)
  rintro o' x ⟨hc, _⟩
  have hoeq := hsp.out
  have hi := hc.good.step.hi
  have hlt := hc.lt
  have ht := hc.tile
  have hf : o'.start = o.stop := hc.full (by rw [hoeq]; exact hnl)
  rw [hoeq] at hi hlt ht hf
  simp only at hi hlt hf
  rw [hf] at ht
  exact ⟨hsp.good, by omega, hc.ne, hq, ht⟩

/-- Outcome of the parser of a located row. -/
structure LocRowRes (C : Ctx) (s s' : Span) (x : Located Inlines) : Prop where
  good : C.Good s s'
  lt : s.start < s'.start
  row : LocRow C s.depth s.start x s'.start
  region : x.region = ⟨s.start, s'.start - s.start, s.depth⟩

theorem locRow_intro {s s1 s' : Span} {xs : Inlines} {i j : Nat} (g : C.Good s s')
    (lt : s.start < s'.start) (ne : xs ≠ []) (h1 : Gap C b!":" s.start i)
    (h2 : Gap C b!":" j s'.start)
    (hd : s1.depth = s.depth) (ht : Tile C (s1.depth + 1) i xs j) :
    LocRowRes C s s' ⟨xs, ⟨s.start, s'.start - s.start, s.depth⟩⟩ := by
  have e : s.start + (s'.start - s.start) = s'.start := by omega
  refine ⟨g, lt, ⟨.refl, by simp only; omega, by simp only; rw [e]; exact .refl, rfl, ne, i, j, h1,
    ?_, by simp only; rw [e]; exact h2⟩, rfl⟩
  rw [hd] at ht
  exact ht

theorem At.gap {m w : Str} {i : Nat} (h : At C.inner i w) (hw : ∀ x ∈ w, x ∈ m) :
    Gap C m i (i + w.length) := by
  refine .of_sub (by omega) fun x hx => ?_
  unfold At at h
  unfold sub at hx
  rw [List.drop_take, show i + w.length - i = w.length by omega, h] at hx
  exact List.mem_append_right _ (hw x hx)

theorem termLine_ok {s : Span} (h : C.In (k + 1) s) :
    C.Ok (termLine C.env s) (fun s' r => C.Good s s' ∧ s.start < s'.start ∧ Ends C s s' ∧
      ∃ m, LocRow C s.depth s.start r.1 m ∧ r.1.region.offset + r.1.region.len = m ∧ m ≤ s'.start ∧
        (∀ d, r.2 = some d → LocRow C s.depth m d s'.start) ∧
        (r.2 = none → Gap C [] m s'.start)) := by
  refine Ctx.Ok.bind' (space0_good h) ?_
  rintro s1 _ ⟨hsp1, tk1⟩
  have h1 := h.good hsp1.good
  have d1 := hsp1.good.step.depth
  refine Ctx.Ok.bind' (Q1 := LocRowRes C s1) (Ctx.Ok.located (Ctx.Ok.terminated
    ((restInlines_ok h1 (Q := fun _ => True) (Ctx.Ok.verify
      ((takeLineUntil1_good h1 _ (patOk_2 _ _ (by decide))).mono
        fun _ _ h _ => ⟨h.1, trivial, fun i i1 i2 => (h.2.1.1 i i1 i2).1⟩))).mono ?_))) ?_
  · rintro s2 xs ⟨g2, lt2, hne, _, ht⟩
    refine (tag_good (h1.good g2) _).mono ?_
    rintro s3 _ ⟨hsp3, hs3, hat⟩
    have l3 := hsp3.good.step.le
    have g := g2.trans hsp3.good
    exact ⟨g.step, locRow_intro g (by omega) hne .refl (by rw [hs3]; exact hat.2.gap (by simp)) rfl ht⟩
  intro s3 term hterm
  have h3 := h1.good hterm.good
  have d3 := hterm.good.step.depth
  refine Ctx.Ok.bind' (Q1 := fun s4 d => C.Good s3 s4 ∧
    (∀ x, d = some x → LocRowRes C s3 s4 x) ∧ (d = none → s4 = s3))
    (Ctx.Ok.opt (Ctx.Ok.located (Ctx.Ok.preceded ((space1_good h3).mono ?_))) ?_) ?_
  · rintro t1 _ ⟨hsp, tk, hlt⟩
    have ht1 := h3.good hsp.good
    refine (restInlines_ok ht1 (Q := fun _ => True)
      ((takeUntilEol_good ht1).mono fun _ _ h =>
        ⟨h.1, trivial, fun i i1 i2 => (h.2.1 i i1 i2).1⟩)).mono ?_
    rintro t2 xs ⟨g2, lt2, hne, _, ht⟩
    have g := hsp.good.trans g2
    refine ⟨g.step, g, ?_, by simp⟩
    intro x hx
    cases hx
    exact locRow_intro g (by omega) hne (tk.gap hsp.good) .refl hsp.good.step.depth ht
  · intro _
    exact ⟨Ctx.Good.refl h3, by simp, fun _ => rfl⟩
  rintro s4 d ⟨g4, hd, hd0⟩
  have h4 := h3.good g4
  refine Ctx.Ok.bind' (Q1 := fun s6 _ => C.Good s4 s6 ∧ Ends C s4 s6 ∧
    Gap C [] s4.start s6.start) (Ctx.Ok.pair ((space0_good h4).mono ?_)) ?_
  · rintro s5 _ ⟨hsp5, tk5⟩
    refine (endOfLine_full (h4.good hsp5.good)).mono ?_
    intro s6 _ he
    exact ⟨hsp5.good.trans he.good, he.ends.of_good hsp5.good, (tk5.gap hsp5.good).trans he.gap⟩
  rintro s6 _ ⟨g6, he6, hg6⟩
  have g := (hsp1.good.trans hterm.good).trans g4
  have l1 := hsp1.good.step.le
  have l3 := hterm.lt
  have l4 := g4.step.le
  have l6 := g6.step.le
  have hr := hterm.region
  have hm : term.region.offset + term.region.len = s3.start := by
    rw [hr]; simp only; omega
  refine Ctx.Ok.pure ⟨g.trans g6, by omega, he6.of_good g, s3.start, ?_, hm, by omega, ?_, ?_⟩
  · have hrow := hterm.row
    rw [d1] at hrow
    exact ⟨(tk1.gap hsp1.good).trans hrow.lo, hrow.pos, hrow.hi, hrow.depth, hrow.ne, hrow.tile⟩
  · intro x hx
    have hrow := (hd x hx).row
    rw [d3, d1] at hrow
    exact ⟨hrow.lo, hrow.pos, hrow.hi.trans hg6, hrow.depth, hrow.ne, hrow.tile⟩
  · intro e
    rw [hd0 e] at hg6
    exact hg6

theorem definitionLine_ok {s : Span} (h : C.In (k + 1) s) :
    C.Ok (definitionLine C.env s) (fun s' x => LocRowRes C s s' x ∧ Ends C s s') := by
  refine Ctx.Ok.located ?_
  refine Ctx.Ok.bind' (space0_good h) ?_
  rintro s1 _ ⟨hsp1, tk1⟩
  have h1 := h.good hsp1.good
  refine Ctx.Ok.bind' (tag_good h1 _) ?_
  rintro s2 _ ⟨hsp2, hs2, hat⟩
  have h2 := h1.good hsp2.good
  refine Ctx.Ok.bind' (space1_good h2) ?_
  rintro s3 _ ⟨hsp3, tk3, _⟩
  have h3 := h2.good hsp3.good
  refine Ctx.Ok.bind' (restInlines_ok h3 (Q := fun _ => True)
    ((takeUntilEol_good h3).mono fun _ _ h =>
      ⟨h.1, trivial, fun i i1 i2 => (h.2.1 i i1 i2).1⟩)) ?_
  rintro s4 xs ⟨g4, lt4, hne, _, ht⟩
  refine Ctx.Ok.bind' (endOfLine_full (h3.good g4)) ?_
  intro s5 _ he
  have g3 := (hsp1.good.trans hsp2.good).trans hsp3.good
  have g := g3.trans g4
  have l3 := g3.step.le
  have l5 := he.good.step.le
  have hg : Gap C b!":" s.start s3.start :=
    ((tk1.gap hsp1.good).trans (by rw [hs2]; exact hat.2.gap (by simp))).trans (tk3.gap hsp3.good)
  exact Ctx.Ok.pure ⟨(g.trans he.good).step, locRow_intro (g.trans he.good) (by omega) hne hg
    he.gap g3.step.depth ht, he.ends.of_good g⟩

theorem LocRows.mono {d a a' b : Nat} {xs : List (Located Inlines)} (h : LocRows C d a xs b)
    (ha : Gap C [] a' a) : LocRows C d a' xs b := by
  cases h with
  | nil h => exact .nil (ha.trans h)
  | cons h1 h2 =>
    exact .cons ⟨ha.trans h1.lo, h1.pos, h1.hi, h1.depth, h1.ne, h1.tile⟩ h2

theorem termAndDefinitions_ok {s : Span} (h : C.In (k + 1) s) :
    C.Ok (termAndDefinitions C.env s) (fun s' r => C.Good s s' ∧ s.start < s'.start ∧ Ends C s s' ∧
      DefsAt C s.depth s.start [mkTermDefs r] s'.start) := by
  refine Ctx.Ok.bind' (termLine_ok h) ?_
  rintro s1 ⟨term, d⟩ ⟨g1, lt1, he1, m, hterm, hm, hm1, hd, hd0⟩
  have h1 := h.good g1
  simp only at hterm hm hd hd0
  refine Ctx.Ok.bind' (Q1 := fun s2 b => C.Good s1 s2 ∧ (s2 = s1 ∨ Ends C s1 s2) ∧
    LocRows C s.depth s1.start b.inner s2.start ∧
    (d.isSome || !b.inner.isEmpty) = true ∧ b.region.offset = s1.start ∧
    b.region.len = s2.start - s1.start)
    (Ctx.Ok.located (Ctx.Ok.verify ((Ctx.Ok.many0 (I := fun t => C.In (k + 1) t ∧ Step s1 t)
    (T := fun t ds t' => C.Good t t' ∧ (t' = t ∨ Ends C t t') ∧
      LocRows C s.depth t.start ds t'.start) ?_ ?_
    ⟨h1, Step.refl h1.wf.le⟩ h1.wf.le).mono ?_))) ?_
  · rintro t ⟨ht, hst⟩
    refine (definitionLine_ok ht).mono ?_
    rintro t1 x ⟨hx, hex⟩
    refine ⟨hx.good.step, fun _ => ⟨⟨ht.good hx.good, hst.trans hx.good.step⟩, ?_⟩⟩
    rintro as t2 ⟨g2, he2, hl⟩
    refine ⟨hx.good.trans g2, .inr ?_, .cons ?_ hl⟩
    · rcases he2 with rfl | he2
      · exact hex
      · exact he2.of_good hx.good
    · have := hx.row
      rw [hst.depth, g1.step.depth] at this
      exact this
  · rintro t ⟨ht, _⟩ _
    exact ⟨Ctx.Good.refl ht, .inl rfl, .nil .refl⟩
  · rintro s2 ds ⟨_, _, _, g2, he2, hl⟩ hv
    exact ⟨g2.step, g2, he2, hl, hv, rfl, rfl⟩
  rintro s2 b ⟨g2, he2, hl, hv, ho, hlen⟩
  have l2 := g2.step.le
  refine Ctx.Ok.pure ⟨g1.trans g2, by omega, ?_, ?_⟩
  · rcases he2 with rfl | he2
    · exact he1
    · exact he2.of_good g1
  have hlo := hterm.lo.le
  have hpos := hterm.pos
  unfold mkTermDefs
  cases d with
  | none =>
    simp only
    refine .cons (.cons hterm (hl.mono (hd0 rfl))) ?_ ?_ ?_ ?_ ?_ (.nil .refl)
    · simpa using hv
    · exact hlo
    · show term.region.offset + (term.region.len + b.region.len) ≤ s2.start
      omega
    · show s.start ≤ b.region.offset
      omega
    · show b.region.offset + b.region.len ≤ s2.start
      omega
  | some x =>
    simp only
    refine .cons (.cons hterm (.cons (hd x rfl) hl)) (by simp) ?_ ?_ ?_ ?_ (.nil .refl)
    · exact hlo
    · show term.region.offset + (term.region.len + b.region.len) ≤ s2.start
      omega
    · show s.start ≤ b.region.offset
      omega
    · show b.region.offset + b.region.len ≤ s2.start
      omega

theorem DefsAt.append1 {d a m b : Nat} {x : Located TermDefs} {xs : List (Located TermDefs)}
    (h : DefsAt C d a [x] m) (h' : DefsAt C d m xs b) : DefsAt C d a (x :: xs) b := by
  cases h with
  | cons h1 h2 h3 h4 h5 h6 h7 =>
    cases h7 with
    | nil hle =>
      rename_i m'
      have : DefsAt C d m' xs b := by
        cases h' with
        | nil h => exact .nil (hle.trans h)
        | cons g1 g2 g3 g4 g5 g6 g7 =>
          have := hle.le
          exact .cons (g1.mono hle) g2 (by omega) g4 (by omega) g6 g7
      exact .cons h1 h2 h3 h4 h5 h6 this

theorem definitionList_ok {s : Span} (h : C.In (k + 2) s) :
    C.Ok (definitionList C.env s) (BlockRes C s) := by
  refine located_block (Ctx.Ok.map ((Ctx.Ok.many1 (I := fun t => C.In (k + 2) t ∧ Step s t)
    (T := fun t xs t' => C.Good t t' ∧ (t' = t ∨ Ends C t t') ∧
      DefsAt C (s.depth + 1) t.start (xs.map mkTermDefs) t'.start) ?_ ?_
      ⟨h, Step.refl h.wf.le⟩).mono ?_))
  · rintro t ⟨ht, hst⟩
    refine (deeper_rule ht (Q := fun t1 r => t.start < t1.start ∧ Ends C t t1 ∧
      DefsAt C (s.depth + 1) t.start [mkTermDefs r] t1.start)
      ((termAndDefinitions_ok (withDepth_in ht)).mono ?_)).mono ?_
    · rintro t1 r ⟨g, lt, he, hdef⟩
      have hdef : DefsAt C (t.depth + 1) t.start [mkTermDefs r] t1.start := hdef
      rw [hst.depth] at hdef
      exact ⟨g, lt, he, hdef⟩
    · rintro t1 r ⟨g, lt, he, hdef⟩
      refine ⟨g.step, lt, ⟨ht.good g, hst.trans g.step⟩, ?_⟩
      rintro as t2 ⟨g2, he2, hT⟩
      refine ⟨g.trans g2, .inr ?_, hdef.append1 hT⟩
      rcases he2 with rfl | he2
      · exact he
      · exact he2.of_good g
  · rintro t ⟨ht, _⟩ _
    exact ⟨Ctx.Good.refl ht, .inl rfl, .nil .refl⟩
  · rintro s' xs ⟨st, lt, _, _, ⟨g, he, hT⟩, hne⟩
    refine ⟨g, lt, ?_, .defs (by simpa using hne) hT⟩
    rcases he with rfl | he
    · omega
    · exact he

/-! ## Tables -/

/-- Outcome of the parser of a cell. -/
structure CellRes (C : Ctx) (s s' : Span) (x : Located Cell) : Prop where
  good : C.Good s s'
  lt : s.start < s'.start
  cell : CellAt C s.depth s.start x s'.start
  lo : x.region.offset = s.start
  hi : s.start + x.region.len = s'.start
  bar : c!"|" ∉ sub C.inner s.start s'.start
  noNl : 10 ∉ sub C.inner s.start s'.start
  form : CellForm (sub C.inner s.start s'.start) x.inner

theorem Took.allBlank {s s' : Span} (h : Took C isSpace s s') :
    AllBlank (sub C.inner s.start s'.start) := by
  intro x hx
  obtain ⟨i, h1, h2, h3⟩ := mem_sub.1 hx
  have := h.all i x h1 h2 h3
  simpa [isSpace] using this

theorem At.sub {t u : Str} {i : Nat} (h : At t i u) : Vw.sub t i (i + u.length) = u := by
  unfold At at h
  unfold Vw.sub
  rw [List.drop_take, show i + u.length - i = u.length by omega, h]

theorem cellSpan_ok {s : Span} (h : C.In k s) {t : Str} (ht : t ≠ []) (hta : ∀ b ∈ t, b < 128) :
    C.Ok (delimited space0 (tag t) space0 s) (fun s' _ => C.Good s s' ∧ s.start < s'.start ∧
      ∃ a b, sub C.inner s.start s'.start = a ++ (t ++ b) ∧ AllBlank a ∧ AllBlank b) := by
  have hlen : 0 < t.length := List.length_pos_iff.2 ht
  refine Ctx.Ok.delimited ((space0_good h).mono ?_)
  rintro s1 _ ⟨hsp1, w1⟩
  have h1 := h.good hsp1.good
  refine (tag_good h1 t ht hta).mono ?_
  rintro s2 _ ⟨hsp2, hs2, hat⟩
  refine (space0_good (h1.good hsp2.good)).mono ?_
  rintro s3 _ ⟨hsp3, w3⟩
  have l1 := hsp1.good.step.le
  have l2 := hsp2.good.step.le
  have l3 := hsp3.good.step.le
  refine ⟨(hsp1.good.trans hsp2.good).trans hsp3.good, by omega, _, _, ?_, w1.allBlank, w3.allBlank⟩
  rw [← sub_append C.inner s.start s1.start s3.start l1 (by omega),
    ← sub_append C.inner s1.start s2.start s3.start l2 l3, hs2, hat.2.sub]

theorem cellSpan_err {s : Span} {t a b r : Str} (h : View s (a ++ (t ++ b) ++ r)) (ha : AllBlank a)
    (ht : ∀ x, t.head? = some x → ¬ (x = 32 ∨ x = 9)) (hne : t ≠ []) :
    delimited space0 (tag t) space0 s ≠ .err := by
  have h' : View s (a ++ (t ++ (b ++ r))) := by simpa using h
  have hs : space0 s = .ok _ _ := space0_run h' (fun x hx => by
      rcases ha x hx with rfl | rfl <;> decide) (fun x hx => by
      cases t with
      | nil => exact absurd rfl hne
      | cons y t =>
        have : y = x := by simpa using hx
        subst this
        have := ht y rfl
        simpa [isSpace] using this)
  unfold delimited
  rw [bind_ok hs, bind_ok (tag_run h'.adv)]
  obtain ⟨s', o, e⟩ := space0_total (adv (adv s a.length) t.length)
  rw [bind_ok e]
  simp [P.pure]

theorem charOpt_ok {s : Span} (h : C.In k s) (c : Byte) (hc : c < 128 := by decide) :
    C.Ok (opt (char c) s) (fun s' a => C.Good s s' ∧
      sub C.inner s.start s'.start = if a.isSome then [c] else []) := by
  refine Ctx.Ok.opt ((char_good h c hc).mono ?_) ?_
  · rintro s' x ⟨g, hs, _, hx, rfl⟩
    refine ⟨g, ?_⟩
    have : At C.inner s.start [x] := by
      unfold At
      have hlt := (List.getElem?_eq_some_iff.1 hx).1
      rw [List.drop_eq_getElem_cons hlt]
      simp [(List.getElem?_eq_some_iff.1 hx).2]
    rw [hs]
    exact this.sub
  · intro _
    exact ⟨Ctx.Good.refl h, by rw [sub_self]; rfl⟩

/-- The alignment for the two colons. -/
def alignOf (l r : Bool) : Align :=
  match l, r with
  | true, true => .center
  | false, true => .right
  | true, false => .left
  | _, _ => .none

theorem Took.replicate {c : Byte} {s s' : Span} (h : Took C (· == c) s s')
    (hhi : s'.start ≤ C.inner.length) :
    sub C.inner s.start s'.start = List.replicate (s'.start - s.start) c := by
  rw [List.eq_replicate_iff, sub_length _ _ _ hhi]
  refine ⟨rfl, ?_⟩
  intro x hx
  obtain ⟨i, h1, h2, h3⟩ := mem_sub.1 hx
  simpa using h.all i x h1 h2 h3

theorem columnAlign_ok {s : Span} (h : C.In k s) :
    C.Ok (columnAlign s) (fun s' x => C.Good s s' ∧ s.start < s'.start ∧
      ∃ l r, x = alignOf l r ∧ HyphenForm (sub C.inner s.start s'.start) l r) := by
  refine Ctx.Ok.bind' (charOpt_ok h _) ?_
  rintro s1 a ⟨g1, w1⟩
  have h1 := h.good g1
  refine Ctx.Ok.bind' (takeLineWhile1_char_good h1 _) ?_
  rintro s2 _ ⟨hsp2, w2, lt2⟩
  have h2 := h1.good hsp2.good
  refine Ctx.Ok.bind' (charOpt_ok h2 _) ?_
  rintro s3 b ⟨g3, w3⟩
  have l1 := g1.step.le
  have l3 := g3.step.le
  refine Ctx.Ok.pure ⟨(g1.trans hsp2.good).trans g3, by omega, a.isSome, b.isSome, ?_,
    s2.start - s1.start, by omega, ?_⟩
  · cases a <;> cases b <;> rfl
  · rw [← sub_append C.inner s.start s1.start s3.start l1 (by omega),
      ← sub_append C.inner s1.start s2.start s3.start (by omega) l3, w1, w3,
      w2.replicate (by have := h2.wf.le; have := h2.wf.hi; omega)]
    rfl

theorem columnAlign_err {s : Span} {w r : Str} {x y : Bool} (h : View s (w ++ r))
    (hw : HyphenForm w x y) : columnAlign s ≠ .err := by
  obtain ⟨n, hn, rfl⟩ := hw
  have h' : View s (colonIf x ++ (List.replicate n c!"-" ++ (colonIf y ++ r))) := by simpa using h
  obtain ⟨s1, a, e1, h1⟩ : ∃ s1 a, opt (char c!":") s = .ok s1 a ∧
      View s1 (List.replicate n c!"-" ++ (colonIf y ++ r)) := by
    cases x with
    | true => exact ⟨_, _, opt_ok (satisfy_run h' (by decide)), View.adv (w := [58]) h'⟩
    | false =>
      refine ⟨_, _, opt_er (satisfy_run_err h' ?_), h'⟩
      cases n with
      | zero => omega
      | succ n => simp [colonIf, List.replicate_succ]
  generalize colonIf y ++ r = q at h1
  obtain ⟨m, q', rfl, hq⟩ := run_exists c!"-" q
  rw [← List.append_assoc, List.replicate_append_replicate] at h1
  have e2 := takeLineWhile1_run (by decide) hq h1
  rw [if_neg (by omega)] at e2
  unfold columnAlign
  rw [bind_ok e1, bind_ok e2]
  have h3 : View (adv s1 (n + m)) q' := by simpa using h1.adv
  obtain ⟨s4, b, e4⟩ : ∃ s4 b, opt (char c!":") (adv s1 (n + m)) = .ok s4 b := by
    cases q' with
    | nil => exact ⟨_, _, opt_er (satisfy_run_err h3 (by simp))⟩
    | cons z q' =>
      by_cases hz : z = c!":"
      · subst hz
        exact ⟨_, _, opt_ok (satisfy_run h3 (by decide))⟩
      · exact ⟨_, _, opt_er (satisfy_run_err h3 (by simpa using hz))⟩
  rw [bind_ok e4]
  simp [P.pure]

theorem In.sub_view {s : Span} (h : C.In k s) {e : Nat} (h1 : s.start ≤ e) (h2 : e ≤ s.stop) :
    View s (sub C.inner s.start e ++ sub C.inner e s.stop) := by
  refine ⟨?_, h.wf.le, by rw [h.wf.inner]; exact h.wf.hi⟩
  rw [sub_append _ _ _ _ h1 h2, asRemaining_eq, h.wf.inner]

theorem HyphenForm.mem {w : Str} {l r : Bool} (h : HyphenForm w l r) {x : Byte} (hx : x ∈ w) :
    x = c!"-" ∨ x = c!":" := by
  obtain ⟨n, _, rfl⟩ := h
  cases l <;> cases r <;> simp [colonIf] at hx <;> omega

theorem blankForm_mem {w a t b : Str} (h : w = a ++ (t ++ b)) (ha : AllBlank a) (hb : AllBlank b)
    {x : Byte} (hx : x ∈ w) : x = 32 ∨ x = 9 ∨ x ∈ t := by
  subst h
  rcases List.mem_append.1 hx with h | h
  · have := ha x h; omega
  · rcases List.mem_append.1 h with h | h
    · exact .inr (.inr h)
    · have := hb x h; omega

theorem cell_ok {s : Span} (h : C.In (k + 1) s) : C.Ok (cell C.env s) (CellRes C s) := by
  have leaf : ∀ {s' : Span} {x : Cell}, C.Good s s' → s.start < s'.start →
      (∀ c, x = .content c → c ≠ [] ∧ Tile C (s.depth + 1) s.start c s'.start) →
      c!"|" ∉ sub C.inner s.start s'.start → 10 ∉ sub C.inner s.start s'.start →
      CellForm (sub C.inner s.start s'.start) x →
      Step s s' ∧ CellRes C s s' ⟨x, ⟨s.start, s'.start - s.start, s.depth⟩⟩ := by
    intro s' x g lt hx b1 b2 hf
    refine ⟨g.step, g, lt, ⟨Nat.le_refl _, by simp only; omega, by simp only; omega, rfl, ?_⟩, rfl,
      by simp only; omega, b1, b2, hf⟩
    intro c hc
    obtain ⟨h1, h2⟩ := hx c hc
    have e : s.start + (s'.start - s.start) = s'.start := by omega
    exact ⟨h1, by simp only; rw [e]; exact h2⟩
  have err : ∀ {α β} {p : P α} {f : α → β}, P.map p f s = .err → p s = .err := by
    intro α β p f he
    unfold P.map at he
    cases hp : p s <;> simp_all
  have errv : ∀ {α β} {p : P α} {b : β}, P.value b p s = .err → p s = .err := by
    intro α β p b he
    unfold P.value at he
    cases hp : p s <;> simp_all [P.map]
  refine Ctx.Ok.located (Ctx.Ok.alt ?_ fun e1 => Ctx.Ok.alt ?_ fun e2 => Ctx.Ok.alt ?_ fun e3 => ?_)
  · refine Ctx.Ok.map (Ctx.Ok.value ((cellSpan_ok h (by decide) (by decide)).mono ?_))
    rintro s' _ ⟨g, lt, a, b, hw, ha, hb⟩
    refine leaf g lt (by simp) ?_ ?_ ⟨a, b, hw, ha, hb⟩
    · intro hm; have := blankForm_mem hw ha hb hm; simp at this
    · intro hm; have := blankForm_mem hw ha hb hm; simp at this
  · refine Ctx.Ok.map (Ctx.Ok.value ((cellSpan_ok h (by decide) (by decide)).mono ?_))
    rintro s' _ ⟨g, lt, a, b, hw, ha, hb⟩
    refine leaf g lt (by simp) ?_ ?_ ⟨a, b, hw, ha, hb⟩
    · intro hm; have := blankForm_mem hw ha hb hm; simp at this
    · intro hm; have := blankForm_mem hw ha hb hm; simp at this
  · refine Ctx.Ok.map ((columnAlign_ok h).mono ?_)
    rintro s' _ ⟨g, lt, l, r, rfl, hf⟩
    refine leaf g lt (by simp) ?_ ?_ ?_
    · intro hm; have := hf.mem hm; simp at this
    · intro hm; have := hf.mem hm; simp at this
    · cases l <;> cases r <;> exact hf
  · refine Ctx.Ok.map (Ctx.Ok.mapParser ((takeLineUntil1_good h _ (patOk_1 _ (by decide))).mono ?_))
    rintro s' o ⟨hsp, ⟨hcl, _⟩, lt⟩
    refine (inlineContainer_ok (hsp.in h)).mono ?_
    rintro o' x ⟨hc, _⟩
    have ht := hc.tile
    have hf : o'.start = o.stop :=
      hc.full (by rw [hsp.out]; exact fun i i1 i2 => (hcl i i1 i2).1)
    rw [hsp.out] at ht hf
    rw [hf] at ht
    have hv := In.sub_view h hsp.good.step.le hsp.good.step.hi
    refine leaf hsp.good lt ?_ ?_ ?_ ⟨?_, ?_, ?_⟩
    · intro c hcc
      cases hcc
      exact ⟨hc.ne, ht⟩
    · intro hm
      obtain ⟨i, i1, i2, i3⟩ := mem_sub.1 hm
      refine (hcl i i1 i2).2 b!"|" (by simp) ⟨?_, ?_⟩
      · have := hsp.good.step.hi
        show i + 1 ≤ s.stop
        omega
      · have hlt := (List.getElem?_eq_some_iff.1 i3).1
        unfold At
        rw [List.drop_eq_getElem_cons hlt, (List.getElem?_eq_some_iff.1 i3).2]
        rfl
    · intro hm
      obtain ⟨i, i1, i2, i3⟩ := mem_sub.1 hm
      exact (hcl i i1 i2).1 i3
    · rintro ⟨a, b, hw, ha, hb⟩
      rw [hw] at hv
      exact cellSpan_err hv ha (by simp) (by simp) (errv (err e1))
    · rintro ⟨a, b, hw, ha, hb⟩
      rw [hw] at hv
      exact cellSpan_err hv ha (by simp) (by simp) (errv (err e2))
    · intro l r hf
      exact columnAlign_err hv hf (err e3)

theorem CellsAt.mono {d a a' b b' : Nat} {xs : List (Located Cell)} (h : CellsAt C d a xs b)
    (ha : a' ≤ a) (hb : b ≤ b') : CellsAt C d a' xs b' := by
  induction h generalizing a' with
  | nil h => exact .nil (by omega)
  | cons h1 h2 ih =>
    exact .cons ⟨by have := h1.lo; omega, h1.pos, h1.hi, h1.depth, h1.content⟩ (ih (Nat.le_refl _) hb)

theorem deeperCell_ok {s : Span} (h : C.In (k + 2) s) :
    C.Ok (Scan.deeper (cell C.env) s) (fun s' x => C.Good s s' ∧ s.start < s'.start ∧
      CellAt C (s.depth + 1) s.start x s'.start ∧ ∀ {i xs b}, s.start = i + 1 →
        C.inner[i]? = some c!"|" → BarCells C.inner s'.start xs b → BarCells C.inner i (x :: xs) b) := by
  refine deeper_rule h ((cell_ok (withDepth_in h)).mono ?_)
  intro s' x hx
  refine ⟨hx.good, hx.lt, hx.cell, ?_⟩
  intro i xs b hi hb hr
  have lo : x.region.offset = s.start := hx.lo
  have hi' : s.start + x.region.len = s'.start := hx.hi
  have lt : s.start < s'.start := hx.lt
  have hs : x.region.source C.inner = sub C.inner s.start s'.start := by
    unfold Region.source; rw [lo, hi']
  refine .cons hb (by omega) (by omega) ?_ ?_ ?_ ?_
  · rw [hs]; exact hx.bar
  · rw [hs]; exact hx.noNl
  · rw [hs]; exact hx.form
  · rw [← hi, hi']; exact hr

theorem row_ok {s : Span} (h : C.In (k + 2) s) :
    C.Ok (row C.env s) (fun s' xs => C.Good s s' ∧ s.start < s'.start ∧ Ends C s s' ∧ xs ≠ [] ∧
      CellsAt C (s.depth + 1) s.start xs s'.start ∧ ∃ j, BarCells C.inner s.start xs j ∧
        ((s'.start = j ∧ j = s.stop) ∨ (j < s'.start ∧ IsEol (sub C.inner j s'.start)))) := by
  refine Ctx.Ok.terminated (Ctx.Ok.delimited ((char_good h _).mono ?_))
  rintro s1 _ ⟨g1, hs1, _, hb1, _⟩
  have h1 := h.good g1
  refine Ctx.Ok.separatedList1T (I := fun t => C.In (k + 2) t ∧ Step s1 t)
    (T := fun t xs t' => C.Good t t' ∧ CellsAt C (s.depth + 1) t.start xs t'.start ∧
      (C.inner[t'.start]? = some c!"|" → BarCells C.inner t.start xs (t'.start + 1))) ?_ ?_ ?_
  · refine (deeperCell_ok h1).mono ?_
    rintro s2 x ⟨g2, lt2, hx, hbar⟩
    have h2 := h1.good g2
    refine ⟨h2.wf.le, ⟨h2, g2.step⟩, ?_⟩
    rintro as s3 st3 ⟨h3, _⟩ ⟨g3, hT, hT2⟩
    refine (char_good h3 _).mono ?_
    rintro s4 _ ⟨g4, hs4, _, hb4, _⟩
    refine (endOfLine_full (h3.good g4)).mono ?_
    intro s5 _ he
    have g := ((g1.trans g2).trans g3).trans g4
    have l2 := g2.step.le
    have l3 := g3.step.le
    have l4 := g4.step.le
    have l5 := he.good.step.le
    refine ⟨g.trans he.good, by omega, he.ends.of_good g, by simp, ?_, s4.start, ?_, ?_⟩
    · rw [g1.step.depth] at hx
      exact CellsAt.mono (.cons hx hT) (by omega) (by omega)
    · rw [hs4]
      exact hbar hs1 hb1 (hT2 hb4)
    · rcases he.eol with ⟨e1, e2⟩ | ⟨e1, _, e3⟩
      · exact .inl ⟨by rw [e2], by rw [e1, g.step.stop]⟩
      · exact .inr ⟨e1, e3⟩
  · rintro t ⟨ht, hst⟩
    refine (char_good ht _).mono ?_
    rintro t1 _ ⟨gt1, ht1s, _, hb, _⟩
    have ht1 := ht.good gt1
    refine ⟨gt1.step, fun _ => (deeperCell_ok ht1).mono ?_⟩
    rintro t2 x ⟨g2, lt2, hx, hbar⟩
    refine ⟨g2.step, ⟨ht1.good g2, hst.trans (gt1.trans g2).step⟩, ?_⟩
    rintro as t3 ⟨g3, hT, hT2⟩
    refine ⟨(gt1.trans g2).trans g3, ?_, fun h3 => hbar ht1s hb (hT2 h3)⟩
    rw [gt1.step.depth, hst.depth, g1.step.depth] at hx
    exact CellsAt.mono (.cons hx hT) gt1.step.le (Nat.le_refl _)
  · rintro t ⟨ht, _⟩
    exact ⟨Ctx.Good.refl ht, .nil (Nat.le_refl _), fun h => .nil h⟩

theorem CellsAt.ends {d a b : Nat} {xs : List (Located Cell)} (h : CellsAt C d a xs b) : a ≤ b := by
  induction h with
  | nil h => exact h
  | cons h1 _ ih => have := h1.lo; have := h1.hi; omega

theorem CellRows.ends {d a b : Nat} {rows : List (List (Located Cell))} (h : CellRows C d a rows b) :
    a ≤ b := by
  induction h with
  | nil h => exact h
  | cons h1 _ _ ih => have := h1.ends; omega

theorem barEnd {s t : Span} {j : Nat} {rows : List (List (Located Cell))} {d e : Nat}
    (_ : C.Good s t)
    (h : (t.start = j ∧ j = s.stop) ∨ (j < t.start ∧ IsEol (sub C.inner j t.start)))
    (hT : CellRows C d t.start rows e) (he : e ≤ s.stop) :
    (t.start = j ∧ rows = []) ∨
      (j < t.start ∧ (sub C.inner j t.start = b!"\n" ∨ sub C.inner j t.start = b!"\r\n")) := by
  rcases h with ⟨h1, h2⟩ | h
  · refine .inl ⟨h1, ?_⟩
    cases hT with
    | nil => rfl
    | cons a b c =>
      exfalso
      have := c.ends
      cases a with
      | nil => exact b rfl
      | cons a1 a2 =>
        have := a1.lo
        have := a1.pos
        have := a1.hi
        have := a2.ends
        omega
  · exact .inr h

theorem tableRaw_ok {s : Span} (h : C.In (k + 2) s) :
    C.Ok (tableRaw C.env s) (fun s' x => C.Good s s' ∧ s.start < s'.start ∧ Ends C s s' ∧
      x.region = ⟨s.start, s'.start - s.start, s.depth⟩ ∧
      ∃ rows c, x.inner = Table.new (tableCells 0 rows) c ∧ rows ≠ [] ∧
        CellRows C (s.depth + 1) s.start rows s'.start ∧ BarRows C.inner s.start rows s'.start) := by
  refine Ctx.Ok.located (Ctx.Ok.verify ?_)
  refine Ctx.Ok.bind' (space0_good h) ?_
  rintro s1 sp ⟨hsp1, w1⟩
  have h1 := h.good hsp1.good
  have d1 := hsp1.good.step.depth
  refine Ctx.Ok.bind' (row_ok h1) ?_
  rintro s2 first ⟨g2, lt2, he2, hne, hrow, j2, hbar2, hend2⟩
  have h2 := h1.good g2
  refine Ctx.Ok.bind' (Ctx.Ok.many0 (I := fun t => C.In (k + 2) t ∧ Step s2 t)
    (T := fun t rows t' => C.Good t t' ∧ (t' = t ∨ Ends C t t') ∧
      CellRows C (s.depth + 1) t.start rows t'.start ∧ BarRows C.inner t.start rows t'.start) ?_ ?_ ⟨h2, Step.refl h2.wf.le⟩ h2.wf.le) ?_
  · rintro t ⟨ht, hst⟩
    refine Ctx.Ok.preceded ((space0_good ht).mono ?_)
    rintro t1 _ ⟨hsp, w⟩
    have ht1 := ht.good hsp.good
    refine (row_ok ht1).mono ?_
    rintro t2 xs ⟨gt2, lt, he, hxs, hr, j, hbar, hend⟩
    refine ⟨(hsp.good.trans gt2).step, fun _ => ⟨⟨ht1.good gt2, hst.trans (hsp.good.trans gt2).step⟩, ?_⟩⟩
    rintro as t3 ⟨g3, he3, hT, hB⟩
    refine ⟨(hsp.good.trans gt2).trans g3, .inr ?_, .cons ?_ hxs hT,
      .cons hsp.good.step.le w.allBlank hxs hbar (barEnd gt2 hend hT (by have := g3.step.hi; rw [gt2.step.stop] at this; exact this)) hB⟩
    · rcases he3 with rfl | he3
      · exact he.of_good hsp.good
      · exact he3.of_good (hsp.good.trans gt2)
    · rw [hsp.good.step.depth, hst.depth, g2.step.depth, d1] at hr
      exact hr.mono hsp.good.step.le (Nat.le_refl _)
  · rintro t ⟨ht, _⟩ _
    exact ⟨Ctx.Good.refl ht, .inl rfl, .nil (Nat.le_refl _), .nil⟩
  rintro s3 rows ⟨_, _, _, g3, he3, hT, hB⟩
  have g := hsp1.good.trans g2
  have l1 := hsp1.good.step.le
  have l3 := g3.step.le
  refine Ctx.Ok.pure fun _ => ⟨(g.trans g3).step, g.trans g3, by omega, ?_, rfl,
    first :: rows, _, rfl, by simp, ?_,
    .cons l1 w1.allBlank hne hbar2 (barEnd g2 hend2 hT (by have := g3.step.hi; rw [g2.step.stop] at this; exact this)) hB⟩
  · rcases he3 with rfl | he3
    · exact he2.of_good hsp1.good
    · exact he3.of_good g
  · rw [d1] at hrow
    exact .cons (hrow.mono l1 (Nat.le_refl _)) hne hT

theorem table_ok {s : Span} (h : C.In (k + 2) s) : C.Ok (table C.env s) (BlockRes C s) := by
  refine Ctx.Ok.map ((tableRaw_ok h).mono ?_)
  rintro s' ⟨t, r⟩ ⟨g, lt, he, hr, rows, c, ht, hne, hrows, hbars⟩
  simp only at hr ht
  subst hr ht
  exact blockRes_whole g lt he (.table (c := c) (c' := c) hrows hne hbars)

theorem nestedTable_ok {s : Span} (h : C.In (k + 2) s) : C.Ok (nestedTable C.env s) (BlockRes C s) := by
  refine Ctx.Ok.map ((tableRaw_ok h).mono ?_)
  rintro s' ⟨t, r⟩ ⟨g, lt, he, hr, rows, c, ht, hne, hrows, hbars⟩
  simp only at hr ht
  subst hr ht
  exact blockRes_whole g lt he (.table hrows hne hbars)

end Vw
