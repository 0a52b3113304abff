import Verif.Lemmas.Inline
import Verif.Lemmas.Uri

/-!
# Facts about the link parsers
-/

namespace Vw
open P Scan

variable {C : Ctx} {k : Nat}

/-! ## Raw links -/

theorem rawLink_ok {s : Span} (h : C.In k s) : C.Ok (rawLink C.env s) (Elem C s) := by
  refine located_leaf h ((Ctx.Ok.self (Q := fun s' x => C.Good s s' ∧ s.start < s'.start ∧
    Payload C s.start s'.start x ∧ ∃ d, x = .link (.raw d)) ?_).mono ?_)
  rotate_left
  · rintro s' _ ⟨⟨g, hlt, hp, d, rfl⟩, e⟩
    exact ⟨g, hlt, hp, readBy_of h e (by omega)⟩
  refine Ctx.Ok.map (Ctx.Ok.verify (Ctx.Ok.mapOpt ((uriText_good h).mono ?_)))
  rintro s' o ⟨hsp, hlt, hno, _⟩ u hu hv
  rw [hsp.rem h.wf] at hu
  refine ⟨hsp.good, hlt, ⟨hu, ?_, rfl, rfl, ?_⟩, _, rfl⟩
  · revert hv
    cases hsc : u.scheme with
    | none => simp
    | some sc =>
      intro hv
      refine ⟨sc, rfl, ?_⟩
      simpa using hv
  · intro x hx
    obtain ⟨i, i1, i2, i3⟩ := mem_sub.1 hx
    have := hno i i1 i2
    have hi := hsp.good.step.hi
    refine ⟨?_, ?_, ?_⟩
    · rintro rfl; exact this (.inl ⟨by omega, .inl i3⟩)
    · rintro rfl; exact this (.inl ⟨by omega, .inr i3⟩)
    · rintro rfl; exact this (.inr (.inl ⟨by omega, i3⟩))

theorem rawLink_raw {s : Span} (h : C.In k s) :
    C.Ok (rawLink C.env s) (fun s' x => Elem C s s' x ∧ C.RawFrom s.start) := by
  refine Ctx.Ok.and (rawLink_ok h) (Ctx.Ok.located (Ctx.Ok.map (Ctx.Ok.verify (Ctx.Ok.mapOpt
    ((uriText_good h).mono ?_)))))
  rintro s' o ⟨hsp, hlt, -, -⟩ u hu hv
  rw [hsp.rem h.wf] at hu
  have hhi := h.wf.hi
  have hs := hsp.good.step.hi
  refine ⟨hsp.good.step, s'.start, u, ?_⟩
  revert hv
  cases hsc : u.scheme with
  | none => simp
  | some sc =>
    intro hv
    exact ⟨sc, hlt, by omega, hu, rfl, by simpa using hv⟩

/-- The parser does not run out of depth. -/
def NoDeep {α} (p : P α) : Prop := ∀ s, p s ≠ .panic .depthOverflow

theorem NoDeep.bind {α β} {p : P α} {f : α → P β} (hp : NoDeep p) (hf : ∀ a, NoDeep (f a)) :
    NoDeep (P.bind p f) := by
  intro s
  unfold P.bind
  have := hp s
  cases h : p s with
  | ok s' a => exact hf a s'
  | panic r => simp_all
  | _ => simp

theorem NoDeep.pure {α} {a : α} : NoDeep (P.pure a) := by intro s h; cases h

theorem NoDeep.satisfy (f : Byte → Bool) : NoDeep (satisfy f) := by
  intro s
  unfold P.satisfy
  cases s.asRemaining with
  | nil => simp
  | cons b bs => simp only; split <;> simp

theorem NoDeep.tag (t : Str) : NoDeep (tag t) := by
  intro s; unfold P.tag; split <;> simp [takeSplit]

theorem NoDeep.alt {α} {p q : P α} (hp : NoDeep p) (hq : NoDeep q) : NoDeep (P.alt p q) := by
  intro s
  unfold P.alt
  have := hp s
  cases h : p s with
  | err => exact hq s
  | panic r => simp_all
  | _ => simp

theorem NoDeep.map {α β} {p : P α} {f : α → β} (hp : NoDeep p) : NoDeep (P.map p f) := by
  intro s
  unfold P.map
  have := hp s
  cases h : p s <;> simp_all

theorem NoDeep.not {α} {p : P α} (hp : NoDeep p) : NoDeep (P.not p) := by
  intro s
  unfold P.not
  have := hp s
  cases h : p s <;> simp_all

theorem NoDeep.verify {α} {p : P α} {f : α → Bool} (hp : NoDeep p) : NoDeep (P.verify p f) := by
  intro s
  unfold P.verify
  have := hp s
  cases h : p s <;> simp_all
  split <;> simp

theorem NoDeep.mapOpt {α β} {p : P α} {f : α → Option β} (hp : NoDeep p) :
    NoDeep (P.mapOpt p f) := by
  intro s
  unfold P.mapOpt
  have := hp s
  cases h : p s with
  | ok s' a => simp only; cases f a <;> simp
  | _ => simp_all

theorem NoDeep.recognize {α} {p : P α} (hp : NoDeep p) : NoDeep (P.recognize p) := by
  intro s
  unfold P.recognize
  have := hp s
  cases h : p s with
  | ok s' a => simp only; split <;> simp
  | _ => simp_all

theorem NoDeep.located {α} {p : P α} (hp : NoDeep p) : NoDeep (Scan.located p) := by
  intro s
  unfold Scan.located
  have := hp s
  cases h : p s with
  | ok s' a => simp only; split <;> simp
  | _ => simp_all

theorem NoDeep.many0Loop {α} {p : P α} (hp : NoDeep p) (n : Nat) : NoDeep (many0Loop p n) := by
  induction n with
  | zero => intro s; simp [P.many0Loop]
  | succ n ih =>
    intro s
    unfold P.many0Loop
    have := hp s
    cases h : p s with
    | ok s' a =>
      simp only
      split
      · simp
      · have := ih s'
        cases hm : P.many0Loop p n s' <;> simp_all
    | _ => simp_all

theorem NoDeep.many1 {α} {p : P α} (hp : NoDeep p) : NoDeep (P.many1 p) :=
  NoDeep.bind hp fun _ => NoDeep.bind (fun s => NoDeep.many0Loop hp _ s) fun _ => NoDeep.pure

theorem rawLink_noDeep (env : Env) : NoDeep (rawLink env) := by
  refine NoDeep.located (NoDeep.map (NoDeep.verify (NoDeep.mapOpt (NoDeep.recognize
    (NoDeep.many1 (NoDeep.bind (NoDeep.not (NoDeep.map (NoDeep.alt (NoDeep.tag _)
      (NoDeep.alt (NoDeep.tag _) (NoDeep.alt (NoDeep.tag _) (NoDeep.tag _)))))) fun _ =>
      NoDeep.bind (NoDeep.satisfy _) fun _ => NoDeep.pure))))))

theorem rawLink_anyDepth {s : Span} (hi : s.inner = C.inner) (hle : s.start ≤ s.stop)
    (hhi : s.stop ≤ C.inner.length) (bs : C.B s.start) (be : C.B s.stop) :
    C.Ok (rawLink C.env s) (fun _ x => x.region.offset = s.start ∧ C.RawFrom s.start) := by
  have := rawLink_raw (C := { C with D := s.depth + (s.stop - s.start) }) (k := 0) (s := s)
    ⟨⟨hi, hle, hhi, Nat.le_refl _⟩, bs, be⟩
  have nd := rawLink_noDeep C.env s
  revert this nd
  cases rawLink C.env s with
  | ok s' x =>
    intro h _
    exact ⟨h.1.offset, h.2⟩
  | err => simp [Ctx.Ok]
  | diverge => intro h _; exact h
  | panic r =>
    intro h nd
    cases r with
    | depthOverflow => exact absurd rfl nd
    | textUnderflow => exact h
    | dedentBoundary => exact h
    | diaryUnwrap => exact h
    | offsetUnderflow => exact h

/-! ## Link data -/

theorem linkUriRef_ok {s : Span} (h : C.In k s) :
    C.Ok (linkUriRef C.env s) (fun s' _ => C.Good s s' ∧ s.start < s'.start) := by
  refine Ctx.Ok.mapOpt ((takeLineUntil31_good h _ _ _ (patOk_1 _ (by decide))
    (patOk_2 _ _ (by decide)) (patOk_2 _ _ (by decide))).mono ?_)
  rintro s' o ⟨hsp, _, hlt⟩ _ _
  exact ⟨hsp.good, hlt⟩

theorem prop_ok {s : Span} (h : C.In k s) :
    C.Ok (separatedPair (strOf (takeLineUntil1 b!"=")) (tag b!"=")
        (strOf (delimited (tag b!"\"") (takeLineUntil b!"\"") (tag b!"\""))) s)
      (fun s' e => C.Good s s' ∧ s.start < s'.start ∧ StrsIn C s.start s.stop [e.1, e.2]) := by
  refine Ctx.Ok.separatedPair (strOf_rule ((takeLineUntil1_good h _ (patOk_1 _ (by decide))).mono ?_))
  rintro s1 _ ⟨hsp1, _, hlt⟩
  have h1 := h.good hsp1.good
  refine (tag_good h1 _).mono ?_
  rintro s2 _ ⟨hsp2, _, _⟩
  have h2 := h1.good hsp2.good
  refine strOf_rule (Ctx.Ok.delimited ((tag_good h2 _).mono ?_))
  rintro s3 _ ⟨hsp3, _, _⟩
  have h3 := h2.good hsp3.good
  refine (takeLineUntil_good h3 _ (patOk_1 _ (by decide))).mono ?_
  rintro s4 _ ⟨hsp4, _⟩
  have h4 := h3.good hsp4.good
  refine (tag_good h4 _).mono ?_
  rintro s5 _ ⟨hsp5, _, _⟩
  have g := ((hsp2.good.trans hsp3.good).trans hsp4.good).trans hsp5.good
  have := g.step.le
  have g3 := (hsp1.good.trans hsp2.good).trans hsp3.good
  refine ⟨hsp1.good.trans g, by omega, ?_⟩
  intro w hw
  simp only [List.mem_cons, List.not_mem_nil, or_false] at hw
  rcases hw with rfl | rfl
  · exact (IsStr.split h hsp1).mono (Nat.le_refl _) hsp1.good.step.hi
  · exact (IsStr.split h3 hsp4).mono g3.step.le (g3.trans hsp4.good).step.hi

theorem linkProperties_ok {s : Span} (h : C.In k s) :
    C.Ok (linkProperties s) (fun s' m => C.Good s s' ∧ StrsIn C s.start s.stop (propStrings (some m))) := by
  refine Ctx.Ok.bind' (tag_good h _) ?_
  rintro s1 _ ⟨hsp1, _, _⟩
  have h1 := h.good hsp1.good
  refine Ctx.Ok.map ((Ctx.Ok.separatedList1 (I := fun t => C.In k t ∧ Step s t)
    (R := fun e => StrsIn C s.start s.stop [e.1, e.2])
    ((prop_ok h1).mono ?_) ?_).mono ?_)
  · rintro s2 _ ⟨g, _, hs⟩
    exact ⟨g.step, ⟨h1.good g, (hsp1.good.trans g).step⟩,
      hs.mono hsp1.good.step.le (by rw [hsp1.good.step.stop]; exact Nat.le_refl _)⟩
  · rintro t ⟨ht, st⟩
    refine (space1_good ht).mono ?_
    rintro t1 _ ⟨hsp, _, hlt⟩
    refine ⟨hsp.good.step, fun _ => (prop_ok (ht.good hsp.good)).mono ?_⟩
    rintro t2 _ ⟨g, _, hs⟩
    have st1 := st.trans hsp.good.step
    exact ⟨g.step, ⟨(ht.good hsp.good).good g, st1.trans g.step⟩,
      hs.mono st1.le (by rw [st1.stop]; exact Nat.le_refl _)⟩
  · rintro s2 ps ⟨st, hI, hR⟩
    refine ⟨hsp1.good.trans ⟨st, hI.1.bs⟩, ?_⟩
    intro w hw
    obtain ⟨e, he, hw⟩ := List.mem_flatMap.1 hw
    exact hR e (mem_collect he) w hw

theorem Ctx.Wf.inHi {s : Span} (h : C.Wf k s) : s.stop ≤ s.inner.length := by
  rw [h.inner]; exact h.hi

theorem map_self {α β} {p : P α} {f : α → β} {s s' : Span} {a : α} (h : p s = .ok s' a) :
    P.map p f s = .ok s' (f a) := by
  unfold P.map; rw [h]

theorem transclusionOf_ok {s : Span} (h : C.In k s) {ld : P LinkData}
    (hld : ∀ o, C.In k o → o.stop - o.start < s.stop - s.start →
      C.Ok (ld o) (fun _ d => StrsIn C o.start o.stop d.strings)) :
    C.Ok (transclusionOf ld s) (fun s' x => C.Good s s' ∧ s.start < s'.start ∧
      x.region = ⟨s.start, s'.start - s.start, s.depth⟩ ∧
      (∃ c, BracketOk C s.start s'.start b!"{{" b!"}}" c ∧ ∃ o o' : Span, o.asRemaining = c ∧
        o.start ≤ o.stop ∧ o.stop ≤ o.inner.length ∧ ld o = .ok o' x.inner) ∧
      StrsIn C s.start s'.start x.inner.strings) := by
  refine Ctx.Ok.located (Ctx.Ok.mapParser ((surround_notContains h _ _).mono ?_))
  rintro s' o ⟨hsu, hbr⟩
  have hin := (hsu.in h).mono (Nat.le_add_right k _)
  have h1 := hsu.ostart
  have h2 := hsu.sub.hi
  have h3 := hsu.nonempty
  have h4 := hsu.send
  simp only [List.length_cons, List.length_nil] at h1
  refine (hld o hin (by omega)).self.mono ?_
  rintro o' d ⟨hd, hrun⟩
  exact ⟨hsu.good.step, hsu.good, hsu.lt, rfl, ⟨_, hbr, o, o', hin.wf.rem, hin.wf.le, hin.wf.inHi, hrun⟩, hd.mono (by omega) (by omega)⟩

theorem transclusion_strings (u : Uri) (d : Option Description) (ps : Option Map) :
    (Description.transclusion u d ps).strings = LinkData.strings ⟨u, d, ps⟩ := by
  cases d <;> simp [Description.strings, LinkData.strings, descStrings]

theorem linkDescriptionOf_ok {s : Span} (h : C.In k s) {ld : P LinkData}
    (hld : ∀ o, C.In k o → o.stop - o.start < s.stop - s.start →
      C.Ok (ld o) (fun _ d => StrsIn C o.start o.stop d.strings)) :
    C.Ok (linkDescriptionOf ld s) (fun s' d => C.Good s s' ∧ s.start < s'.start ∧
      StrsIn C s.start s.stop d.strings) := by
  refine Ctx.Ok.bind' (tag_good h _) ?_
  rintro s1 _ ⟨hsp1, e1, _⟩
  simp only [List.length_cons, List.length_nil] at e1
  have h1 := h.good hsp1.good
  refine Ctx.Ok.mapParser ((takeLineUntil_good h1 _ (patOk_1 _ (by decide))).mono ?_)
  rintro s2 o ⟨hsp2, _, _⟩
  have ho := hsp2.in h1
  have := hsp2.good.step.le
  have := hsp2.good.step.hi
  have := hsp1.good.step.stop
  have hog : o.start = s1.start ∧ o.stop = s2.start := by rw [hsp2.out]; exact ⟨rfl, rfl⟩
  refine Ctx.Ok.alt (Ctx.Ok.map ((transclusionOf_ok ho ?_).mono ?_)) fun _ => Ctx.Ok.map ?_
  · intro q hq hlt
    exact hld q hq (by omega)
  · rintro o' x ⟨g, _, _, _, hx⟩
    refine ⟨hsp1.good.trans hsp2.good, by omega, ?_⟩
    have := g.step.hi
    simp only [transclusion_strings]
    exact hx.mono (by omega) (by omega)
  · rw [rest_eq ho.wf]
    refine ⟨hsp1.good.trans hsp2.good, by omega, ?_⟩
    intro w hw
    simp only [Description.strings, List.mem_cons, List.not_mem_nil, or_false] at hw
    subst hw
    exact (IsStr.split h1 hsp2).mono (by omega) (by omega)

theorem opt_rule {α} {p : P α} {s : Span} (h : C.In k s) {R : Option α → Prop}
    (hp : C.Ok (p s) (fun s' a => C.Good s s' ∧ R (some a))) (hn : R none) :
    C.Ok (P.opt p s) (fun s' a => C.Good s s' ∧ R a) :=
  Ctx.Ok.opt hp fun _ => ⟨Ctx.Good.refl h, hn⟩

theorem opt_good {α} {p : P α} {s : Span} (h : C.In k s)
    (hp : C.Ok (p s) (fun s' _ => C.Good s s')) : C.Ok (P.opt p s) (fun s' _ => C.Good s s') :=
  Ctx.Ok.opt hp fun _ => Ctx.Good.refl h

theorem linkDataF_ok (n : Nat) {s : Span} (h : C.In k s) (hn : s.stop - s.start < n) :
    C.Ok (linkDataF C.env n s) (fun s' d => C.Good s s' ∧ StrsIn C s.start s.stop d.strings) := by
  induction n generalizing s with
  | zero => omega
  | succ n ih =>
    unfold linkDataF
    refine Ctx.Ok.bind' (linkUriRef_ok h) ?_
    rintro s1 u ⟨g1, hlt⟩
    have h1 := h.good g1
    have := g1.step.hi
    have := g1.step.stop
    refine Ctx.Ok.bind' (opt_rule (R := fun d => StrsIn C s1.start s1.stop (descStrings d)) h1
      ((linkDescriptionOf_ok h1 ?_).mono fun _ _ h => ⟨h.1, h.2.2⟩) StrsIn.nil) ?_
    · intro o ho hlt'
      exact (ih ho (by omega)).mono fun _ _ h => h.2
    · rintro s2 d ⟨g2, hd⟩
      have h2 := h1.good g2
      have := g2.step.le
      have := g2.step.stop
      refine Ctx.Ok.bind' (opt_rule (R := fun d => StrsIn C s2.start s2.stop (propStrings d)) h2
        (linkProperties_ok h2) StrsIn.nil) ?_
      rintro s3 ps ⟨g3, hp⟩
      exact Ctx.Ok.pure ⟨(g1.trans g2).trans g3,
        (hd.mono (by omega) (by omega)).append (hp.mono (by omega) (by omega))⟩

theorem linkData_ok {s : Span} (h : C.In k s) :
    C.Ok (linkData C.env s) (fun s' d => C.Good s s' ∧ StrsIn C s.start s.stop d.strings) :=
  linkDataF_ok _ h (by rw [remainingLen_eq]; omega)

theorem linkDescription_ok {s : Span} (h : C.In k s) :
    C.Ok (linkDescription C.env s) (fun s' d => C.Good s s' ∧ StrsIn C s.start s.stop d.strings) :=
  (linkDescriptionOf_ok h fun _ ho _ => (linkData_ok ho).mono fun _ _ h => h.2).mono
    fun _ _ h => ⟨h.1, h.2.2⟩

theorem at_join {l u w : Str} {i : Nat} (h : At l i u) (h' : At l (i + u.length) w) :
    At l i (u ++ w) := by
  unfold At at *
  rw [List.length_append, List.take_add, h, List.drop_drop, h']

theorem brackets_ok {s : Span} (h : C.In k s) {q : P Inline}
    (hq : ∀ o, C.In k o → (∀ w, At C.inner o.start w → (b!"[[" ++ w) <:+: C.inner) → C.Ok (q o) (fun _ x => ∃ l, x = .link l ∧
      (∀ d, l ≠ .raw d) ∧ (∀ d, l ≠ .transclusion d) ∧ linkBody C.env l = q ∧
      StrsIn C o.start o.stop l.strings)) :
    C.Ok (located (mapParser brackets q) s) (Elem C s) := by
  refine located_leaf h (Ctx.Ok.mapParser ((surround_notContains h _ _).mono ?_))
  rintro s' o ⟨hsu, hbr⟩
  have hbef : ∀ w, At C.inner o.start w → (b!"[[" ++ w) <:+: C.inner := by
    intro w hw
    have e := hsu.left.2
    rw [hsu.ostart] at hw
    exact at_infix (i := s.start) (at_join e hw)
  have hin := (hsu.in h).mono (Nat.le_add_right k _)
  refine (hq o hin hbef).self.mono ?_
  rintro o' x ⟨⟨l, rfl, h1, h2, hb, h3⟩, hrun⟩
  rw [← hb] at hrun
  have e1 := hsu.ostart
  have e2 := hsu.send
  cases l with
  | raw d => exact absurd rfl (h1 d)
  | transclusion d => exact absurd rfl (h2 d)
  | _ =>
    exact ⟨hsu.good, hsu.lt, ⟨⟨_, hbr, o, o', hin.wf.rem, hin.wf.le, hin.wf.inHi, hrun⟩,
      h3.mono (by omega) (by omega)⟩, trivial⟩

theorem wikiLink_ok {s : Span} (h : C.In k s) : C.Ok (wikiLink C.env s) (Elem C s) := by
  refine located_leaf h (Ctx.Ok.map (Ctx.Ok.mapParser ((surround_notContains h _ _).mono ?_)))
  rintro s' o ⟨hsu, hbr⟩
  have hin := (hsu.in h).mono (Nat.le_add_right k _)
  refine (linkData_ok hin).self.mono ?_
  rintro o' d ⟨⟨_, hd⟩, hrun⟩
  have e1 := hsu.ostart
  have e2 := hsu.send
  exact ⟨hsu.good, hsu.lt, ⟨⟨_, hbr, o, o', hin.wf.rem, hin.wf.le, hin.wf.inHi, map_self hrun⟩,
    hd.mono (by omega) (by omega)⟩, trivial⟩

theorem transclusionLink_ok {s : Span} (h : C.In k s) :
    C.Ok (transclusionLink C.env s) (Elem C s) := by
  refine Ctx.Ok.map ((transclusionOf_ok h fun o ho _ =>
    (linkData_ok ho).mono fun _ _ h => h.2).mono ?_)
  rintro s' ⟨d, r⟩ ⟨g, hlt, hr, hbr, hd⟩
  simp only at hr
  subst hr
  obtain ⟨c, hbr, o, o', h1, h2, h3, hrun⟩ := hbr
  exact elem_leaf h g hlt ⟨⟨c, hbr, o, o', h1, h2, h3, map_self hrun⟩, hd⟩ trivial

theorem linkData_none_strings (u : Uri) (d : Option Description) :
    LinkData.strings ⟨u, d, none⟩ = descStrings d := by
  simp [LinkData.strings, propStrings]

theorem indexedInterwikiLink_ok {s : Span} (h : C.In k s) :
    C.Ok (indexedInterwikiLink C.env s) (Elem C s) := by
  refine brackets_ok h fun o ho hbef => ?_
  refine Ctx.Ok.bind' (Q1 := fun o1 _ => C.Good o o1) (Ctx.Ok.mapOpt (Ctx.Ok.delimited
    ((tag_good ho _).mono ?_))) ?_
  · rintro o1 _ ⟨hsp1, _, _⟩
    refine (takeLineUntil1_good (ho.good hsp1.good) _ (patOk_1 _ (by decide))).mono ?_
    rintro o2 _ ⟨hsp2, _, _⟩
    refine (tag_good ((ho.good hsp1.good).good hsp2.good) _).mono ?_
    rintro o3 _ ⟨hsp3, _, _⟩ _ _
    exact (hsp1.good.trans hsp2.good).trans hsp3.good
  intro o1 i g1
  have h1 := ho.good g1
  refine Ctx.Ok.bind' (linkUriRef_ok h1) ?_
  rintro o2 u ⟨g2, _⟩
  have h2 := h1.good g2
  refine Ctx.Ok.bind' (opt_rule (R := fun d => StrsIn C o2.start o2.stop (descStrings d)) h2
    (linkDescription_ok h2) StrsIn.nil) ?_
  rintro o3 d ⟨g3, hd⟩
  have st := (g1.trans g2).step
  refine Ctx.Ok.pure ⟨_, rfl, by simp, by simp, rfl, ?_⟩
  simp only [Link.strings, linkData_none_strings]
  exact hd.mono st.le (by rw [st.stop]; exact Nat.le_refl _)

theorem namedInterwikiLink_ok {s : Span} (h : C.In k s) :
    C.Ok (namedInterwikiLink C.env s) (Elem C s) := by
  refine brackets_ok h fun o ho hbef => ?_
  refine Ctx.Ok.bind' (Q1 := fun o1 n => C.Good o o1 ∧ IsStr C o.start o.stop n)
    (strOf_rule (Ctx.Ok.delimited ((tag_good ho _).mono ?_))) ?_
  · rintro o1 _ ⟨hsp1, _, _⟩
    have h1 := ho.good hsp1.good
    refine (takeLineUntil1_good h1 _ (patOk_1 _ (by decide))).mono ?_
    rintro o2 _ ⟨hsp2, _, _⟩
    refine (tag_good (h1.good hsp2.good) _).mono ?_
    rintro o3 _ ⟨hsp3, _, _⟩
    exact ⟨(hsp1.good.trans hsp2.good).trans hsp3.good,
      (IsStr.split h1 hsp2).mono hsp1.good.step.le (hsp1.good.trans hsp2.good).step.hi⟩
  rintro o1 i ⟨g1, hn⟩
  have h1 := ho.good g1
  refine Ctx.Ok.bind' (linkUriRef_ok h1) ?_
  rintro o2 u ⟨g2, _⟩
  have h2 := h1.good g2
  refine Ctx.Ok.bind' (opt_rule (R := fun d => StrsIn C o2.start o2.stop (descStrings d)) h2
    (linkDescription_ok h2) StrsIn.nil) ?_
  rintro o3 d ⟨g3, hd⟩
  have st := (g1.trans g2).step
  refine Ctx.Ok.pure ⟨_, rfl, by simp, by simp, rfl, ?_⟩
  simp only [Link.strings, linkData_none_strings]
  intro w hw
  rcases List.mem_cons.1 hw with rfl | hw
  · exact hn
  · exact hd.mono st.le (by rw [st.stop]; exact Nat.le_refl _) w hw

theorem diaryLink_ok {s : Span} (h : C.In k s) : C.Ok (diaryLink C.env s) (Elem C s) := by
  refine brackets_ok h fun o ho hbef => ?_
  refine Ctx.Ok.bind' (tag_good ho _) ?_
  rintro o1 _ ⟨hsp1, _, hat⟩
  have h1 := ho.good hsp1.good
  refine Ctx.Ok.bind' (Q1 := fun o2 _ => C.Good o1 o2) (Ctx.Ok.mapOpt
    ((takeLineUntil21_good h1 _ _ (patOk_1 _ (by decide)) (patOk_1 _ (by decide))).mono ?_)) ?_
  · rintro o2 _ ⟨hsp2, _, _⟩ _ _
    exact hsp2.good
  intro o2 date g2
  have h2 := h1.good g2
  refine Ctx.Ok.bind' (Q1 := fun o3 a => C.Good o2 o3 ∧ ∀ x, a = some x → ∃ w,
      w <:+: C.inner ∧ Anchor.fromUriFragment w = some x) (Ctx.Ok.opt (Ctx.Ok.mapOpt
    ((takeLineUntil_good h2 _ (patOk_1 _ (by decide))).mono ?_)) ?_) ?_
  · rintro o3 v ⟨hsp3, _⟩ a ha
    rw [hsp3.rem h2.wf] at ha
    refine ⟨hsp3.good, ?_⟩
    rintro _ ⟨⟩
    exact ⟨_, sub_infix _ _ _, ha⟩
  · exact fun _ => ⟨Ctx.Good.refl h2, by simp⟩
  rintro o3 anchor ⟨g3, hanchor⟩
  have h3 := h2.good g3
  refine Ctx.Ok.bind' (opt_rule (R := fun d => StrsIn C o3.start o3.stop (descStrings d)) h3
    (linkDescription_ok h3) StrsIn.nil) ?_
  rintro o4 d ⟨g4, hd⟩
  have st := ((hsp1.good.trans g2).trans g3).step
  unfold newDiaryLink
  cases hu : C.env.uri (diaryUriText anchor) with
  | some u =>
    refine ⟨_, rfl, by simp, by simp, rfl, ?_⟩
    simp only [Link.strings, linkData_none_strings]
    exact hd.mono st.le (by rw [st.stop]; exact Nat.le_refl _)
  | none =>
    refine ⟨hbef _ hat.2, ?_⟩
    cases anchor with
    | none => exact .inl hu
    | some a =>
      cases a with
      | nil => exact .inl hu
      | cons p ps =>
        obtain ⟨w, hw, ha⟩ := hanchor _ rfl
        refine .inr ⟨p :: ps, by simp, ?_, hu⟩
        have hj := join_splitOn c!"#" w
        unfold Anchor.fromUriFragment at ha
        revert ha hj
        cases hsplit : splitOn c!"#" w with
        | nil => simp
        | cons q qs =>
          cases q with
          | cons _ _ => simp
          | nil =>
            intro ha hj
            have ha : qs = p :: ps := by simpa using ha
            subst ha
            have : c!"#" :: joinWith b!"#" (p :: ps) = w := by rw [← hj]; rfl
            rw [this]
            exact hw

theorem link_ok {s : Span} (h : C.In k s) : C.Ok (link C.env s) (Elem C s) := by
  refine Ctx.Ok.alts_cons (diaryLink_ok h) (Ctx.Ok.alts_cons (indexedInterwikiLink_ok h)
    (Ctx.Ok.alts_cons (namedInterwikiLink_ok h) (Ctx.Ok.alts_cons (wikiLink_ok h)
    (Ctx.Ok.alts_cons (rawLink_ok h) (Ctx.Ok.alts_cons (transclusionLink_ok h)
    Ctx.Ok.alts_nil)))))

end Vw
