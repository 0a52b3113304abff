import Verif.Lemmas.LineFound
import Verif.Lemmas.QuoteRun
import Verif.Spec.BlockStarts

/-!
# Quotes and list items are found
-/

namespace Vw
open P Scan

variable {C : Ctx} {k : Nat}

/-! ## Quotes -/

theorem notLineEnding_line {s : Span} {v r : Str} (hv : View s (v ++ r)) (hl : LineSplit v r) (h13 : 13 ∉ v) :
    ∃ o, notLineEnding s = .ok (adv s v.length) o := by
  rcases hl.2 with rfl | ⟨t, rfl, -⟩ | ⟨t, rfl⟩
  · have hm : memchr (fun b => b == 10 || b == 13) (v ++ []) = none := by
      unfold memchr
      rw [List.findIdx?_eq_none_iff]
      intro x hx
      rw [List.append_nil] at hx
      have h1 : x ≠ 10 := fun e => hl.1 (e ▸ hx)
      have h2 : x ≠ 13 := fun e => h13 (e ▸ hx)
      simp [h1, h2]
    have e : notLineEnding s = .ok (s.sliceFrom (v ++ []).length) s := by
      unfold notLineEnding
      simp only [hv.rem, hm]
    refine ⟨s, ?_⟩
    rw [e, List.append_nil, sliceFrom_run hv]
  · exact ⟨_, notLineEnding_run hv hl.1 h13⟩
  · have hm : memchr (fun b => b == 10 || b == 13) (v ++ 13 :: 10 :: t) = some v.length := by
      unfold memchr
      rw [List.findIdx?_eq_some_iff_getElem]
      refine ⟨by simp, by simp, fun j hj => ?_⟩
      have hx : v[j] ∈ v := List.getElem_mem hj
      have h1 : v[j] ≠ 10 := fun e => hl.1 (e ▸ hx)
      have h2 : v[j] ≠ 13 := fun e => h13 (e ▸ hx)
      simp [List.getElem_append_left hj, h1, h2]
    have e : notLineEnding s = .ok (s.sliceFrom v.length) (s.sliceTo v.length) := by
      unfold notLineEnding
      simp only [hv.rem, hm]
      rw [if_pos]
      simp [matchesAt]
    exact ⟨_, by rw [e, sliceFrom_run hv]⟩

theorem arrowBlockquote_ne {s : Span} (h : C.In k s) {t : Str} (hv : View s t) (hf : QuoteForm t) :
    arrowBlockquote s ≠ .err := by
  obtain ⟨ws, v, r, rfl, hw, hl, h13⟩ := hf
  have v1 := View.adv hv
  have v2 := View.adv v1
  obtain ⟨o, e3⟩ := notLineEnding_line v2 hl h13
  have v3 := View.adv v2
  obtain ⟨n, e4, -⟩ := eol_run v3 hl.eolHere
  intro he
  have lines : ∀ t, C.In k t → ∀ t' x, arrowBlockquoteLine t = .ok t' x → t' ≠ t ∧ C.In k t' := by
    intro t ht t' x hx
    have := ok_of_run (arrowBlockquoteLine_ok ht) hx
    exact ⟨fun e => by have := this.lt; rw [e] at this; omega, ht.good this.good⟩
  rcases bind_err (map_err (located_err he)) with he | ⟨s1, x, h1, he⟩
  · have he := many1_err (I := fun t => C.In k t) lines h he
    unfold arrowBlockquoteLine at he
    rw [bind_ok (space0_run hv (AllBlank.iff.1 hw) (by intro x hx; simp at hx; subst hx; rfl)), bind_ok (tag_run v1),
      bind_ok (strOf_ok e3), bind_ok e4] at he
    cases he
  · have i1 : C.In k s1 := h.good (ok_of_run (many1_lines h fun t ht => arrowBlockquoteLine_ok ht) h1).1.good
    rcases bind_err he with he | ⟨_, _, _, he⟩
    · refine many0_ne_err (I := fun t => C.In k t) ?_ i1 he
      intro t ht t' x hx
      obtain ⟨u, bs, hb, hx⟩ := bind_inv hx
      obtain ⟨u2, b2, hb2, hx⟩ := bind_inv hx
      cases hx
      have gu : C.Good t u := by
        have := ok_of_run (Ctx.Ok.many0 (I := fun t => C.In k t) (T := fun t _ t' => C.Good t t') (fun t ht => by
            refine Ctx.Ok.value ((blankLine_full ht).mono ?_)
            rintro t1 _ ⟨g, -⟩
            exact ⟨g.step, fun _ => ⟨ht.good g, fun _ _ g2 => g.trans g2⟩⟩)
          (fun t ht _ => Ctx.Good.refl ht) ht ht.wf.le) hb
        obtain ⟨_, _, _, g⟩ := this
        exact g
      have hu := ht.good gu
      have h2 := ok_of_run (arrowBlockquoteLine_ok hu) hb2
      refine ⟨fun e => ?_, hu.good h2.good⟩
      have := h2.lt
      have := gu.step.le
      rw [e] at *
      omega
    · cases he

/-- Lines that are quotes. -/
theorem quoteKind (C : Ctx) : LineKind C (fun q => Bol C q ∧ QuoteForm (C.inner.drop q))
    (fun q y => (∃ ls, y.inner = .blockquote ls) ∧ y.region.offset ≤ q ∧ q < y.region.offset + y.region.len) := by
  have first : ∀ q, QuoteForm (C.inner.drop q) → ∃ j, FirstByte C q j c!">" := by
    rintro q ⟨ws, v, r, e, hw, -⟩
    exact ⟨_, (firstByte_of (C := C) (q := q) (ws := ws) (x := c!">") e hw (by decide)).1⟩
  refine .unfenced (fun q h => h.1) ?_ ?_ ?_ ?_ ?_
  · rintro q ⟨-, hf⟩
    obtain ⟨j, hj⟩ := first q hf
    exact ⟨j, _, hj, by decide, by decide, by decide⟩
  · rintro q j ⟨-, hf⟩ hj
    obtain ⟨j', hj'⟩ := first q hf
    exact absurd (hj.uniq hj').2 (by decide)
  · rintro q j - - y ls hy h1 h2
    exact ⟨⟨ls, hy⟩, h1, h2⟩
  · rintro q it ⟨-, hf⟩ ⟨hqj, hbl, ty, su, w, hw, ha⟩
    exfalso
    obtain ⟨j', hj'⟩ := first q hf
    obtain ⟨hne, hhd⟩ := hw.head
    cases w with
    | nil => exact hne rfl
    | cons y w' =>
      have h0 := ha.getElem? 0 (by simp)
      simp only [Nat.add_zero, List.getElem?_cons_zero] at h0
      have hy := (FirstByte.uniq ⟨hqj, hbl, h0, isSpace_false.2 (hhd y rfl)⟩ hj').2
      obtain ⟨c, u, e, -, -, -, hc⟩ := hw.first
      have := (List.cons.inj e).1
      omega
  · rintro k s list h hs hlt ⟨hb, ws, v, r, e, hw, hl, h13⟩ - s' u hc
    obtain ⟨-, hc⟩ := not_bind_inv hc
    obtain ⟨-, hc⟩ := not_bind_inv hc
    obtain ⟨-, hc⟩ := not_bind_inv hc
    obtain ⟨-, hc⟩ := not_bind_inv hc
    obtain ⟨-, hc⟩ := not_bind_inv hc
    obtain ⟨-, hc⟩ := not_bind_inv hc
    obtain ⟨-, hc⟩ := not_bind_inv hc
    obtain ⟨he, -⟩ := not_bind_inv hc
    obtain ⟨r', hv, hr', hl'⟩ := In.line h hs hlt (L := ws ++ (b!"> " ++ v)) (r := r) (by rw [e]; simp) (by
      have := hw.no10; have := hl.1
      simp [*]) hl.eolHere
    exact arrowBlockquote_ne h hv ⟨ws, v, r', by simp, hw, hl' v hl, h13⟩ he

/-! ## List items -/

theorem bol_fails {α} {f : Unit → P α} {s : Span} (h : C.In k s) (hb : ¬ Bol C s.start) :
    P.bind beginningOfLine f s = .err := by
  have : beginningOfLine s = .err := by
    cases hr : beginningOfLine s with
    | ok s' u => exact absurd (ok_of_run (beginningOfLine_good h) hr).2 hb
    | err => rfl
    | panic p => unfold beginningOfLine at hr; split at hr <;> cases hr
    | diverge => unfold beginningOfLine at hr; split at hr <;> cases hr
  unfold P.bind
  rw [this]

theorem located_fails {α} {p : P α} {s : Span} (h : p s = .err) : located p s = .err := by
  unfold located
  rw [h]

theorem map_fails {α β} {p : P α} {f : α → β} {s : Span} (h : p s = .err) : P.map p f s = .err := by
  unfold P.map
  rw [h]

/-- After the beginning of a line some block is found unless only blanks are left of the line. -/
theorem nested_err {s : Span} {n : Nat} (h : C.In (k + 2) s) (hn : s.stop - s.start < n)
    (hb : ¬ Bol C s.start) (he : nestedF C.env n s = .err) {s1 o : Span} (hs1 : space0 s = .ok s1 o) :
    s1.start = s1.stop ∨ LineEndAt C.inner s1.stop s1.start := by
  obtain ⟨n, rfl⟩ : ∃ m, n = m + 1 := ⟨n - 1, by omega⟩
  have etop := alts_err he
  have e2 := etop (definitionList C.env) (by simp)
  have e3 := etop (listOf (nestedF C.env n)) (by simp)
  have e4 := map_err (etop (nestedTable C.env) (by simp))
  have e5 := etop codeBlock (by simp)
  have e6 := etop mathBlock (by simp)
  have e7 := etop arrowBlockquote (by simp)
  have e10 := etop (paragraphOf C.env (listOf (nestedF C.env n))) (by simp)
  have e1 : header C.env s = .err := located_fails (bol_fails h hb)
  have eblank : blankLine s = .err := bol_fails h hb
  have e8 : divider s = .err := located_fails (bol_fails h hb)
  have e9 : placeholder C.env s = .err := bol_fails h hb
  have e4 : table C.env s = .err := map_fails e4
  unfold paragraphOf at e10
  have e11 := many1_err (I := fun t => C.In (k + 2) t ∧ Step s t) ?_ ⟨h, Step.refl h.wf.le⟩
    (map_err (located_err e10))
  · unfold delimited at e11
    have hc : continueParagraphOf C.env (listOf (nestedF C.env n)) s = .ok s () := by
      unfold continueParagraphOf
      rw [bind_of_ok (not_of_err e1), bind_of_ok (not_of_err e2), bind_of_ok (not_of_err e3),
        bind_of_ok (not_of_err e4), bind_of_ok (not_of_err e5), bind_of_ok (not_of_err e6),
        bind_of_ok (not_of_err eblank), bind_of_ok (not_of_err e7), bind_of_ok (not_of_err e8),
        bind_of_ok (not_of_err e9)]
      rfl
    rw [bind_of_ok hc] at e11
    have hw := ok_of_run (space0_good h) hs1
    have h1 := h.good hw.1.good
    rcases bind_err e11 with e | ⟨s2, xs, hp, e⟩
    · unfold paragraphLine at e
      rw [bind_of_ok hs1] at e
      exact inlineContainer_err (h1.mono (j := k + 1) (by omega)) (map_err e)
    · have hpl : C.Ok (paragraphLine C.env s) (fun s' _ => C.Good s s' ∧
          (s'.start = s.stop ∨ LineEndAt C.inner s.stop s'.start)) := by
        refine Ctx.Ok.bind' (space0_good h) ?_
        rintro s1 _ ⟨hsp1, _⟩
        have h1 : C.In (k + 1) s1 := (h.good hsp1.good).mono (by omega)
        refine Ctx.Ok.map ((inlineContainer_ok h1).mono ?_)
        rintro s2 x ⟨hc, _⟩
        have hex := hc.exit
        rw [hsp1.good.step.stop] at hex
        exact ⟨hsp1.good.trans hc.good, hex⟩
      obtain ⟨g, hex⟩ := ok_of_run hpl hp
      have h2 := h.good g
      exfalso
      rcases bind_err e with e | ⟨_, _, _, e⟩
      · have := endOfLineOrInput_err h2.wf e
        have hst := g.step.stop
        rw [hst] at this
        rcases hex with hh | hh
        · omega
        · exact this.2 hh
      · cases e
  · rintro t ⟨ht, hst⟩ t' x hx
    have q1 := hst.le
    have q2 := hst.stop
    have := ok_of_run (paragraphRow_ok ht (listOf_ok ht (nestedF_ok n) (by omega))) hx
    exact ⟨fun e => by have := this.lt; rw [e] at this; omega, ht.good this.good, hst.trans this.good.step⟩

theorem opt_ne_err {α} {p : P α} {s : Span} : opt p s ≠ .err := by
  unfold opt
  cases p s <;> simp

theorem restOfLine_ne {s : Span} {t : Str} (hv : View s t) : restOfLine s ≠ .err := by
  obtain ⟨o, h⟩ := restOfLine_run hv
  rw [h]
  simp

theorem itemLines_ne {s : Span} (h : C.In k s) (ind : Nat) : itemLines ind s ≠ .err := by
  intro he
  unfold itemLines recognize at he
  have hv := In.sub_view h h.wf.le (Nat.le_refl _)
  split at he
  · split at he <;> cases he
  · rename_i he'
    rcases bind_err he' with e | ⟨s1, x, h1, e⟩
    · exact restOfLine_ne hv e
    · have i1 := h.good (ok_of_run (restOfLine_line h) h1).1
      rcases bind_err e with e | ⟨_, _, _, e⟩
      · refine many0_ne_err (I := fun t => C.In k t ∧ t.start ≤ t.stop) ?_ ⟨i1, i1.wf.le⟩ e
        rintro t ⟨ht, hle⟩ t' x hx
        obtain ⟨s2, y, hy, hr0⟩ := bind_inv hx
        clear hx
        have e2 := ok_of_run (indentVerify_ok ht _) hy
        obtain ⟨hy, hyp⟩ := verify_inv hy
        obtain ⟨o, hy, ho⟩ := map_inv hy
        subst e2
        have hvt := In.sub_view ht ht.wf.le (Nat.le_refl _)
        rw [show sub C.inner s2.stop s2.stop = [] by simp [sub], List.append_nil] at hvt
        have g := (ok_of_run (restOfLine_line ht) hr0).1
        refine ⟨fun e' => ?_, ht.good g, (ht.good g).wf.le⟩
        obtain ⟨o', hr⟩ := restOfLine_run hvt
        rw [hr] at hr0
        obtain ⟨hx, -⟩ := Res.ok.inj hr0
        have hz : lineLen (sub C.inner s2.start s2.stop) = 0 := by
          have : (adv s2 (lineLen (sub C.inner s2.start s2.stop))).start = s2.start := by rw [hx, e']
          simpa [adv] using this
        cases hsub : sub C.inner s2.start s2.stop with
        | cons b u =>
          rw [hsub] at hz
          unfold lineLen at hz
          split at hz <;> omega
        | nil =>
          rw [hsub] at hvt
          have h0 := space0_run (w := []) (r := []) (by simpa using hvt) (by simp) (by simp)
          unfold peek at hy
          rw [h0] at hy
          simp only at hy
          obtain ⟨-, hy⟩ := Res.ok.inj hy
          rw [ho, ← hy, (View.cut (w := []) (r := []) (by simpa using hvt)).remLen] at hyp
          simp at hyp
      · cases e
  · cases he
  · cases he

theorem itemLines_lt {s s' o : Span} {ind : Nat} {t : Str} (hv : View s t) (ht : t ≠ [])
    (h : itemLines ind s = .ok s' o) : s.start < s'.start := by
  unfold itemLines recognize at h
  split at h
  · rename_i s1 _ h1
    obtain ⟨s2, y, hy, h2⟩ := bind_inv h1
    obtain ⟨s3, z, hz, h3⟩ := bind_inv h2
    obtain ⟨q, hq⟩ := restOfLine_run hv
    rw [hq] at hy
    obtain ⟨rfl, -⟩ := Res.ok.inj hy
    obtain ⟨k, hk, rfl⟩ := moreLines_inv _ _ _ _ _ (hv.drop (lineLen_le t)) hz
    obtain ⟨rfl, -⟩ := Res.ok.inj h3
    have : 0 < lineLen t := by
      cases t with
      | nil => exact absurd rfl ht
      | cons b u => unfold lineLen; split <;> omega
    split at h
    · cases h
    · obtain ⟨rfl, rfl⟩ := Res.ok.inj h
      simp only [adv_start]
      omega
  all_goals cases h

theorem blank_first {v : Str} (h : ∃ x ∈ v, ¬ (x = 32 ∨ x = 9)) :
    ∃ ws c u, v = ws ++ c :: u ∧ AllBlank ws ∧ ¬ (c = 32 ∨ c = 9) := by
  induction v with
  | nil => obtain ⟨_, h, -⟩ := h; cases h
  | cons b v ih =>
    by_cases hb : b = 32 ∨ b = 9
    · obtain ⟨x, hx, hxb⟩ := h
      rcases List.mem_cons.1 hx with rfl | hx
      · exact absurd hb hxb
      · obtain ⟨ws, c, u, rfl, h1, h2⟩ := ih ⟨x, hx, hxb⟩
        refine ⟨b :: ws, c, u, rfl, ?_, h2⟩
        intro y hy
        rcases List.mem_cons.1 hy with rfl | hy
        · exact hb
        · exact h1 y hy
    · exact ⟨[], b, v, rfl, by simp [AllBlank], hb⟩

theorem View.at {s : Span} {t : Str} {x : Byte} (h : C.In k s) (hv : View s t) {i : Nat} (hi : t[i]? = some x) :
    C.inner[s.start + i]? = some x := by
  have hr := hv.rem
  rw [asRemaining_eq, h.wf.inner] at hr
  rw [← hr, sub_getElem?] at hi
  split at hi
  · exact hi
  · cases hi

/-- A byte of a line is not at its end. -/
theorem no_lineEnd {s : Span} {u r : Str} {c : Byte} (h : C.In k s) (hv : View s (c :: u ++ r))
    (hl : LineSplit (c :: u) r) : ¬ (s.start = s.stop ∨ LineEndAt C.inner s.stop s.start) := by
  have h0 : C.inner[s.start]? = some c := View.at (i := 0) h hv (by simp)
  have hlen := hv.len
  rintro (he | ⟨-, he⟩ | ⟨he0, he, he2⟩)
  · simp at hlen; omega
  · rw [h0] at he
    cases he
    exact hl.1 (by simp)
  · rw [h0] at he
    cases he
    cases u with
    | cons d u =>
      have := View.at (i := 1) h hv (x := d) (by simp)
      rw [this] at he2
      cases he2
      exact hl.1 (by simp)
    | nil =>
      cases r with
      | nil => simp at hlen; omega
      | cons d r =>
        have := View.at (i := 1) h hv (x := d) (by simp)
        rw [this] at he2
        cases he2
        rcases hl.2 with e | ⟨_, _, e⟩ | ⟨_, e⟩
        · simp at e
        · simp at e
        · simp at e

theorem todoText_bytes (td : Option Todo) : 10 ∉ todoText td ∧ 13 ∉ todoText td := by
  cases td with
  | none => simp [todoText]
  | some t => cases t <;> decide

/-- The content of an item is read. -/
theorem itemTail_ne {s : Span} {n : Nat} (h : C.In (k + 3) s) (hn : s.stop - s.start < n)
    (hb : ¬ Bol C s.start) {v r : Str} (hv : View s (v ++ r)) (hl : LineSplit v r)
    (hc : ∀ td v', v = todoText td ++ v' → ∃ x ∈ v', ¬ (x = 32 ∨ x = 9)) (ind : Nat) :
    listItemTailOf (nestedF C.env n) ind s ≠ .err := by
  intro he
  have hN := nestedF_ok (C := C) n
  have nest : ∀ t, C.In (k + 3) t → Step s t → ∀ t' x, deeper (nestedF C.env n) t = .ok t' x →
      C.Good t t' ∧ t.start < t'.start := by
    intro t ht hst t' x hx
    have h1 := hst.le
    have h2 := hst.stop
    refine ok_of_run (deeper_rule (Q := fun t' _ => t.start < t'.start) ht ((hN (k := k) (t.withDepth (t.depth + 1)) (withDepth_in ht) (by
      show t.stop - t.start < n; omega)).mono ?_)) hx
    intro t' x hx
    exact ⟨hx.good, hx.lt⟩
  rcases bind_err he with he | ⟨s1, td, h1, he⟩
  · exact opt_ne_err he
  · have g1 : C.Good s s1 ∧ sub C.inner s.start s1.start = todoText td := by
      rcases opt_inv h1 with ⟨b, hb, rfl⟩ | ⟨-, rfl, rfl⟩
      · exact ok_of_run (todoStatus_ok h) hb
      · exact ⟨Ctx.Good.refl h, by simp [sub, todoText]⟩
    obtain ⟨g1, e1⟩ := g1
    have i1 := h.good g1
    have hsv := In.sub_view h g1.step.le g1.step.hi
    have hes := hsv.rem.symm.trans hv.rem
    rw [e1] at hes
    obtain ⟨v', hv', hs1⟩ : ∃ v', v = todoText td ++ v' ∧ sub C.inner s1.start s.stop = v' ++ r := by
      rcases List.append_eq_append_iff.1 hes with ⟨a, h1, h2⟩ | ⟨a, h1, h2⟩
      · exact ⟨a, h1, h2⟩
      · cases a with
        | nil => exact ⟨[], by simpa using h1.symm, by simpa using h2.symm⟩
        | cons x a =>
          exfalso
          have hx : x ∈ todoText td := h1 ▸ List.mem_append_right _ (by simp)
          have hh := todoText_bytes td
          rcases hl.eolHere with e | ⟨t, e⟩ | ⟨t, e⟩
          · rw [e] at h2; cases h2
          · rw [e] at h2; exact hh.1 ((List.cons.inj h2).1 ▸ hx)
          · rw [e] at h2; exact hh.2 ((List.cons.inj h2).1 ▸ hx)
    have hv1 := In.sub_view i1 i1.wf.le (Nat.le_refl _)
    rw [show sub C.inner s1.stop s1.stop = [] by simp [sub], List.append_nil, g1.step.stop, hs1] at hv1
    rcases bind_err he with he | ⟨s2, x, h2, he⟩
    · obtain ⟨ws, c, u, rfl, hws, hcb⟩ := blank_first (hc td v' hv')
      have hd := deeper_err he
      have i1' : C.In (k + 2) (s1.withDepth (s1.depth + 1)) := withDepth_in i1
      have hv1' : View (s1.withDepth (s1.depth + 1)) (ws ++ (c :: u ++ r)) := by
        have : View (s1.withDepth (s1.depth + 1)) (ws ++ c :: u ++ r) := ⟨hv1.rem, hv1.le, hv1.hi⟩
        simpa using this
      have hsp := space0_run hv1' (AllBlank.iff.1 hws) (by
        intro x hx
        simp at hx
        subst hx
        exact isSpace_false.2 hcb)
      have i2 := i1'.good (ok_of_run (space0_good i1') hsp).1.good
      refine no_lineEnd i2 (View.adv hv1') ⟨fun hm => hl.1 ?_, ?_⟩ (nested_err i1' ?_ ?_ hd hsp)
      · rw [hv']
        simp only [List.mem_append]
        exact .inr (.inr hm)
      · rcases hl.2 with e | ⟨t, e, e'⟩ | ⟨t, e⟩
        · exact .inl e
        · refine .inr (.inl ⟨t, e, ?_⟩)
          rw [hv', List.getLast?_append, List.getLast?_append] at e'
          simpa using e'
        · exact .inr (.inr ⟨t, e⟩)
      · have := g1.step.le
        have := g1.step.stop
        show s1.stop - s1.start < n
        omega
      · intro hbol
        have hle := g1.step.le
        have hbol : Bol C s1.start := hbol
        rcases Nat.eq_or_lt_of_le hle with e | hlt
        · rw [← e] at hbol; exact hb hbol
        · rcases hbol with e | e
          · omega
          · refine (todoText_bytes td).1 ?_
            rw [← e1]
            refine List.mem_of_getElem? (i := s1.start - 1 - s.start) ?_
            rw [sub_getElem?, if_pos (by omega), ← e]
            congr 1
            omega
    · obtain ⟨g2, lt2⟩ := nest s1 i1 g1.step _ _ h2
      have i2 := i1.good g2
      rcases bind_err he with he | ⟨_, _, _, he⟩
      · refine many0_ne_err (I := fun t => C.In (k + 3) t ∧ Step s t) ?_ ⟨i2, g1.step.trans g2.step⟩ he
        rintro t ⟨ht, hst⟩ t' x hx
        obtain ⟨s2, y, hy, hr0⟩ := bind_inv hx
        have e2 := ok_of_run (indentVerify_ok ht _) hy
        rw [e2] at hr0
        obtain ⟨g, lt⟩ := nest t ht hst _ _ hr0
        exact ⟨fun e => by rw [e] at lt; omega, ht.good g, hst.trans g.step⟩
      · cases he

/-- A line that is a list item is read as one. -/
theorem listItem_ne {s : Span} {n m : Nat} (h : C.In (k + 1) s) (hs : Full C s) (hlt : s.start < s.stop)
    (hb : Bol C s.start) (hf : ItemForm (C.inner.drop s.start) m) (hn : s.stop - s.start < n + 2) :
    listItemOf (nestedF C.env n) s ≠ .err := by
  obtain ⟨ws, ty, su, w, v, r, e, hw, -, hp, hl, hc⟩ := hf
  have hw10 : 10 ∉ w := hp.no10
  have hwh := hp.head
  have hwlen : w ≠ [] := hwh.1
  intro he
  obtain ⟨r', hv, hr', hl'⟩ := In.line h hs hlt (L := ws ++ (w ++ v)) (r := r) (by
    rw [e]; simp) (by
    have := hw.no10; have := hl.1
    simp [*]) hl.eolHere
  rcases bind_err he with he | ⟨s0, _, h0, he⟩
  · exact beginningOfLine_err h.wf he hb
  have e0 := (ok_of_run (beginningOfLine_good h) h0).1
  rw [e0] at he
  have hv1 : View s (ws ++ (w ++ v ++ r')) := by simpa using hv
  have hsp := space0_run hv1 (AllBlank.iff.1 hw) (by
    intro x hx
    rw [isSpace_false]
    refine hwh.2 x ?_
    cases w with
    | nil => exact absurd rfl hwlen
    | cons y w => exact hx)
  have g1 := (ok_of_run (space0_good h) hsp).1.good
  have hi1 := h.good g1
  have hle1 := g1.step.le
  have hst1 := g1.step.stop
  unfold indentationConsume at he
  rw [bind_ok (map_ok hsp)] at he
  have hv2 := View.adv hv1
  have hd1 : C.inner.drop (adv s ws.length).start = w ++ v ++ r := by
    show C.inner.drop (s.start + ws.length) = _
    rw [← List.drop_drop, e, List.drop_left]
    simp
  generalize hs1 : adv s ws.length = s1 at *
  generalize (cut s ws.length).remainingLen = ind at *
  simp only at he
  have hil := itemLines_ok hi1 ind
  cases hrun : itemLines ind s1 with
  | err => exact itemLines_ne hi1 _ hrun
  | panic x => rw [hrun] at he; cases he
  | diverge => rw [hrun] at he; cases he
  | ok s2 o =>
    rw [hrun] at he hil
    obtain ⟨g2, he2, ho⟩ := hil
    have hlt2 := itemLines_lt hv2 (by simp [hwlen]) hrun
    simp only at he
    have hsub : Sub s1 o := by
      rw [ho]; exact ⟨rfl, rfl, Nat.le_refl _, g2.step.le, g2.step.hi⟩
    have hoin : C.In (k + 1) o := hi1.sub hsub (by rw [ho]; exact hi1.bs) (by rw [ho]; exact g2.b)
    have hos : o.start = s1.start := by rw [ho]
    have hot : o.stop = s2.start := by rw [ho]
    have hfull : Full C o := by
      unfold Full
      rw [hot]
      rcases he2 with e2 | e2
      · rw [e2, hst1]; exact hs
      · exact .inr e2
    obtain ⟨r2, hvo, -, hl2⟩ := In.line hoin hfull (by omega) (L := w ++ v) (r := r) (by rw [hos, hd1]) (by
      have := hl.1
      simp [*]) hl.eolHere
    have hvo : View o (w ++ (v ++ r2)) := by simpa using hvo
    have hpr := listItemPrefix_run hp hvo
    obtain ⟨go, lto⟩ := ok_of_run (listItemPrefix_ok hoin) hpr
    have ho1 : C.In (k + 3) (adv o w.length) := (hoin.good_lt go (by omega)).mono (by omega)
    have hhi := hsub.hi
    split at he
    · split at he <;> cases he
    · rename_i hx
      rcases bind_err (map_err (located_err hx)) with hx | ⟨o1, y, hy, hx⟩
      · rw [hpr] at hx; cases hx
      · rw [hpr] at hy
        cases hy
        rcases bind_err hx with hx | ⟨_, _, _, hx⟩
        · refine itemTail_ne ho1 ?_ ?_ (View.adv hvo) (hl2 v hl) hc ind hx
          · have := go.step.stop
            have := go.step.hi
            show o.stop - (adv o w.length).start < n
            omega
          · intro hbol
            have hl0 : 0 < w.length := List.length_pos_iff.2 hwlen
            rcases hbol with hz | hz
            · omega
            · refine hw10 (List.mem_of_getElem? (i := w.length - 1) ?_)
              have hg : w[w.length - 1]? = some (w[w.length - 1]'(by omega)) := List.getElem?_eq_getElem _
              have := View.at hoin hvo (i := w.length - 1) (by rw [List.getElem?_append_left (by omega)]; exact hg)
              rw [hg, ← this, ← hz]
              congr 1
              simp
              omega
        · cases hx
    · cases he
    · cases he

theorem listOf_ne {s : Span} {n m : Nat} (h : C.In (k + 2) s) (hs : Full C s) (hlt : s.start < s.stop)
    (hb : Bol C s.start) (hf : ItemForm (C.inner.drop s.start) m) (hn : s.stop - s.start < n + 2) :
    listOf (nestedF C.env n) s ≠ .err := by
  intro he
  rcases bind_err (located_err he) with he | ⟨s1, ⟨ind, item⟩, h1, he⟩
  · exact listItem_ne (s := s.withDepth (s.depth + 1)) (withDepth_in h) hs hlt hb hf hn (deeper_err he)
  · have g1 := (ok_of_run (deeperItem_ok h (nestedF_ok n) hn) h1).1
    rcases bind_err he with he | ⟨_, _, _, he⟩
    · refine many0_ne_err (I := fun t => C.In (k + 2) t ∧ Step s t) ?_ ⟨h.good g1, g1.step⟩ he
      rintro t ⟨ht, hst⟩ t' x hx
      obtain ⟨s2, y, hy, hr0⟩ := bind_inv hx
      have e2 := ok_of_run (indentVerify_ok ht _) hy
      rw [e2] at hr0
      obtain ⟨z, hz, -⟩ := map_inv hr0
      have q1 := hst.le
      have q2 := hst.stop
      obtain ⟨g, lt, -⟩ := ok_of_run (deeperItem_ok ht (nestedF_ok n) (by omega)) hz
      exact ⟨fun e => by rw [e] at lt; omega, ht.good g, hst.trans g.step⟩
    · cases he

theorem ItemForm.first {q n : Nat} (h : ItemForm (C.inner.drop q) n) :
    ∃ x, FirstByte C q (q + n) x ∧ x ≠ 61 ∧ x ≠ 37 ∧ (x < 60 ∧ 32 < x ∨ 64 < x ∧ x < 123) := by
  obtain ⟨ws, ty, su, w, v, r, e, hw, rfl, hp, -⟩ := h
  obtain ⟨c, u, rfl, h1, h2, -, h3⟩ := hp.first
  exact ⟨c, (firstByte_of (C := C) (q := q) (ws := ws) (x := c) e hw (by omega)).1, h1, h2, h3⟩

/-- Lines that are list items. -/
theorem itemKind (C : Ctx) : LineKind C (fun q => Bol C q ∧ ∃ n, ItemForm (C.inner.drop q) n)
    (fun q y => ∀ n, ItemForm (C.inner.drop q) n → ItemsHave y (q + n)) := by
  refine .unfenced (fun q h => h.1) ?_ ?_ ?_ ?_ ?_
  · rintro q ⟨-, n, hf⟩
    obtain ⟨x, hj, h1, h2, h3⟩ := hf.first
    exact ⟨_, _, hj, by omega, by omega, by omega⟩
  · rintro q j ⟨-, n, hf⟩ hj
    obtain ⟨x, hj', h1, h2, h3⟩ := hf.first
    have := (hj.uniq hj').2
    omega
  · rintro q j ⟨-, n, hf⟩ hj
    obtain ⟨x, hj', h1, h2, h3⟩ := hf.first
    have := (hj.uniq hj').2
    omega
  · rintro q it ⟨-, -⟩ ⟨hqj, hbl, ty, su, w, hw, ha⟩ y items hy ⟨it', hi, hr⟩ n hf
    obtain ⟨x, hj', -⟩ := hf.first
    refine ⟨items, hy, it', hi, ?_⟩
    obtain ⟨hne, hhd⟩ := hw.head
    cases w with
    | nil => exact absurd rfl hne
    | cons z w' =>
      have h0 := ha.getElem? 0 (by simp)
      simp only [Nat.add_zero, List.getElem?_cons_zero] at h0
      rw [hr]
      exact (FirstByte.uniq ⟨hqj, hbl, h0, isSpace_false.2 (hhd z rfl)⟩ hj').1
  · rintro k s list h hs hlt ⟨hb, m, hf⟩ ⟨n, hn, hlist⟩ s' u hc
    obtain ⟨-, hc⟩ := not_bind_inv hc
    obtain ⟨-, hc⟩ := not_bind_inv hc
    obtain ⟨he, -⟩ := not_bind_inv hc
    rw [hlist] at he
    exact listOf_ne h hs hlt hb hf hn he

/-! ## Pages -/

theorem block_found {env : Env} {text : Str} {K : Nat → Prop}
    {E : Nat → Located Block → Prop} (hK : LineKind (Ctx.ofText env text) K E) {s' : Span} {pg : Page}
    (h : parsePage env text = .ok s' pg) {q j : Nat} {x : Byte} (hq : K q)
    (hj : FirstByte (Ctx.ofText env text) q j x) (h1 : x ≠ 61) (h2 : x ≠ 37)
    (hd : ¬ DividerForm (text.drop q)) :
    (∃ y ∈ pg.blocks, E q y) ∨ Verbatim pg.blocks pg.inlines q ∨
    (∃ y ∈ pg.blocks, y.region.offset ≤ q ∧ q < y.region.offset + y.region.len ∧
      (∃ xs, y.inner = .defs xs) ∧ ColonLine text q) ∨ InQuote text pg.blocks q := by
  have fin : Hd (Ctx.ofText env text) E pg.blocks pg.inlines q →
      (∃ y ∈ pg.blocks, E q y) ∨ Verbatim pg.blocks pg.inlines q ∨
      (∃ y ∈ pg.blocks, y.region.offset ≤ q ∧ q < y.region.offset + y.region.len ∧
        (∃ xs, y.inner = .defs xs) ∧ ColonLine text q) ∨ InQuote text pg.blocks q := by
    rintro ((hh | hh | ⟨y, hy, hi, hb, hdl⟩) | hh)
    · exact Or.inr (.inl hh)
    · exact Or.inr (.inr (.inl hh))
    · exact Or.inr (.inr (.inr ⟨y, hy, Nat.le_of_lt hi.1, hi.2, hb, hdl⟩))
    · exact Or.inl hh
  obtain ⟨z, hz, l1, l2⟩ := (parsePage_tiled h).has (C := Ctx.ofText env text) hK hq (Nat.zero_le _)
  rcases Nat.eq_or_lt_of_le l1 with l1 | l1
  · subst l1
    rcases element_first hK h hz hq (by omega) with ⟨xs, n, c, hxi⟩ | hxi | ⟨p', hxi⟩ | ⟨hb, hdl⟩ | h'
    · obtain ⟨mid, hf'⟩ := (element_header h hz n c).1.1 ⟨xs, hxi⟩
      obtain ⟨ws, b1, b2, ws', r, e', hw, -⟩ := hf'.form
      obtain ⟨m, rfl⟩ : ∃ m, n = m + 1 := ⟨n - 1, by have := hf'.level; omega⟩
      have := (firstByte_of (C := Ctx.ofText env text) (q := z.region.offset) (ws := ws) (x := c!"=") e' hw (by decide)).1
      exact absurd (hj.uniq this).2 h1
    · exact absurd ((element_divider h hz).1.1 hxi) hd
    · obtain ⟨s1, s2, e⟩ := element_run h hz
      have hk := topLevel_kind e.run
      rw [hxi] at hk
      have hh := (placeholder_inv e.view hk).1
      cases hdr : text.drop z.region.offset with
      | nil => rw [hdr] at hh; cases hh
      | cons y u =>
        rw [hdr] at hh
        have := (firstByte_of (C := Ctx.ofText env text) (q := z.region.offset) (ws := []) (x := y) (r := u)
          hdr (by simp [AllBlank]) (by simp at hh; rw [hh]; decide)).1
        have := (hj.uniq this).2
        simp at hh
        omega
    · exact .inr (.inr (.inr ⟨z, (mem_allBlocks hz).1 _ (mem_self z), Nat.le_refl _, l2, hb, hdl⟩))
    · exact fin h'
  · exact fin (element_hidden hK h hz hq l1 l2)

end Vw
