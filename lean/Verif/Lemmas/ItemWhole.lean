import Verif.Spec.ItemWhole
import Verif.Lemmas.ListWhole

/-!
# Blocks in items take in all their lines
-/

namespace Vw
open P Scan

variable {C : Ctx} {k : Nat} {s s' : Span}

theorem nestedOf_kind {env : Env} {n : Nat} {x : Located Block}
    (h : nestedOf env (listOf (nestedF env n)) s = .ok s' x) :
    match x.inner with
    | .defs _ => definitionList env s = .ok s' x
    | .list _ => listOf (nestedF env n) s = .ok s' x
    | .table _ => nestedTable env s = .ok s' x
    | .blockquote _ => arrowBlockquote s = .ok s' x
    | .paragraph _ => paragraphOf env (listOf (nestedF env n)) s = .ok s' x
    | _ => True := by
  rcases alts_cons_inv h with h | ⟨-, h⟩
  · obtain ⟨_, e⟩ := defs_shape h; rw [e]; exact h
  rcases alts_cons_inv h with h | ⟨-, h⟩
  · obtain ⟨_, a, -, h'⟩ := bind_inv (located_inv h).1
    obtain ⟨_, b, -, h'⟩ := bind_inv h'
    have e := (Res.ok.inj h').2
    rw [← e]; exact h
  rcases alts_cons_inv h with h | ⟨-, h⟩
  · obtain ⟨a, -, e⟩ := map_inv h
    have : x.inner = .table { a.inner with centered := false } := by rw [e]; rfl
    rw [this]; exact h
  rcases alts_cons_inv h with h | ⟨-, h⟩
  · obtain ⟨_, _, _, e⟩ := code_shape h; rw [e]; trivial
  rcases alts_cons_inv h with h | ⟨-, h⟩
  · obtain ⟨_, _, e⟩ := math_shape h; rw [e]; trivial
  rcases alts_cons_inv h with h | ⟨-, h⟩
  · obtain ⟨a, -, e⟩ := map_inv (located_inv h).1
    rw [e]; exact h
  · have h : paragraphOf env (listOf (nestedF env n)) s = .ok s' x := h
    obtain ⟨a, -, e⟩ := map_inv (located_inv h).1
    rw [e]; exact h

theorem paragraphOf_whole {env : Env} {l : P (Located Block)} {x y : Located Block} {s1 s2 s3 : Span}
    (h1 : paragraphOf env l s1 = .ok s2 x) (h2 : paragraphOf env l s2 = .ok s3 y) : False := by
  obtain ⟨a, h1, -⟩ := map_inv (located_inv h1).1
  obtain ⟨b, h2, -⟩ := map_inv (located_inv h2).1
  exact many1_first h2 (many1_stops h1)

theorem nestedTable_whole {env : Env} {x y : Located Block} {s1 s2 s3 : Span}
    (h1 : nestedTable env s1 = .ok s2 x) (h2 : nestedTable env s2 = .ok s3 y) : False := by
  obtain ⟨a, h1, -⟩ := map_inv h1
  obtain ⟨b, h2, -⟩ := map_inv h2
  exact table_whole (map_ok h1) (map_ok h2)

theorem blankLine_arrow {ws r : Str} (hv : View s (ws ++ (b!"> " ++ r))) (hw : AllBlank ws) : blankLine s = .err := by
  cases ws with
  | nil => exact blankLine_run_err (c := 62) (r := 32 :: r) hv (by decide)
  | cons c ws =>
    have hh : ∀ x, (b!"> " ++ r).head? = some x → isSpace x = false := by
      intro x hx
      cases hx
      decide
    have h1 := space1_run hv (by simp) (AllBlank.iff.1 hw) hh
    have h0 := space0_run hv (AllBlank.iff.1 hw) hh
    have hl : lineEnding (adv s (c :: ws).length) = .err := by
      have e1 := tag_run_err (w := b!"\n") hv.adv (by simp)
      have e2 := tag_run_err (w := b!"\r\n") hv.adv (by simp)
      unfold lineEnding alt
      rw [e1, e2]
    have he : endOfLineOrInput (adv s (c :: ws).length) = .err := by
      unfold endOfLineOrInput
      split
      · rename_i hz
        have h2 := congrArg List.length hv.adv.rem
        have h3 : (adv s (c :: ws).length).asRemaining.length ≤
            (adv s (c :: ws).length).stop - (adv s (c :: ws).length).start := by
          unfold Span.asRemaining
          rw [List.length_drop, List.length_take]; omega
        unfold Span.isEmpty at hz
        have hz : (adv s (c :: ws).length).remainingLen = 0 := by simpa using hz
        rw [remainingLen_eq] at hz
        rw [List.length_append] at h2
        have : b!"> ".length = 2 := rfl
        omega
      · unfold P.value P.map; rw [hl]
    unfold blankLine preceded
    cases hb : beginningOfLine s with
    | ok t x =>
      rw [bind_ok hb, beginningOfLine_inv hb]
      unfold alt terminated
      rw [bind_ok h1, bind_ok h0, bind_er he]
      simp only
      rw [bind_er hl]
    | err => rw [bind_er hb]
    | panic r => unfold beginningOfLine at hb; split at hb <;> cases hb
    | diverge => unfold beginningOfLine at hb; split at hb <;> cases hb

theorem listOf_whole {n m : Nat} {x y : Located Block} {s1 s2 s3 : Span} (h1 : listOf (nestedF C.env n) s1 = .ok s2 x)
    (h2 : listOf (nestedF C.env n) s2 = .ok s3 y) (hi : C.In (k + 2) s1) (hf1 : Full C s1)
    (hn : s1.stop - s1.start < n + 2)
    (i1 : ItemForm (C.inner.drop s1.start) m) (i2 : ItemForm (C.inner.drop s2.start) m) : False := by
  have b1 := ok_of_run (listOf_ok hi (nestedF_ok n) hn) h1
  have hgood := b1.good
  have hi2 := hi.good hgood
  have st := hgood.step
  have hle := st.le
  have hhi := st.hi
  have hst := st.stop
  have b2 := ok_of_run (listOf_ok hi2 (nestedF_ok n) (by omega)) h2
  have hlt1 : s1.start < s1.stop := by have := b1.lt; omega
  have hlt2 : s2.start < s2.stop := by have := b2.lt; have := b2.good.step.hi; omega
  have hf2 : Full C s2 := by unfold Full; rw [st.stop]; exact hf1
  have hb : Bol C s2.start := by
    obtain ⟨t, _, hd, -⟩ := bind_inv (located_inv h2).1
    obtain ⟨t', hd, -⟩ := deeper_inv hd
    have hi' : C.In (k + 1) (s2.withDepth (s2.depth + 1)) := withDepth_in hi2
    obtain ⟨u, _, hb0, -⟩ := bind_inv hd
    exact (ok_of_run (beginningOfLine_good hi') hb0).2
  obtain ⟨t, ⟨ind, it⟩, hd, h1⟩ := bind_inv (located_inv h1).1
  obtain ⟨w, l, hm0, hp⟩ := bind_inv h1
  obtain ⟨ew, -⟩ := Res.ok.inj hp
  rw [ew] at hm0
  have hstop := many0_stops hm0
  obtain ⟨t', hd, -⟩ := deeper_inv hd
  have hi' : C.In (k + 1) (s1.withDepth (s1.depth + 1)) := withDepth_in hi
  obtain ⟨u, _, hb0, hd⟩ := bind_inv hd
  have eb := (ok_of_run (beginningOfLine_good hi') hb0).1
  subst eb
  obtain ⟨u1, lv, hd1, hd⟩ := bind_inv hd
  obtain ⟨o, hsp, rfl⟩ := map_inv hd1
  obtain ⟨v1, o1, hsp1, hlen⟩ := indent_run (s := s1.withDepth (s1.depth + 1)) hi' hf1 hlt1 i1
  rw [hsp1] at hsp
  cases hsp
  have hind : ind = m := by
    simp only at hd
    split at hd
    · split at hd
      · split at hd
        · cases hd
        · cases hd; exact hlen
      all_goals cases hd
    all_goals cases hd
  obtain ⟨v2, o2, hsp2, hlen2⟩ := indent_run hi2 hf2 hlt2 i2
  have hver : verify indentationPeek (fun level => decide (level = ind)) s2 = .ok s2 m := by
    unfold verify indentationPeek
    rw [map_ok (peek_ok hsp2), hlen2]
    simp [hind]
  unfold preceded at hstop
  rw [bind_ok hver] at hstop
  refine listItem_ne (n := n) (s := s2.withDepth (s2.depth + 1)) (withDepth_in hi2) hf2 hlt2 hb i2 ?_
    (deeper_err (map_err hstop))
  show s2.stop - s2.start < _
  omega

/-- Blocks read one after the other are of different kinds. -/
theorem nestedF_apart {n : Nat} {x y : Located Block} {s1 s2 s3 : Span} (hi : C.In (k + 2) s1) (hf : Full C s1)
    (hn : s1.stop - s1.start < n) (h1 : nestedF C.env n s1 = .ok s2 x) (h2 : nestedF C.env n s2 = .ok s3 y) :
    Unlike C.inner x y := by
  have b1 := ok_of_run (nestedF_ok n k s1 hi hn) h1
  have hi2 := hi.good b1.good
  have st := b1.good.step
  have hle := st.le
  have hst := st.stop
  have b2 := ok_of_run (nestedF_ok n k s2 hi2 (by omega)) h2
  have hv : View s2 s2.asRemaining := ⟨rfl, hi2.wf.le, by rw [hi2.wf.inner]; exact hi2.wf.hi⟩
  cases n with
  | zero => cases h1
  | succ n =>
    have k1 := nestedOf_kind h1
    have k2 := nestedOf_kind h2
    refine ⟨fun ha => ?_, ?_⟩
    · cases hx : x.inner <;> cases hy : y.inner <;> rw [hx, hy] at ha <;> simp only [Alike] at ha
      all_goals
        rw [hx] at k1
        rw [hy] at k2
        simp only at k1 k2
        first
        | exact paragraphOf_whole k1 k2
        | exact defs_whole k1 k2
        | exact nestedTable_whole k1 k2
        | (obtain ⟨ws, r, e, hw⟩ := arrow_first hv k2
           rw [e] at hv
           exact arrow_whole k1 k2 (blankLine_arrow hv hw))
    · rintro l l' m m' hx hy f1 f2 rfl
      rw [hx] at k1
      rw [hy] at k2
      rw [(b1.whole (by simp [hx])).1] at f1
      rw [(b2.whole (by simp [hy])).1] at f2
      exact listOf_whole k1 k2 hi hf (by omega) f1 f2

theorem deeperNested_run {n : Nat} (h : C.In (k + 3) s) (hsn : s.stop - s.start < n) :
    C.Ok (Scan.deeper (nestedF C.env n) s) (fun s' x => C.Good s s' ∧ s.start < s'.start ∧
      nestedF C.env n (s.withDepth (s.depth + 1)) = .ok (s'.withDepth (s.depth + 1)) x) := by
  refine deeper_rule (k := k + 2) h ((nestedF_ok n k (s.withDepth (s.depth + 1)) (withDepth_in (k := k + 2) h)
    hsn).self.mono ?_)
  rintro s' x ⟨hx, hr⟩
  refine ⟨hx.good, hx.lt, ?_⟩
  have hd : s'.depth = s.depth + 1 := hx.good.step.depth
  rw [hr]
  congr 1
  cases s'
  simp only at hd
  subst hd
  rfl

theorem kindsApart_cons {y : Located Block} {xs : List (Located Block)} (h : KindsApart C.inner xs)
    (hy : ∀ z, xs.head? = some z → Unlike C.inner y z) : KindsApart C.inner (y :: xs) := by
  intro i a b ha hb
  cases i with
  | zero =>
    cases ha
    refine hy b ?_
    rw [List.head?_eq_getElem?]
    simpa using hb
  | succ i => exact h i a b (by simpa using ha) (by simpa using hb)

theorem listItemTail_apart {n : Nat} (h : C.In (k + 3) s) (hs : Full C s) (hsn : s.stop - s.start < n) (ind : Nat) :
    C.Ok (listItemTailOf (nestedF C.env n) ind s) (fun _ r => KindsApart C.inner r.2) := by
  have nest : ∀ t, C.In (k + 3) t → Step s t →
      C.Ok (Scan.deeper (nestedF C.env n) t) (fun t' x => C.Good t t' ∧ t.start < t'.start ∧
        nestedF C.env n (t.withDepth (s.depth + 1)) = .ok (t'.withDepth (s.depth + 1)) x) := by
    intro t ht hst
    have h1 := hst.le
    have h2 := hst.stop
    have := deeperNested_run ht (n := n) (by omega)
    rw [hst.depth] at this
    exact this
  refine Ctx.Ok.bind' (Q1 := fun s' _ => C.Good s s')
    (Ctx.Ok.opt ((todoStatus_ok h).mono fun _ _ h => h.1) fun _ => Ctx.Good.refl h) ?_
  rintro s1 todo g1
  have h1 := h.good g1
  refine Ctx.Ok.bind' (nest s1 h1 g1.step) ?_
  rintro s2 x ⟨g2, lt2, hx⟩
  have h2 := h1.good g2
  have pairs : ∀ {a b c : Span} {y z : Located Block}, C.In (k + 3) a → Step s a →
      nestedF C.env n (a.withDepth (s.depth + 1)) = .ok (b.withDepth (s.depth + 1)) y →
      nestedF C.env n (b.withDepth (s.depth + 1)) = .ok c z → Unlike C.inner y z := by
    intro a b c y z ha hst r1 r2
    have l1 := hst.le
    have l2 := hst.stop
    have hd := hst.depth
    rw [← hd] at r1 r2
    refine nestedF_apart (k := k) (withDepth_in (k := k + 2) ha) ?_ ?_ r1 r2
    · show a.stop = C.inner.length ∨ C.inner[a.stop - 1]? = some 10
      rw [l2]; exact hs
    · show a.stop - a.start < n
      omega
  refine Ctx.Ok.bind' (Ctx.Ok.many0 (I := fun t => C.In (k + 3) t ∧ Step s t)
    (T := fun t xs _ => KindsApart C.inner xs ∧
      ∀ z, xs.head? = some z → ∃ u, nestedF C.env n (t.withDepth (s.depth + 1)) = .ok u z)
    ?_ ?_ ⟨h2, (g1.trans g2).step⟩ h2.wf.le) ?_
  · rintro t ⟨ht, hst⟩
    refine Ctx.Ok.preceded ((indentVerify_ok ht _).mono ?_)
    intro t0 _ e
    rw [e]
    refine (nest t ht hst).mono ?_
    rintro t1 y ⟨gt1, lt1, hy⟩
    refine ⟨gt1.step, fun _ => ⟨⟨ht.good gt1, hst.trans gt1.step⟩, ?_⟩⟩
    rintro as t2 ⟨hT, hh⟩
    refine ⟨kindsApart_cons hT fun z hz => ?_, fun z hz => ⟨_, by cases hz; exact hy⟩⟩
    obtain ⟨u, hu⟩ := hh z hz
    exact pairs ht hst hy hu
  · rintro t ⟨ht, _⟩ _
    exact ⟨fun i y z h => by simp at h, fun z h => by simp at h⟩
  rintro s3 xs ⟨_, _, _, hT, hh⟩
  refine Ctx.Ok.pure (kindsApart_cons hT fun z hz => ?_)
  obtain ⟨u, hu⟩ := hh z hz
  exact pairs h1 g1.step hx hu

theorem listItemOf_apart {n : Nat} (h : C.In (k + 1) s) (hs : Full C s) (hsn : s.stop - s.start < n + 2) :
    C.Ok (listItemOf (nestedF C.env n) s) (fun _ r => KindsApart C.inner r.2.inner.contents) := by
  have hall := listItemOf_ok h (nestedF_ok n) hsn
  refine Ctx.Ok.mono (Ctx.Ok.self hall) ?_
  rintro s' r ⟨-, hr⟩
  obtain ⟨t, _, hb, hr⟩ := bind_inv hr
  rw [beginningOfLine_inv hb] at hr
  obtain ⟨s1, ind, hi, hr⟩ := bind_inv hr
  obtain ⟨g1, -⟩ := ok_of_run (indentationConsume_ok h) hi
  have h1 := h.good g1
  have l1 := g1.step.le
  have st1 := g1.step.stop
  simp only at hr
  cases hl : itemLines ind s1 with
  | ok s2 o =>
    rw [hl] at hr
    simp only at hr
    obtain ⟨g2, he2, ho⟩ := ok_of_run (itemLines_ok h1 ind) hl
    have hsub : Sub s1 o := by
      rw [ho]; exact ⟨rfl, rfl, Nat.le_refl _, g2.step.le, g2.step.hi⟩
    have hoin : C.In (k + 1) o := h1.sub hsub (by rw [ho]; exact h1.bs) (by rw [ho]; exact g2.b)
    have hio := hsub.hi
    have hos : o.start = s1.start := by rw [ho]
    have hoe : o.stop = s2.start := by rw [ho]
    have hfo : Full C o := by
      unfold Full
      rw [hoe]
      rcases he2 with e | e
      · rw [e, st1]; exact hs
      · exact .inr e
    split at hr
    · rename_i o' item hrun
      split at hr
      · cases hr
      cases hr
      obtain ⟨⟨⟨ty, suffix⟩, todo, cs⟩, hp, e⟩ := map_inv (located_inv hrun).1
      obtain ⟨o1, p, h3, hp⟩ := bind_inv hp
      obtain ⟨go1, lto1⟩ := ok_of_run (listItemPrefix_ok hoin) h3
      obtain ⟨o2, q, h4, hp⟩ := bind_inv hp
      cases hp
      have ho1 : C.In (k + 3) o1 := (hoin.good_lt go1 (by omega)).mono (by omega)
      have hst := go1.step.stop
      have hle1 := ho1.wf.le
      have hf1 : Full C o1 := by unfold Full; rw [hst]; exact hfo
      have := ok_of_run (listItemTail_apart ho1 hf1 (n := n) (by omega) ind) h4
      show KindsApart C.inner item.inner.contents
      rw [e]
      exact this
    all_goals cases hr
  | _ => rw [hl] at hr; cases hr

theorem assignPos_contents {xs : List (Located ListItem)} {n : Nat} {it : Located ListItem}
    (h : it ∈ assignPos n xs) : ∃ it' ∈ xs, it.inner.contents = it'.inner.contents := by
  induction xs generalizing n with
  | nil => simp [assignPos] at h
  | cons x xs ih =>
    simp only [assignPos, List.mem_cons] at h
    rcases h with rfl | h
    · exact ⟨x, by simp, rfl⟩
    · obtain ⟨y, hy, e⟩ := ih h
      exact ⟨y, by simp [hy], e⟩

theorem listOf_apart {n : Nat} (h : C.In (k + 2) s) (hs : Full C s) (hsn : s.stop - s.start < n + 2) :
    C.Ok (listOf (nestedF C.env n) s) (fun _ y => ∀ items, y.inner = .list items →
      ∀ it ∈ items, KindsApart C.inner it.inner.contents) := by
  have one : ∀ t, C.In (k + 2) t → Step s t → C.Ok (Scan.deeper (listItemOf (nestedF C.env n)) t) (fun t' r =>
      C.Good t t' ∧ KindsApart C.inner r.2.inner.contents) := by
    intro t ht hst
    have e1 := hst.le
    have e2 := hst.stop
    refine deeper_rule ht (((listItemOf_ok (withDepth_in ht) (nestedF_ok n) ?_).and
      (listItemOf_apart (withDepth_in ht) ?_ ?_)).mono ?_)
    · show t.stop - t.start < n + 2; omega
    · show t.stop = C.inner.length ∨ C.inner[t.stop - 1]? = some 10
      rw [e2]; exact hs
    · show t.stop - t.start < n + 2; omega
    · rintro t' r ⟨h1, h2⟩
      exact ⟨h1.good, h2⟩
  refine Ctx.Ok.located (Ctx.Ok.bind' (one s h (Step.refl h.wf.le)) ?_)
  rintro s1 ⟨ind, item⟩ ⟨g1, hitem⟩
  have h1 := h.good g1
  refine Ctx.Ok.bind' (Ctx.Ok.many0 (I := fun t => C.In (k + 2) t ∧ Step s t)
    (T := fun t xs t' => Step t t' ∧ ∀ x ∈ xs, KindsApart C.inner x.inner.contents) ?_ ?_ ⟨h1, g1.step⟩ h1.wf.le) ?_
  · rintro t ⟨ht, hst⟩
    refine Ctx.Ok.preceded ((indentVerify_ok ht _).mono ?_)
    intro t0 _ e
    rw [e]
    refine Ctx.Ok.map ((one t ht hst).mono ?_)
    rintro t1 r ⟨gt1, hr⟩
    refine ⟨gt1.step, fun _ => ⟨⟨ht.good gt1, hst.trans gt1.step⟩, ?_⟩⟩
    rintro as t2 ⟨st2, hT⟩
    exact ⟨gt1.step.trans st2, List.forall_mem_cons.2 ⟨hr, hT⟩⟩
  · rintro t ⟨ht, _⟩ _
    exact ⟨Step.refl ht.wf.le, by simp⟩
  rintro s2 items ⟨_, _, _, st2, hT⟩
  refine Ctx.Ok.pure ⟨g1.step.trans st2, ?_⟩
  rintro its e it hit
  cases e
  have : ∃ it' ∈ item :: items, it.inner.contents = it'.inner.contents := by
    simp only [normalizeItems, List.mem_cons, List.mem_map] at hit
    rcases hit with rfl | ⟨z, hz, rfl⟩
    · exact ⟨_, by simp, rfl⟩
    · obtain ⟨w, hw, e⟩ := assignPos_contents hz
      exact ⟨w, by simp [hw], e⟩
  obtain ⟨w, hw, e⟩ := this
  rw [e]
  rcases List.mem_cons.1 hw with rfl | hw
  · exact hitem
  · exact hT w hw

end Vw
