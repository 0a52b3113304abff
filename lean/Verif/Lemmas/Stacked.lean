import Verif.Spec.Stacked
import Verif.Lemmas.ItemWhole

/-!
# Blocks are made of whole lines
-/

namespace Vw
open P Scan

variable {C : Ctx} {k : Nat} {s s' : Span}

theorem nestedF_shape {env : Env} {n : Nat} {x : Located Block} (h : nestedF env n s = .ok s' x) :
    ∀ p, x.inner ≠ .placeholder p := by
  intro p hp
  cases n with
  | zero => cases h
  | succ n =>
    rcases alts_cons_inv h with h | ⟨-, h⟩
    · obtain ⟨_, e⟩ := defs_shape h; rw [hp] at e; cases e
    rcases alts_cons_inv h with h | ⟨-, h⟩
    · obtain ⟨_, a, -, h'⟩ := bind_inv (located_inv h).1
      obtain ⟨_, b, -, h'⟩ := bind_inv h'
      have e := (Res.ok.inj h').2
      rw [hp] at e; cases e
    rcases alts_cons_inv h with h | ⟨-, h⟩
    · obtain ⟨a, -, e⟩ := map_inv h
      have : x.inner = .table { a.inner with centered := false } := by rw [e]; rfl
      rw [hp] at this; cases this
    rcases alts_cons_inv h with h | ⟨-, h⟩
    · obtain ⟨_, _, _, e⟩ := code_shape h; rw [hp] at e; cases e
    rcases alts_cons_inv h with h | ⟨-, h⟩
    · obtain ⟨_, _, e⟩ := math_shape h; rw [hp] at e; cases e
    rcases alts_cons_inv h with h | ⟨-, h⟩
    · obtain ⟨a, -, e⟩ := map_inv (located_inv h).1
      rw [hp] at e; cases e
    · have h : paragraphOf env (listOf (nestedF env n)) s = .ok s' x := h
      obtain ⟨a, -, e⟩ := map_inv (located_inv h).1
      rw [hp] at e; cases e

theorem Ends.edge (h : Ends C s s') (hs : Full C s) : LineEdge C.inner s'.start := by
  rcases h with h | h
  · rcases hs with hs | hs
    · exact .inr (by omega)
    · exact .inl (.inr (by rw [h]; exact hs))
  · exact .inl (.inr h)

/-- One block in an item. -/
theorem deeperNested_edge {n : Nat} (h : C.In (k + 3) s) (hsn : s.stop - s.start < n) :
    C.Ok (Scan.deeper (nestedF C.env n) s) (fun s' x => C.Good s s' ∧ s.start < s'.start ∧ Ends C s s' ∧
      x.region.offset = s.start ∧ x.region.offset + x.region.len = s'.start) := by
  refine deeper_rule (k := k + 2) h ((nestedF_ok n k (s.withDepth (s.depth + 1)) (withDepth_in (k := k + 2) h)
    hsn).self.mono ?_)
  rintro s' x ⟨hx, hr⟩
  obtain ⟨e1, e2⟩ := hx.whole (nestedF_shape hr)
  exact ⟨hx.good, hx.lt, hx.ends, e1, e2⟩

theorem listItemTail_stacked {n : Nat} (h : C.In (k + 3) s) (hsn : s.stop - s.start < n) (ind : Nat) :
    C.Ok (listItemTailOf (nestedF C.env n) ind s) (fun s' r => Stacked C.inner r.2 s'.start) := by
  have nest : ∀ t, C.In (k + 3) t → Step s t → C.Ok (Scan.deeper (nestedF C.env n) t) (fun t' x =>
      C.Good t t' ∧ t.start < t'.start ∧ Ends C t t' ∧ x.region.offset = t.start ∧
      x.region.offset + x.region.len = t'.start) := by
    intro t ht hst
    have h1 := hst.le
    have h2 := hst.stop
    exact deeperNested_edge ht (by omega)
  refine Ctx.Ok.bind' (Q1 := fun s' _ => C.Good s s')
    (Ctx.Ok.opt ((todoStatus_ok h).mono fun _ _ h => h.1) fun _ => Ctx.Good.refl h) ?_
  rintro s1 todo g1
  have h1 := h.good g1
  refine Ctx.Ok.bind' (nest s1 h1 g1.step) ?_
  rintro s2 x ⟨g2, lt2, en2, o2, l2⟩
  have h2 := h1.good g2
  refine Ctx.Ok.bind' (Ctx.Ok.many0 (I := fun t => C.In (k + 3) t ∧ Step s t ∧ (t.start = t.stop ∨ Bol C t.start))
    (T := fun t xs t' => ∀ y : Located Block, y.region.offset + y.region.len = t.start →
      Stacked C.inner (y :: xs) t'.start)
    ?_ ?_ ⟨h2, (g1.trans g2).step, ?_⟩ h2.wf.le) ?_
  · rintro t ⟨ht, hst, hb⟩
    refine Ctx.Ok.preceded ((indentVerify_ok ht _).mono ?_)
    intro t0 _ e
    rw [e]
    refine (nest t ht hst).mono ?_
    rintro t1 y ⟨gt1, lt1, en1, o1, l1⟩
    have hhi := gt1.step.hi
    refine ⟨gt1.step, fun _ => ⟨⟨ht.good gt1, hst.trans gt1.step, ?_⟩, ?_⟩⟩
    · rcases en1 with e | e
      · exact .inl (by rw [e, gt1.step.stop])
      · exact .inr (.inr e)
    · intro as t2 hT z hz
      refine ⟨by omega, ?_, hT y l1⟩
      rw [o1]
      rcases hb with hb | hb
      · omega
      · exact hb
  · intro t _ _ y hy
    exact hy
  · rcases en2 with e | e
    · exact .inl (by rw [e, g2.step.stop])
    · exact .inr (.inr e)
  rintro s3 xs ⟨_, _, _, hT⟩
  exact Ctx.Ok.pure (hT x l2)

theorem listItemOf_stacked {n : Nat} (h : C.In (k + 1) s) (hs : Full C s) (hsn : s.stop - s.start < n + 2) :
    C.Ok (listItemOf (nestedF C.env n) s) (fun _ r => Stacked C.inner r.2.inner.contents (r.2.region.offset + r.2.region.len)) := by
  have hall := listItemOf_ok h (nestedF_ok n) hsn
  refine Ctx.Ok.mono (Ctx.Ok.self hall) ?_
  rintro s' r ⟨-, hr⟩
  obtain ⟨t, _, hb, hr⟩ := bind_inv hr
  rw [beginningOfLine_inv hb] at hr
  obtain ⟨s1, ind, hi, hr⟩ := bind_inv hr
  obtain ⟨g1, -⟩ := ok_of_run (indentationConsume_ok h) hi
  have h1 := h.good g1
  have l1 := g1.step.le
  have st1 := g1.step.stop
  simp only at hr
  cases hl : itemLines ind s1 with
  | ok s2 o =>
    rw [hl] at hr
    simp only at hr
    obtain ⟨g2, he2, ho⟩ := ok_of_run (itemLines_ok h1 ind) hl
    have hsub : Sub s1 o := by
      rw [ho]; exact ⟨rfl, rfl, Nat.le_refl _, g2.step.le, g2.step.hi⟩
    have hoin : C.In (k + 1) o := h1.sub hsub (by rw [ho]; exact h1.bs) (by rw [ho]; exact g2.b)
    have hio := hsub.hi
    have hos : o.start = s1.start := by rw [ho]
    have hoe : o.stop = s2.start := by rw [ho]
    have hfo : Full C o := by
      unfold Full
      rw [hoe]
      rcases he2 with e | e
      · rw [e, st1]; exact hs
      · exact .inr e
    split at hr
    · rename_i o' item hrun
      split at hr
      · cases hr
      cases hr
      obtain ⟨⟨⟨ty, suffix⟩, todo, cs⟩, hp, e⟩ := map_inv (located_inv hrun).1
      obtain ⟨o1, p, h3, hp⟩ := bind_inv hp
      obtain ⟨go1, lto1⟩ := ok_of_run (listItemPrefix_ok hoin) h3
      obtain ⟨o2, q, h4, hp⟩ := bind_inv hp
      cases hp
      have ho1 : C.In (k + 3) o1 := (hoin.good_lt go1 (by omega)).mono (by omega)
      have hst := go1.step.stop
      have hle1 := ho1.wf.le
      have hf1 : Full C o1 := by unfold Full; rw [hst]; exact hfo
      have := ok_of_run (listItemTail_stacked ho1 (n := n) (by omega) ind) h4
      have hreg := (located_inv hrun).2
      have go2 := (ok_of_run (listItemTail_ok ho1 (nestedF_ok n) (by omega) ind) h4).1
      have l2 := go1.step.le
      have l3 := go2.step.le
      show Stacked C.inner item.inner.contents (item.region.offset + item.region.len)
      have l4 := go2.step.hi
      have l5 := go1.step.stop
      have hend : (Region.ofSpan (o.withLength (o'.start - o.start))).offset +
          (Region.ofSpan (o.withLength (o'.start - o.start))).len = o'.start := by
        unfold Span.withLength
        rw [remainingLen_eq]
        split <;> simp only [Region.ofSpan, remainingLen_eq] <;> omega
      rw [e, hreg, hend]
      exact this
    all_goals cases hr
  | _ => rw [hl] at hr; cases hr

theorem assignPos_same {xs : List (Located ListItem)} {n : Nat} {it : Located ListItem}
    (h : it ∈ assignPos n xs) : ∃ it' ∈ xs, it.inner.contents = it'.inner.contents ∧ it.region = it'.region := by
  induction xs generalizing n with
  | nil => simp [assignPos] at h
  | cons x xs ih =>
    simp only [assignPos, List.mem_cons] at h
    rcases h with rfl | h
    · exact ⟨x, by simp, rfl, rfl⟩
    · obtain ⟨y, hy, e⟩ := ih h
      exact ⟨y, by simp [hy], e⟩

theorem listOf_stacked {n : Nat} (h : C.In (k + 2) s) (hs : Full C s) (hsn : s.stop - s.start < n + 2) :
    C.Ok (listOf (nestedF C.env n) s) (fun _ y => ∀ items, y.inner = .list items →
      ∀ it ∈ items, Stacked C.inner it.inner.contents (it.region.offset + it.region.len)) := by
  have one : ∀ t, C.In (k + 2) t → Step s t → C.Ok (Scan.deeper (listItemOf (nestedF C.env n)) t) (fun t' r =>
      C.Good t t' ∧ Stacked C.inner r.2.inner.contents (r.2.region.offset + r.2.region.len)) := by
    intro t ht hst
    have e1 := hst.le
    have e2 := hst.stop
    refine deeper_rule ht (((listItemOf_ok (withDepth_in ht) (nestedF_ok n) ?_).and
      (listItemOf_stacked (withDepth_in ht) ?_ ?_)).mono ?_)
    · show t.stop - t.start < n + 2; omega
    · show t.stop = C.inner.length ∨ C.inner[t.stop - 1]? = some 10
      rw [e2]; exact hs
    · show t.stop - t.start < n + 2; omega
    · rintro t' r ⟨h1, h2⟩
      exact ⟨h1.good, h2⟩
  refine Ctx.Ok.located (Ctx.Ok.bind' (one s h (Step.refl h.wf.le)) ?_)
  rintro s1 ⟨ind, item⟩ ⟨g1, hitem⟩
  have h1 := h.good g1
  refine Ctx.Ok.bind' (Ctx.Ok.many0 (I := fun t => C.In (k + 2) t ∧ Step s t)
    (T := fun t xs t' => Step t t' ∧ ∀ x ∈ xs, Stacked C.inner x.inner.contents (x.region.offset + x.region.len)) ?_ ?_ ⟨h1, g1.step⟩ h1.wf.le) ?_
  · rintro t ⟨ht, hst⟩
    refine Ctx.Ok.preceded ((indentVerify_ok ht _).mono ?_)
    intro t0 _ e
    rw [e]
    refine Ctx.Ok.map ((one t ht hst).mono ?_)
    rintro t1 r ⟨gt1, hr⟩
    refine ⟨gt1.step, fun _ => ⟨⟨ht.good gt1, hst.trans gt1.step⟩, ?_⟩⟩
    rintro as t2 ⟨st2, hT⟩
    exact ⟨gt1.step.trans st2, List.forall_mem_cons.2 ⟨hr, hT⟩⟩
  · rintro t ⟨ht, _⟩ _
    exact ⟨Step.refl ht.wf.le, by simp⟩
  rintro s2 items ⟨_, _, _, st2, hT⟩
  refine Ctx.Ok.pure ⟨g1.step.trans st2, ?_⟩
  rintro its e it hit
  cases e
  have : ∃ it' ∈ item :: items, it.inner.contents = it'.inner.contents ∧ it.region = it'.region := by
    simp only [normalizeItems, List.mem_cons, List.mem_map] at hit
    rcases hit with rfl | ⟨z, hz, rfl⟩
    · exact ⟨_, by simp, rfl, rfl⟩
    · obtain ⟨w, hw, e⟩ := assignPos_same hz
      exact ⟨w, by simp [hw], e⟩
  obtain ⟨w, hw, e, e'⟩ := this
  rw [e, e']
  rcases List.mem_cons.1 hw with rfl | hw
  · exact hitem
  · exact hT w hw

theorem ItemRows.over {n : Nat} : ∀ {a b : Nat} {rs : List Region}, ItemRows C n a rs b → (∀ r ∈ rs, 0 < r.len) →
    RowsOver C.inner n a rs b
  | _, _, [], h, _ => h
  | _, _, r :: rs, ⟨h1, h2, ⟨_, h3⟩, _, _, _, h4⟩, hp => ⟨h1, h2, fun x hx => by
      obtain ⟨i, i1, i2, i3⟩ := mem_sub.1 hx
      exact isSpace_iff.1 (h3.2.1 i x i1 i2 i3), hp r (by simp), ItemRows.over h4 fun r' hr' => hp r' (by simp [hr'])⟩

theorem ItemsAt.pos {d a b : Nat} {xs : List (Located ListItem)} (h : ItemsAt C d a xs b) :
    ∀ r ∈ xs.map (·.region), 0 < r.len := by
  induction xs generalizing a with
  | nil => simp
  | cons x xs ih =>
    cases h with
    | cons _ hn _ _ _ _ _ ht =>
      intro r hr
      rcases List.mem_cons.1 hr with rfl | hr
      · exact hn
      · exact ih ht r hr

/-- Every block of a page ends with a line. -/
theorem block_edge {env : Env} {text : Str} {s' : Span} {pg : Page} (h : parsePage env text = .ok s' pg)
    {y : Located Block} (hy : y ∈ pg.blocks) (hp : ∀ p, y.inner ≠ .placeholder p) :
    LineEdge text (y.region.offset + y.region.len) := by
  obtain ⟨x, hx, hyx⟩ := mem_element hy
  obtain ⟨s1, s2, e⟩ := element_run h hx
  have fin : ∀ {t t' : Span}, BlockRes (Ctx.ofText env text) t t' y → Full (Ctx.ofText env text) t →
      LineEdge text (y.region.offset + y.region.len) := by
    intro t t' hb hf
    rw [(hb.whole hp).2]
    exact hb.ends.edge hf
  cases hxi : x.inner with
  | list xs =>
    have hk := topLevel_kind e.run
    rw [hxi] at hk
    rcases (ok_of_run (listOf_same e.inn e.full (nestedF_same _) (by rw [remainingLen_eq]; omega)
      (.inl e.stop_eq)) hk y hyx).2.2 with ⟨k, t, t', n, i1, i2, ⟨i3, i4⟩ | ⟨-, i3, i4⟩⟩
    · exact fin (ok_of_run (listOf_ok i1 (nestedF_ok n) i3) i4) i2
    · exact fin (ok_of_run (nestedF_ok n k t i1 i3) i4) i2
  | _ =>
    rw [allBlocks_flat (by simp [hxi])] at hyx
    obtain rfl := List.mem_singleton.1 hyx
    exact fin (ok_of_run (topLevel_ok e.inn) e.run) e.full

end Vw
