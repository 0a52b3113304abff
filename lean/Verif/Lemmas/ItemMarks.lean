import Verif.Lemmas.ListWhole
import Verif.Lemmas.ListRun
import Verif.Spec.ItemMarks

/-!
# The prefixes and marks of items
-/

namespace Vw
open P Scan

variable {C : Ctx} {k : Nat} {s s' : Span}

theorem todoText_inj {a b : Todo} (h : todoText (some a) = todoText (some b)) : a = b := by
  cases a <;> cases b <;> first | rfl | (exact absurd h (by decide))

theorem todoText_prefix {a b : Todo} {t : Str} (ha : todoText (some a) <+: t) (hb : todoText (some b) <+: t) : a = b := by
  refine todoText_inj ((List.prefix_of_prefix_length_le ha hb ?_).eq_of_length ?_) <;>
    cases a <;> cases b <;> decide

/-- A mark is found in the lines of an item. -/
theorem mark_within {o e : Nat} {td : Todo} (hoe : o ≤ e) (he : e = C.inner.length ∨ (o < e ∧ C.inner[e - 1]? = some 10))
    (h : todoText (some td) <+: C.inner.drop o) : todoText (some td) <+: sub C.inner o e := by
  rw [drop_split hoe] at h
  obtain ⟨t, e1⟩ := h
  rcases List.append_eq_append_iff.1 e1 with ⟨a, h1, -⟩ | ⟨b, h1, h2⟩
  · exact ⟨a, h1.symm⟩
  · rcases he with he | ⟨hlt, he⟩
    · subst he
      rw [List.drop_length] at h2
      have : b = [] := (List.append_eq_nil_iff.1 h2.symm).1
      subst this
      exact ⟨[], by simpa using h1⟩
    · exfalso
      have : 10 ∈ sub C.inner o e := mem_sub.2 ⟨e - 1, by omega, by omega, he⟩
      exact todoText_noNl (some td) (h1 ▸ List.mem_append_left _ this)

theorem listItemOf_marked {nested : P (Located Block)} {r : Nat × Located ListItem} (h : C.In (k + 1) s) (hs : Full C s)
    (hr0 : listItemOf nested s = .ok s' r) : ItemMarked C.inner r.2 := by
  obtain ⟨s0, u, hb, hr1⟩ := bind_inv hr0
  obtain ⟨hs0, -⟩ := ok_of_run (beginningOfLine_good h) hb
  rw [hs0] at hr1
  obtain ⟨s1, ind, hsp, hr⟩ := bind_inv hr1
  obtain ⟨o0, hsp, -⟩ := map_inv hsp
  have g1 := (ok_of_run (space0_good h) hsp).1.good
  have h1 := h.good g1
  have st1 := g1.step.stop
  simp only at hr
  cases hrun : itemLines ind s1 with
  | err => rw [hrun] at hr; cases hr
  | panic r => rw [hrun] at hr; cases hr
  | diverge => rw [hrun] at hr; cases hr
  | ok s2 o =>
    obtain ⟨g2, he2, ho⟩ := ok_of_run (itemLines_ok h1 ind) hrun
    rw [hrun] at hr
    simp only at hr
    have hsub : Sub s1 o := by
      rw [ho]; exact ⟨rfl, rfl, Nat.le_refl _, g2.step.le, g2.step.hi⟩
    have hoin : C.In (k + 1) o := h1.sub hsub (by rw [ho]; exact h1.bs) (by rw [ho]; exact g2.b)
    have hoe : o.stop = s2.start := by rw [ho]
    have hfo : Full C o := by
      unfold Full
      rw [hoe]
      rcases he2 with e | e
      · rw [e, st1]; exact hs
      · exact .inr e
    cases hrun2 : located (P.map (P.pair listItemPrefix (listItemTailOf nested ind))
          (fun ((ty, suffix), (todo, contents)) =>
            (⟨ty, suffix, 0, contents, todo⟩ : ListItem))) o with
    | err => rw [hrun2] at hr; cases hr
    | panic r => rw [hrun2] at hr; cases hr
    | diverge => rw [hrun2] at hr; cases hr
    | ok o' x =>
      rw [hrun2] at hr
      simp only at hr
      split at hr
      · cases hr
      have hx : r.2 = x := by rw [← (Res.ok.inj hr).2]
      rw [hx]
      obtain ⟨hm, hreg⟩ := located_inv hrun2
      obtain ⟨⟨⟨ty, su⟩, ⟨todo, cs⟩⟩, hp, hxe⟩ := map_inv hm
      obtain ⟨o1, ⟨ty', su'⟩, hpre, hp⟩ := bind_inv hp
      obtain ⟨o2, ⟨todo', cs'⟩, htail, hp⟩ := bind_inv hp
      have hp := (Res.ok.inj hp).2
      simp only [Prod.mk.injEq] at hp
      obtain ⟨⟨rfl, rfl⟩, rfl, rfl⟩ := hp
      have hle := hoin.wf.le
      have hhi := hoin.wf.hi
      have hv := In.sub_view hoin hle (Nat.le_refl _)
      rw [show sub C.inner o.stop o.stop = [] by simp [sub], List.append_nil] at hv
      obtain ⟨w, r1, er, rfl, hw⟩ := listItemPrefix_inv hv hpre
      rw [er] at hv
      have hv1 := View.adv hv
      have hlen : w.length + r1.length = o.stop - o.start := by
        have := congrArg List.length er
        rw [sub_length _ _ _ hhi, List.length_append] at this
        omega
      have hoff : x.region.offset = o.start := by
        rw [hreg]
        simp only [Region.ofSpan, Span.withLength]
        split <;> rfl
      have hsu : x.inner.suffix = su' := by rw [hxe]
      have htd : x.inner.todo = todo' := by rw [hxe]
      have hr1 : r1 = sub C.inner (o.start + w.length) o.stop := by
        have e := sub_append C.inner o.start (o.start + w.length) o.stop (by omega) (by omega)
        rw [er] at e
        refine (List.append_inj e.symm ?_).2
        rw [sub_length _ _ _ (by omega)]
        omega
      have hd := drop_split (text := C.inner) (a := o.start) (b := o.stop) hle
      have hd1 := drop_split (text := C.inner) (a := o.start + w.length) (b := o.stop) (by omega)
      rw [er] at hd
      rw [← hr1] at hd1
      refine ⟨_, w, by rw [hsu]; exact hw, by rw [hoff, hd]; simp, ?_⟩
      rw [htd, hoff, hd1]
      obtain ⟨o3, t3, hopt, htail⟩ := bind_inv htail
      have ht3 : t3 = todo' := by
        obtain ⟨o4, _, -, htail⟩ := bind_inv htail
        obtain ⟨o5, _, -, htail⟩ := bind_inv htail
        exact (Prod.mk.inj (Res.ok.inj htail).2).1
      subst ht3
      intro td
      rcases opt_inv hopt with ⟨b, hb, rfl⟩ | ⟨hb, -, rfl⟩
      · have hin : todoText (some b) <+: r1 ++ C.inner.drop o.stop := (todo_inv hv1 hb).trans (List.prefix_append _ _)
        constructor
        · rintro e
          cases e
          exact hin
        · intro h'
          rw [todoText_prefix hin h']
      · refine ⟨(fun e => by cases e), fun h' => ?_⟩
        exfalso
        have hno := hw.no10
        have hwne := hw.head.1
        have := List.length_pos_iff.2 hwne
        rw [hr1, ← drop_split (text := C.inner) (a := o.start + w.length) (b := o.stop) (by omega)] at h'
        have h' := mark_within (e := o.stop) (by omega) (by
          rcases hfo with e | e
          · exact .inl e
          · refine .inr ⟨?_, e⟩
            rcases Nat.eq_or_lt_of_le (show o.start + w.length ≤ o.stop by omega) with e' | e'
            · exfalso
              have hin : 10 ∈ sub C.inner o.start o.stop := mem_sub.2 ⟨o.stop - 1, by omega, by omega, e⟩
              rw [er] at hin
              have : r1 = [] := List.length_eq_zero_iff.1 (by omega)
              rw [this, List.append_nil] at hin
              exact hno hin
            · exact e') h'
        rw [← hr1] at h'
        obtain ⟨t, e⟩ := h'
        rw [← e] at hv1
        rw [todo_run td hv1] at hb
        cases hb

theorem ItemMarked.congr {text : Str} {x y : Located ListItem} (h : ItemMarked text x) (h1 : y.region = x.region)
    (h2 : y.inner.suffix = x.inner.suffix) (h3 : y.inner.todo = x.inner.todo) : ItemMarked text y := by
  unfold ItemMarked
  rw [h1, h2, h3]
  exact h

theorem assignPos_marked {text : Str} : ∀ {i : Nat} {xs : List (Located ListItem)}, (∀ x ∈ xs, ItemMarked text x) →
    ∀ x ∈ assignPos i xs, ItemMarked text x
  | _, [], _ => by simp [assignPos]
  | i, y :: ys, h => by
    intro x hx
    simp only [assignPos, List.mem_cons] at hx
    rcases hx with rfl | hx
    · exact (h y (by simp)).congr rfl rfl rfl
    · exact assignPos_marked (fun z hz => h z (by simp [hz])) x hx

theorem listOf_marked {s s' : Span} {n : Nat} {y : Located Block} (h : C.In (k + 2) s) (hs : Full C s)
    (hsn : s.stop - s.start < n + 2) (hr : listOf (nestedF C.env n) s = .ok s' y) :
    ∀ items, y.inner = .list items → ∀ it ∈ items, ItemMarked C.inner it := by
  have hn := nestedF_ok (C := C) n
  have one : ∀ {t t' : Span} {r : Nat × Located ListItem}, C.In (k + 2) t → Step s t →
      Scan.deeper (listItemOf (nestedF C.env n)) t = .ok t' r → C.Good t t' ∧ ItemMarked C.inner r.2 := by
    intro t t' r ht hst hr
    have hst1 := hst.le
    have hst2 := hst.stop
    have ht' : C.In (k + 1) (t.withDepth (t.depth + 1)) := withDepth_in ht
    have hft : Full C (t.withDepth (t.depth + 1)) := by
      show Full C t
      unfold Full; rw [hst2]; exact hs
    exact ok_of_run (deeper_rule (Q := fun _ r => ItemMarked C.inner r.2) ht ((listItemOf_ok ht' hn (by
      show t.stop - t.start < _; omega)).self.mono fun t' r h => ⟨h.1.good, listItemOf_marked ht' hft h.2⟩)) hr
  obtain ⟨h0, -⟩ := located_inv hr
  obtain ⟨s1, ⟨ind, x⟩, h1, h0⟩ := bind_inv h0
  obtain ⟨g1, m1⟩ := one h (Step.refl h.wf.le) h1
  obtain ⟨s2, xs, h2, h0⟩ := bind_inv h0
  have e0 := (Res.ok.inj h0).2
  have hxs : ∀ z ∈ xs, ItemMarked C.inner z := by
    have h1' := h.good g1
    have item : ∀ t, C.In (k + 2) t → Step s t → C.Ok (Scan.deeper (listItemOf (nestedF C.env n)) t)
        (fun t' r => C.Good t t' ∧ ItemMarked C.inner r.2) := by
      intro t ht hst
      have hst1 := hst.le
      have hst2 := hst.stop
      have ht' : C.In (k + 1) (t.withDepth (t.depth + 1)) := withDepth_in ht
      have hft : Full C (t.withDepth (t.depth + 1)) := by
        show Full C t
        unfold Full; rw [hst2]; exact hs
      exact deeper_rule (Q := fun _ r => ItemMarked C.inner r.2) ht ((listItemOf_ok ht' hn (by
        show t.stop - t.start < _; omega)).self.mono fun t' r h => ⟨h.1.good, listItemOf_marked ht' hft h.2⟩)
    refine (ok_of_run (Ctx.Ok.many0 (C := C) (I := fun t => C.In (k + 2) t ∧ Step s t)
      (T := fun _ xs _ => ∀ z ∈ xs, ItemMarked C.inner z) ?_ ?_ ⟨h1', g1.step⟩ h1'.wf.le) h2).2.2.2
    · rintro t ⟨ht, hst⟩
      refine Ctx.Ok.preceded ((indentVerify_level ht _).mono ?_)
      rintro t0 lv ⟨e, -⟩
      rw [e]
      refine Ctx.Ok.map ((item t ht hst).mono ?_)
      rintro t1 ⟨lv', r⟩ ⟨gt1, hm⟩
      refine ⟨gt1.step, fun _ => ⟨⟨ht.good gt1, hst.trans gt1.step⟩, ?_⟩⟩
      intro as t2 hT z hz
      rcases List.mem_cons.1 hz with rfl | hz
      · exact hm
      · exact hT z hz
    · intro t _ _
      simp
  intro items ei it hit
  rw [ei] at e0
  simp only [Block.list.injEq] at e0
  rw [← e0] at hit
  simp only [normalizeItems, List.mem_cons, List.mem_map] at hit
  rcases hit with rfl | ⟨z, hz, rfl⟩
  · exact m1
  · exact (assignPos_marked hxs z hz).congr rfl rfl rfl

end Vw
