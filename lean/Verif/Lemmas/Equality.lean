import Verif.Model.Equality
import Verif.Spec.Equality

/-!
# Lemmas about equality of elements
-/

namespace Vw

set_option linter.unusedSectionVars false

/-- An equivalence on the elements that satisfy `V`. -/
structure Laws {α : Type} (V : α → Prop) (r : α → α → Bool) : Prop where
  refl : ∀ x, V x → r x x = true
  symm : ∀ x y, V x → V y → r x y = true → r y x = true
  trans : ∀ x y z, r x y = true → r y z = true → r x z = true

variable {α κ υ : Type}

theorem Laws.dec [DecidableEq α] : Laws (fun _ : α => True) (fun x y => decide (x = y)) :=
  ⟨by simp, by simp, by simp⟩

theorem Laws.opt {V : α → Prop} {r} (h : Laws V r) :
    Laws (fun o => ∀ x, o = some x → V x) (optEq r) := by
  refine ⟨?_, ?_, ?_⟩
  · rintro (_ | x) hx
    · rfl
    · exact h.refl x (hx x rfl)
  · rintro (_ | x) (_ | y) hx hy <;> simp [optEq]
    exact h.symm x y (hx x rfl) (hy y rfl)
  · rintro (_ | x) (_ | y) (_ | z) <;> simp [optEq]
    exact h.trans x y z

theorem Laws.loc {V : α → Prop} {r} (st : Bool) (h : Laws V r) :
    Laws (fun x : Located α => V x.inner) (locEq st r) := by
  refine ⟨?_, ?_, ?_⟩
  · intro x hx
    simp [locEq, h.refl x.inner hx]
  · intro x y hx hy
    simp only [locEq, Bool.and_eq_true, Bool.or_eq_true, decide_eq_true_eq]
    rintro ⟨h1, h2⟩
    exact ⟨h.symm _ _ hx hy h1, h2.imp id Eq.symm⟩
  · intro x y z
    simp only [locEq, Bool.and_eq_true, Bool.or_eq_true, decide_eq_true_eq]
    rintro ⟨h1, h2⟩ ⟨h3, h4⟩
    refine ⟨h.trans _ _ _ h1 h3, ?_⟩
    rcases h2 with h2 | h2
    · exact .inl h2
    · exact h4.imp id h2.trans

theorem Laws.vec {V : α → Prop} {r} (h : Laws V r) :
    Laws (fun xs : List α => ∀ x ∈ xs, V x) (vecEq r) := by
  refine ⟨?_, ?_, ?_⟩
  · intro xs hx
    induction xs with
    | nil => rfl
    | cons x xs ih =>
      simp [vecEq, h.refl x (hx x (by simp)), ih (fun y hy => hx y (by simp [hy]))]
  · intro xs
    induction xs with
    | nil => intro ys; cases ys <;> simp [vecEq]
    | cons x xs ih =>
      intro ys hx hy
      cases ys with
      | nil => simp [vecEq]
      | cons y ys =>
        simp only [vecEq, Bool.and_eq_true]
        rintro ⟨h1, h2⟩
        exact ⟨h.symm _ _ (hx x (by simp)) (hy y (by simp)) h1,
          ih ys (fun z hz => hx z (by simp [hz])) (fun z hz => hy z (by simp [hz])) h2⟩
  · intro xs
    induction xs with
    | nil => intro ys zs; cases ys <;> cases zs <;> simp [vecEq]
    | cons x xs ih =>
      intro ys zs
      cases ys with
      | nil => simp [vecEq]
      | cons y ys =>
        cases zs with
        | nil => simp [vecEq]
        | cons z zs =>
          simp only [vecEq, Bool.and_eq_true]
          rintro ⟨h1, h2⟩ ⟨h3, h4⟩
          exact ⟨h.trans _ _ _ h1 h3, ih ys zs h2 h4⟩

/-! ## Maps -/

variable [DecidableEq κ]

theorem lookup_mem {m : List (κ × υ)} {k : κ} {v : υ} (h : lookup m k = some v) : (k, v) ∈ m := by
  induction m with
  | nil => simp [lookup] at h
  | cons e m ih =>
    obtain ⟨k', v'⟩ := e
    simp only [lookup] at h
    split at h
    · cases h; subst_vars; simp
    · exact List.mem_cons_of_mem _ (ih h)

theorem lookup_of_mem {m : List (κ × υ)} (hm : DistinctKeys m) {k : κ} {v : υ} (h : (k, v) ∈ m) :
    lookup m k = some v := by
  induction m with
  | nil => simp at h
  | cons e m ih =>
    obtain ⟨k', v'⟩ := e
    simp only [DistinctKeys, List.map_cons, List.nodup_cons] at hm
    simp only [lookup]
    rcases List.mem_cons.1 h with h | h
    · cases h; simp
    · rw [if_neg, ih hm.2 h]
      rintro rfl
      exact hm.1 (List.mem_map.2 ⟨_, h, rfl⟩)

theorem subset_of_length_le {xs ys : List κ} (hx : xs.Nodup) (hs : ∀ x ∈ xs, x ∈ ys)
    (hl : ys.length ≤ xs.length) : ∀ y ∈ ys, y ∈ xs := by
  induction xs generalizing ys with
  | nil =>
    have : ys = [] := List.length_eq_zero_iff.1 (by simpa using hl)
    simp [this]
  | cons x xs ih =>
    simp only [List.nodup_cons] at hx
    have hmem := hs x (by simp)
    have h1 := List.length_erase_of_mem hmem
    intro y hy
    by_cases hyx : y = x
    · simp [hyx]
    · refine List.mem_cons_of_mem _ (ih (ys := ys.erase x) hx.2 ?_ ?_ y ?_)
      · intro z hz
        refine (List.mem_erase_of_ne ?_).2 (hs z (by simp [hz]))
        rintro rfl
        exact hx.1 hz
      · simp at hl; omega
      · exact (List.mem_erase_of_ne hyx).2 hy

theorem mapEq_iff {r : υ → υ → Bool} {m m' : List (κ × υ)} : mapEq r m m' = true ↔
    m.length = m'.length ∧ ∀ k v, (k, v) ∈ m → ∃ v', lookup m' k = some v' ∧ r v v' = true := by
  simp only [mapEq, Bool.and_eq_true, beq_iff_eq, List.all_eq_true]
  refine and_congr_right fun _ => ⟨fun h k v hm => ?_, fun h e he => ?_⟩
  · have := h _ hm
    simp only at this
    cases hl : lookup m' k with
    | none => rw [hl] at this; simp [related] at this
    | some v' => rw [hl] at this; exact ⟨v', rfl, this⟩
  · obtain ⟨v', h1, h2⟩ := h e.1 e.2 he
    rw [h1]
    exact h2

/-- Related maps have the same keys. -/
theorem mapEq_keys {r : υ → υ → Bool} {m m' : List (κ × υ)} (hm : DistinctKeys m)
    (h : mapEq r m m' = true) (k : κ) : k ∈ m.map (·.1) ↔ k ∈ m'.map (·.1) := by
  obtain ⟨hl, h⟩ := mapEq_iff.1 h
  have hs : ∀ k ∈ m.map (·.1), k ∈ m'.map (·.1) := by
    intro k hk
    obtain ⟨⟨k, v⟩, he, rfl⟩ := List.mem_map.1 hk
    obtain ⟨v', h1, _⟩ := h k v he
    exact List.mem_map.2 ⟨_, lookup_mem h1, rfl⟩
  exact ⟨hs k, subset_of_length_le hm hs (by simp [hl]) k⟩

theorem Laws.map {V : υ → Prop} {r} (h : Laws V r) :
    Laws (fun m : List (κ × υ) => DistinctKeys m ∧ ∀ e ∈ m, V e.2) (mapEq r) := by
  refine ⟨?_, ?_, ?_⟩
  · rintro m ⟨hd, hv⟩
    exact mapEq_iff.2 ⟨rfl, fun k v hm => ⟨v, lookup_of_mem hd hm, h.refl v (hv _ hm)⟩⟩
  · rintro m m' ⟨hd, hv⟩ ⟨hd', hv'⟩ he
    have hk := mapEq_keys hd he
    obtain ⟨hl, he⟩ := mapEq_iff.1 he
    refine mapEq_iff.2 ⟨hl.symm, fun k v' hm => ?_⟩
    obtain ⟨⟨k, v⟩, h1, rfl⟩ := List.mem_map.1 ((hk k).2 (List.mem_map.2 ⟨_, hm, rfl⟩))
    obtain ⟨w, h2, h3⟩ := he k v h1
    have : w = v' := by
      have := lookup_of_mem hd' hm
      rw [h2] at this
      exact Option.some.inj this
    subst this
    exact ⟨v, lookup_of_mem hd h1, h.symm v w (hv _ h1) (hv' _ hm) h3⟩
  · intro m1 m2 m3 h1 h2
    obtain ⟨l1, h1⟩ := mapEq_iff.1 h1
    obtain ⟨l2, h2⟩ := mapEq_iff.1 h2
    refine mapEq_iff.2 ⟨l1.trans l2, fun k v hm => ?_⟩
    obtain ⟨v2, e2, r2⟩ := h1 k v hm
    obtain ⟨v3, e3, r3⟩ := h2 k v2 (lookup_mem e2)
    exact ⟨v3, e3, h.trans _ _ _ r2 r3⟩

omit [DecidableEq κ] in
theorem Laws.weaken {V W : α → Prop} {r} (h : Laws V r) (hw : ∀ x, W x → V x) : Laws W r :=
  ⟨fun x hx => h.refl x (hw x hx), fun x y hx hy => h.symm x y (hw x hx) (hw y hy), h.trans⟩

theorem props_laws : Laws PropsValid propsEq :=
  (Laws.opt (Laws.map Laws.dec)).weaken fun _ h m e => ⟨h m e, by simp⟩

/-! ## Elements -/

variable {ue : Uri → Uri → Bool}

theorem description_laws (hu : Laws (fun _ => True) ue) :
    Laws Description.Valid (Description.eqv ue) := by
  have hp := props_laws
  refine ⟨?_, ?_, ?_⟩
  · intro x
    fun_induction Description.Valid x <;> simp [Description.eqv, hu.refl]
    · exact hp.refl _
    · intro h1 h2; exact ⟨by simp_all, hp.refl _ h2⟩
  · intro x y
    fun_induction Description.eqv ue x y <;> simp [Description.Valid, Description.eqv]
    · exact Eq.symm
    · intro h1 h2 h3 h4
      exact ⟨hu.symm _ _ trivial trivial h3, hp.symm _ _ h1 h2 h4⟩
    · rename_i ih
      intro h1 h2 h3 h4 h5 h6 h7
      exact ⟨⟨hu.symm _ _ trivial trivial h5, ih h1 h3 h6⟩, hp.symm _ _ h2 h4 h7⟩
  · intro x y
    fun_induction Description.eqv ue x y
    · intro z; cases z <;> simp [Description.eqv]
      intro h1 h2; exact h1.trans h2
    · rintro (_ | ⟨_, _ | _, _⟩) <;> simp [Description.eqv]
      intro h3 h4 h5 h6
      exact ⟨hu.trans _ _ _ h3 h5, hp.trans _ _ _ h4 h6⟩
    · rename_i ih
      rintro (_ | ⟨_, _ | _, _⟩) <;> simp [Description.eqv]
      intro h3 h4 h5 h6 h7 h8
      exact ⟨⟨hu.trans _ _ _ h3 h6, ih _ h4 h7⟩, hp.trans _ _ _ h5 h8⟩
    · simp

theorem linkData_laws (hu : Laws (fun _ => True) ue) : Laws LinkData.Valid (LinkData.eqv ue) := by
  have hp := props_laws
  have hd := (description_laws hu).opt
  refine ⟨?_, ?_, ?_⟩
  · rintro x ⟨h1, h2⟩
    simp [LinkData.eqv, hu.refl, hp.refl _ h2, hd.refl _ h1]
  · rintro x y ⟨h1, h2⟩ ⟨h3, h4⟩
    simp only [LinkData.eqv, Bool.and_eq_true]
    rintro ⟨⟨h5, h6⟩, h7⟩
    exact ⟨⟨hu.symm _ _ trivial trivial h5, hd.symm _ _ h1 h3 h6⟩, hp.symm _ _ h2 h4 h7⟩
  · intro x y z
    simp only [LinkData.eqv, Bool.and_eq_true]
    rintro ⟨⟨h5, h6⟩, h7⟩ ⟨⟨h8, h9⟩, h10⟩
    exact ⟨⟨hu.trans _ _ _ h5 h8, hd.trans _ _ _ h6 h9⟩, hp.trans _ _ _ h7 h10⟩

theorem link_laws (hu : Laws (fun _ => True) ue) : Laws Link.Valid (Link.eqv ue) := by
  have hp := linkData_laws hu
  refine ⟨?_, ?_, ?_⟩
  · rintro x h
    cases x <;> simp only [Link.Valid] at h <;> simp [Link.eqv, hp.refl _ h]
  · rintro x y h1 h2
    cases x <;> cases y <;> simp only [Link.Valid] at h1 h2 <;> simp [Link.eqv]
    all_goals first
      | exact hp.symm _ _ h1 h2
      | intro h3 h4; exact ⟨h3.symm, hp.symm _ _ h1 h2 h4⟩
  · intro x y z
    cases x <;> cases y <;> cases z <;> simp [Link.eqv]
    all_goals first
      | exact hp.trans _ _ _
      | intro h3 h4 h5 h6; exact ⟨h3.trans h5, hp.trans _ _ _ h4 h6⟩

section
variable (st : Bool) (hu : Laws (fun _ => True) ue)
include hu

mutual
theorem inline_refl : ∀ x : Inline, x.Valid → x.eqv st ue x = true
  | .text _, _ => by simp [Inline.eqv]
  | .decorated _ xs, h => by simp [Inline.eqv, inlines_refl xs h]
  | .keyword _, _ => by simp [Inline.eqv]
  | .link l, h => by simpa [Inline.eqv] using (link_laws hu).refl l h
  | .tags _, _ => by simp [Inline.eqv]
  | .code _, _ => by simp [Inline.eqv]
  | .math _, _ => by simp [Inline.eqv]
  | .comment _, _ => by simp [Inline.eqv]
theorem inlines_refl : ∀ xs : List (Located Inline), Inline.Valids xs →
    Inline.eqvs st ue xs xs = true
  | [], _ => by simp [Inline.eqvs]
  | ⟨x, _⟩ :: xs, h => by simp [Inline.eqvs, inline_refl x h.1, inlines_refl xs h.2]
end

mutual
theorem inline_symm : ∀ x y : Inline, x.Valid → y.Valid → x.eqv st ue y = true →
    y.eqv st ue x = true
  | .text _, y, _, _ => by cases y <;> simp [Inline.eqv]; exact Eq.symm
  | .decorated _ xs, .decorated _ ys, hx, hy => by
    simp only [Inline.eqv, Bool.and_eq_true, decide_eq_true_eq]
    exact fun ⟨h1, h2⟩ => ⟨h1.symm, inlines_symm xs ys hx hy h2⟩
  | .decorated _ xs, .text _, _, _ => by simp [Inline.eqv]
  | .decorated _ xs, .keyword _, _, _ => by simp [Inline.eqv]
  | .decorated _ xs, .link _, _, _ => by simp [Inline.eqv]
  | .decorated _ xs, .tags _, _, _ => by simp [Inline.eqv]
  | .decorated _ xs, .code _, _, _ => by simp [Inline.eqv]
  | .decorated _ xs, .math _, _, _ => by simp [Inline.eqv]
  | .decorated _ xs, .comment _, _, _ => by simp [Inline.eqv]
  | .keyword _, y, _, _ => by cases y <;> simp [Inline.eqv]; exact Eq.symm
  | .link l, y, hx, hy => by
    cases y <;> simp [Inline.eqv]
    exact (link_laws hu).symm _ _ hx hy
  | .tags _, y, _, _ => by cases y <;> simp [Inline.eqv]; exact Eq.symm
  | .code _, y, _, _ => by cases y <;> simp [Inline.eqv]; exact Eq.symm
  | .math _, y, _, _ => by cases y <;> simp [Inline.eqv]; exact Eq.symm
  | .comment _, y, _, _ => by cases y <;> simp [Inline.eqv]; exact Eq.symm
theorem inlines_symm : ∀ xs ys : List (Located Inline), Inline.Valids xs → Inline.Valids ys →
    Inline.eqvs st ue xs ys = true → Inline.eqvs st ue ys xs = true
  | [], [], _, _ => by simp [Inline.eqvs]
  | [], _ :: _, _, _ => by simp [Inline.eqvs]
  | _ :: _, [], _, _ => by simp [Inline.eqvs]
  | ⟨x, _⟩ :: xs, ⟨y, _⟩ :: ys, hx, hy => by
    simp only [Inline.eqvs, Bool.and_eq_true, Bool.or_eq_true, decide_eq_true_eq]
    exact fun ⟨⟨h1, h2⟩, h3⟩ => ⟨⟨inline_symm x y hx.1 hy.1 h1, h2.imp id Eq.symm⟩,
      inlines_symm xs ys hx.2 hy.2 h3⟩
end

mutual
theorem inline_trans : ∀ x y z : Inline, x.eqv st ue y = true → y.eqv st ue z = true →
    x.eqv st ue z = true
  | .text _, y, z => by
    cases y <;> cases z <;> simp [Inline.eqv]; intro h1 h2; exact h1.trans h2
  | .decorated _ xs, .decorated _ ys, .decorated _ zs => by
    simp only [Inline.eqv, Bool.and_eq_true, decide_eq_true_eq]
    exact fun ⟨h1, h2⟩ ⟨h3, h4⟩ => ⟨h1.trans h3, inlines_trans xs ys zs h2 h4⟩
  | .decorated _ xs, .decorated _ ys, .text _ => by simp [Inline.eqv]
  | .decorated _ xs, .decorated _ ys, .keyword _ => by simp [Inline.eqv]
  | .decorated _ xs, .decorated _ ys, .link _ => by simp [Inline.eqv]
  | .decorated _ xs, .decorated _ ys, .tags _ => by simp [Inline.eqv]
  | .decorated _ xs, .decorated _ ys, .code _ => by simp [Inline.eqv]
  | .decorated _ xs, .decorated _ ys, .math _ => by simp [Inline.eqv]
  | .decorated _ xs, .decorated _ ys, .comment _ => by simp [Inline.eqv]
  | .decorated _ xs, .text _, _ => fun h => by simp [Inline.eqv] at h
  | .decorated _ xs, .keyword _, _ => fun h => by simp [Inline.eqv] at h
  | .decorated _ xs, .link _, _ => fun h => by simp [Inline.eqv] at h
  | .decorated _ xs, .tags _, _ => fun h => by simp [Inline.eqv] at h
  | .decorated _ xs, .code _, _ => fun h => by simp [Inline.eqv] at h
  | .decorated _ xs, .math _, _ => fun h => by simp [Inline.eqv] at h
  | .decorated _ xs, .comment _, _ => fun h => by simp [Inline.eqv] at h
  | .keyword _, y, z => by
    cases y <;> cases z <;> simp [Inline.eqv]; intro h1 h2; exact h1.trans h2
  | .link l, y, z => by
    cases y <;> cases z <;> simp [Inline.eqv]
    exact (link_laws hu).trans _ _ _
  | .tags _, y, z => by
    cases y <;> cases z <;> simp [Inline.eqv]; intro h1 h2; exact h1.trans h2
  | .code _, y, z => by
    cases y <;> cases z <;> simp [Inline.eqv]; intro h1 h2; exact h1.trans h2
  | .math _, y, z => by
    cases y <;> cases z <;> simp [Inline.eqv]; intro h1 h2; exact h1.trans h2
  | .comment _, y, z => by
    cases y <;> cases z <;> simp [Inline.eqv]; intro h1 h2; exact h1.trans h2
theorem inlines_trans : ∀ xs ys zs : List (Located Inline), Inline.eqvs st ue xs ys = true →
    Inline.eqvs st ue ys zs = true → Inline.eqvs st ue xs zs = true
  | [], [], _ => fun _ h => h
  | [], _ :: _, _ => fun h => by simp [Inline.eqvs] at h
  | _ :: _, [], _ => fun h => by simp [Inline.eqvs] at h
  | _ :: _, _ :: _, [] => by simp [Inline.eqvs]
  | ⟨x, _⟩ :: xs, ⟨y, _⟩ :: ys, ⟨z, _⟩ :: zs => by
    simp only [Inline.eqvs, Bool.and_eq_true, Bool.or_eq_true, decide_eq_true_eq]
    refine fun ⟨⟨h1, h2⟩, h3⟩ ⟨⟨h4, h5⟩, h6⟩ => ⟨⟨inline_trans x y z h1 h4, ?_⟩,
      inlines_trans xs ys zs h3 h6⟩
    rcases h2 with h2 | h2
    · exact .inl h2
    · exact h5.imp id h2.trans
end

theorem inlines_laws : Laws Inline.Valids (Inline.eqvs st ue) :=
  ⟨inlines_refl st hu, inlines_symm st hu, inlines_trans st hu⟩

theorem cell_laws : Laws Cell.Valid (Cell.eqv st ue) := by
  have hp := inlines_laws st hu
  refine ⟨?_, ?_, ?_⟩
  · rintro x h
    cases x <;> simp only [Cell.Valid] at h <;> simp [Cell.eqv]
    exact hp.refl _ h
  · rintro x y h1 h2
    cases x <;> cases y <;> simp only [Cell.Valid] at h1 h2 <;> simp [Cell.eqv]
    · exact hp.symm _ _ h1 h2
    · exact Eq.symm
    · exact Eq.symm
  · intro x y z
    cases x <;> cases y <;> cases z <;> simp [Cell.eqv]
    · exact hp.trans _ _ _
    · intro h1 h2; exact h1.trans h2
    · intro h1 h2; exact h1.trans h2

theorem table_laws : Laws Table.Valid (Table.eqv st ue) := by
  have hp := ((cell_laws st hu).loc st).map (κ := CellPos)
  refine ⟨?_, ?_, ?_⟩
  · rintro x ⟨h1, h2, h3⟩
    simp [Table.eqv, hp.refl _ ⟨h1, h2⟩]
  · rintro x y ⟨h1, h2, h3⟩ ⟨h4, h5, h6⟩
    simp only [Table.eqv, Bool.and_eq_true, Bool.or_eq_true, decide_eq_true_eq]
    rintro ⟨⟨h7, h8⟩, h9⟩
    exact ⟨⟨h7.symm, hp.symm _ _ ⟨h1, h2⟩ ⟨h4, h5⟩ h8⟩, h9.imp id fun h => ⟨h.1.symm, h.2.symm⟩⟩
  · intro x y z
    simp only [Table.eqv, Bool.and_eq_true, Bool.or_eq_true, decide_eq_true_eq]
    rintro ⟨⟨h7, h8⟩, h9⟩ ⟨⟨h10, h11⟩, h12⟩
    refine ⟨⟨h7.trans h10, hp.trans _ _ _ h8 h11⟩, ?_⟩
    rcases h9 with h9 | h9
    · exact .inl h9
    · exact h12.imp id fun h => ⟨h9.1.trans h.1, h9.2.trans h.2⟩

theorem termDefs_laws : Laws TermDefs.Valid (TermDefs.eqv st ue) := by
  have h1 := (inlines_laws st hu).loc st
  have h2 := h1.vec.loc st
  refine ⟨?_, ?_, ?_⟩
  · rintro x ⟨h3, h4⟩
    simp [TermDefs.eqv, h1.refl _ h3, h2.refl _ h4]
  · rintro x y ⟨h3, h4⟩ ⟨h5, h6⟩
    simp only [TermDefs.eqv, Bool.and_eq_true]
    exact fun ⟨h7, h8⟩ => ⟨h1.symm _ _ h3 h5 h7, h2.symm _ _ h4 h6 h8⟩
  · intro x y z
    simp only [TermDefs.eqv, Bool.and_eq_true]
    exact fun ⟨h3, h4⟩ ⟨h5, h6⟩ => ⟨h1.trans _ _ _ h3 h5, h2.trans _ _ _ h4 h6⟩

theorem map_laws : Laws DistinctKeys (mapEq (fun x y : Str => decide (x = y)) (κ := Str)) :=
  (Laws.map Laws.dec).weaken fun _ h => ⟨h, by simp⟩

mutual
theorem block_refl : ∀ x : Block, x.Valid → x.eqv st ue x = true
  | .blockquote _, _ => by simp [Block.eqv]
  | .code _ m _, h => by simpa [Block.eqv] using (map_laws hu).refl m h
  | .defs xs, h => by simpa [Block.eqv] using ((termDefs_laws st hu).loc st).vec.refl xs h
  | .divider, _ => by simp [Block.eqv]
  | .header c _ _, h => by simpa [Block.eqv] using inlines_refl st hu c h
  | .list xs, h => by simpa [Block.eqv] using items_refl xs h
  | .math _ _, _ => by simp [Block.eqv]
  | .paragraph rs, h => by simpa [Block.eqv] using (inlines_laws st hu).vec.refl rs h
  | .placeholder _, _ => by simp [Block.eqv]
  | .table t, h => by simpa [Block.eqv] using (table_laws st hu).refl t h
theorem items_refl : ∀ xs : List (Located (ItemF Block)), Block.ValidItems xs →
    Block.eqvItems st ue xs xs = true
  | [], _ => by simp [Block.eqvItems]
  | ⟨⟨_, _, _, cs, _⟩, _⟩ :: xs, h => by
    simp [Block.eqvItems, blocks_refl cs h.1, items_refl xs h.2]
theorem blocks_refl : ∀ xs : List (Located Block), Block.Valids xs →
    Block.eqvs st ue xs xs = true
  | [], _ => by simp [Block.eqvs]
  | ⟨x, _⟩ :: xs, h => by simp [Block.eqvs, block_refl x h.1, blocks_refl xs h.2]
end

mutual
theorem block_symm : ∀ x y : Block, x.Valid → y.Valid → x.eqv st ue y = true →
    y.eqv st ue x = true
  | .blockquote _, y, _, _ => by cases y <;> simp [Block.eqv]; exact Eq.symm
  | .code _ m _, y, hx, hy => by
    cases y <;> simp [Block.eqv]
    exact fun h1 h2 h3 => ⟨⟨h1.symm, (map_laws hu).symm _ _ hx hy h2⟩, h3.symm⟩
  | .defs xs, y, hx, hy => by
    cases y <;> simp [Block.eqv]
    exact ((termDefs_laws st hu).loc st).vec.symm _ _ hx hy
  | .divider, y, _, _ => by cases y <;> simp [Block.eqv]
  | .header c _ _, y, hx, hy => by
    cases y <;> simp [Block.eqv]
    exact fun h1 h2 h3 => ⟨⟨h1.symm, h2.symm⟩, inlines_symm st hu _ _ hx hy h3⟩
  | .list xs, .list ys, hx, hy => by
    simp only [Block.eqv]
    exact items_symm xs ys hx hy
  | .list xs, .blockquote _, _, _ => by simp [Block.eqv]
  | .list xs, .code _ _ _, _, _ => by simp [Block.eqv]
  | .list xs, .defs _, _, _ => by simp [Block.eqv]
  | .list xs, .divider, _, _ => by simp [Block.eqv]
  | .list xs, .header _ _ _, _, _ => by simp [Block.eqv]
  | .list xs, .math _ _, _, _ => by simp [Block.eqv]
  | .list xs, .paragraph _, _, _ => by simp [Block.eqv]
  | .list xs, .placeholder _, _, _ => by simp [Block.eqv]
  | .list xs, .table _, _, _ => by simp [Block.eqv]
  | .math _ _, y, _, _ => by
    cases y <;> simp [Block.eqv]; exact fun h1 h2 => ⟨h1.symm, h2.symm⟩
  | .paragraph rs, y, hx, hy => by
    cases y <;> simp [Block.eqv]
    exact (inlines_laws st hu).vec.symm _ _ hx hy
  | .placeholder _, y, _, _ => by cases y <;> simp [Block.eqv]; exact Eq.symm
  | .table t, y, hx, hy => by
    cases y <;> simp [Block.eqv]
    exact (table_laws st hu).symm _ _ hx hy
theorem items_symm : ∀ xs ys : List (Located (ItemF Block)), Block.ValidItems xs →
    Block.ValidItems ys → Block.eqvItems st ue xs ys = true → Block.eqvItems st ue ys xs = true
  | [], [], _, _ => by simp [Block.eqvItems]
  | [], _ :: _, _, _ => by simp [Block.eqvItems]
  | _ :: _, [], _, _ => by simp [Block.eqvItems]
  | ⟨⟨_, _, _, cs, _⟩, _⟩ :: xs, ⟨⟨_, _, _, cs', _⟩, _⟩ :: ys, hx, hy => by
    simp only [Block.eqvItems, Bool.and_eq_true, Bool.or_eq_true, decide_eq_true_eq]
    exact fun ⟨⟨⟨⟨⟨⟨h1, h2⟩, h3⟩, h4⟩, h5⟩, h6⟩, h7⟩ => ⟨⟨⟨⟨⟨⟨h1.symm, h2.symm⟩, h3.symm⟩,
      blocks_symm cs cs' hx.1 hy.1 h4⟩, h5.symm⟩, h6.imp id Eq.symm⟩, items_symm xs ys hx.2 hy.2 h7⟩
theorem blocks_symm : ∀ xs ys : List (Located Block), Block.Valids xs → Block.Valids ys →
    Block.eqvs st ue xs ys = true → Block.eqvs st ue ys xs = true
  | [], [], _, _ => by simp [Block.eqvs]
  | [], _ :: _, _, _ => by simp [Block.eqvs]
  | _ :: _, [], _, _ => by simp [Block.eqvs]
  | ⟨x, _⟩ :: xs, ⟨y, _⟩ :: ys, hx, hy => by
    simp only [Block.eqvs, Bool.and_eq_true, Bool.or_eq_true, decide_eq_true_eq]
    exact fun ⟨⟨h1, h2⟩, h3⟩ => ⟨⟨block_symm x y hx.1 hy.1 h1, h2.imp id Eq.symm⟩,
      blocks_symm xs ys hx.2 hy.2 h3⟩
end

mutual
theorem block_trans : ∀ x y z : Block, x.eqv st ue y = true → y.eqv st ue z = true →
    x.eqv st ue z = true
  | .blockquote _, y, z => by
    cases y <;> cases z <;> simp [Block.eqv]; intro h1 h2; exact h1.trans h2
  | .code _ m _, y, z => by
    cases y <;> cases z <;> simp [Block.eqv]
    exact fun h1 h2 h3 h4 h5 h6 => ⟨⟨h1.trans h4, (map_laws hu).trans _ _ _ h2 h5⟩, h3.trans h6⟩
  | .defs xs, y, z => by
    cases y <;> cases z <;> simp [Block.eqv]
    exact ((termDefs_laws st hu).loc st).vec.trans _ _ _
  | .divider, y, z => by cases y <;> cases z <;> simp [Block.eqv]
  | .header c _ _, y, z => by
    cases y <;> cases z <;> simp [Block.eqv]
    exact fun h1 h2 h3 h4 h5 h6 => ⟨⟨h1.trans h4, h2.trans h5⟩, inlines_trans st hu _ _ _ h3 h6⟩
  | .list xs, .list ys, .list zs => by
    simp only [Block.eqv]
    exact items_trans xs ys zs
  | .list xs, .list _, .blockquote _ => by simp [Block.eqv]
  | .list xs, .list _, .code _ _ _ => by simp [Block.eqv]
  | .list xs, .list _, .defs _ => by simp [Block.eqv]
  | .list xs, .list _, .divider => by simp [Block.eqv]
  | .list xs, .list _, .header _ _ _ => by simp [Block.eqv]
  | .list xs, .list _, .math _ _ => by simp [Block.eqv]
  | .list xs, .list _, .paragraph _ => by simp [Block.eqv]
  | .list xs, .list _, .placeholder _ => by simp [Block.eqv]
  | .list xs, .list _, .table _ => by simp [Block.eqv]
  | .list xs, .blockquote _, _ => fun h => by simp [Block.eqv] at h
  | .list xs, .code _ _ _, _ => fun h => by simp [Block.eqv] at h
  | .list xs, .defs _, _ => fun h => by simp [Block.eqv] at h
  | .list xs, .divider, _ => fun h => by simp [Block.eqv] at h
  | .list xs, .header _ _ _, _ => fun h => by simp [Block.eqv] at h
  | .list xs, .math _ _, _ => fun h => by simp [Block.eqv] at h
  | .list xs, .paragraph _, _ => fun h => by simp [Block.eqv] at h
  | .list xs, .placeholder _, _ => fun h => by simp [Block.eqv] at h
  | .list xs, .table _, _ => fun h => by simp [Block.eqv] at h
  | .math _ _, y, z => by
    cases y <;> cases z <;> simp [Block.eqv]
    exact fun h1 h2 h3 h4 => ⟨h1.trans h3, h2.trans h4⟩
  | .paragraph rs, y, z => by
    cases y <;> cases z <;> simp [Block.eqv]
    exact (inlines_laws st hu).vec.trans _ _ _
  | .placeholder _, y, z => by
    cases y <;> cases z <;> simp [Block.eqv]; intro h1 h2; exact h1.trans h2
  | .table t, y, z => by
    cases y <;> cases z <;> simp [Block.eqv]
    exact (table_laws st hu).trans _ _ _
theorem items_trans : ∀ xs ys zs : List (Located (ItemF Block)), Block.eqvItems st ue xs ys = true →
    Block.eqvItems st ue ys zs = true → Block.eqvItems st ue xs zs = true
  | [], [], _ => fun _ h => h
  | [], _ :: _, _ => fun h => by simp [Block.eqvItems] at h
  | _ :: _, [], _ => fun h => by simp [Block.eqvItems] at h
  | _ :: _, _ :: _, [] => by simp [Block.eqvItems]
  | ⟨⟨_, _, _, cs, _⟩, _⟩ :: xs, ⟨⟨_, _, _, cs', _⟩, _⟩ :: ys, ⟨⟨_, _, _, cs'', _⟩, _⟩ :: zs => by
    simp only [Block.eqvItems, Bool.and_eq_true, Bool.or_eq_true, decide_eq_true_eq]
    refine fun ⟨⟨⟨⟨⟨⟨h1, h2⟩, h3⟩, h4⟩, h5⟩, h6⟩, h7⟩ ⟨⟨⟨⟨⟨⟨g1, g2⟩, g3⟩, g4⟩, g5⟩, g6⟩, g7⟩ =>
      ⟨⟨⟨⟨⟨⟨h1.trans g1, h2.trans g2⟩, h3.trans g3⟩, blocks_trans cs cs' cs'' h4 g4⟩, h5.trans g5⟩,
        ?_⟩, items_trans xs ys zs h7 g7⟩
    rcases h6 with h6 | h6
    · exact .inl h6
    · exact g6.imp id h6.trans
theorem blocks_trans : ∀ xs ys zs : List (Located Block), Block.eqvs st ue xs ys = true →
    Block.eqvs st ue ys zs = true → Block.eqvs st ue xs zs = true
  | [], [], _ => fun _ h => h
  | [], _ :: _, _ => fun h => by simp [Block.eqvs] at h
  | _ :: _, [], _ => fun h => by simp [Block.eqvs] at h
  | _ :: _, _ :: _, [] => by simp [Block.eqvs]
  | ⟨x, _⟩ :: xs, ⟨y, _⟩ :: ys, ⟨z, _⟩ :: zs => by
    simp only [Block.eqvs, Bool.and_eq_true, Bool.or_eq_true, decide_eq_true_eq]
    refine fun ⟨⟨h1, h2⟩, h3⟩ ⟨⟨h4, h5⟩, h6⟩ => ⟨⟨block_trans x y z h1 h4, ?_⟩,
      blocks_trans xs ys zs h3 h6⟩
    rcases h2 with h2 | h2
    · exact .inl h2
    · exact h5.imp id h2.trans
end
end


/-! ## `strict_eq` implies `==` -/

mutual
theorem inline_weak : ∀ x y : Inline, x.eqv true ue y = true → x.eqv false ue y = true
  | .decorated _ xs, .decorated _ ys => by
    simp only [Inline.eqv, Bool.and_eq_true]
    exact fun ⟨h1, h2⟩ => ⟨h1, inlines_weak xs ys h2⟩
  | .decorated _ _, .text _ => by simp [Inline.eqv]
  | .decorated _ _, .keyword _ => by simp [Inline.eqv]
  | .decorated _ _, .link _ => by simp [Inline.eqv]
  | .decorated _ _, .tags _ => by simp [Inline.eqv]
  | .decorated _ _, .code _ => by simp [Inline.eqv]
  | .decorated _ _, .math _ => by simp [Inline.eqv]
  | .decorated _ _, .comment _ => by simp [Inline.eqv]
  | .text _, y => by cases y <;> simp [Inline.eqv]
  | .keyword _, y => by cases y <;> simp [Inline.eqv]
  | .link _, y => by cases y <;> simp [Inline.eqv]
  | .tags _, y => by cases y <;> simp [Inline.eqv]
  | .code _, y => by cases y <;> simp [Inline.eqv]
  | .math _, y => by cases y <;> simp [Inline.eqv]
  | .comment _, y => by cases y <;> simp [Inline.eqv]
theorem inlines_weak : ∀ xs ys : List (Located Inline), Inline.eqvs true ue xs ys = true →
    Inline.eqvs false ue xs ys = true
  | [], [] => by simp [Inline.eqvs]
  | [], _ :: _ => by simp [Inline.eqvs]
  | _ :: _, [] => by simp [Inline.eqvs]
  | ⟨x, _⟩ :: xs, ⟨y, _⟩ :: ys => by
    simp only [Inline.eqvs, Bool.and_eq_true]
    exact fun ⟨⟨h1, _⟩, h3⟩ => ⟨⟨inline_weak x y h1, by simp⟩, inlines_weak xs ys h3⟩
end

theorem cell_weak (x y : Cell) : x.eqv true ue y = true → x.eqv false ue y = true := by
  cases x <;> cases y <;> simp [Cell.eqv]
  exact inlines_weak _ _

theorem loc_weak {r r' : α → α → Bool} (h : ∀ x y, r x y = true → r' x y = true)
    (x y : Located α) : locEq true r x y = true → locEq false r' x y = true := by
  simp only [locEq, Bool.and_eq_true]
  exact fun ⟨h1, _⟩ => ⟨h _ _ h1, by simp⟩

theorem vec_weak {r r' : α → α → Bool} (h : ∀ x y, r x y = true → r' x y = true) :
    ∀ xs ys : List α, vecEq r xs ys = true → vecEq r' xs ys = true
  | [], [] => by simp [vecEq]
  | [], _ :: _ => by simp [vecEq]
  | _ :: _, [] => by simp [vecEq]
  | x :: xs, y :: ys => by
    simp only [vecEq, Bool.and_eq_true]
    exact fun ⟨h1, h2⟩ => ⟨h _ _ h1, vec_weak h xs ys h2⟩

theorem map_weak {r r' : υ → υ → Bool} (h : ∀ x y, r x y = true → r' x y = true)
    (m m' : List (κ × υ)) : mapEq r m m' = true → mapEq r' m m' = true := by
  rw [mapEq_iff, mapEq_iff]
  rintro ⟨h1, h2⟩
  refine ⟨h1, fun k v hm => ?_⟩
  obtain ⟨v', h3, h4⟩ := h2 k v hm
  exact ⟨v', h3, h _ _ h4⟩

theorem countOf_unique {xs ys : List Nat} {m n : Nat} (hx : CountOf xs m) (hy : CountOf ys n)
    (h : ∀ i, i ∈ xs ↔ i ∈ ys) : m = n := by
  have h1 : m ≤ n := by
    rcases hx.2 with h1 | ⟨i, hi, e⟩
    · omega
    · have := hy.1 i ((h i).1 hi); omega
  have h2 : n ≤ m := by
    rcases hy.2 with h2 | ⟨i, hi, e⟩
    · omega
    · have := hx.1 i ((h i).2 hi); omega
  omega

theorem table_weak (t t' : Table) (hv : t.Valid) (hv' : t'.Valid) :
    t.eqv true ue t' = true → t.eqv false ue t' = true := by
  simp only [Table.eqv, Bool.and_eq_true, Bool.or_eq_true, decide_eq_true_eq]
  rintro ⟨⟨h1, h2⟩, _⟩
  have hk := mapEq_keys hv.1 h2
  have hp : ∀ f : CellPos → Nat, ∀ i, i ∈ t.cells.map (fun e => f e.1) ↔
      i ∈ t'.cells.map (fun e => f e.1) := by
    intro f i
    have key : ∀ m : List (CellPos × Located Cell), i ∈ m.map (fun e => f e.1) ↔
        ∃ k, k ∈ m.map (·.1) ∧ f k = i := by
      intro m
      simp
    rw [key, key]
    exact ⟨fun ⟨k, h1, h2⟩ => ⟨k, (hk k).1 h1, h2⟩, fun ⟨k, h1, h2⟩ => ⟨k, (hk k).2 h1, h2⟩⟩
  exact ⟨⟨h1, map_weak (loc_weak cell_weak) _ _ h2⟩,
    .inr ⟨countOf_unique hv.2.2.1 hv'.2.2.1 (hp (·.row)), countOf_unique hv.2.2.2 hv'.2.2.2 (hp (·.col))⟩⟩

theorem termDefs_weak (x y : TermDefs) : x.eqv true ue y = true → x.eqv false ue y = true := by
  simp only [TermDefs.eqv, Bool.and_eq_true]
  exact fun ⟨h1, h2⟩ => ⟨loc_weak inlines_weak _ _ h1, loc_weak (vec_weak (loc_weak inlines_weak)) _ _ h2⟩

mutual
theorem block_weak : ∀ x y : Block, x.Valid → y.Valid → x.eqv true ue y = true →
    x.eqv false ue y = true
  | .blockquote _, y, _, _ => by cases y <;> simp [Block.eqv]
  | .code _ _ _, y, _, _ => by cases y <;> simp [Block.eqv]
  | .defs xs, y, _, _ => by
    cases y <;> simp [Block.eqv]
    exact vec_weak (loc_weak termDefs_weak) _ _
  | .divider, y, _, _ => by cases y <;> simp [Block.eqv]
  | .header c _ _, y, _, _ => by
    cases y <;> simp [Block.eqv]
    exact fun h1 h2 h3 => ⟨⟨h1, h2⟩, inlines_weak _ _ h3⟩
  | .list xs, .list ys, hx, hy => by
    simp only [Block.eqv]
    exact items_weak xs ys hx hy
  | .list xs, .blockquote _, _, _ => by simp [Block.eqv]
  | .list xs, .code _ _ _, _, _ => by simp [Block.eqv]
  | .list xs, .defs _, _, _ => by simp [Block.eqv]
  | .list xs, .divider, _, _ => by simp [Block.eqv]
  | .list xs, .header _ _ _, _, _ => by simp [Block.eqv]
  | .list xs, .math _ _, _, _ => by simp [Block.eqv]
  | .list xs, .paragraph _, _, _ => by simp [Block.eqv]
  | .list xs, .placeholder _, _, _ => by simp [Block.eqv]
  | .list xs, .table _, _, _ => by simp [Block.eqv]
  | .math _ _, y, _, _ => by cases y <;> simp [Block.eqv]
  | .paragraph rs, y, _, _ => by
    cases y <;> simp [Block.eqv]
    exact vec_weak inlines_weak _ _
  | .placeholder _, y, _, _ => by cases y <;> simp [Block.eqv]
  | .table t, y, hx, hy => by
    cases y <;> simp [Block.eqv]
    exact table_weak _ _ hx hy
theorem items_weak : ∀ xs ys : List (Located (ItemF Block)), Block.ValidItems xs →
    Block.ValidItems ys → Block.eqvItems true ue xs ys = true → Block.eqvItems false ue xs ys = true
  | [], [], _, _ => by simp [Block.eqvItems]
  | [], _ :: _, _, _ => by simp [Block.eqvItems]
  | _ :: _, [], _, _ => by simp [Block.eqvItems]
  | ⟨⟨_, _, _, cs, _⟩, _⟩ :: xs, ⟨⟨_, _, _, cs', _⟩, _⟩ :: ys, hx, hy => by
    simp only [Block.eqvItems, Bool.and_eq_true]
    exact fun ⟨⟨⟨⟨⟨⟨h1, h2⟩, h3⟩, h4⟩, h5⟩, _⟩, h7⟩ => ⟨⟨⟨⟨⟨⟨h1, h2⟩, h3⟩,
      blocks_weak cs cs' hx.1 hy.1 h4⟩, h5⟩, by simp⟩, items_weak xs ys hx.2 hy.2 h7⟩
theorem blocks_weak : ∀ xs ys : List (Located Block), Block.Valids xs → Block.Valids ys →
    Block.eqvs true ue xs ys = true → Block.eqvs false ue xs ys = true
  | [], [], _, _ => by simp [Block.eqvs]
  | [], _ :: _, _, _ => by simp [Block.eqvs]
  | _ :: _, [], _, _ => by simp [Block.eqvs]
  | ⟨x, _⟩ :: xs, ⟨y, _⟩ :: ys, hx, hy => by
    simp only [Block.eqvs, Bool.and_eq_true]
    exact fun ⟨⟨h1, _⟩, h3⟩ => ⟨⟨block_weak x y hx.1 hy.1 h1, by simp⟩,
      blocks_weak xs ys hx.2 hy.2 h3⟩
end

/-! ## `==` ignores regions -/

mutual
theorem inline_erase : ∀ x y : Inline, x.erase.eqv false ue y.erase = x.eqv false ue y
  | .decorated _ xs, .decorated _ ys => by
    simp only [Inline.erase, Inline.eqv, inlines_erase xs ys]
  | .decorated _ _, .text _ => by simp [Inline.erase, Inline.eqv]
  | .decorated _ _, .keyword _ => by simp [Inline.erase, Inline.eqv]
  | .decorated _ _, .link _ => by simp [Inline.erase, Inline.eqv]
  | .decorated _ _, .tags _ => by simp [Inline.erase, Inline.eqv]
  | .decorated _ _, .code _ => by simp [Inline.erase, Inline.eqv]
  | .decorated _ _, .math _ => by simp [Inline.erase, Inline.eqv]
  | .decorated _ _, .comment _ => by simp [Inline.erase, Inline.eqv]
  | .text _, y => by cases y <;> simp [Inline.erase, Inline.eqv]
  | .keyword _, y => by cases y <;> simp [Inline.erase, Inline.eqv]
  | .link _, y => by cases y <;> simp [Inline.erase, Inline.eqv]
  | .tags _, y => by cases y <;> simp [Inline.erase, Inline.eqv]
  | .code _, y => by cases y <;> simp [Inline.erase, Inline.eqv]
  | .math _, y => by cases y <;> simp [Inline.erase, Inline.eqv]
  | .comment _, y => by cases y <;> simp [Inline.erase, Inline.eqv]
theorem inlines_erase : ∀ xs ys : List (Located Inline),
    Inline.eqvs false ue (Inline.erases xs) (Inline.erases ys) = Inline.eqvs false ue xs ys
  | [], [] => by simp [Inline.erases, Inline.eqvs]
  | [], ⟨_, _⟩ :: _ => by simp [Inline.erases, Inline.eqvs]
  | ⟨_, _⟩ :: _, [] => by simp [Inline.erases, Inline.eqvs]
  | ⟨x, _⟩ :: xs, ⟨y, _⟩ :: ys => by
    simp [Inline.erases, Inline.eqvs, inline_erase x y, inlines_erase xs ys]
end

theorem cell_erase (x y : Cell) : x.erase.eqv false ue y.erase = x.eqv false ue y := by
  cases x <;> cases y <;> simp [Cell.erase, Cell.eqv, inlines_erase]

theorem vec_erase {r : α → α → Bool} {f : α → α} (h : ∀ x y, r (f x) (f y) = r x y) :
    ∀ xs ys : List α, vecEq r (xs.map f) (ys.map f) = vecEq r xs ys
  | [], [] => by simp [vecEq]
  | [], _ :: _ => by simp [vecEq]
  | _ :: _, [] => by simp [vecEq]
  | x :: xs, y :: ys => by simp [vecEq, h, vec_erase h xs ys]

theorem lookup_map (f : υ → υ) (m : List (κ × υ)) (k : κ) :
    lookup (m.map (fun e => (e.1, f e.2))) k = (lookup m k).map f := by
  induction m with
  | nil => rfl
  | cons e m ih =>
    simp only [List.map_cons, lookup]
    split
    · rfl
    · exact ih

theorem map_erase {r : υ → υ → Bool} {f : υ → υ} (h : ∀ x y, r (f x) (f y) = r x y)
    (m m' : List (κ × υ)) :
    mapEq r (m.map (fun e => (e.1, f e.2))) (m'.map (fun e => (e.1, f e.2))) = mapEq r m m' := by
  unfold mapEq
  rw [List.length_map, List.length_map, List.all_map]
  congr 2
  funext e
  simp only [Function.comp, lookup_map]
  cases lookup m' e.1 <;> simp [related, h]

theorem table_erase (t t' : Table) : t.erase.eqv false ue t'.erase = t.eqv false ue t' := by
  unfold Table.eqv Table.erase
  rw [map_erase (f := fun c : Located Cell => ⟨c.inner.erase, .zero⟩)]
  intro x y
  simp [locEq, cell_erase]

theorem termDefs_erase (x y : TermDefs) : x.erase.eqv false ue y.erase = x.eqv false ue y := by
  simp only [TermDefs.eqv, TermDefs.erase, locEq, inlines_erase, Bool.not_false, Bool.true_or,
    Bool.and_true]
  rw [vec_erase (f := fun d : Located Inlines => ⟨Inline.erases d.inner, .zero⟩)]
  intro x y
  simp [locEq, inlines_erase]

mutual
theorem block_erase : ∀ x y : Block, x.erase.eqv false ue y.erase = x.eqv false ue y
  | .blockquote _, y => by cases y <;> simp [Block.erase, Block.eqv]
  | .code _ _ _, y => by cases y <;> simp [Block.erase, Block.eqv]
  | .defs xs, y => by
    cases y <;> simp [Block.erase, Block.eqv]
    rw [vec_erase (f := fun x : Located TermDefs => ⟨x.inner.erase, .zero⟩)]
    intro x y
    simp [locEq, termDefs_erase]
  | .divider, y => by cases y <;> simp [Block.erase, Block.eqv]
  | .header c _ _, y => by cases y <;> simp [Block.erase, Block.eqv, inlines_erase]
  | .list xs, .list ys => by simp only [Block.erase, Block.eqv, items_erase xs ys]
  | .list xs, .blockquote _ => by simp [Block.erase, Block.eqv]
  | .list xs, .code _ _ _ => by simp [Block.erase, Block.eqv]
  | .list xs, .defs _ => by simp [Block.erase, Block.eqv]
  | .list xs, .divider => by simp [Block.erase, Block.eqv]
  | .list xs, .header _ _ _ => by simp [Block.erase, Block.eqv]
  | .list xs, .math _ _ => by simp [Block.erase, Block.eqv]
  | .list xs, .paragraph _ => by simp [Block.erase, Block.eqv]
  | .list xs, .placeholder _ => by simp [Block.erase, Block.eqv]
  | .list xs, .table _ => by simp [Block.erase, Block.eqv]
  | .math _ _, y => by cases y <;> simp [Block.erase, Block.eqv]
  | .paragraph rs, y => by
    cases y <;> simp [Block.erase, Block.eqv]
    exact vec_erase inlines_erase _ _
  | .placeholder _, y => by cases y <;> simp [Block.erase, Block.eqv]
  | .table t, y => by cases y <;> simp [Block.erase, Block.eqv, table_erase]
theorem items_erase : ∀ xs ys : List (Located (ItemF Block)),
    Block.eqvItems false ue (Block.eraseItems xs) (Block.eraseItems ys) = Block.eqvItems false ue xs ys
  | [], [] => by simp [Block.eraseItems, Block.eqvItems]
  | [], ⟨⟨_, _, _, _, _⟩, _⟩ :: _ => by simp [Block.eraseItems, Block.eqvItems]
  | ⟨⟨_, _, _, _, _⟩, _⟩ :: _, [] => by simp [Block.eraseItems, Block.eqvItems]
  | ⟨⟨_, _, _, cs, _⟩, _⟩ :: xs, ⟨⟨_, _, _, cs', _⟩, _⟩ :: ys => by
    simp [Block.eraseItems, Block.eqvItems, blocks_erase cs cs', items_erase xs ys]
theorem blocks_erase : ∀ xs ys : List (Located Block),
    Block.eqvs false ue (Block.erases xs) (Block.erases ys) = Block.eqvs false ue xs ys
  | [], [] => by simp [Block.erases, Block.eqvs]
  | [], ⟨_, _⟩ :: _ => by simp [Block.erases, Block.eqvs]
  | ⟨_, _⟩ :: _, [] => by simp [Block.erases, Block.eqvs]
  | ⟨x, _⟩ :: xs, ⟨y, _⟩ :: ys => by
    simp [Block.erases, Block.eqvs, block_erase x y, blocks_erase xs ys]
end

/-! ## `strict_eq` compares all regions -/

mutual
theorem inline_regions : ∀ x y : Inline, x.eqv true ue y = true → x.regions = y.regions
  | .decorated _ xs, .decorated _ ys => by
    simp only [Inline.eqv, Bool.and_eq_true, Inline.regions]
    exact fun ⟨_, h2⟩ => inlines_regions xs ys h2
  | .decorated _ _, .text _ => by simp [Inline.eqv]
  | .decorated _ _, .keyword _ => by simp [Inline.eqv]
  | .decorated _ _, .link _ => by simp [Inline.eqv]
  | .decorated _ _, .tags _ => by simp [Inline.eqv]
  | .decorated _ _, .code _ => by simp [Inline.eqv]
  | .decorated _ _, .math _ => by simp [Inline.eqv]
  | .decorated _ _, .comment _ => by simp [Inline.eqv]
  | .text _, y => by cases y <;> simp [Inline.eqv, Inline.regions]
  | .keyword _, y => by cases y <;> simp [Inline.eqv, Inline.regions]
  | .link _, y => by cases y <;> simp [Inline.eqv, Inline.regions]
  | .tags _, y => by cases y <;> simp [Inline.eqv, Inline.regions]
  | .code _, y => by cases y <;> simp [Inline.eqv, Inline.regions]
  | .math _, y => by cases y <;> simp [Inline.eqv, Inline.regions]
  | .comment _, y => by cases y <;> simp [Inline.eqv, Inline.regions]
theorem inlines_regions : ∀ xs ys : List (Located Inline), Inline.eqvs true ue xs ys = true →
    Inline.regionsAll xs = Inline.regionsAll ys
  | [], [] => by simp
  | [], _ :: _ => by simp [Inline.eqvs]
  | _ :: _, [] => by simp [Inline.eqvs]
  | ⟨x, _⟩ :: xs, ⟨y, _⟩ :: ys => by
    simp only [Inline.eqvs, Bool.and_eq_true, Bool.or_eq_true, decide_eq_true_eq, Inline.regionsAll]
    intro ⟨⟨h1, h2⟩, h3⟩
    rw [inline_regions x y h1, inlines_regions xs ys h3, h2.resolve_left (by simp)]
end

theorem loc_regions {r : α → α → Bool} {f : α → List Region}
    (h : ∀ x y, r x y = true → f x = f y) (x y : Located α) :
    locEq true r x y = true → x.region :: f x.inner = y.region :: f y.inner := by
  simp only [locEq, Bool.and_eq_true, Bool.or_eq_true, decide_eq_true_eq]
  intro ⟨h1, h2⟩
  rw [h _ _ h1, h2.resolve_left (by simp)]

theorem vec_regions {r : α → α → Bool} {f : α → List Region}
    (h : ∀ x y, r x y = true → f x = f y) :
    ∀ xs ys : List α, vecEq r xs ys = true → xs.flatMap f = ys.flatMap f
  | [], [] => by simp
  | [], _ :: _ => by simp [vecEq]
  | _ :: _, [] => by simp [vecEq]
  | x :: xs, y :: ys => by
    simp only [vecEq, Bool.and_eq_true, List.flatMap_cons]
    intro ⟨h1, h2⟩
    rw [h _ _ h1, vec_regions h xs ys h2]

theorem cell_regions (x y : Located Cell) : locEq true (Cell.eqv true ue) x y = true →
    Cell.regions x = Cell.regions y := by
  simp only [locEq, Bool.and_eq_true, Bool.or_eq_true, decide_eq_true_eq]
  intro ⟨h1, h2⟩
  have h2 := h2.resolve_left (by simp)
  obtain ⟨x, r⟩ := x
  obtain ⟨y, r'⟩ := y
  simp only at h2
  subst h2
  cases x <;> cases y <;> simp [Cell.eqv, Cell.regions] at h1 ⊢
  exact inlines_regions _ _ h1

theorem lookupCell_eq (m : List (CellPos × Located Cell)) (k : CellPos) :
    Table.lookupCell m k = lookup m k := by
  induction m with
  | nil => rfl
  | cons e m ih => simp only [Table.lookupCell, lookup, ih]

theorem lookup_none {m : List (κ × υ)} {k : κ} (h : k ∉ m.map (·.1)) : lookup m k = none := by
  cases hl : lookup m k with
  | none => rfl
  | some v => exact absurd (List.mem_map.2 ⟨_, lookup_mem hl, rfl⟩) h

theorem table_regions (t t' : Table) (hv : t.Valid) (h : t.eqv true ue t' = true) (k : CellPos) :
    (t.getCell k.row k.col).map Cell.regions = (t'.getCell k.row k.col).map Cell.regions := by
  simp only [Table.eqv, Bool.and_eq_true] at h
  have h := h.1.2
  have hk := mapEq_keys hv.1 h k
  unfold Table.getCell
  rw [lookupCell_eq, lookupCell_eq]
  by_cases hm : k ∈ t.cells.map (·.1)
  · obtain ⟨⟨k, v⟩, he, rfl⟩ := List.mem_map.1 hm
    obtain ⟨v', h1, h2⟩ := (mapEq_iff.1 h).2 k v he
    simp only
    rw [lookup_of_mem hv.1 he, h1]
    simp only [Option.map_some]
    rw [cell_regions _ _ h2]
  · rw [lookup_none hm, lookup_none (fun h => hm (hk.2 h))]

theorem termDefs_regions (x y : TermDefs) : x.eqv true ue y = true → x.regions = y.regions := by
  simp only [TermDefs.eqv, Bool.and_eq_true, TermDefs.regions]
  intro ⟨h1, h2⟩
  rw [loc_regions inlines_regions _ _ h1, loc_regions (f := fun ds : List (Located Inlines) =>
    ds.flatMap fun d => d.region :: Inline.regionsAll d.inner)
    (vec_regions (loc_regions inlines_regions)) _ _ h2]

mutual
theorem block_regions : ∀ x y : Block, x.Valid → x.eqv true ue y = true → x.regions = y.regions
  | .blockquote _, y, _ => by cases y <;> simp [Block.eqv, Block.regions]
  | .code _ _ _, y, _ => by cases y <;> simp [Block.eqv, Block.regions]
  | .defs xs, y, _ => by
    cases y <;> simp only [Block.eqv, Block.regions, Bool.false_eq_true, false_implies]
    intro h
    rw [vec_regions (f := fun x : Located TermDefs => x.region :: x.inner.regions)
      (loc_regions termDefs_regions) _ _ h]
  | .divider, y, _ => by cases y <;> simp [Block.eqv, Block.regions]
  | .header c _ _, y, _ => by
    cases y <;> simp only [Block.eqv, Block.regions, Bool.false_eq_true, false_implies]
    intro h
    rw [inlines_regions _ _ (Bool.and_eq_true_iff.1 h).2]
  | .list xs, .list ys, hx => by
    simp only [Block.eqv, Block.regions]
    exact items_regions xs ys hx
  | .list xs, .blockquote _, _ => by simp [Block.eqv]
  | .list xs, .code _ _ _, _ => by simp [Block.eqv]
  | .list xs, .defs _, _ => by simp [Block.eqv]
  | .list xs, .divider, _ => by simp [Block.eqv]
  | .list xs, .header _ _ _, _ => by simp [Block.eqv]
  | .list xs, .math _ _, _ => by simp [Block.eqv]
  | .list xs, .paragraph _, _ => by simp [Block.eqv]
  | .list xs, .placeholder _, _ => by simp [Block.eqv]
  | .list xs, .table _, _ => by simp [Block.eqv]
  | .math _ _, y, _ => by cases y <;> simp [Block.eqv, Block.regions]
  | .paragraph rs, y, _ => by
    cases y <;> simp only [Block.eqv, Block.regions, Bool.false_eq_true, false_implies]
    intro h
    rw [vec_regions inlines_regions _ _ h]
  | .placeholder _, y, _ => by cases y <;> simp [Block.eqv, Block.regions]
  | .table t, y, hx => by
    cases y <;> simp only [Block.eqv, Block.regions, Bool.false_eq_true, false_implies]
    intro h
    congr 2
    exact funext fun k => table_regions _ _ hx h k
theorem items_regions : ∀ xs ys : List (Located (ItemF Block)), Block.ValidItems xs →
    Block.eqvItems true ue xs ys = true → Block.regionsItems xs = Block.regionsItems ys
  | [], [], _ => by simp
  | [], _ :: _, _ => by simp [Block.eqvItems]
  | _ :: _, [], _ => by simp [Block.eqvItems]
  | ⟨⟨_, _, _, cs, _⟩, _⟩ :: xs, ⟨⟨_, _, _, cs', _⟩, _⟩ :: ys, hx => by
    simp only [Block.eqvItems, Bool.and_eq_true, Bool.or_eq_true, decide_eq_true_eq,
      Block.regionsItems]
    intro ⟨⟨⟨⟨_, h4⟩, _⟩, h6⟩, h7⟩
    rw [h6.resolve_left (by simp), blocks_regions cs cs' hx.1 h4, items_regions xs ys hx.2 h7]
theorem blocks_regions : ∀ xs ys : List (Located Block), Block.Valids xs →
    Block.eqvs true ue xs ys = true → Block.regionsAll xs = Block.regionsAll ys
  | [], [], _ => by simp
  | [], _ :: _, _ => by simp [Block.eqvs]
  | _ :: _, [], _ => by simp [Block.eqvs]
  | ⟨x, _⟩ :: xs, ⟨y, _⟩ :: ys, hx => by
    simp only [Block.eqvs, Bool.and_eq_true, Bool.or_eq_true, decide_eq_true_eq, Block.regionsAll]
    intro ⟨⟨h1, h2⟩, h3⟩
    rw [h2.resolve_left (by simp), block_regions x y hx.1 h1, blocks_regions xs ys hx.2 h3]
end

end Vw
