import Verif.Model.Hash
import Verif.Lemmas.VwEqual

/-!
# Equal elements feed the same data
-/

namespace Vw

theorem sortedKeys_eq {m m' : Map} (hd : DistinctKeys m) (hd' : DistinctKeys m')
    (h : mapEq (fun x y => decide (x = y)) m m' = true) : sortedKeys m = sortedKeys m' := by
  unfold sortedKeys
  have hp := (mapEq_perm hd hd' h).map (·.1)
  have ht : ∀ a b c : Str, decide (a ≤ b) = true → decide (b ≤ c) = true → decide (a ≤ c) = true := by
    intro a b c h1 h2
    simp only [decide_eq_true_eq] at *
    exact List.le_trans h1 h2
  have htot : ∀ a b : Str, (decide (a ≤ b) || decide (b ≤ a)) = true := by
    intro a b
    simp only [Bool.or_eq_true, decide_eq_true_eq]
    exact List.le_total ..
  refine List.Perm.eq_of_pairwise ?_ (List.pairwise_mergeSort ht htot _) (List.pairwise_mergeSort ht htot _)
    ((List.mergeSort_perm _ _).trans (hp.trans (List.mergeSort_perm _ _).symm))
  intro a b _ _ h1 h2
  simp only [decide_eq_true_eq] at h1 h2
  exact List.le_antisymm h1 h2

theorem feedProps_eq {p p' : Option Map} (hp : PropsValid p) (hp' : PropsValid p') (h : propsEq p p' = true) :
    feedProps p = feedProps p' := by
  cases p with
  | none => cases p' with
    | none => rfl
    | some m' => simp [propsEq, optEq] at h
  | some m => cases p' with
    | none => simp [propsEq, optEq] at h
    | some m' => simp only [feedProps, sortedKeys_eq (hp m rfl) (hp' m' rfl) (by simpa [propsEq, optEq] using h)]

section
variable {uh : Uri → List Fed} {ue : Uri → Uri → Bool} (hu : ∀ u v, ue u v = true → uh u = uh v)
include hu

theorem description_feed : ∀ d d' : Description, d.Valid → d'.Valid → d.eqv ue d' = true → d.feed uh = d'.feed uh
  | .text s, .text t, _, _, h => by
    simp only [Description.eqv, decide_eq_true_eq] at h; rw [h]
  | .transclusion u none p, .transclusion u' none p', h1, h2, h => by
    simp only [Description.eqv, Bool.and_eq_true] at h
    simp only [Description.feed, hu _ _ h.1, feedProps_eq h1 h2 h.2]
  | .transclusion u (some d) p, .transclusion u' (some d') p', h1, h2, h => by
    simp only [Description.eqv, Bool.and_eq_true] at h
    simp only [Description.feed, hu _ _ h.1.1, feedProps_eq h1.2 h2.2 h.2, description_feed d d' h1.1 h2.1 h.1.2]
  | .text s, .transclusion .., _, _, h => by simp [Description.eqv] at h
  | .transclusion _ none _, .text .., _, _, h => by simp [Description.eqv] at h
  | .transclusion _ (some _) _, .text .., _, _, h => by simp [Description.eqv] at h
  | .transclusion _ none _, .transclusion _ (some _) _, _, _, h => by simp [Description.eqv] at h
  | .transclusion _ (some _) _, .transclusion _ none _, _, _, h => by simp [Description.eqv] at h

theorem linkData_feed {d d' : LinkData} (hd : d.Valid) (hd' : d'.Valid) (h : d.eqv ue d' = true) :
    d.feed uh = d'.feed uh := by
  simp only [LinkData.eqv, Bool.and_eq_true] at h
  obtain ⟨⟨h1, h2⟩, h3⟩ := h
  simp only [LinkData.feed, hu _ _ h1, feedProps_eq hd.2 hd'.2 h3]
  cases e : d.desc with
  | none => cases e' : d'.desc with
    | none => rfl
    | some _ => simp [optEq, e, e'] at h2
  | some x => cases e' : d'.desc with
    | none => simp [optEq, e, e'] at h2
    | some y =>
      simp only [feedOption, description_feed hu x y (hd.1 x e) (hd'.1 y e') (by simpa [optEq, e, e'] using h2)]

theorem link_feed {l l' : Link} (hl : l.Valid) (hl' : l'.Valid) (h : l.eqv ue l' = true) : l.feed uh = l'.feed uh := by
  cases l <;> cases l' <;> simp only [Link.eqv, Bool.and_eq_true, decide_eq_true_eq, Bool.false_eq_true] at h <;>
    simp only [Link.feed]
  · rw [linkData_feed hu hl hl' h]
  · rw [h.1, linkData_feed hu hl hl' h.2]
  · rw [h.1, linkData_feed hu hl hl' h.2]
  · rw [h.1, linkData_feed hu hl hl' h.2]
  · rw [linkData_feed hu hl hl' h]
  · rw [linkData_feed hu hl hl' h]

mutual
theorem inline_feed : ∀ x y : Inline, x.Valid → y.Valid → x.eqv false ue y = true → x.feed uh = y.feed uh
  | .text _, y, _, _, h => by cases y <;> simp [Inline.eqv] at h; rw [h]
  | .decorated k xs, y, hx, hy, h => by
    cases y with
    | decorated k' ys =>
      simp only [Inline.eqv, Bool.and_eq_true, decide_eq_true_eq] at h
      obtain ⟨h1, h2⟩ := inlines_feed xs ys hx hy h.2
      simp only [Inline.feed, h.1, h1, h2]
    | _ => simp [Inline.eqv] at h
  | .keyword _, y, _, _, h => by cases y <;> simp [Inline.eqv] at h; rw [h]
  | .link l, y, hx, hy, h => by
    cases y with
    | link l' => simp only [Inline.feed, link_feed hu hx hy (by simpa [Inline.eqv] using h)]
    | _ => simp [Inline.eqv] at h
  | .tags _, y, _, _, h => by cases y <;> simp [Inline.eqv] at h; rw [h]
  | .code _, y, _, _, h => by cases y <;> simp [Inline.eqv] at h; rw [h]
  | .math _, y, _, _, h => by cases y <;> simp [Inline.eqv] at h; rw [h]
  | .comment _, y, _, _, h => by cases y <;> simp [Inline.eqv] at h; rw [h]
theorem inlines_feed : ∀ xs ys : List (Located Inline), Inline.Valids xs → Inline.Valids ys →
    Inline.eqvs false ue xs ys = true → xs.length = ys.length ∧ Inline.feeds uh xs = Inline.feeds uh ys
  | [], [], _, _, _ => ⟨rfl, rfl⟩
  | [], _ :: _, _, _, h => by simp [Inline.eqvs] at h
  | _ :: _, [], _, _, h => by simp [Inline.eqvs] at h
  | ⟨x, _⟩ :: xs, ⟨y, _⟩ :: ys, hx, hy, h => by
    simp only [Inline.eqvs, Bool.not_false, Bool.true_or, Bool.and_true, Bool.and_eq_true] at h
    obtain ⟨h1, h2⟩ := inlines_feed xs ys hx.2 hy.2 h.2
    exact ⟨by simp [h1], by simp only [Inline.feeds, inline_feed x y hx.1 hy.1 h.1, h2]⟩
end

theorem container_feed {xs ys : Inlines} (hx : Inline.Valids xs) (hy : Inline.Valids ys)
    (h : Inline.eqvs false ue xs ys = true) : feedInlines uh xs = feedInlines uh ys := by
  obtain ⟨h1, h2⟩ := inlines_feed hu xs ys hx hy h
  rw [feedInlines, feedInlines, h1, h2]

theorem cell_feed {x y : Cell} (hx : x.Valid) (hy : y.Valid) (h : x.eqv false ue y = true) : x.feed uh = y.feed uh := by
  cases x with
  | content c =>
    cases y with
    | content c' => simp only [Cell.feed, container_feed hu hx hy (by simpa [Cell.eqv] using h)]
    | _ => simp [Cell.eqv] at h
  | span s => cases y <;> simp [Cell.eqv] at h; rw [h]
  | align s => cases y <;> simp [Cell.eqv] at h; rw [h]

theorem block_feed {L : OutLib} {x y : Block} (hx : x.Valid) (hy : y.Valid) (h : x.eq L ue y = true) :
    x.feed uh = y.feed uh := by
  cases x <;> cases y <;> simp only [Block.eq, Block.eqv, Bool.false_eq_true, Bool.and_eq_true, decide_eq_true_eq] at h
  case blockquote => rw [h]
  case header => simp only [Block.feed, container_feed hu hx hy h.2, h.1.1, h.1.2]
  case math => rw [h.1, h.2]
  case placeholder => rw [h]
  all_goals rfl
end

theorem bundle_feed {L : OutLib} : ∀ {xs ys : List (Located Inlines)},
    vecEq (locEq false (valueEq L)) xs ys = true → feedBundle L xs = feedBundle L ys := by
  intro xs ys h
  have : xs.length = ys.length ∧ xs.flatMap (fun d => feedValue L d.inner) = ys.flatMap (fun d => feedValue L d.inner) := by
    induction xs generalizing ys with
    | nil => cases ys <;> simp [vecEq] at h ⊢
    | cons x xs ih =>
      cases ys with
      | nil => simp [vecEq] at h
      | cons y ys =>
        simp only [vecEq, locEq, valueEq, Bool.not_false, Bool.true_or, Bool.and_true, Bool.and_eq_true,
          decide_eq_true_eq] at h
        obtain ⟨h1, h2⟩ := ih h.2
        exact ⟨by simp [h1], by simp only [List.flatMap_cons, feedValue, h.1]; simp only [feedValue] at h2; rw [h2]⟩
  simp only [feedBundle, feedVec, this.1, this.2]

end Vw
