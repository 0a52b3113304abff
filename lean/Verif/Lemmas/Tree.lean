import Verif.Lemmas.BlocksD
import Verif.Lemmas.Table

/-!
# From the layout facts to element trees
-/

namespace Vw

variable {C : Ctx}

namespace RTree.Nest

theorem mono {d a a' b b' : Nat} {ts : List RTree} (h : Nest d a ts b) (ha : a' ≤ a) (hb : b ≤ b') :
    Nest d a' ts b' := by
  induction h generalizing a' b' with
  | nil h => exact .nil (by omega)
  | cons h1 h2 h3 _ _ ih => exact .cons (by omega) h2 h3 (ih (Nat.le_refl _) hb)

theorem append {d a m b : Nat} {ts us : List RTree} (h : Nest d a ts m) (h' : Nest d m us b) :
    Nest d a (ts ++ us) b := by
  induction ts generalizing a with
  | nil => cases h with | nil h => exact h'.mono h (Nat.le_refl _)
  | cons t ts ih =>
    cases h with
    | cons h1 h2 h3 h4 => exact .cons h1 h2 h3 (ih h4)

theorem le {d a b : Nat} {ts : List RTree} (h : Nest d a ts b) : a ≤ b := by
  induction h with
  | nil h => exact h
  | cons h1 h2 _ _ _ ih => omega

theorem nestB {d a b : Nat} {ts : List RTree} (h : Nest d a ts b) : RTree.nestB d a b ts = true := by
  induction h with
  | nil h => simp [RTree.nestB, h]
  | cons h1 h2 _ h4 ih1 ih2 =>
    have := h4.le
    simp only [RTree.nestB, RTree.nest1, RTree.region, ih1, ih2]
    simp [h1, h2, this]

end RTree.Nest

open RTree (Nest)

theorem Tile.nest {d a b : Nat} {xs : Inlines} (h : Tile C d a xs b) :
    Nest d a (Inline.trees xs) b := by
  induction h with
  | nil => exact .nil (Nat.le_refl _)
  | @leaf d a n x xs b hn _ _ _ hp _ _ _ ih =>
    have : Inline.tree ⟨a, n, d⟩ x = .node ⟨a, n, d⟩ [] := by
      cases x with
      | decorated => exact hp.elim
      | _ => rfl
    simp only [Inline.trees, this]
    exact .cons (Nat.le_refl _) hn (.nil (by omega)) ih
  | deco hn _ _ _ _ _ he _ _ _ ih1 ih2 =>
    simp only [Inline.trees, Inline.tree]
    exact .cons (Nat.le_refl _) hn (ih1.mono (by omega) (by omega)) ih2

theorem Rows.nest {d a b : Nat} {rows : List Inlines} (h : Rows C d a rows b) :
    Nest d a (rows.flatMap Inline.trees) b := by
  induction h with
  | nil h => exact .nil h.le
  | cons h1 h2 _ _ ih => exact (h2.nest.mono h1.le (Nat.le_refl _)).append ih

theorem LocRow.nest {d a b : Nat} {x : Located Inlines} (h : LocRow C d a x b) :
    Nest d a [x.rowTree] b := by
  obtain ⟨x, o, n, d'⟩ := x
  obtain ⟨h1, h2, h3, h4, _, i, j, h6, h7, h8⟩ := h
  simp only at h1 h2 h3 h4 h6 h7 h8
  subst h4
  exact .cons h1.le h2 (h7.nest.mono h6.le h8.le) (.nil h3.le)

theorem LocRows.nest {d a b : Nat} {xs : List (Located Inlines)} (h : LocRows C d a xs b) :
    Nest d a (xs.map Located.rowTree) b := by
  induction h with
  | nil h => exact .nil h.le
  | cons h1 _ ih => exact h1.nest.append ih

theorem DefsAt.nest {d a b : Nat} {xs : List (Located TermDefs)} (h : DefsAt C d a xs b) :
    Nest d a (xs.flatMap (TermDefs.trees false)) b := by
  induction h with
  | nil h => exact .nil h.le
  | cons h1 _ _ _ _ _ _ ih => exact h1.nest.append ih

theorem CellAt.nest {d a b : Nat} {x : Located Cell} (h : CellAt C d a x b) :
    Nest d a [x.inner.tree x.region] b := by
  obtain ⟨x, o, n, d'⟩ := x
  obtain ⟨h1, h2, h3, h4, h5⟩ := h
  simp only at h1 h2 h3 h4 h5
  subst h4
  cases x with
  | content c =>
    obtain ⟨_, h6⟩ := h5 c rfl
    exact .cons h1 h2 h6.nest (.nil h3)
  | span s => exact .cons h1 h2 (.nil (by omega)) (.nil h3)
  | align s => exact .cons h1 h2 (.nil (by omega)) (.nil h3)

theorem CellsAt.nest {d a b : Nat} {xs : List (Located Cell)} (h : CellsAt C d a xs b) :
    Nest d a (xs.map fun c => c.inner.tree c.region) b := by
  induction h with
  | nil h => exact .nil h
  | cons h1 _ ih => exact h1.nest.append ih

theorem CellRows.nest {d a b : Nat} {rows : List (List (Located Cell))} (h : CellRows C d a rows b) :
    Nest d a (rows.flatten.map fun c => c.inner.tree c.region) b := by
  induction h with
  | nil h => exact .nil h
  | cons h1 _ _ ih =>
    rw [List.flatten_cons, List.map_append]
    exact h1.nest.append ih

theorem CellRows.ne {d a b : Nat} {rows : List (List (Located Cell))} (h : CellRows C d a rows b) :
    ∀ row ∈ rows, row ≠ [] := by
  induction h with
  | nil h => simp
  | cons _ h2 _ ih =>
    intro row hr
    rcases List.mem_cons.1 hr with rfl | hr
    · exact h2
    · exact ih row hr

mutual
theorem BlockAt.nest {d a b : Nat} {x : Block} (h : BlockAt C d a b x) (hab : a ≤ b)
    (r : Region) : ∃ cs, x.tree false r = .node r cs ∧ Nest (d + 1) a cs b := by
  cases h with
  | blockquote => exact ⟨_, by rw [Block.tree], .nil hab⟩
  | code => exact ⟨_, by rw [Block.tree], .nil hab⟩
  | defs _ h => exact ⟨_, by rw [Block.tree], h.nest⟩
  | divider => exact ⟨_, by rw [Block.tree], .nil hab⟩
  | header _ _ h1 h2 h3 _ => exact ⟨_, by rw [Block.tree], h2.nest.mono h1.le h3.le⟩
  | math => exact ⟨_, by rw [Block.tree], .nil hab⟩
  | paragraph h _ => exact ⟨_, by rw [Block.tree], h.nest⟩
  | title => exact ⟨_, by rw [Block.tree], .nil hab⟩
  | noHtml => exact ⟨_, by rw [Block.tree], .nil hab⟩
  | template => exact ⟨_, by rw [Block.tree], .nil hab⟩
  | date => exact ⟨_, by rw [Block.tree], .nil hab⟩
  | other => exact ⟨_, by rw [Block.tree], .nil hab⟩
  | table h _ =>
    refine ⟨_, by rw [Block.tree], ?_⟩
    rw [Table.allCells_new h.ne]
    exact h.nest
  | list _ _ h => exact ⟨_, by rw [Block.tree], h.nest⟩
theorem ItemsAt.nest {d a b : Nat} {xs : List (Located ListItem)} (h : ItemsAt C d a xs b) :
    Nest d a (Block.itemTrees false xs) b := by
  cases h with
  | nil h => rw [Block.itemTrees]; exact .nil h.le
  | @cons _ _ o n x xs _ _ _ o' h1 h2 _ p1 _ _ h4 h5 =>
    obtain ⟨t1, t2, t3, cs, t5⟩ := x
    rw [Block.itemTrees]
    exact .cons h1.le h2 (h4.nest.mono p1 (Nat.le_refl _)) h5.nest
theorem BlocksAt.nest {d a b : Nat} {xs : List (Located Block)} (h : BlocksAt C d a xs b) :
    Nest d a (Block.trees false xs) b := by
  cases h with
  | nil h => rw [Block.trees]; exact .nil h.le
  | @cons _ _ o n x xs _ h1 h2 h3 h4 =>
    rw [Block.trees]
    obtain ⟨cs, hcs, hn⟩ := h3.nest (by omega) ⟨o, n, d⟩
    rw [hcs]
    exact .cons h1.le h2 hn h4.nest
end

/-! ## Bounds of all regions -/

/-- All regions of the trees are between `a` and `b`. -/
def Within (a b : Nat) (ts : List RTree) : Prop :=
  ∀ r ∈ RTree.regionsList ts, a ≤ r.offset ∧ r.offset + r.len ≤ b

theorem Within.nil {a b : Nat} : Within a b [] := by
  intro r h; simp [RTree.regionsList] at h

theorem Within.cons {a b : Nat} {r : Region} {cs ts : List RTree} (h1 : a ≤ r.offset)
    (h2 : r.offset + r.len ≤ b) (h3 : Within a b cs) (h4 : Within a b ts) :
    Within a b (.node r cs :: ts) := by
  intro q hq
  simp only [RTree.regionsList, RTree.regions, List.mem_append, List.mem_cons] at hq
  rcases hq with (rfl | hq) | hq
  · exact ⟨h1, h2⟩
  · exact h3 q hq
  · exact h4 q hq

theorem Within.mono {a b a' b' : Nat} {ts : List RTree} (h : Within a b ts) (ha : a' ≤ a)
    (hb : b ≤ b') : Within a' b' ts := by
  intro r hr
  have := h r hr
  omega

theorem Within.append {a b : Nat} {ts us : List RTree} (h : Within a b ts) (h' : Within a b us) :
    Within a b (ts ++ us) := by
  induction ts with
  | nil => exact h'
  | cons t ts ih =>
    intro r hr
    simp only [List.cons_append, RTree.regionsList, List.mem_append] at hr
    rcases hr with hr | hr
    · exact h r (by simp [RTree.regionsList, hr])
    · exact ih (fun q hq => h q (by simp [RTree.regionsList, hq])) r hr

theorem RTree.Nest.within {d a b : Nat} {ts : List RTree} (h : Nest d a ts b) : Within a b ts := by
  induction h with
  | nil _ => exact .nil
  | cons h1 _ _ h4 ih1 ih2 =>
    have := h4.le
    exact .cons h1 this (ih1.mono h1 this) (ih2.mono (by omega) (Nat.le_refl _))

theorem LocRows.le {d a b : Nat} {xs : List (Located Inlines)} (h : LocRows C d a xs b) : a ≤ b :=
  h.nest.le

theorem DefsAt.le {d a b : Nat} {xs : List (Located TermDefs)} (h : DefsAt C d a xs b) : a ≤ b :=
  h.nest.le

theorem DefsAt.within {d a b : Nat} {xs : List (Located TermDefs)} (h : DefsAt C d a xs b) :
    Within a b (xs.flatMap (TermDefs.trees true)) := by
  induction h with
  | nil _ => exact .nil
  | @cons a td r m xs b h1 _ h3 h4 h5 h6 h7 ih =>
    have hm := h7.le
    have ha := h1.le
    have hw := h1.nest.within
    refine Within.append ?_ (ih.mono ha (Nat.le_refl _))
    have hterm : Within a b [td.term.rowTree] := by
      refine Within.mono (a := a) (b := m) ?_ (Nat.le_refl _) hm
      intro q hq
      refine hw q ?_
      simp only [List.map_cons, RTree.regionsList, List.append_nil, List.mem_append] at hq ⊢
      exact .inl hq
    have hdefs : Within a b (td.defs.inner.map Located.rowTree) := by
      refine Within.mono (a := a) (b := m) ?_ (Nat.le_refl _) hm
      intro q hq
      refine hw q ?_
      simp only [List.map_cons, RTree.regionsList, List.mem_append]
      exact .inr hq
    show Within a b [.node r ([td.term.rowTree] ++ [.node td.defs.region (td.defs.inner.map Located.rowTree)])]
    refine .cons h3 (by omega) (.append hterm (.cons h5 (by omega) hdefs .nil)) .nil

theorem BlocksAt.le {d a b : Nat} {xs : List (Located Block)} (h : BlocksAt C d a xs b) : a ≤ b :=
  h.nest.le

theorem ItemsAt.le {d a b : Nat} {xs : List (Located ListItem)} (h : ItemsAt C d a xs b) : a ≤ b :=
  h.nest.le

mutual
theorem BlockAt.within {d a b : Nat} {x : Block} (h : BlockAt C d a b x) (r : Region) :
    ∃ cs, x.tree true r = .node r cs ∧ Within a b cs := by
  cases h with
  | blockquote => exact ⟨_, by rw [Block.tree], .nil⟩
  | code => exact ⟨_, by rw [Block.tree], .nil⟩
  | defs _ h => exact ⟨_, by rw [Block.tree], h.within⟩
  | divider => exact ⟨_, by rw [Block.tree], .nil⟩
  | header _ _ h1 h2 h3 _ => exact ⟨_, by rw [Block.tree], (h2.nest.mono h1.le h3.le).within⟩
  | math => exact ⟨_, by rw [Block.tree], .nil⟩
  | paragraph h _ => exact ⟨_, by rw [Block.tree], h.nest.within⟩
  | title => exact ⟨_, by rw [Block.tree], .nil⟩
  | noHtml => exact ⟨_, by rw [Block.tree], .nil⟩
  | template => exact ⟨_, by rw [Block.tree], .nil⟩
  | date => exact ⟨_, by rw [Block.tree], .nil⟩
  | other => exact ⟨_, by rw [Block.tree], .nil⟩
  | table h _ =>
    refine ⟨_, by rw [Block.tree], ?_⟩
    rw [Table.allCells_new h.ne]
    exact h.nest.within
  | list _ _ h => exact ⟨_, by rw [Block.tree], h.within⟩
theorem ItemsAt.within {d a b : Nat} {xs : List (Located ListItem)} (h : ItemsAt C d a xs b) :
    Within a b (Block.itemTrees true xs) := by
  cases h with
  | nil h => rw [Block.itemTrees]; exact .nil
  | @cons _ _ o n x xs _ _ _ o' h1 h2 _ p1 _ _ h4 h5 =>
    obtain ⟨t1, t2, t3, cs, t5⟩ := x
    rw [Block.itemTrees]
    have := h5.le
    have h1 := h1.le
    exact .cons h1 this (h4.within.mono (Nat.le_trans h1 p1) this) (h5.within.mono (by omega) (Nat.le_refl _))
theorem BlocksAt.within {d a b : Nat} {xs : List (Located Block)} (h : BlocksAt C d a xs b) :
    Within a b (Block.trees true xs) := by
  cases h with
  | nil h => rw [Block.trees]; exact .nil
  | @cons _ _ o n x xs _ h1 h2 h3 h4 =>
    rw [Block.trees]
    have := h4.le
    obtain ⟨cs, hcs, hn⟩ := h3.within ⟨o, n, d⟩
    rw [hcs]
    have h1 := h1.le
    exact .cons h1 this (hn.mono h1 this) (h4.within.mono (by omega) (Nat.le_refl _))
end

/-! ## Pages -/

/-- The context of parsing a whole text. -/
def Ctx.ofText (env : Env) (text : Str) : Ctx := ⟨env, text, text.length + 2⟩

theorem Ctx.ofText_in (env : Env) (text : Str) :
    (Ctx.ofText env text).In 2 (Span.ofStr text) := by
  refine ⟨⟨rfl, Nat.zero_le _, Nat.le_refl _, ?_⟩, fun h => h.zero, ?_⟩
  · show 0 + (text.length - 0) + 2 ≤ text.length + 2
    omega
  · intro _ b hb
    have : text[text.length]? = some b := hb
    simp at this

theorem PageAt.blocksAt {s s' : Span} {es : List (Option (Located Block))} (h : PageAt C s es s') :
    BlocksAt C s.depth s.start (es.filterMap id) s'.start := by
  induction h with
  | nil => exact .nil .refl
  | blank h1 _ ih =>
    rw [h1.good.step.depth] at ih
    obtain ⟨m, m1, m2, m3⟩ := h1.blank
    exact ih.mono ((m2.gap m1).trans m3.gap)
  | block _ _ h1 _ _ _ ih =>
    rw [h1.good.step.depth] at ih
    exact h1.cons .refl ih

theorem parsePage_ok (env : Env) (text : Str) :
    (Ctx.ofText env text).Ok (parsePage env text) (fun s' pg => s'.start = text.length ∧
      ∃ es, pg.elements = es.filterMap id ∧ PageAt (Ctx.ofText env text) (Span.ofStr text) es s') := by
  unfold parsePage
  have h := page_ok (Ctx.ofText_in env text) (.inr (.inl rfl))
  refine Ctx.Ok.mono h ?_
  rintro s' pg ⟨h1, h2, h3⟩
  refine ⟨?_, h3⟩
  rw [h1, h2.stop]
  rfl

theorem parsePage_ne_err (env : Env) (text : Str) : parsePage env text ≠ .err := by
  unfold parsePage
  have h := page_ne_err (Ctx.ofText_in env text) (.inr (.inl rfl))
  exact h

theorem parsePage_blocksAt {env : Env} {text : Str} {s' : Span} {pg : Page}
    (h : parsePage env text = .ok s' pg) :
    BlocksAt (Ctx.ofText env text) 0 0 pg.elements text.length := by
  obtain ⟨h1, es, h2, h3⟩ := ok_of_run (parsePage_ok env text) h
  rw [h2, ← h1]
  exact h3.blocksAt

end Vw
