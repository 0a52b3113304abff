import Verif.Lemmas.Children
import Verif.Props.RoundTrip

/-!
# Walking through the children of elements (C73)
-/

namespace Vw

set_option maxRecDepth 20000

/-! ## C73 -/

/-- C73, one walk: asking every element of a parsed page for its children ends and visits every
element of the page, none of them twice. -/
theorem C73_walk (env : Env) (text : Str) {s : Span} {pg : Page} (h : parsePage env text = .ok s pg) :
    ∃ ys, Walk pg.children ys ∧ (∀ zs, Walk pg.children zs → zs = ys) ∧ ys.Perm pg.elems ∧
      (ys.map (·.region)).Nodup := by
  obtain ⟨ys, h1, h2⟩ := Block.walks pg.elements (C65_well_formed env text h)
  refine ⟨ys, h1, fun zs hz => hz.unique h1, h2, ?_⟩
  refine (h2.map _).nodup_iff.2 ?_
  exact ((parsePage_blocksAt h).nest.nodup).sublist (Block.elemsAll_regions pg.elements)

/-- C73, where children are: in their parent, one level deeper, or two levels in a table, where the
cells are left out. -/
theorem C73_children_partial (env : Env) (text : Str) {s : Span} {pg : Page} (h : parsePage env text = .ok s pg)
    {ys : List (Located Element)} (hw : Walk pg.children ys) {x : Located Element} (hx : x ∈ ys) :
    0 < x.region.len ∧ x.region.offset + x.region.len ≤ text.length ∧
    (∀ c ∈ x.inner.children, c ∈ ys ∧ c.Inside x ∧
      ((¬ x.inner.IsTable ∧ c.region.depth = x.region.depth + 1) ∨
        (x.inner.IsTable ∧ c.region.depth = x.region.depth + 2))) ∧
    (¬ x.inner.IsTable → x.inner.children.Pairwise Located.Before) := by
  have hn := (parsePage_blocksAt h).nest
  have hroot : ∀ y ∈ pg.children, Element.Laid y ∧ y.inner.WF := by
    intro y hy
    rw [Block.trees_map] at hn
    refine ⟨(Element.laid_of_mem hn hy).1, ?_⟩
    obtain ⟨b, hb, rfl⟩ := List.mem_map.1 hy
    exact Block.WFs_mem (C65_well_formed env text h) hb
  have hx' := hw.all hroot x hx
  refine ⟨hx'.1.1, ?_, ?_, ?_⟩
  · have : x.region ∈ RTree.regionsList (pg.trees false) := by
      obtain ⟨zs, h1, h2⟩ := Block.walks pg.elements (C65_well_formed env text h)
      have he := hw.unique h1
      subst he
      exact (Block.elemsAll_regions pg.elements).subset
        ((h2.map (·.region)).mem_iff.1 (List.mem_map_of_mem (f := (·.region)) hx))
    exact (RTree.mem_regions_within hn _ this).2.2.1
  · intro c hc
    have := Element.laid_children hx'.1 hx'.2 c hc
    exact ⟨hw.closed hx c hc, this.2⟩
  · intro ht
    have h2 := hx'.1.2
    rw [Element.tree_children _ ht] at h2
    exact Element.before_of_nest h2

/-- The sample of C01 has 24 elements that a walk visits, 6 of them at the top. -/
example : ∃ s pg, parsePage demo sample = .ok s pg ∧ pg.elems.length = 24 ∧
    pg.children.length = 6 := page_test _ (by decide +kernel)

/-- The offsets of the children of a table that is a page of its own. -/
def kidOffsets (pg : Page) : List Nat :=
  match pg.elements with
  | [⟨.table t, _⟩] => (Block.children (.table t)).map (·.region.offset)
  | _ => []

/-- C73, the order in a table: a table hands out the contents of its cells in the order of a hash
map, so its children need not be in source order. -/
theorem C73_table_order_violated : ∃ s pg t r, parsePage demo b!"|a|b|" = .ok s pg ∧
    pg.elements = [⟨.table t, r⟩] ∧ ∃ cells, cells.Perm t.cells ∧
      ¬ (Block.children (.table { t with cells := cells })).Pairwise Located.Before := by
  obtain ⟨s, pg, h, hp⟩ := page_test (text := b!"|a|b|") (fun pg => kidOffsets pg = [3, 1])
    (by decide +kernel)
  unfold kidOffsets at hp
  split at hp
  · next t r he =>
    refine ⟨s, pg, t, r, h, he, t.cells, .refl _, fun hb => ?_⟩
    have hb : (Block.children (.table t)).Pairwise Located.Before := hb
    revert hp hb
    cases Block.children (.table t) with
    | nil => intro hp; simp at hp
    | cons x l =>
      cases l with
      | nil => intro hp; simp at hp
      | cons y l =>
        intro hp hb
        simp only [List.map_cons, List.cons.injEq] at hp
        have := (List.pairwise_cons.1 hb).1 y (by simp)
        unfold Located.Before at this
        omega
  · cases hp

end Vw
