import Verif.Spec.Children
import Verif.Spec.WellFormed
import Verif.Lemmas.Tree
import Verif.Lemmas.TableIter

/-!
# Walks through a page
-/

namespace Vw

open RTree (Nest)

/-! ## Cells of a table -/

theorem Table.allCells_pos (t : Table) :
    t.allCells = (Table.posRows t.colCnt 0 t.rowCnt).filterMap fun p => t.getCell p.row p.col := by
  unfold Table.allCells Table.posRows
  rw [List.filterMap_flatMap, ← List.range_eq_range', ← List.range_eq_range']
  congr 1
  funext r
  rw [List.filterMap_map]
  rfl

theorem mem_of_lookup {m : List (CellPos × Located Cell)} {p : CellPos} {c : Located Cell}
    (h : Table.lookupCell m p = some c) : (p, c) ∈ m := by
  induction m with
  | nil => cases h
  | cons e m ih =>
    rw [Table.lookupCell] at h
    split at h
    · next hp => cases h; subst hp; simp
    · exact List.mem_cons_of_mem _ (ih h)

theorem lookup_distinct {m : List (CellPos × Located Cell)} (hd : DistinctKeys m) {p : CellPos}
    {c : Located Cell} (h : (p, c) ∈ m) : Table.lookupCell m p = some c := by
  induction m with
  | nil => cases h
  | cons e m ih =>
    unfold DistinctKeys at hd
    rw [List.map_cons, List.nodup_cons] at hd
    rw [Table.lookupCell]
    rcases List.mem_cons.1 h with rfl | h
    · rw [if_pos rfl]
    · rw [if_neg ?_]
      · exact ih hd.2 h
      · intro e'
        exact hd.1 (e' ▸ List.mem_map_of_mem (f := (·.1)) h)

/-- Listing the cells by row and column is listing the map in another order. -/
theorem Table.WF.cells_perm {t : Table} (h : t.WF) : (t.cells.map (·.2)).Perm t.allCells := by
  have hb : ∀ e ∈ t.cells, e.1.row < t.rowCnt ∧ e.1.col < t.colCnt := fun e he =>
    ⟨h.rows.1 _ (List.mem_map_of_mem (f := fun e => e.1.row) he),
      h.cols.1 _ (List.mem_map_of_mem (f := fun e => e.1.col) he)⟩
  have hp : t.cells.Perm ((Table.posRows t.colCnt 0 t.rowCnt).filterMap fun p =>
      (t.getCell p.row p.col).map fun c => (p, c)) := by
    refine (List.perm_ext_iff_of_nodup ?_ ?_).2 ?_
    · have := h.distinct
      unfold DistinctKeys List.Nodup at this
      rw [List.pairwise_map] at this
      exact this.imp fun h e => h (by rw [e])
    · refine List.Pairwise.filterMap _ ?_ (Table.posRows_sorted _ _ _)
      intro a a' haa b hb b' hb' e
      simp only [Option.map_eq_some_iff] at hb hb'
      obtain ⟨c, _, rfl⟩ := hb
      obtain ⟨c', _, rfl⟩ := hb'
      cases e
      exact Table.Before.irrefl haa
    · rintro ⟨p, c⟩
      simp only [List.mem_filterMap, Option.map_eq_some_iff, Prod.mk.injEq]
      constructor
      · intro he
        refine ⟨p, ?_, c, ?_, rfl, rfl⟩
        · rw [Table.mem_posRows]
          have := hb _ he
          simp only at this
          omega
        · exact lookup_distinct h.distinct he
      · rintro ⟨q, _, c', hc, rfl, rfl⟩
        exact mem_of_lookup hc
  have := hp.map (·.2)
  refine this.trans (List.Perm.of_eq ?_)
  rw [Table.allCells_pos, List.map_filterMap]
  congr 1
  funext p
  cases t.getCell p.row p.col <;> rfl

/-! ## Walks -/

theorem Walk.unique {xs ys zs : List (Located Element)} (h : Walk xs ys) (h' : Walk xs zs) : ys = zs := by
  induction h generalizing zs with
  | nil => cases h'; rfl
  | cons _ _ ih1 ih2 =>
    cases h' with
    | cons h1 h2 => rw [ih1 h1, ih2 h2]

theorem Walk.append {xs ys xs' ys' : List (Located Element)} (h : Walk xs ys) (h' : Walk xs' ys') :
    Walk (xs ++ xs') (ys ++ ys') := by
  induction h with
  | nil => exact h'
  | cons h1 _ _ ih =>
    simp only [List.cons_append, List.append_assoc]
    exact .cons h1 ih

theorem Walk.flatMap {α} {f g : α → List (Located Element)} {l : List α}
    (h : ∀ a ∈ l, Walk (f a) (g a)) : Walk (l.flatMap f) (l.flatMap g) := by
  induction l with
  | nil => exact .nil
  | cons a l ih =>
    simp only [List.flatMap_cons]
    exact (h a (by simp)).append (ih fun b hb => h b (by simp [hb]))

theorem Inline.elemsAll_flatMap (xs : List (Located Inline)) :
    Inline.elemsAll xs = xs.flatMap fun x => Inline.elems x.region x.inner := by
  induction xs with
  | nil => rfl
  | cons x xs ih => obtain ⟨x, r⟩ := x; simp only [Inline.elemsAll, List.flatMap_cons, ih]

mutual
theorem Inline.walk (r : Region) (x : Inline) : Walk [⟨.inline x, r⟩] (Inline.elems r x) := by
  have leaf : ∀ i : Inline, i.children = [] → Walk [⟨.inline i, r⟩] [⟨.inline i, r⟩] := by
    intro i hi
    refine Walk.cons (x := ⟨.inline i, r⟩) (ys := []) ?_ .nil
    show Walk (i.children.map _) []
    rw [hi]
    exact .nil
  cases x with
  | decorated k xs =>
    have := Walk.cons (x := ⟨.inline (.decorated k xs), r⟩) (Inline.walks xs) .nil
    rw [List.append_nil] at this
    exact this
  | text => exact leaf _ rfl
  | keyword => exact leaf _ rfl
  | link => exact leaf _ rfl
  | tags => exact leaf _ rfl
  | code => exact leaf _ rfl
  | math => exact leaf _ rfl
  | comment => exact leaf _ rfl
theorem Inline.walks (xs : List (Located Inline)) : Walk (xs.map (·.map .inline)) (Inline.elemsAll xs) := by
  match xs with
  | [] => exact .nil
  | ⟨x, r⟩ :: xs => exact (Inline.walk r x).append (Inline.walks xs)
end

theorem TermDefs.walk (x : TermDefs) : Walk x.children x.elems := by
  unfold TermDefs.children TermDefs.elems
  refine .cons (Inline.walks _) ?_
  induction x.defs.inner with
  | nil => exact .nil
  | cons d ds ih => exact .cons (Inline.walks _) ih

/-- The walk below a table, in the order of the map. -/
theorem Table.walk (t : Table) :
    Walk (t.children.map (·.map .inline)) (Inline.elemsAll t.children) := Inline.walks _

theorem Cell.elems_eq (c : Cell) : c.elems = Inline.elemsAll c.children := by
  cases c <;> simp [Cell.elems, Cell.children, Inline.elemsAll]

theorem Table.WF.all_perm {t : Table} (h : t.WF) :
    (Inline.elemsAll t.children).Perm (t.allCells.flatMap fun c => c.inner.elems) := by
  have : Inline.elemsAll t.children = (t.cells.map (·.2)).flatMap fun c => c.inner.elems := by
    unfold Table.children
    simp only [Inline.elemsAll_flatMap, List.flatMap_assoc, List.flatMap_map, Cell.elems_eq]
  rw [this]
  exact List.Perm.flatMap_right _ h.cells_perm

mutual
theorem Block.walk (r : Region) (x : Block) (h : x.WF) :
    ∃ ys, Walk [⟨.block x, r⟩] ys ∧ ys.Perm (Block.elems r x) := by
  have leaf : ∀ b : Block, b.children = [] → ∃ ys, Walk [⟨.block b, r⟩] ys ∧ ys.Perm [⟨.block b, r⟩] := by
    intro b hb
    refine ⟨[⟨.block b, r⟩], ?_, .refl _⟩
    refine Walk.cons (x := ⟨.block b, r⟩) (ys := []) ?_ .nil
    show Walk b.children []
    rw [hb]
    exact .nil
  have node : ∀ (b : Block) (ys zs : List (Located Element)), Walk b.children ys → ys.Perm zs →
      ∃ ys, Walk [⟨.block b, r⟩] ys ∧ ys.Perm (⟨.block b, r⟩ :: zs) := by
    intro b ys zs hb hp
    refine ⟨⟨.block b, r⟩ :: (ys ++ []), Walk.cons (x := ⟨.block b, r⟩) hb .nil, ?_⟩
    rw [List.append_nil]
    exact hp.cons _
  cases x with
  | blockquote => rw [Block.elems]; exact leaf _ rfl
  | code => rw [Block.elems]; exact leaf _ rfl
  | divider => rw [Block.elems]; exact leaf _ rfl
  | math => rw [Block.elems]; exact leaf _ rfl
  | placeholder => rw [Block.elems]; exact leaf _ rfl
  | header xs n c => rw [Block.elems]; exact node _ _ _ (Inline.walks xs) (.refl _)
  | paragraph rows =>
    rw [Block.elems]
    refine node _ _ _ (Inline.walks (rows.flatMap id)) (.of_eq ?_)
    rw [Inline.elemsAll_flatMap, List.flatMap_assoc]
    congr 1
    funext l
    rw [Inline.elemsAll_flatMap]
    rfl
  | defs xs => rw [Block.elems]; exact node _ _ _ (Walk.flatMap fun x _ => TermDefs.walk x.inner) (.refl _)
  | table t =>
    rw [Block.elems]
    rw [Block.WF] at h
    exact node _ _ _ t.walk h.all_perm
  | list xs =>
    rw [Block.elems]
    rw [Block.WF] at h
    obtain ⟨ys, h1, h2⟩ := Block.walkItems xs h.2
    exact node _ _ _ h1 h2
theorem Block.walkItems (xs : List (Located (ItemF Block))) (h : Block.WFItems xs) :
    ∃ ys, Walk (xs.map (·.map .item)) ys ∧ ys.Perm (Block.elemsItems xs) := by
  match xs with
  | [] => exact ⟨[], .nil, by rw [Block.elemsItems]⟩
  | ⟨⟨ty, sf, n, cs, td⟩, r⟩ :: xs =>
    rw [Block.WFItems] at h
    obtain ⟨ys, h1, h2⟩ := Block.walks cs h.1.2.2
    obtain ⟨zs, h3, h4⟩ := Block.walkItems xs h.2
    refine ⟨_, .cons h1 h3, ?_⟩
    rw [Block.elemsItems]
    exact (h2.append h4).cons _
theorem Block.walks (xs : List (Located Block)) (h : Block.WFs xs) :
    ∃ ys, Walk (xs.map (·.map .block)) ys ∧ ys.Perm (Block.elemsAll xs) := by
  match xs with
  | [] => exact ⟨[], .nil, by rw [Block.elemsAll]⟩
  | ⟨x, r⟩ :: xs =>
    rw [Block.WFs] at h
    obtain ⟨ys, h1, h2⟩ := Block.walk r x h.1
    obtain ⟨zs, h3, h4⟩ := Block.walks xs h.2
    refine ⟨ys ++ zs, h1.append h3, ?_⟩
    rw [Block.elemsAll]
    exact h2.append h4
end

/-! ## Regions -/

/-- The tree of an element. -/
def Element.tree (x : Located Element) : RTree :=
  match x.inner with
  | .block b => b.tree false x.region
  | .inline i => i.tree x.region
  | .item y => .node x.region (Block.trees false y.contents)
  | .term y => .node x.region (Inline.trees y)
  | .definition y => .node x.region (Inline.trees y)

/-- The tables in the element are well-formed. -/
def Element.WF : Element → Prop
  | .block b => b.WF
  | .inline _ => True
  | .item y => Block.WFs y.contents
  | .term _ => True
  | .definition _ => True

theorem Block.tree_node (w : Bool) (b : Block) (r : Region) : ∃ cs, b.tree w r = .node r cs := by
  cases b <;> exact ⟨_, by rw [Block.tree]⟩

theorem Inline.tree_node (i : Inline) (r : Region) : i.tree r = .node r (Inline.trees i.children) := by
  cases i <;> simp [Inline.tree, Inline.children, Inline.trees]

theorem Element.tree_region (x : Located Element) : ∃ cs, Element.tree x = .node x.region cs := by
  obtain ⟨x, r⟩ := x
  cases x with
  | block b => exact b.tree_node false r
  | inline i => exact ⟨_, i.tree_node r⟩
  | item => exact ⟨_, rfl⟩
  | term => exact ⟨_, rfl⟩
  | definition => exact ⟨_, rfl⟩

theorem Inline.trees_map (xs : List (Located Inline)) :
    Inline.trees xs = (xs.map (·.map .inline)).map Element.tree := by
  induction xs with
  | nil => rfl
  | cons x xs ih => obtain ⟨x, r⟩ := x; simp only [Inline.trees, List.map_cons, ih]; rfl

theorem Block.trees_map (xs : List (Located Block)) :
    Block.trees false xs = (xs.map (·.map .block)).map Element.tree := by
  induction xs with
  | nil => rfl
  | cons x xs ih => obtain ⟨x, r⟩ := x; simp only [Block.trees, List.map_cons, ih]; rfl

theorem Block.itemTrees_map (xs : List (Located ListItem)) :
    Block.itemTrees false xs = (xs.map (·.map .item)).map Element.tree := by
  induction xs with
  | nil => rfl
  | cons x xs ih =>
    obtain ⟨⟨a, b, c, d, e⟩, r⟩ := x; simp only [Block.itemTrees, List.map_cons, ih]; rfl

theorem TermDefs.trees_map (x : Located TermDefs) :
    TermDefs.trees false x = x.inner.children.map Element.tree := by
  simp only [TermDefs.trees, Bool.false_eq_true, if_false, List.map_cons, TermDefs.children, List.map_map]
  rfl

/-- Below an element that is no table are the trees of its children. -/
theorem Element.tree_children (x : Located Element) (h : ¬ x.inner.IsTable) :
    Element.tree x = .node x.region (x.inner.children.map Element.tree) := by
  obtain ⟨x, r⟩ := x
  cases x with
  | inline i =>
    show i.tree r = _
    rw [Inline.tree_node, Inline.trees_map]
    rfl
  | item y => show RTree.node r _ = _; rw [Block.trees_map]; rfl
  | term y => show RTree.node r _ = _; rw [Inline.trees_map]; rfl
  | definition y => show RTree.node r _ = _; rw [Inline.trees_map]; rfl
  | block b =>
    show b.tree false r = _
    cases b with
    | table t => exact absurd trivial h
    | header xs n c => rw [Block.tree, Inline.trees_map]; rfl
    | list xs => rw [Block.tree, Block.itemTrees_map]; rfl
    | paragraph rows =>
      rw [Block.tree]
      show _ = RTree.node r (((rows.flatMap id).map (·.map .inline)).map Element.tree)
      congr 1
      induction rows with
      | nil => rfl
      | cons row rows ih =>
        simp only [List.flatMap_cons, id, List.map_append, Inline.trees_map]
        rw [ih fun h => h]
    | defs xs =>
      rw [Block.tree]
      show _ = RTree.node r ((xs.flatMap fun x => x.inner.children).map Element.tree)
      congr 1
      rw [List.map_flatMap]
      congr 1
      funext x
      rw [TermDefs.trees_map]
    | blockquote => rw [Block.tree]; rfl
    | code => rw [Block.tree]; rfl
    | divider => rw [Block.tree]; rfl
    | math => rw [Block.tree]; rfl
    | placeholder => rw [Block.tree]; rfl

theorem RTree.Nest.mem {d a b : Nat} {ts : List RTree} (h : Nest d a ts b) {t : RTree} (ht : t ∈ ts) :
    t.region.depth = d ∧ a ≤ t.region.offset ∧ t.region.offset + t.region.len ≤ b ∧
      0 < t.region.len ∧ Nest (d + 1) t.region.offset t.children (t.region.offset + t.region.len) := by
  induction h with
  | nil => cases ht
  | cons h1 h2 h3 h4 _ ih =>
    have := h4.le
    rcases List.mem_cons.1 ht with rfl | ht
    · exact ⟨rfl, h1, this, h2, h3⟩
    · obtain ⟨i1, i2, i3, i4, i5⟩ := ih ht
      exact ⟨i1, by omega, i3, i4, i5⟩

theorem RTree.Nest.pairwise {d a b : Nat} {ts : List RTree} (h : Nest d a ts b) :
    ts.Pairwise fun t u => t.region.offset + t.region.len ≤ u.region.offset := by
  induction h with
  | nil => exact .nil
  | cons _ _ _ h4 _ ih => exact .cons (fun u hu => (h4.mem hu).2.1) ih

/-- What the tree of an element says about the regions below it. -/
def Element.Laid (x : Located Element) : Prop :=
  0 < x.region.len ∧ Nest (x.region.depth + 1) x.region.offset (Element.tree x).children
    (x.region.offset + x.region.len)

theorem Element.laid_of_mem {d a b : Nat} {xs : List (Located Element)}
    (h : Nest d a (xs.map Element.tree) b) {x : Located Element} (hx : x ∈ xs) :
    Element.Laid x ∧ x.region.depth = d ∧ a ≤ x.region.offset ∧ x.region.offset + x.region.len ≤ b := by
  have hm := h.mem (List.mem_map_of_mem (f := Element.tree) hx)
  obtain ⟨cs, hcs⟩ := Element.tree_region x
  have hr : (Element.tree x).region = x.region := by rw [hcs]; rfl
  rw [hr] at hm
  obtain ⟨h1, h2, h3, h4, h5⟩ := hm
  exact ⟨⟨h4, by rw [h1]; exact h5⟩, h1, h2, h3⟩

theorem Element.before_of_nest {d a b : Nat} {xs : List (Located Element)}
    (h : Nest d a (xs.map Element.tree) b) : xs.Pairwise Located.Before := by
  have := h.pairwise
  rw [List.pairwise_map] at this
  refine this.imp ?_
  intro x y hxy
  obtain ⟨cs, hx⟩ := Element.tree_region x
  obtain ⟨cs', hy⟩ := Element.tree_region y
  rw [hx, hy] at hxy
  exact hxy

/-- The contents of a cell of a table whose tree is laid out. -/
theorem Table.cell_laid {t : Table} (hw : t.WF) {d a b : Nat}
    (h : Nest d a (t.allCells.map fun c => c.inner.tree c.region) b) {e : CellPos × Located Cell}
    (he : e ∈ t.cells) :
    a ≤ e.2.region.offset ∧ e.2.region.offset + e.2.region.len ≤ b ∧
      Nest (d + 1) e.2.region.offset (Inline.trees e.2.inner.children)
        (e.2.region.offset + e.2.region.len) := by
  have hc : e.2 ∈ t.allCells := hw.cells_perm.mem_iff.1 (List.mem_map_of_mem (f := (·.2)) he)
  have hm := h.mem (List.mem_map_of_mem (f := fun c : Located Cell => c.inner.tree c.region) hc)
  have ht : e.2.inner.tree e.2.region = .node e.2.region (Inline.trees e.2.inner.children) := by
    cases e.2.inner <;> rfl
  rw [ht] at hm
  exact ⟨hm.2.1, hm.2.2.1, hm.2.2.2.2⟩

theorem Element.laid_children {x : Located Element} (h : Element.Laid x) (hw : x.inner.WF) :
    ∀ c ∈ x.inner.children, Element.Laid c ∧ c.Inside x ∧
      ((¬ x.inner.IsTable ∧ c.region.depth = x.region.depth + 1) ∨
        (x.inner.IsTable ∧ c.region.depth = x.region.depth + 2)) := by
  intro c hc
  obtain ⟨x, r⟩ := x
  by_cases ht : x.IsTable
  · cases x with
    | inline => exact ht.elim
    | item => exact ht.elim
    | term => exact ht.elim
    | definition => exact ht.elim
    | block b =>
      cases b with
      | table t =>
        have hw : t.WF := by have : Block.WF (.table t) := hw; rwa [Block.WF] at this
        have h : Nest (r.depth + 1) r.offset (t.allCells.map fun c => c.inner.tree c.region)
            (r.offset + r.len) := by
          have := h.2
          simp only [Element.tree] at this
          rw [Block.tree] at this
          exact this
        have hc : c ∈ t.children.map (·.map .inline) := hc
        obtain ⟨i, hi, rfl⟩ := List.mem_map.1 hc
        obtain ⟨e, he, hie⟩ := List.mem_flatMap.1 hi
        obtain ⟨h1, h2, h3⟩ := Table.cell_laid hw h he
        rw [Inline.trees_map] at h3
        obtain ⟨g1, g2, g3, g4⟩ := Element.laid_of_mem h3 (List.mem_map_of_mem (f := (Located.map Element.inline)) hie)
        refine ⟨g1, ⟨?_, ?_⟩, .inr ⟨trivial, g2⟩⟩
        · show r.offset ≤ _; omega
        · show _ ≤ r.offset + r.len; omega
      | _ => exact ht.elim
  · have h2 := h.2
    rw [Element.tree_children _ ht] at h2
    obtain ⟨g1, g2, g3, g4⟩ := Element.laid_of_mem h2 hc
    exact ⟨g1, ⟨g3, g4⟩, .inl ⟨ht, g2⟩⟩

theorem Block.WFs_mem {xs : List (Located Block)} (h : Block.WFs xs) {x : Located Block} (hx : x ∈ xs) :
    x.inner.WF := by
  induction xs with
  | nil => cases hx
  | cons y ys ih =>
    obtain ⟨y, r⟩ := y
    rw [Block.WFs] at h
    rcases List.mem_cons.1 hx with rfl | hx
    · exact h.1
    · exact ih h.2 hx

theorem Block.WFItems_mem {xs : List (Located ListItem)} (h : Block.WFItems xs) {x : Located ListItem}
    (hx : x ∈ xs) : Block.WFs x.inner.contents := by
  induction xs with
  | nil => cases hx
  | cons y ys ih =>
    obtain ⟨⟨a, b, c, d, e⟩, r⟩ := y
    rw [Block.WFItems] at h
    rcases List.mem_cons.1 hx with rfl | hx
    · exact h.1.2.2
    · exact ih h.2 hx

theorem Element.wf_children {x : Element} (h : x.WF) : ∀ c ∈ x.children, c.inner.WF := by
  intro c hc
  cases x with
  | inline i => obtain ⟨i, _, rfl⟩ := List.mem_map.1 hc; trivial
  | term i => obtain ⟨i, _, rfl⟩ := List.mem_map.1 hc; trivial
  | definition i => obtain ⟨i, _, rfl⟩ := List.mem_map.1 hc; trivial
  | item y =>
    obtain ⟨i, hi, rfl⟩ := List.mem_map.1 hc
    exact Block.WFs_mem h hi
  | block b =>
    cases b with
    | header => obtain ⟨i, _, rfl⟩ := List.mem_map.1 hc; trivial
    | paragraph => obtain ⟨i, _, rfl⟩ := List.mem_map.1 hc; trivial
    | table => obtain ⟨i, _, rfl⟩ := List.mem_map.1 hc; trivial
    | list xs =>
      obtain ⟨i, hi, rfl⟩ := List.mem_map.1 hc
      have h : Block.WF (.list xs) := h
      rw [Block.WF] at h
      exact Block.WFItems_mem h.2 hi
    | defs xs =>
      obtain ⟨x, _, hx⟩ := List.mem_flatMap.1 hc
      rcases List.mem_cons.1 hx with rfl | hx
      · trivial
      · obtain ⟨i, _, rfl⟩ := List.mem_map.1 hx; trivial
    | _ => cases hc

theorem Walk.all {xs ys : List (Located Element)} (h : Walk xs ys)
    (hx : ∀ x ∈ xs, Element.Laid x ∧ x.inner.WF) : ∀ y ∈ ys, Element.Laid y ∧ y.inner.WF := by
  induction h with
  | nil => exact hx
  | @cons x xs ys zs _ _ ih1 ih2 =>
    have hx0 := hx x (by simp)
    intro y hy
    rcases List.mem_cons.1 hy with rfl | hy
    · exact hx0
    · rcases List.mem_append.1 hy with hy | hy
      · exact ih1 (fun c hc => ⟨(Element.laid_children hx0.1 hx0.2 c hc).1, Element.wf_children hx0.2 c hc⟩) y hy
      · exact ih2 (fun x' hx' => hx x' (by simp [hx'])) y hy

theorem Walk.sub {xs ys : List (Located Element)} (h : Walk xs ys) : ∀ x ∈ xs, x ∈ ys := by
  induction h with
  | nil => exact fun x h => h
  | cons _ _ _ ih =>
    intro x hx
    rcases List.mem_cons.1 hx with rfl | hx
    · simp
    · simp [ih x hx]

theorem Walk.closed {xs ys : List (Located Element)} (h : Walk xs ys) {x : Located Element}
    (hx : x ∈ ys) : ∀ c ∈ x.inner.children, c ∈ ys := by
  induction h with
  | nil => cases hx
  | cons h1 _ ih1 ih2 =>
    intro c hc
    rcases List.mem_cons.1 hx with rfl | hx
    · simp [h1.sub c hc]
    · rcases List.mem_append.1 hx with hx | hx
      · simp [ih1 hx c hc]
      · simp [ih2 hx c hc]

/-! ## No element twice -/

theorem RTree.mem_regions_within {d a b : Nat} {ts : List RTree} (h : Nest d a ts b) :
    ∀ r ∈ RTree.regionsList ts, d ≤ r.depth ∧ a ≤ r.offset ∧ r.offset + r.len ≤ b ∧ 0 < r.len := by
  induction h with
  | nil => intro r hr; simp [RTree.regionsList] at hr
  | cons h1 h2 h3 h4 ih1 ih2 =>
    have := h4.le
    intro r hr
    simp only [RTree.regionsList, RTree.regions, List.mem_append, List.mem_cons] at hr
    rcases hr with (rfl | hr) | hr
    · exact ⟨Nat.le_refl _, h1, this, h2⟩
    · obtain ⟨i1, i2, i3, i4⟩ := ih1 r hr
      exact ⟨by omega, by omega, by omega, i4⟩
    · obtain ⟨i1, i2, i3, i4⟩ := ih2 r hr
      exact ⟨i1, by omega, i3, i4⟩

theorem RTree.Nest.nodup {d a b : Nat} {ts : List RTree} (h : Nest d a ts b) :
    (RTree.regionsList ts).Nodup := by
  induction h with
  | nil => exact List.nodup_nil
  | cons h1 h2 h3 h4 ih1 ih2 =>
    simp only [RTree.regionsList, RTree.regions]
    refine List.nodup_append.2 ⟨List.nodup_cons.2 ⟨?_, ih1⟩, ih2, ?_⟩
    · intro hr
      have := (RTree.mem_regions_within h3 _ hr).1
      simp only at this
      omega
    · intro r hr r' hr' e
      subst e
      obtain ⟨_, h5, _, h6⟩ := RTree.mem_regions_within h4 _ hr'
      rcases List.mem_cons.1 hr with rfl | hr
      · simp only at h5; omega
      · obtain ⟨_, _, h7, _⟩ := RTree.mem_regions_within h3 _ hr
        omega

theorem RTree.regionsList_append (ts us : List RTree) :
    RTree.regionsList (ts ++ us) = RTree.regionsList ts ++ RTree.regionsList us := by
  induction ts with
  | nil => rfl
  | cons t ts ih => simp [RTree.regionsList, ih, List.append_assoc]

theorem RTree.regionsList_flatMap {α} (f : α → List RTree) (l : List α) :
    RTree.regionsList (l.flatMap f) = l.flatMap fun a => RTree.regionsList (f a) := by
  induction l with
  | nil => rfl
  | cons a l ih => simp only [List.flatMap_cons, RTree.regionsList_append, ih]

theorem RTree.regionsList_map {α} (f : α → RTree) (l : List α) :
    RTree.regionsList (l.map f) = l.flatMap fun a => (f a).regions := by
  induction l with
  | nil => rfl
  | cons a l ih => simp only [List.map_cons, List.flatMap_cons, RTree.regionsList, ih]

mutual
theorem Inline.elems_regions (r : Region) (x : Inline) :
    (Inline.elems r x).map (·.region) = (Inline.tree r x).regions := by
  cases x with
  | decorated k xs => simp [Inline.elems, Inline.tree, RTree.regions, Inline.elemsAll_regions xs]
  | text => simp [Inline.elems, Inline.tree, RTree.regions, RTree.regionsList]
  | keyword => simp [Inline.elems, Inline.tree, RTree.regions, RTree.regionsList]
  | link => simp [Inline.elems, Inline.tree, RTree.regions, RTree.regionsList]
  | tags => simp [Inline.elems, Inline.tree, RTree.regions, RTree.regionsList]
  | code => simp [Inline.elems, Inline.tree, RTree.regions, RTree.regionsList]
  | math => simp [Inline.elems, Inline.tree, RTree.regions, RTree.regionsList]
  | comment => simp [Inline.elems, Inline.tree, RTree.regions, RTree.regionsList]
theorem Inline.elemsAll_regions (xs : List (Located Inline)) :
    (Inline.elemsAll xs).map (·.region) = RTree.regionsList (Inline.trees xs) := by
  match xs with
  | [] => simp [Inline.elemsAll, Inline.trees, RTree.regionsList]
  | ⟨x, r⟩ :: xs =>
    simp [Inline.elemsAll, Inline.trees, RTree.regionsList, Inline.elems_regions r x, Inline.elemsAll_regions xs]
end

theorem flatMap_sublist {α β} {f g : α → List β} {l : List α} (h : ∀ a ∈ l, (f a).Sublist (g a)) :
    (l.flatMap f).Sublist (l.flatMap g) := by
  induction l with
  | nil => exact .slnil
  | cons a l ih =>
    simp only [List.flatMap_cons]
    exact (h a (by simp)).append (ih fun b hb => h b (by simp [hb]))

theorem Cell.elems_regions (c : Located Cell) :
    (c.inner.elems.map (·.region)).Sublist (c.inner.tree c.region).regions := by
  cases hc : c.inner with
  | content xs =>
    simp only [Cell.elems, Cell.tree, RTree.regions, Inline.elemsAll_regions]
    exact List.sublist_cons_self _ _
  | span => simp [Cell.elems]
  | align => simp [Cell.elems]

theorem TermDefs.elems_regions (x : Located TermDefs) :
    x.inner.elems.map (·.region) = RTree.regionsList (TermDefs.trees false x) := by
  simp only [TermDefs.elems, TermDefs.trees, Bool.false_eq_true, if_false, List.map_cons, RTree.regionsList,
    List.cons_append, List.map_append, Inline.elemsAll_regions, Located.rowTree, RTree.regions,
    RTree.regionsList_map, List.map_flatMap]

mutual
theorem Block.elems_regions (r : Region) (x : Block) :
    ((Block.elems r x).map (·.region)).Sublist (Block.tree false r x).regions := by
  cases x with
  | blockquote => rw [Block.elems, Block.tree, RTree.regions]; exact .refl _
  | code => rw [Block.elems, Block.tree, RTree.regions]; exact .refl _
  | divider => rw [Block.elems, Block.tree, RTree.regions]; exact .refl _
  | math => rw [Block.elems, Block.tree, RTree.regions]; exact .refl _
  | placeholder => rw [Block.elems, Block.tree, RTree.regions]; exact .refl _
  | header xs n c =>
    rw [Block.elems, Block.tree, RTree.regions, List.map_cons, Inline.elemsAll_regions]; exact .refl _
  | paragraph rows =>
    rw [Block.elems, Block.tree, RTree.regions, List.map_cons, RTree.regionsList_flatMap, List.map_flatMap]
    simp only [Inline.elemsAll_regions]
    exact .refl _
  | defs xs =>
    rw [Block.elems, Block.tree, RTree.regions, List.map_cons, RTree.regionsList_flatMap, List.map_flatMap]
    simp only [TermDefs.elems_regions]
    exact .refl _
  | table t =>
    rw [Block.elems, Block.tree, RTree.regions, List.map_cons, RTree.regionsList_map, List.map_flatMap]
    exact (flatMap_sublist fun c _ => Cell.elems_regions c).cons_cons _
  | list xs =>
    rw [Block.elems, Block.tree, RTree.regions, List.map_cons]
    exact (Block.elemsItems_regions xs).cons_cons _
theorem Block.elemsItems_regions (xs : List (Located (ItemF Block))) :
    ((Block.elemsItems xs).map (·.region)).Sublist (RTree.regionsList (Block.itemTrees false xs)) := by
  match xs with
  | [] => rw [Block.elemsItems]; exact .slnil
  | ⟨⟨ty, sf, n, cs, td⟩, r⟩ :: xs =>
    rw [Block.elemsItems, Block.itemTrees, RTree.regionsList, RTree.regions, List.cons_append, List.map_cons,
      List.map_append, List.cons_append]
    exact ((Block.elemsAll_regions cs).append (Block.elemsItems_regions xs)).cons_cons _
theorem Block.elemsAll_regions (xs : List (Located Block)) :
    ((Block.elemsAll xs).map (·.region)).Sublist (RTree.regionsList (Block.trees false xs)) := by
  match xs with
  | [] => rw [Block.elemsAll]; exact .slnil
  | ⟨x, r⟩ :: xs =>
    rw [Block.elemsAll, Block.trees, RTree.regionsList, List.map_append]
    exact (Block.elems_regions r x).append (Block.elemsAll_regions xs)
end

end Vw
