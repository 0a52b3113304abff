import Verif.Model.Ast

/-!
# Element trees

What a user sees of a parsed page: a tree of elements with regions. Used to
state properties about all elements at any depth without referring to the
parser.
-/

namespace Vw

/-- A tree of regions. -/
inductive RTree where
  | node (r : Region) (children : List RTree)
deriving Repr

namespace RTree

/-- The region at the root. -/
def region : RTree → Region
  | node r _ => r

/-- The children of the root. -/
def children : RTree → List RTree
  | node _ cs => cs

end RTree

mutual
/-- The tree of an inline element: decorated text has children. -/
def Inline.tree (r : Region) : Inline → RTree
  | .decorated _ ys => .node r (Inline.trees ys)
  | _ => .node r []
/-- The trees of a row of inline elements. -/
def Inline.trees : List (Located Inline) → List RTree
  | [] => []
  | ⟨x, r⟩ :: xs => Inline.tree r x :: Inline.trees xs
end

/-- The tree of a located row of inline elements (a term or a definition). -/
def Located.rowTree (x : Located Inlines) : RTree := .node x.region (Inline.trees x.inner)

/-- The terms and definitions of an entry of a definition list, term first. With
`w` the two wrappers (`TermAndDefinitions` and `DefinitionBundle`) are nodes of
their own, otherwise they are left out. -/
def TermDefs.trees (w : Bool) (t : Located TermDefs) : List RTree :=
  if w then
    [.node t.region [t.inner.term.rowTree,
      .node t.inner.defs.region (t.inner.defs.inner.map Located.rowTree)]]
  else (t.inner.term :: t.inner.defs.inner).map Located.rowTree

/-- The tree of a cell: content cells have children. -/
def Cell.tree (r : Region) : Cell → RTree
  | .content c => .node r (Inline.trees c)
  | _ => .node r []

/-- The cells of a table in row-major order, as `get_cell` returns them. -/
def Table.allCells (t : Table) : List (Located Cell) :=
  (List.range t.rowCnt).flatMap fun r => (List.range t.colCnt).filterMap fun c => t.getCell r c

mutual
/-- The tree of a block; `w` as for `TermDefs.trees`. -/
def Block.tree (w : Bool) (r : Region) : Block → RTree
  | .defs xs => .node r (xs.flatMap (TermDefs.trees w))
  | .header xs _ _ => .node r (Inline.trees xs)
  | .list xs => .node r (Block.itemTrees w xs)
  | .paragraph rows => .node r (rows.flatMap Inline.trees)
  | .table t => .node r (t.allCells.map fun c => c.inner.tree c.region)
  | .blockquote _ => .node r []
  | .code _ _ _ => .node r []
  | .divider => .node r []
  | .math _ _ => .node r []
  | .placeholder _ => .node r []
/-- The trees of list items. -/
def Block.itemTrees (w : Bool) : List (Located (ItemF Block)) → List RTree
  | [] => []
  | ⟨⟨_, _, _, cs, _⟩, r⟩ :: xs => .node r (Block.trees w cs) :: Block.itemTrees w xs
/-- The trees of a sequence of blocks. -/
def Block.trees (w : Bool) : List (Located Block) → List RTree
  | [] => []
  | ⟨x, r⟩ :: xs => Block.tree w r x :: Block.trees w xs
end

/-- The trees of the elements of a page. -/
def Page.trees (w : Bool) (p : Page) : List RTree := Block.trees w p.elements

/-! ## Every region -/

mutual
/-- All regions of a tree. -/
def RTree.regions : RTree → List Region
  | .node r cs => r :: RTree.regionsList cs
/-- All regions of a list of trees. -/
def RTree.regionsList : List RTree → List Region
  | [] => []
  | t :: ts => t.regions ++ RTree.regionsList ts
end

/-- The regions of `ts`, in order, are non-empty, disjoint and between `a` and
`b`, at depth `d`, and the same holds inside each of them one level deeper. -/
inductive RTree.Nest : Nat → Nat → List RTree → Nat → Prop where
  | nil {d a b} : a ≤ b → Nest d a [] b
  | cons {d a o n cs ts b} : a ≤ o → 0 < n → Nest (d + 1) o cs (o + n) → Nest d (o + n) ts b →
      Nest d a (.node ⟨o, n, d⟩ cs :: ts) b

mutual
/-- `Nest` for one tree as a test. -/
def RTree.nest1 (d a b : Nat) : RTree → Bool
  | .node r cs => decide (a ≤ r.offset) && decide (0 < r.len) && decide (r.depth = d)
      && decide (r.offset + r.len ≤ b) && RTree.nestB (d + 1) r.offset (r.offset + r.len) cs
/-- `Nest` as a test. -/
def RTree.nestB (d a b : Nat) : List RTree → Bool
  | [] => decide (a ≤ b)
  | t :: ts => RTree.nest1 d a b t &&
      RTree.nestB d (t.region.offset + t.region.len) b ts
end

end Vw
