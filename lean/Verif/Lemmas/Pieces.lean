import Verif.Lemmas.Apart
import Verif.Lemmas.Tree
import Verif.Spec.Pieces

/-!
# From the layout facts to single elements
-/

namespace Vw

variable {C : Ctx}

/-- What is known about one inline element of a page. -/
structure Piece (C : Ctx) (x : Located Inline) : Prop where
  pos : 0 < x.region.len
  bs : C.B x.region.offset
  be : C.B (x.region.offset + x.region.len)
  hi : x.region.offset + x.region.len ≤ C.inner.length
  what : Payload C x.region.offset (x.region.offset + x.region.len) x.inner ∨
    ∃ kind ys, x.inner = .decorated kind ys ∧ ys ≠ [] ∧
      ∃ c, BracketOk C x.region.offset (x.region.offset + x.region.len) kind.delim kind.delim c
  apart : Inline.Apart [] x.inner
  fill : ∀ kind ys, x.inner = .decorated kind ys → ∃ e,
    e + kind.delim.length ≤ x.region.offset + x.region.len ∧
    Stuck C e (x.region.offset + x.region.len - kind.delim.length) ∧
    Tile C (x.region.depth + 1) (x.region.offset + kind.delim.length) ys e

theorem Tile.all {d a b : Nat} {xs : Inlines} (h : Tile C d a xs b) :
    ∀ x ∈ Inline.all xs, Piece C x := by
  induction h with
  | nil => intro x hx; simp [Inline.all] at hx
  | @leaf d a n x xs b hn h1 h2 h3 hp _ _ _ ih =>
    intro y hy
    have : Inline.inside x = [] := by
      cases x with
      | decorated => exact hp.elim
      | _ => rfl
    simp only [Inline.all, this, List.nil_append, List.mem_cons] at hy
    rcases hy with rfl | hy
    · refine ⟨hn, h1, h2, h3, .inl hp, ?_, ?_⟩
      · cases x with
        | decorated => exact hp.elim
        | _ => simp [Inline.Apart]
      · rintro kind ys rfl
        exact hp.elim
    · exact ih y hy
  | @deco d a n kind ys e xs b hn h1 h2 h3 h4 h5 h6 hst h7 _ ih1 ih2 =>
    intro y hy
    simp only [Inline.all, Inline.inside, List.mem_cons, List.mem_append] at hy
    rcases hy with rfl | hy | hy
    · refine ⟨hn, h1, h2, h3, .inr ⟨_, _, rfl, h5, h4⟩, ?_, ?_⟩
      · rw [Inline.Apart]
        refine ⟨by simp, h7.aparts _ fun k hk => ?_⟩
        obtain ⟨c, h4⟩ := h4
        rw [List.mem_singleton.1 hk]
        exact ⟨a, a + n, c, h4, Nat.le_refl _, h6, h3⟩
      · intro k zs hk
        cases hk
        exact ⟨e, h6, hst, h7⟩
    · exact ih1 y hy
    · exact ih2 y hy

theorem Rows.all {d a b : Nat} {rows : List Inlines} (h : Rows C d a rows b) :
    ∀ x ∈ rows.flatMap Inline.all, Piece C x := by
  induction h with
  | nil _ => intro x hx; simp at hx
  | cons _ h2 _ _ ih =>
    intro x hx
    simp only [List.flatMap_cons, List.mem_append] at hx
    exact hx.elim (h2.all x) (ih x)

theorem LocRows.all {d a b : Nat} {xs : List (Located Inlines)} (h : LocRows C d a xs b) :
    ∀ x ∈ xs.flatMap (fun y => Inline.all y.inner), Piece C x := by
  induction h with
  | nil _ => intro x hx; simp at hx
  | cons h1 _ ih =>
    intro x hx
    simp only [List.flatMap_cons, List.mem_append] at hx
    obtain ⟨i, j, _, ht, _⟩ := h1.tile
    exact hx.elim (ht.all x) (ih x)

theorem DefsAt.all {d a b : Nat} {xs : List (Located TermDefs)} (h : DefsAt C d a xs b) :
    ∀ x ∈ xs.flatMap (fun x => (x.inner.term :: x.inner.defs.inner).flatMap
      fun y => Inline.all y.inner), Piece C x := by
  induction h with
  | nil _ => intro x hx; simp at hx
  | cons h1 _ _ _ _ _ _ ih =>
    intro x hx
    rw [List.flatMap_cons, List.mem_append] at hx
    exact hx.elim (h1.all x) (ih x)

theorem CellsAt.all {d a b : Nat} {xs : List (Located Cell)} (h : CellsAt C d a xs b) :
    ∀ x ∈ xs.flatMap (fun c => c.inner.inlines), Piece C x := by
  induction h with
  | nil _ => intro x hx; simp at hx
  | @cons a y m xs b h1 _ ih =>
    intro x hx
    rw [List.flatMap_cons, List.mem_append] at hx
    rcases hx with hx | hx
    · cases hy : y.inner with
      | content c =>
        obtain ⟨_, ht⟩ := h1.content c hy
        rw [hy] at hx
        exact ht.all x hx
      | span s => rw [hy] at hx; simp [Cell.inlines] at hx
      | align s => rw [hy] at hx; simp [Cell.inlines] at hx
    · exact ih x hx

theorem CellRows.all {d a b : Nat} {rows : List (List (Located Cell))} (h : CellRows C d a rows b) :
    ∀ x ∈ rows.flatten.flatMap (fun c => c.inner.inlines), Piece C x := by
  induction h with
  | nil _ => intro x hx; simp at hx
  | cons h1 _ _ ih =>
    intro x hx
    rw [List.flatten_cons, List.flatMap_append, List.mem_append] at hx
    exact hx.elim (h1.all x) (ih x)

mutual
theorem BlockAt.inlines {d a b : Nat} {x : Block} (h : BlockAt C d a b x) :
    ∀ y ∈ x.inlines, Piece C y := by
  cases h with
  | defs _ h => rw [Block.inlines]; exact h.all
  | header _ _ _ h2 _ _ => rw [Block.inlines]; exact h2.all
  | paragraph h _ => rw [Block.inlines]; exact h.all
  | table h _ =>
    rw [Block.inlines, Table.allCells_new h.ne]
    exact h.all
  | list _ _ h => rw [Block.inlines]; exact h.inlines
  | _ => intro y hy; rw [Block.inlines] at hy; cases hy
theorem ItemsAt.inlines {d a b : Nat} {xs : List (Located ListItem)} (h : ItemsAt C d a xs b) :
    ∀ y ∈ Block.itemInlines xs, Piece C y := by
  cases h with
  | nil h => intro y hy; rw [Block.itemInlines] at hy; cases hy
  | @cons _ _ o n x xs _ _ _ _ h1 h2 _ _ _ _ h4 h5 =>
    obtain ⟨t1, t2, t3, cs, t5⟩ := x
    rw [Block.itemInlines]
    intro y hy
    exact (List.mem_append.1 hy).elim (h4.inlines y) (h5.inlines y)
theorem BlocksAt.inlines {d a b : Nat} {xs : List (Located Block)} (h : BlocksAt C d a xs b) :
    ∀ y ∈ Block.allInlines xs, Piece C y := by
  cases h with
  | nil h => intro y hy; rw [Block.allInlines] at hy; cases hy
  | @cons _ _ o n x xs _ h1 h2 h3 h4 =>
    rw [Block.allInlines]
    intro y hy
    exact (List.mem_append.1 hy).elim (h3.inlines y) (h4.inlines y)
end

/-- What is known about one block of a page. -/
def BlockPiece (C : Ctx) (e : Nat) (x : Located Block) : Prop :=
  0 < x.region.len ∧ x.region.offset + x.region.len ≤ e ∧
    BlockAt C x.region.depth x.region.offset (x.region.offset + x.region.len) x.inner

theorem BlockPiece.mono {e e' : Nat} {x : Located Block} (h : BlockPiece C e x) (he : e ≤ e') :
    BlockPiece C e' x := ⟨h.1, Nat.le_trans h.2.1 he, h.2.2⟩

mutual
theorem BlockAt.blocks {d a b : Nat} {x : Block} (h : BlockAt C d a b x) :
    ∀ y ∈ x.inside, BlockPiece C b y := by
  cases h with
  | list _ _ h => rw [Block.inside]; exact h.blocks
  | _ => intro y hy; rw [Block.inside] at hy; cases hy
theorem ItemsAt.blocks {d a b : Nat} {xs : List (Located ListItem)} (h : ItemsAt C d a xs b) :
    ∀ y ∈ Block.itemBlocks xs, BlockPiece C b y := by
  cases h with
  | nil h => intro y hy; rw [Block.itemBlocks] at hy; cases hy
  | @cons _ _ o n x xs _ _ _ _ h1 h2 _ _ _ _ h4 h5 =>
    obtain ⟨t1, t2, t3, cs, t5⟩ := x
    rw [Block.itemBlocks]
    intro y hy
    exact (List.mem_append.1 hy).elim (fun hy => (h4.blocks y hy).mono h5.le) (h5.blocks y)
theorem BlocksAt.blocks {d a b : Nat} {xs : List (Located Block)} (h : BlocksAt C d a xs b) :
    ∀ y ∈ Block.allBlocks xs, BlockPiece C b y := by
  cases h with
  | nil h => intro y hy; rw [Block.allBlocks] at hy; cases hy
  | @cons _ _ o n x xs _ h1 h2 h3 h4 =>
    rw [Block.allBlocks]
    intro y hy
    rcases List.mem_cons.1 hy with rfl | hy
    · exact ⟨h2, h4.le, h3⟩
    · exact (List.mem_append.1 hy).elim (fun hy => (h3.blocks y hy).mono h4.le) (h4.blocks y)
end

theorem parsePage_piece {env : Env} {text : Str} {s' : Span} {pg : Page}
    (h : parsePage env text = .ok s' pg) {x : Located Inline} (hx : x ∈ pg.inlines) :
    Piece (Ctx.ofText env text) x := (parsePage_blocksAt h).inlines x hx

theorem parsePage_block {env : Env} {text : Str} {s' : Span} {pg : Page}
    (h : parsePage env text = .ok s' pg) {x : Located Block} (hx : x ∈ pg.blocks) :
    BlockPiece (Ctx.ofText env text) text.length x := (parsePage_blocksAt h).blocks x hx

theorem BracketOk.between {a b : Nat} {L R c : Str} (h : BracketOk C a b L R c) :
    Between (sub C.inner a b) L R c := by
  refine ⟨h.eq, h.ne, h.noNl, h.noComment, ?_⟩
  intro c' rest hne hlt he
  refine h.first c'.length (List.length_pos_iff.2 hne) hlt ?_
  rw [he]
  simp [At]

end Vw
