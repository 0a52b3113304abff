import Verif.Model.HtmlOut
import Verif.Spec.Equality

/-!
# Outputs of elements without their places
-/

namespace Vw
open Fm W

variable {L : OutLib} {cfg : VwCfg}

/-! ## Lists and tables -/

theorem drain_map {σ α β : Type} {n1 : σ → Option β × σ} {n2 : σ → Option α × σ} {f : α → β}
    (h : ∀ s, n1 s = ((n2 s).1.map f, (n2 s).2)) : ∀ k s, drain n1 k s = (drain n2 k s).map f
  | 0, _ => rfl
  | k + 1, s => by
    simp only [drain, h]
    rcases n2 s with ⟨_ | x, s'⟩
    · rfl
    · simp only [Option.map_some, List.map_cons, drain_map h k]

theorem each_map {α β : Type} (f : α → β) (w : β → W) : ∀ xs : List α, each w (xs.map f) = each (fun x => w (f x)) xs
  | [] => rfl
  | x :: xs => by simp only [List.map_cons, each, each_map f w xs]

/-- The table with other cells. -/
def Table.mapped (g : Located Cell → Located Cell) (t : Table) : Table :=
  { t with cells := t.cells.map fun e => (e.1, g e.2) }

/-- The cells are of the same kinds. -/
structure Kinds (g : Located Cell → Located Cell) : Prop where
  align : ∀ c, Table.isAlign (g c).inner = Table.isAlign c.inner
  content : ∀ c, Table.isContent (g c).inner = Table.isContent c.inner
  left : ∀ c, Table.isLeft (g c).inner = Table.isLeft c.inner
  above : ∀ c, Table.isAbove (g c).inner = Table.isAbove c.inner

section mapped
variable {g : Located Cell → Located Cell}

theorem lookup_mapped (pos : CellPos) : ∀ xs : List (CellPos × Located Cell),
    Table.lookupCell (xs.map fun e => (e.1, g e.2)) pos = (Table.lookupCell xs pos).map g
  | [] => rfl
  | (p, c) :: xs => by
    simp only [List.map_cons, Table.lookupCell]
    split
    · rfl
    · exact lookup_mapped pos xs

theorem getCell_mapped (t : Table) (r c : Nat) : (t.mapped g).getCell r c = (t.getCell r c).map g := lookup_mapped _ _

theorem rowNext_mapped (t : Table) (r k c : Nat) :
    drain ((t.mapped g).rowNext r) k c = (drain (t.rowNext r) k c).map g := by
  refine drain_map (fun s => ?_) k c
  unfold Table.rowNext
  rw [getCell_mapped]
  cases t.getCell r s <;> rfl

theorem columnNext_mapped (t : Table) (c k r : Nat) :
    drain ((t.mapped g).columnNext c) k r = (drain (t.columnNext c) k r).map g := by
  refine drain_map (fun s => ?_) k r
  unfold Table.columnNext
  rw [getCell_mapped]
  cases t.getCell s c <;> rfl

theorem rowPos_mapped (t : Table) (r k c : Nat) :
    drain (Table.withPos (fun col => ⟨r, col⟩) ((t.mapped g).rowNext r)) k c =
      (drain (Table.withPos (fun col => (⟨r, col⟩ : CellPos)) (t.rowNext r)) k c).map fun e => (e.1, g e.2) := by
  refine drain_map (fun s => ?_) k c
  unfold Table.withPos Table.rowNext
  rw [getCell_mapped]
  cases t.getCell r s <;> rfl

theorem cellsPos_mapped (t : Table) (k : Nat) (p : CellPos) :
    drain (Table.withPos id (t.mapped g).cellsNext) k p =
      (drain (Table.withPos id t.cellsNext) k p).map fun e => (e.1, g e.2) := by
  refine drain_map (fun s => ?_) k p
  unfold Table.withPos Table.cellsNext
  rw [getCell_mapped]
  cases t.getCell s.row s.col <;> rfl

variable (hg : Kinds g)
include hg

theorem isDivider_mapped (t : Table) : (t.mapped g).isDividerRow = t.isDividerRow := by
  funext r
  unfold Table.isDividerRow
  rw [getCell_mapped]
  cases t.getCell r 0 with
  | none => rfl
  | some x => exact hg.align x

theorem dividerRowIndex_mapped (t : Table) : (t.mapped g).dividerRowIndex = t.dividerRowIndex := by
  unfold Table.dividerRowIndex
  rw [isDivider_mapped hg]
  rfl

theorem skipDividers_mapped (t : Table) (stop : Nat) : ∀ fuel idx,
    (t.mapped g).skipDividers stop fuel idx = t.skipDividers stop fuel idx
  | 0, _ => rfl
  | n + 1, idx => by
    unfold Table.skipDividers
    rw [isDivider_mapped hg, skipDividers_mapped t stop n]

theorem headerNext_mapped (t : Table) : (t.mapped g).headerNext = t.headerNext := by
  funext idx
  unfold Table.headerNext
  rw [dividerRowIndex_mapped hg, skipDividers_mapped hg]

theorem bodyNext_mapped (t : Table) : (t.mapped g).bodyNext = t.bodyNext := by
  funext idx
  unfold Table.bodyNext
  rw [skipDividers_mapped hg]
  rfl

theorem bodyStart_mapped (t : Table) : (t.mapped g).bodyStart = t.bodyStart := by
  unfold Table.bodyStart
  rw [dividerRowIndex_mapped hg]

theorem spanCount_mapped {f : Cell → Bool} (hf : ∀ c, f (g c).inner = f c.inner) : ∀ xs : List (Located Cell),
    Table.spanCount f (xs.map g) = Table.spanCount f xs
  | [] => rfl
  | x :: xs => by
    simp only [List.map_cons, Table.spanCount, hg.content]
    split
    · congr 1
      induction xs with
      | nil => rfl
      | cons y ys ih =>
        simp only [List.map_cons, List.takeWhile_cons, hf]
        split
        · simp only [List.length_cons, ih]
        · rfl
    · rfl

theorem rowspan_mapped (t : Table) (r c : Nat) : (t.mapped g).rowspan r c = t.rowspan r c := by
  unfold Table.rowspan
  rw [columnNext_mapped, ← List.map_drop, spanCount_mapped hg hg.above]
  rfl

theorem colspan_mapped (t : Table) (r c : Nat) : (t.mapped g).colspan r c = t.colspan r c := by
  unfold Table.colspan
  rw [rowNext_mapped, ← List.map_drop, spanCount_mapped hg hg.left]
  rfl

theorem rowHasContent_mapped (t : Table) (r : Nat) : (t.mapped g).rowHasContent r = t.rowHasContent r := by
  unfold Table.rowHasContent
  rw [rowNext_mapped, List.any_map]
  refine congrArg (List.any (drain (t.rowNext r) (t.colCnt + 1) 0)) ?_
  funext x
  exact hg.content x

theorem tableHtml_mapped {H : HtmlLib} {c : HtmlCfg} (t : Table)
    (hc : ∀ (e : CellPos × Located Cell) (tag : Str), cellHtml H c (t.mapped g) tag (e.1, g e.2) = cellHtml H c t tag e) :
    tableHtml H c (t.mapped g) = tableHtml H c t := by
  have hr : ∀ tag, rowHtml H c (t.mapped g) tag = rowHtml H c t tag := by
    intro tag
    funext r
    unfold rowHtml
    rw [rowHasContent_mapped hg, rowPos_mapped, each_map]
    simp only [hc]
    rfl
  unfold tableHtml
  rw [headerNext_mapped hg, bodyNext_mapped hg, bodyStart_mapped hg, hr, hr]
  rfl

end mapped

/-- A cell without its place. -/
def Cell.bare (c : Located Cell) : Located Cell := ⟨c.inner.erase, .zero⟩

theorem kinds_bare : Kinds Cell.bare := by
  constructor <;> rintro ⟨c, r⟩ <;> cases c <;> first | rfl | (next s => cases s <;> rfl)

theorem Table.erase_eq (t : Table) : t.erase = t.mapped Cell.bare := rfl

/-! ## Vimwiki -/

mutual
theorem Inline.fmt_erase : ∀ (x : Inline) (f : Fm), x.erase.fmt L cfg f = x.fmt L cfg f
  | .text _, _ => rfl
  | .decorated k cs, f => by rw [Inline.erase, Inline.fmt, Inline.fmt, Inline.fmtAll_erase cs]
  | .keyword _, _ => rfl
  | .link _, _ => rfl
  | .tags _, _ => rfl
  | .code _, _ => rfl
  | .math _, _ => rfl
  | .comment _, _ => rfl
theorem Inline.fmtAll_erase : ∀ (xs : List (Located Inline)) (f : Fm),
    Inline.fmtAll L cfg (Inline.erases xs) f = Inline.fmtAll L cfg xs f
  | [], _ => rfl
  | ⟨x, _⟩ :: xs, f => by
    rw [Inline.erases, Inline.fmtAll, Inline.fmtAll, Inline.fmt_erase x, Inline.fmtAll_erase xs]
end

theorem cellText_erase (f : Fm) (c : Cell) : cellText L cfg f c.erase = cellText L cfg f c := by
  cases c with
  | content c => simp only [Cell.erase, cellText, Inline.fmtAll_erase]
  | span s => rfl
  | align a => rfl

theorem fixedCells_erase (f : Fm) (t : Table) : fixedCells L cfg f t.erase = fixedCells L cfg f t := by
  unfold fixedCells
  rw [Table.erase_eq, cellsPos_mapped, List.filterMap_map]
  refine congrArg (List.filterMap · _) ?_
  funext e
  simp only [Function.comp, Cell.bare, cellText_erase]

theorem minAlign_erase (t : Table) (c : Nat) : minAlign t.erase c = minAlign t c := by
  unfold minAlign
  rw [Table.erase_eq, columnNext_mapped, List.map_map]
  congr 2
  funext x
  obtain ⟨x, _⟩ := x
  cases x <;> rfl

theorem columnWidth_erase (t : Table) (fixed : List (CellPos × Str)) (c : Nat) :
    columnWidth t.erase fixed c = columnWidth t fixed c := by
  unfold columnWidth
  simp only [minAlign_erase]

theorem writeBody_erase (t : Table) (fixed : List (CellPos × Str)) (r c : Nat) (f : Fm) :
    writeBody t.erase fixed r c f = writeBody t fixed r c f := by
  unfold writeBody
  rw [columnWidth_erase, Table.erase_eq, getCell_mapped]
  split
  · rfl
  · cases t.getCell r c with
    | none => rfl
    | some x => obtain ⟨x, _⟩ := x; cases x <;> rfl

theorem writeCells_erase (t : Table) (fixed : List (CellPos × Str)) (r : Nat) : ∀ cs f,
    writeCells t.erase fixed r cs f = writeCells t fixed r cs f
  | [], _ => rfl
  | c :: cs, f => by
    simp only [writeCells, writeCell, writeBody_erase]
    congr 1
    funext g
    exact writeCells_erase t fixed r cs g

theorem writeRows_erase (t : Table) (fixed : List (CellPos × Str)) : ∀ rs f,
    writeRows cfg t.erase fixed rs f = writeRows cfg t fixed rs f
  | [], _ => rfl
  | r :: rs, f => by
    simp only [writeRows, writeCells_erase]
    congr 1
    funext g
    exact writeRows_erase t fixed rs g

theorem Table.fmt_erase (t : Table) (f : Fm) : t.erase.fmt L cfg f = t.fmt L cfg f := by
  unfold Table.fmt
  rw [fixedCells_erase, writeRows_erase]
  rfl

theorem defsFmt_erase : ∀ (b : Bool) (ds : List (Located Inlines)) (f : Fm),
    defsFmt L cfg b (ds.map fun d => ⟨Inline.erases d.inner, .zero⟩) f = defsFmt L cfg b ds f
  | _, [], _ => rfl
  | b, ⟨d, _⟩ :: ds, f => by
    have : Inline.fmtAll L cfg (Inline.erases d) = Inline.fmtAll L cfg d := funext (Inline.fmtAll_erase d)
    simp only [List.map_cons, defsFmt, defsFmt_erase false ds, this]

theorem defListFmt_erase : ∀ (xs : List (Located TermDefs)) (f : Fm),
    defListFmt L cfg (xs.map fun x => ⟨x.inner.erase, .zero⟩) f = defListFmt L cfg xs f
  | [], _ => rfl
  | ⟨⟨t, ds⟩, _⟩ :: xs, f => by
    have : Inline.fmtAll L cfg (Inline.erases t.inner) = Inline.fmtAll L cfg t.inner := funext (Inline.fmtAll_erase _)
    have h2 : (ds.inner.map fun d => (⟨Inline.erases d.inner, .zero⟩ : Located Inlines)).isEmpty = ds.inner.isEmpty := by
      cases ds.inner <;> rfl
    have ih : defListFmt L cfg (xs.map fun x => ⟨x.inner.erase, .zero⟩) = defListFmt L cfg xs := funext (defListFmt_erase xs)
    rw [List.map_cons, defListFmt, defListFmt, ih]
    simp only [TermDefs.erase, defsFmt_erase, this, h2]

theorem paragraphFmt_erase : ∀ (ls : List Inlines) (f : Fm),
    paragraphFmt L cfg (ls.map Inline.erases) f = paragraphFmt L cfg ls f
  | [], _ => rfl
  | l :: ls, f => by
    have : Inline.fmtAll L cfg (Inline.erases l) = Inline.fmtAll L cfg l := funext (Inline.fmtAll_erase l)
    simp only [List.map_cons, paragraphFmt, paragraphFmt_erase ls, this]

theorem erases_isEmpty (xs : List (Located Block)) : (Block.erases xs).isEmpty = xs.isEmpty := by cases xs <;> rfl

mutual
theorem Block.fmt_erase : ∀ (x : Block) (f : Fm), x.erase.fmt L cfg f = x.fmt L cfg f
  | .blockquote _, _ => rfl
  | .code .., _ => rfl
  | .defs xs, f => by rw [Block.erase, Block.fmt, Block.fmt, defListFmt_erase]
  | .divider, _ => rfl
  | .header c n b, f => by
    have : Inline.fmtAll L cfg (Inline.erases c) = Inline.fmtAll L cfg c := funext (Inline.fmtAll_erase c)
    rw [Block.erase, Block.fmt, Block.fmt, headerFmt, headerFmt, this]
  | .list xs, f => by rw [Block.erase, Block.fmt, Block.fmt, Block.fmtItems_erase xs]
  | .math .., _ => rfl
  | .paragraph ls, f => by rw [Block.erase, Block.fmt, Block.fmt, paragraphFmt_erase]
  | .placeholder _, _ => rfl
  | .table t, f => by rw [Block.erase, Block.fmt, Block.fmt, Table.fmt_erase]
theorem Block.fmtItems_erase : ∀ (xs : List (Located (ItemF Block))) (f : Fm),
    Block.fmtItems L cfg (Block.eraseItems xs) f = Block.fmtItems L cfg xs f
  | [], _ => rfl
  | ⟨⟨ty, su, pos, cs, td⟩, _⟩ :: xs, f => by
    rw [Block.eraseItems, Block.fmtItems, Block.fmtItems, erases_isEmpty, Block.fmtContents_erase cs]
    congr 1
    funext g
    exact Block.fmtItems_erase xs g
theorem Block.fmtContents_erase : ∀ (xs : List (Located Block)) (f : Fm),
    Block.fmtContents L cfg (Block.erases xs) f = Block.fmtContents L cfg xs f
  | [], _ => rfl
  | ⟨x, _⟩ :: xs, f => by
    rw [Block.erases, Block.fmtContents, Block.fmtContents]
    have : Block.fmt L cfg x.erase = Block.fmt L cfg x := funext fun g => Block.fmt_erase x g
    rw [this]
    congr 1
    funext g
    exact Block.fmtContents_erase xs g
end

theorem pageFmt_erase : ∀ (xs : List (Located Block)) (f : Fm), pageFmt L cfg (Block.erases xs) f = pageFmt L cfg xs f
  | [], _ => rfl
  | [⟨x, _⟩], f => by simp only [Block.erases, pageFmt]; exact Block.fmt_erase x f
  | ⟨x, _⟩ :: ⟨y, r⟩ :: rest, f => by
    have ih := pageFmt_erase (⟨y, r⟩ :: rest)
    simp only [Block.erases] at ih ⊢
    simp only [pageFmt, Block.fmt_erase]
    congr 1
    funext g
    exact ih _

/-- The vimwiki text of a page does not depend on the places of its elements. -/
theorem toVimwiki_erase (pg : Page) : pg.erase.toVimwiki L cfg = pg.toVimwiki L cfg := by
  unfold Page.toVimwiki Page.fmt Page.erase
  rw [pageFmt_erase]

/-! ## HTML -/

mutual
theorem Inline.display_erase (L : OutLib) : ∀ x : Inline, x.erase.display L = x.display L
  | .text _ => rfl
  | .decorated k cs => by rw [Inline.erase, Inline.display, Inline.display, Inline.displayAll_erase L cs]
  | .keyword _ => rfl
  | .link _ => rfl
  | .tags _ => rfl
  | .code _ => rfl
  | .math _ => rfl
  | .comment _ => rfl
theorem Inline.displayAll_erase (L : OutLib) : ∀ xs : List (Located Inline),
    Inline.displayAll L (Inline.erases xs) = Inline.displayAll L xs
  | [] => rfl
  | ⟨x, _⟩ :: xs => by
    rw [Inline.erases, Inline.displayAll, Inline.displayAll, Inline.display_erase L x, Inline.displayAll_erase L xs]
end

variable {H : HtmlLib} {c : HtmlCfg}

mutual
theorem Inline.html_erase : ∀ x : Inline, x.erase.html H c = x.html H c
  | .text _ => rfl
  | .decorated k cs => by
    cases k <;>
      rw [Inline.erase, Inline.html, Inline.html, Inline.htmlAll_erase cs] <;> rw [Inline.displayAll_erase]
  | .keyword _ => rfl
  | .link _ => rfl
  | .tags _ => rfl
  | .code _ => rfl
  | .math _ => rfl
  | .comment _ => rfl
theorem Inline.htmlAll_erase : ∀ xs : List (Located Inline),
    Inline.htmlAll H c (Inline.erases xs) = Inline.htmlAll H c xs
  | [] => rfl
  | ⟨x, _⟩ :: xs => by
    rw [Inline.erases, Inline.htmlAll, Inline.htmlAll, Inline.html_erase x, Inline.htmlAll_erase xs]
end

theorem defListHtml_erase (xs : List (Located TermDefs)) :
    defListHtml H c (xs.map fun x => ⟨x.inner.erase, .zero⟩) = defListHtml H c xs := by
  unfold defListHtml
  rw [each_map]
  congr 2
  refine congrArg (each · xs) ?_
  funext x
  have : (fun d : Located Inlines => defHtml H c ⟨Inline.erases d.inner, .zero⟩) = defHtml H c := by
    funext d
    simp only [defHtml, Inline.htmlAll_erase]
  simp only [termHtml, TermDefs.erase, Inline.htmlAll_erase, each_map, this]

theorem isComment_erase (x : Inline) : x.erase.isComment = x.isComment := by cases x <;> rfl

theorem allComment_erase : ∀ l : Inlines,
    ((Inline.erases l).all fun e => e.inner.isComment) = l.all fun e => e.inner.isComment
  | [] => rfl
  | ⟨x, _⟩ :: xs => by simp only [Inline.erases, List.all_cons, isComment_erase, allComment_erase xs]

theorem paraLines_erase : ∀ ls : List Inlines, paraLines H c (ls.map Inline.erases) = paraLines H c ls
  | [] => rfl
  | [l] => Inline.htmlAll_erase l
  | l :: m :: ls => by
    have ih := paraLines_erase (m :: ls)
    simp only [List.map_cons] at ih ⊢
    simp only [paraLines, ih, Inline.htmlAll_erase]

theorem paragraphHtml_erase (ls : List Inlines) : paragraphHtml H c (ls.map Inline.erases) = paragraphHtml H c ls := by
  have : blankParagraph (ls.map Inline.erases) = blankParagraph ls := by
    unfold blankParagraph
    rw [List.all_map]
    congr 1
    funext l
    exact allComment_erase l
  unfold paragraphHtml
  rw [this, paraLines_erase]

theorem tableHtml_erase (t : Table) : tableHtml H c t.erase = tableHtml H c t := by
  refine tableHtml_mapped kinds_bare t ?_
  rintro ⟨p, x, r⟩ tag
  cases x with
  | content x =>
    simp only [cellHtml, Cell.bare, Cell.erase, rowspan_mapped kinds_bare, colspan_mapped kinds_bare, Inline.htmlAll_erase]
  | span s => rfl
  | align a => rfl

theorem orderedItems_erase : ∀ xs : List (Located (ItemF Block)), orderedItems (Block.eraseItems xs) = orderedItems xs
  | [] => rfl
  | ⟨⟨_, _, _, _, _⟩, _⟩ :: _ => by rw [Block.eraseItems]; rfl

mutual
theorem Block.html_erase : ∀ x : Block, x.erase.html H c = x.html H c
  | .blockquote _ => rfl
  | .code .. => rfl
  | .defs xs => by rw [Block.erase, Block.html, Block.html, defListHtml_erase]
  | .divider => rfl
  | .header x n b => by
    have : plainHeader H c (Inline.erases x) = plainHeader H c x := by
      funext n id u f
      simp only [plainHeader, Inline.htmlAll_erase]
    rw [Block.erase, Block.html, Block.html]
    simp only [headerHtml, this, Inline.htmlAll_erase, Inline.displayAll_erase]
  | .list xs => by rw [Block.erase, Block.html, Block.html, Block.htmlItems_erase xs, orderedItems_erase]
  | .math .. => rfl
  | .paragraph ls => by rw [Block.erase, Block.html, Block.html, paragraphHtml_erase]
  | .placeholder _ => rfl
  | .table t => by rw [Block.erase, Block.html, Block.html, tableHtml_erase]
theorem Block.htmlItems_erase : ∀ xs : List (Located (ItemF Block)),
    Block.htmlItems H c (Block.eraseItems xs) = Block.htmlItems H c xs
  | [] => rfl
  | ⟨⟨ty, su, pos, cs, td⟩, _⟩ :: xs => by
    rw [Block.eraseItems, Block.htmlItems, Block.htmlItems, Block.htmlContents_erase cs, Block.htmlItems_erase xs]
theorem Block.htmlContents_erase : ∀ xs : List (Located Block),
    Block.htmlContents H c (Block.erases xs) = Block.htmlContents H c xs
  | [] => rfl
  | ⟨x, _⟩ :: xs => by
    rw [Block.erases, Block.htmlContents, Block.htmlContents, Block.html_erase x, Block.htmlContents_erase xs]
end

/-- The HTML of a page does not depend on the places of its elements. -/
theorem pageHtml_erase (pg : Page) : pageHtml H c pg.erase = pageHtml H c pg := by
  unfold pageHtml Page.erase
  generalize pg.elements = xs
  induction xs with
  | nil => rfl
  | cons x xs ih =>
    obtain ⟨x, r⟩ := x
    simp only [Block.erases, each, Block.html_erase] at ih ⊢
    rw [ih]

end Vw
