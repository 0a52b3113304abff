import Verif.Props.ItemLines
import Verif.Props.PlainStarts
import Verif.Props.DefStarts

/-!
# C110: what is written under an item is inside the item
-/

namespace Vw

set_option maxRecDepth 20000

/-- What a line under an item may be in. -/
theorem under_item {env : Env} {text : Str} {s' : Span} {pg : Page} (h : parsePage env text = .ok s' pg)
    {y : Located Block} (hy : y ∈ pg.blocks) {items : List (Located ListItem)} (hi : y.inner = .list items)
    {it : Located ListItem} (hit : it ∈ items) {q n q' : Nat} (hq : LineStart text q) (ho : it.region.offset = q + n)
    (hbl : AllBlank (sub text q (q + n))) (hlt : q < q') (hq' : LineStart text q')
    (hu : UnderLines text n q (q' + 1)) {K : Nat → Prop} {E : Nat → Located Block → Prop}
    (hK : LineKind (Ctx.ofText env text) K E) (hE : ∀ q r, K q → ¬ E q ⟨.list [], r⟩) (hk : K q')
    {j : Nat} {x : Byte} (hj : FirstByte (Ctx.ofText env text) q' j x) :
    (∃ z ∈ Block.allBlocks it.inner.contents, E q' z) ∨
      Verbatim (Block.allBlocks it.inner.contents) (Block.allInlines it.inner.contents) q' ∨
      (∃ z ∈ Block.allBlocks it.inner.contents, z.region.offset ≤ q' ∧ q' < z.region.offset + z.region.len ∧
        (∃ xs, z.inner = .defs xs) ∧ ColonLine text q') ∨
      ∃ z ∈ Block.allBlocks it.inner.contents, z.region.offset ≤ q' ∧ q' < z.region.offset + z.region.len ∧
        (∃ ls, z.inner = .blockquote ls) ∧ (x = 10 ∨ x = 13 ∨ x = c!">") := by
  have hend := C109_takes_in_partial h hy hi hit hq ho hbl hlt hq' hu
  obtain ⟨n0, b, hr, -, -, hin⟩ := page_items h hy items hi
  obtain ⟨q0, h1, h2, ⟨c, hc⟩, h4, h5, -⟩ := hr.row _ (List.mem_map_of_mem hit)
  obtain ⟨rfl, rfl⟩ := row_unique (C := Ctx.ofText env text) hq h1 (blanks_of hbl) hc.2.1 (by omega)
  obtain ⟨i1, -, i3⟩ := hin _ (List.mem_map_of_mem hit)
  have hlt' : it.region.offset < q' := by
    rcases Nat.lt_or_ge it.region.offset q' with h | h
    · exact h
    · rcases hq' with hq' | hq'
      · omega
      · exact absurd (hc.2.1 (q' - 1) 10 (by omega) (by omega) hq') (by decide)
  rcases i3 _ _ hK hE q' hlt' hend hk with (hh | hh | ⟨z, hz, hins, ⟨ls, hls⟩, -⟩) | hh
  · exact .inr (.inl hh)
  · exact .inr (.inr (.inl hh))
  · exact .inr (.inr (.inr ⟨z, hz, Nat.le_of_lt hins.1, hins.2, ⟨ls, hls⟩,
      (i1 z hz).2 ls hls q' hq' (Nat.le_of_lt hins.1) hins.2 _ _ hj⟩))
  · exact .inl hh

/-- A line with an arrow under an item is in a quote inside the item, unless it is inside a code
block, a math block or a comment in the item, or has two colons and belongs to a definition list
there.  (The full claim has only the first exception.) -/
theorem C110_quote_partial {env : Env} {text : Str} {s' : Span} {pg : Page} (h : parsePage env text = .ok s' pg)
    {y : Located Block} (hy : y ∈ pg.blocks) {items : List (Located ListItem)} (hi : y.inner = .list items)
    {it : Located ListItem} (hit : it ∈ items) {q n q' : Nat} (hq : LineStart text q) (ho : it.region.offset = q + n)
    (hbl : AllBlank (sub text q (q + n))) (hlt : q < q') (hq' : LineStart text q')
    (hu : UnderLines text n q (q' + 1)) (hf : QuoteForm (text.drop q')) :
    (∃ z ∈ Block.allBlocks it.inner.contents, z.region.offset ≤ q' ∧ q' < z.region.offset + z.region.len ∧
      ∃ ls, z.inner = .blockquote ls) ∨
    Verbatim (Block.allBlocks it.inner.contents) (Block.allInlines it.inner.contents) q' ∨
    ∃ z ∈ Block.allBlocks it.inner.contents, z.region.offset ≤ q' ∧ q' < z.region.offset + z.region.len ∧
      (∃ xs, z.inner = .defs xs) ∧ ColonLine text q' := by
  obtain ⟨ws, v, r, e, hw, -⟩ := id hf
  have hj := (firstByte_of (C := Ctx.ofText env text) (q := q') (ws := ws) (x := c!">") e hw (by decide)).1
  rcases under_item h hy hi hit hq ho hbl hlt hq' hu (quoteKind _) (by simp) ⟨hq', hf⟩ hj with
    ⟨z, hz, h1, h2, h3⟩ | h1 | h1 | ⟨z, hz, h1, h2, h3, -⟩
  · exact .inl ⟨z, hz, h2, h3, h1⟩
  · exact .inr (.inl h1)
  · exact .inr (.inr h1)
  · exact .inl ⟨z, hz, h1, h2, h3⟩

/-- A table row under an item is in a table inside the item, with the same exceptions. -/
theorem C110_row_partial {env : Env} {text : Str} {s' : Span} {pg : Page} (h : parsePage env text = .ok s' pg)
    {y : Located Block} (hy : y ∈ pg.blocks) {items : List (Located ListItem)} (hi : y.inner = .list items)
    {it : Located ListItem} (hit : it ∈ items) {q n q' : Nat} (hq : LineStart text q) (ho : it.region.offset = q + n)
    (hbl : AllBlank (sub text q (q + n))) (hlt : q < q') (hq' : LineStart text q')
    (hu : UnderLines text n q (q' + 1)) (hf : RowForm (text.drop q')) :
    (∃ z ∈ Block.allBlocks it.inner.contents, z.region.offset ≤ q' ∧ q' < z.region.offset + z.region.len ∧
      ∃ t, z.inner = .table t) ∨
    Verbatim (Block.allBlocks it.inner.contents) (Block.allInlines it.inner.contents) q' ∨
    ∃ z ∈ Block.allBlocks it.inner.contents, z.region.offset ≤ q' ∧ q' < z.region.offset + z.region.len ∧
      (∃ xs, z.inner = .defs xs) ∧ ColonLine text q' := by
  obtain ⟨ws, w, xs, r, e, hw, -⟩ := id hf
  have hj := (firstByte_of (C := Ctx.ofText env text) (q := q') (ws := ws) (x := c!"|") e hw (by decide)).1
  rcases under_item h hy hi hit hq ho hbl hlt hq' hu (rowKind _) (by simp) ⟨hq', hf⟩ hj with
    ⟨z, hz, h1, h2, h3⟩ | h1 | h1 | ⟨z, hz, h1, h2, h3, h4⟩
  · exact .inl ⟨z, hz, h2, h3, h1⟩
  · exact .inr (.inl h1)
  · exact .inr (.inr h1)
  · exact absurd h4 (by decide)

/-- A definition under an item is in a definition list inside the item, unless it is inside a code
block, a math block or a comment there. -/
theorem C110_definition {env : Env} {text : Str} {s' : Span} {pg : Page} (h : parsePage env text = .ok s' pg)
    {y : Located Block} (hy : y ∈ pg.blocks) {items : List (Located ListItem)} (hi : y.inner = .list items)
    {it : Located ListItem} (hit : it ∈ items) {q n q' : Nat} (hq : LineStart text q) (ho : it.region.offset = q + n)
    (hbl : AllBlank (sub text q (q + n))) (hlt : q < q') (hq' : LineStart text q')
    (hu : UnderLines text n q (q' + 1)) (hf : DefForm (text.drop q')) :
    (∃ z ∈ Block.allBlocks it.inner.contents, z.region.offset ≤ q' ∧ q' < z.region.offset + z.region.len ∧
      ∃ xs, z.inner = .defs xs) ∨
    Verbatim (Block.allBlocks it.inner.contents) (Block.allInlines it.inner.contents) q' := by
  obtain ⟨ws, t, sp, d, r, e, hw, -, -, -, ⟨c, hc, c1, -, -, c2⟩, -⟩ := id hf
  have hj : FirstByte (Ctx.ofText env text) q' (q' + ws.length) c := by
    cases t with
    | nil => cases hc
    | cons c' t =>
      cases hc
      exact (firstByte_of (C := Ctx.ofText env text) (q := q') (ws := ws) (x := c) e hw (by omega)).1
  rcases under_item h hy hi hit hq ho hbl hlt hq' hu (defKind _) (by simp) ⟨hq', hf⟩ hj with
    ⟨z, hz, h1, h2, h3⟩ | h1 | ⟨z, hz, h1, h2, h3, -⟩ | ⟨z, hz, h1, h2, h3, h4⟩
  · exact .inl ⟨z, hz, h2, h3, h1⟩
  · exact .inr h1
  · exact .inl ⟨z, hz, h1, h2, h3⟩
  · exfalso
    rcases h4 with h4 | h4 | h4
    · omega
    · omega
    · exact c2 h4

/-- A line under an item that begins no block is in a paragraph inside the item, unless it is inside a
code block, a math block or a comment there. -/
theorem C110_text {env : Env} {text : Str} {s' : Span} {pg : Page} (h : parsePage env text = .ok s' pg)
    {y : Located Block} (hy : y ∈ pg.blocks) {items : List (Located ListItem)} (hi : y.inner = .list items)
    {it : Located ListItem} (hit : it ∈ items) {q n q' : Nat} (hq : LineStart text q) (ho : it.region.offset = q + n)
    (hbl : AllBlank (sub text q (q + n))) (hlt : q < q') (hq' : LineStart text q')
    (hu : UnderLines text n q (q' + 1)) (hf : PlainForm (text.drop q')) :
    InParagraph (Block.allBlocks it.inner.contents) q' ∨
    Verbatim (Block.allBlocks it.inner.contents) (Block.allInlines it.inner.contents) q' := by
  obtain ⟨ws, x, r, e, hw, hx, h10, h13, -, hgt, -⟩ := hf.first
  have hj := (firstByte_of (C := Ctx.ofText env text) (q := q') (ws := ws) (x := x) e hw hx).1
  rcases under_item h hy hi hit hq ho hbl hlt hq' hu (plainKind _) (by simp [ParaOver]) ⟨hq', hf⟩ hj with
    ⟨z, hz, h1⟩ | h1 | ⟨z, hz, h1, h2, h3, h4⟩ | ⟨z, hz, h1, h2, h3, h4⟩
  · exact .inl ⟨z, hz, h1⟩
  · exact .inr h1
  · exact absurd (colonLine_drop h4) hf.colons
  · exfalso
    rcases h4 with h4 | h4 | h4
    · exact h10 h4
    · exact h13 h4
    · exact hgt h4

/-- An item that begins at `p` has a block of the kind over `q`. -/
def itemHolds (f : Block → Bool) (bs : List (Located Block)) (p q : Nat) : Bool :=
  bs.any fun y => match y.inner with
    | .list items => items.any fun it => it.region.offset == p && blockOver f (Block.allBlocks it.inner.contents) q
    | _ => false

/-- An item with a quote, a row, a definition, an item and text under it. -/
example : ∃ s pg, parsePage demo b!"- a\n  > b\n  |c|\n  d:: e\n  - f\n    gg\n" = .ok s pg ∧
    UnderLines b!"- a\n  > b\n  |c|\n  d:: e\n  - f\n    gg\n" 0 0 31 ∧
    (LineStart b!"- a\n  > b\n  |c|\n  d:: e\n  - f\n    gg\n" 4 ∧ LineStart b!"- a\n  > b\n  |c|\n  d:: e\n  - f\n    gg\n" 10 ∧ LineStart b!"- a\n  > b\n  |c|\n  d:: e\n  - f\n    gg\n" 16 ∧ LineStart b!"- a\n  > b\n  |c|\n  d:: e\n  - f\n    gg\n" 30) ∧
    QuoteForm ((b!"- a\n  > b\n  |c|\n  d:: e\n  - f\n    gg\n" : Str).drop 4) ∧
    RowForm ((b!"- a\n  > b\n  |c|\n  d:: e\n  - f\n    gg\n" : Str).drop 10) ∧
    DefForm ((b!"- a\n  > b\n  |c|\n  d:: e\n  - f\n    gg\n" : Str).drop 16) ∧
    PlainForm ((b!"- a\n  > b\n  |c|\n  d:: e\n  - f\n    gg\n" : Str).drop 30) ∧
    itemHolds Block.isQuote pg.blocks 0 4 = true ∧ itemHolds Block.isTable pg.blocks 0 10 = true ∧
    itemHolds Block.isDefs pg.blocks 0 16 = true ∧ itemHolds Block.isParagraph pg.blocks 0 30 = true := by
  obtain ⟨s, pg, h, h'⟩ := page_test (text := b!"- a\n  > b\n  |c|\n  d:: e\n  - f\n    gg\n")
    (fun pg => itemHolds Block.isQuote pg.blocks 0 4 = true ∧ itemHolds Block.isTable pg.blocks 0 10 = true ∧
      itemHolds Block.isDefs pg.blocks 0 16 = true ∧ itemHolds Block.isParagraph pg.blocks 0 30 = true)
    (by decide +kernel)
  have hc := cellShape_letter (c := c!"c") (w := []) (by decide) (by decide) (by decide)
  refine ⟨s, pg, h, ?_, ⟨.inr rfl, .inr rfl, .inr rfl, .inr rfl⟩, ?_, ?_, ?_, ?_, h'⟩
  · intro p p1 p2 hp
    have hp : p = 4 ∨ p = 10 ∨ p = 16 ∨ p = 24 ∨ p = 30 := by
      rcases hp with hp | hp
      · omega
      · exact (by decide : ∀ p, p < 31 → 0 < p → (b!"- a\n  > b\n  |c|\n  d:: e\n  - f\n    gg\n" : Str)[p - 1]? = some 10 →
          p = 4 ∨ p = 10 ∨ p = 16 ∨ p = 24 ∨ p = 30) p p2 p1 hp
    rcases hp with rfl | rfl | rfl | rfl | rfl
    · exact under_of (u := b!"  ") (x := c!">") (by simp [AllBlank]) (by decide) (by decide) (by decide) (by decide) (by decide)
    · exact under_of (u := b!"  ") (x := c!"|") (by simp [AllBlank]) (by decide) (by decide) (by decide) (by decide) (by decide)
    · exact under_of (u := b!"  ") (x := c!"d") (by simp [AllBlank]) (by decide) (by decide) (by decide) (by decide) (by decide)
    · exact under_of (u := b!"  ") (x := c!"-") (by simp [AllBlank]) (by decide) (by decide) (by decide) (by decide) (by decide)
    · exact under_of (u := b!"    ") (x := c!"g") (by simp [AllBlank]) (by decide) (by decide) (by decide) (by decide) (by decide)
  · exact ⟨b!"  ", b!"b", _, rfl, by simp [AllBlank], ⟨by decide, .inr (.inl ⟨_, rfl, by decide⟩)⟩, by decide⟩
  · exact ⟨b!"  ", b!"c", [], _, rfl, by simp [AllBlank], by simpa using hc.1, hc.2, .inr (.inl ⟨_, rfl⟩)⟩
  · exact ⟨b!"  ", b!"d", b!" ", b!"e", _, rfl, by simp [AllBlank], by simp [AllBlank], by simp,
      termText_word (by decide) (by simp), ⟨_, rfl, by decide, by decide, by decide, by decide⟩, ⟨_, rfl, by decide⟩,
      ⟨by decide, .inr (.inl ⟨_, rfl, by decide⟩)⟩⟩
  · exact plainForm_word (c := c!"g") (w := b!"g") (r := b!"\n") (by decide) (by decide) (by decide)
      (ws := b!"    ") (by simp [AllBlank])

/-- Lines with two colons under an item are definitions, whatever else they look like. -/
theorem C110_colons_violated :
    (∃ s pg, parsePage demo b!"- a\n  > b :: c\n" = .ok s pg ∧ itemHolds Block.isQuote pg.blocks 0 4 = false ∧
      itemHolds Block.isDefs pg.blocks 0 4 = true) ∧
    ∃ s pg, parsePage demo b!"- a\n  |b :: c|\n" = .ok s pg ∧ itemHolds Block.isTable pg.blocks 0 4 = false ∧
      itemHolds Block.isDefs pg.blocks 0 4 = true :=
  ⟨page_test _ (by decide +kernel), page_test _ (by decide +kernel)⟩

end Vw
