import Verif.Lemmas.Stacked
import Verif.Spec.Demo

/-!
# C118: blocks are made of whole lines
-/

namespace Vw

set_option maxRecDepth 20000

/-- Every element of a page begins with a line. -/
theorem C118_begin {env : Env} {text : Str} {s' : Span} {pg : Page} (h : parsePage env text = .ok s' pg)
    {x : Located Block} (hx : x ∈ pg.elements) : LineStart text x.region.offset := by
  obtain ⟨s1, s2, e⟩ := element_run h hx
  rw [← e.start]
  exact e.bolAt

/-- Every block of a page, at whatever depth, ends with a line or with the text.  Placeholders are
without the end of their line. -/
theorem C118_end {env : Env} {text : Str} {s' : Span} {pg : Page} (h : parsePage env text = .ok s' pg)
    {y : Located Block} (hy : y ∈ pg.blocks) (hp : ∀ p, y.inner ≠ .placeholder p) :
    LineEdge text (y.region.offset + y.region.len) := block_edge h hy hp

/-- A placeholder ends with the text of its line. -/
theorem C118_placeholder {env : Env} {text : Str} {s' : Span} {pg : Page} (h : parsePage env text = .ok s' pg)
    {x : Located Block} (hx : x ∈ pg.elements) :
    LineEdge text (x.region.offset + x.region.len) ∨
    ∃ q, sub text (x.region.offset + x.region.len) q = b!"\n" ∨
      sub text (x.region.offset + x.region.len) q = b!"\r\n" := by
  obtain ⟨s1, s2, e⟩ := element_run h hx
  have hb := ok_of_run (topLevel_ok e.inn) e.run
  rw [← e.start]
  rcases hb.gap with g | ⟨-, -, g⟩
  · rw [g]
    exact .inl (hb.ends.edge e.full)
  · exact .inr ⟨s2.start, g⟩

/-- The blocks of an item are one after the other, all but the first begin with a line, and the item
ends with the last one. -/
theorem C118_items {env : Env} {text : Str} {s' : Span} {pg : Page} (h : parsePage env text = .ok s' pg)
    {y : Located Block} (hy : y ∈ pg.blocks) {items : List (Located ListItem)} (hi : y.inner = .list items)
    {it : Located ListItem} (hit : it ∈ items) :
    Stacked text it.inner.contents (it.region.offset + it.region.len) := by
  obtain ⟨k, s, s1, n, h1, h2, h3, h4⟩ := page_lists h hy hi
  exact ok_of_run (listOf_stacked (C := Ctx.ofText env text) h1 h2 h3) h4 items hi it hit

/-- The items of a list are all of it but the blanks before them: the first one begins with the list,
each one ends where the line of the next begins, and the list ends with the last one. -/
theorem C118_lists {env : Env} {text : Str} {s' : Span} {pg : Page} (h : parsePage env text = .ok s' pg)
    {y : Located Block} (hy : y ∈ pg.blocks) {items : List (Located ListItem)} (hi : y.inner = .list items) :
    ∃ n, RowsOver text n y.region.offset (items.map (·.region)) (y.region.offset + y.region.len) := by
  obtain ⟨n, b, hr, ⟨-, he⟩, -⟩ := page_items h hy items hi
  obtain ⟨k, s, s1, m, h1, h2, h3, h4⟩ := page_lists h hy hi
  have hb := (ok_of_run (listOf_ok (C := Ctx.ofText env text) h1 (nestedF_ok m) h3) h4).block
  rw [hi] at hb
  rw [he]
  cases hb with
  | list _ _ ha => exact ⟨n, hr.over ha.pos⟩

/-- Two items behind two blanks. -/
example : ∃ s pg, parsePage demo b!"x\n  - a\n    b\n  - c" = .ok s pg ∧
    (pg.blocks.any fun y => match y.inner with
      | .list items => decide (y.region = ⟨2, 17, 0⟩ ∧ (items.map (·.region)) = [⟨4, 10, 1⟩, ⟨16, 3, 1⟩])
      | _ => false) = true :=
  page_test (text := b!"x\n  - a\n    b\n  - c") (fun pg => (pg.blocks.any fun y => match y.inner with
      | .list items => decide (y.region = ⟨2, 17, 0⟩ ∧ (items.map (·.region)) = [⟨4, 10, 1⟩, ⟨16, 3, 1⟩])
      | _ => false) = true) (by decide +kernel)

/-- An item with text, a quote, a list and text again. -/
example : ∃ s pg, parsePage demo b!"x\n- a\n  > b\n  - c\n  d\ny" = .ok s pg ∧
    (pg.elements.map fun x => (x.region.offset, x.region.len)) = [(0, 2), (2, 20), (22, 1)] ∧
    (pg.blocks.any fun y => match y.inner with
      | .list items => items.any fun it => decide ((it.inner.contents.map fun z => z.region.offset) = [4, 6, 12, 18] ∧
          it.region = ⟨2, 20, 1⟩)
      | _ => false) = true :=
  page_test (text := b!"x\n- a\n  > b\n  - c\n  d\ny") (fun pg =>
    (pg.elements.map fun x => (x.region.offset, x.region.len)) = [(0, 2), (2, 20), (22, 1)] ∧
    (pg.blocks.any fun y => match y.inner with
      | .list items => items.any fun it => decide ((it.inner.contents.map fun z => z.region.offset) = [4, 6, 12, 18] ∧
          it.region = ⟨2, 20, 1⟩)
      | _ => false) = true) (by decide +kernel)

end Vw
