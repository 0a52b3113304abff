import Verif.Lemmas.ItemWhole
import Verif.Props.BlockStarts
import Verif.Spec.Demo

/-!
# C106: blocks in items of lists take in all lines that belong to them
-/

namespace Vw

set_option maxRecDepth 20000

/-- In an item of a list, no paragraph is followed by a paragraph, no table by a table, no definition
list by a definition list and no quote by a quote.  If a list is followed by a list, their first items
have different indentations. -/
theorem C106_items {env : Env} {text : Str} {s' : Span} {pg : Page} (h : parsePage env text = .ok s' pg)
    {y : Located Block} (hy : y ∈ pg.blocks) {items : List (Located ListItem)} (hi : y.inner = .list items)
    {it : Located ListItem} (hit : it ∈ items) : KindsApart text it.inner.contents := by
  obtain ⟨k, s, s1, n, h1, h2, h3, h4⟩ := page_lists h hy hi
  exact ok_of_run (listOf_apart (C := Ctx.ofText env text) h1 h2 h3) h4 items hi it hit

/-- An item with text, a quote and text again. -/
example : ∃ s pg, parsePage demo b!"- a\n  b\n  > c\n  > d\n  |e|\n  f\n" = .ok s pg ∧
    (pg.blocks.any fun y => match y.inner with
      | .list items => items.any fun it => decide (it.inner.contents.length = 4)
      | _ => false) = true :=
  page_test (text := b!"- a\n  b\n  > c\n  > d\n  |e|\n  f\n") (fun pg => pg.blocks.any fun y => match y.inner with
      | .list items => items.any fun it => decide (it.inner.contents.length = 4)
      | _ => false) (by decide +kernel)

/-- Two lists next to each other in an item. -/
example : ∃ s pg, parsePage demo b!"- a\n    - b\n  - c\n" = .ok s pg ∧
    (pg.blocks.any fun y => match y.inner with
      | .list items => items.any fun it => match it.inner.contents with
        | [_, ⟨.list _, r⟩, ⟨.list _, r'⟩] => decide (r = ⟨4, 8, 2⟩ ∧ r' = ⟨12, 6, 2⟩)
        | _ => false
      | _ => false) = true ∧
    ItemForm (b!"- a\n    - b\n  - c\n".drop 4) 4 ∧ ItemForm (b!"- a\n    - b\n  - c\n".drop 12) 2 := by
  obtain ⟨s, pg, h, h'⟩ := page_test (text := b!"- a\n    - b\n  - c\n") (fun pg =>
    pg.blocks.any fun y => match y.inner with
      | .list items => items.any fun it => match it.inner.contents with
        | [_, ⟨.list _, r⟩, ⟨.list _, r'⟩] => decide (r = ⟨4, 8, 2⟩ ∧ r' = ⟨12, 6, 2⟩)
        | _ => false
      | _ => false) (by decide +kernel)
  refine ⟨s, pg, h, h', ⟨b!"    ", _, _, b!"- ", b!"b", b!"\n  - c\n", rfl, by simp [AllBlank], rfl, .hyphen,
    ⟨by decide, .inr (.inl ⟨_, rfl, by decide⟩)⟩, fun td v' e => ?_⟩,
    ⟨b!"  ", _, _, b!"- ", b!"c", [10], rfl, by simp [AllBlank], rfl, .hyphen,
    ⟨by decide, .inr (.inl ⟨_, rfl, by decide⟩)⟩, fun td v' e => ?_⟩⟩
  · rw [no_todo (by decide) e]
    exact ⟨c!"b", by decide, by decide⟩
  · rw [no_todo (by decide) e]
    exact ⟨c!"c", by decide, by decide⟩

end Vw
