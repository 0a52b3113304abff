import Verif.Props.ListNest

/-!
# C109: the lines of an item
-/

namespace Vw

set_option maxRecDepth 20000

/-- The lines after that of an item belong to the item as long as they are indented more, not blank
and no headers.  (The full claim is that headers belong to it, too.) -/
theorem C109_takes_in_partial {env : Env} {text : Str} {s' : Span} {pg : Page} (h : parsePage env text = .ok s' pg)
    {y : Located Block} (hy : y ∈ pg.blocks) {items : List (Located ListItem)} (hi : y.inner = .list items)
    {it : Located ListItem} (hit : it ∈ items) {q n q' : Nat} (hq : LineStart text q) (ho : it.region.offset = q + n)
    (hbl : AllBlank (sub text q (q + n))) (hlt : q < q') (hq' : LineStart text q')
    (hu : UnderLines text n q (q' + 1)) : q' < it.region.offset + it.region.len := by
  obtain ⟨n0, b, hr, -, -, hin⟩ := page_items h hy items hi
  obtain ⟨q0, h1, h2, ⟨c, hc⟩, h4, h5, -⟩ := hr.row _ (List.mem_map_of_mem hit)
  obtain ⟨rfl, rfl⟩ := row_unique (C := Ctx.ofText env text) hq h1 (blanks_of hbl) hc.2.1 (by omega)
  obtain ⟨-, i2, -⟩ := hin _ (List.mem_map_of_mem hit)
  have i2 : ItemStop (Ctx.ofText env text) n0 (it.region.offset + it.region.len) := i2
  have hf := hu q' hlt (Nat.lt_succ_self _) hq'
  obtain ⟨j, x, hj, hj1, hj2⟩ := UnderForm.byte (C := Ctx.ofText env text) hf
  have hlen : q' < text.length := by
    rcases Nat.lt_or_ge q' text.length with h | h
    · exact h
    · have := hj.2.2.1
      have e : (Ctx.ofText env text).inner = text := rfl
      rw [e, List.getElem?_eq_none (by omega)] at this
      cases this
  have hle := stop_under (C := Ctx.ofText env text) (q' := q') i2 h5 h4 hlen (fun p p1 p2 => hu p p1 (by omega))
  rcases Nat.eq_or_lt_of_le hle with e | e
  · exfalso
    rw [← e] at i2
    rcases i2 _ _ hj with h | h | ⟨m, cc, mid, h⟩
    · omega
    · exact hj2 h
    · exact hf.header _ _ _ h
  · exact e

/-- An item has no line after its first that is not indented more than it. -/
theorem C109_ends {env : Env} {text : Str} {s' : Span} {pg : Page} (h : parsePage env text = .ok s' pg)
    {y : Located Block} (hy : y ∈ pg.blocks) {items : List (Located ListItem)} (hi : y.inner = .list items)
    {it : Located ListItem} (hit : it ∈ items) {q n q' : Nat} (hq : LineStart text q) (ho : it.region.offset = q + n)
    (hbl : AllBlank (sub text q (q + n))) (hlt : q < q') (hq' : LineStart text q')
    {ws r : Str} {x : Byte} (hf : text.drop q' = ws ++ x :: r) (hw : AllBlank ws) (hx : ¬ (x = 32 ∨ x = 9))
    (hn : ws.length ≤ n) : it.region.offset + it.region.len ≤ q' := by
  obtain ⟨n0, b, hr, -, -, hin⟩ := page_items h hy items hi
  obtain ⟨q0, h1, h2, ⟨c, hc⟩, h4, h5, h6, -⟩ := hr.row _ (List.mem_map_of_mem hit)
  obtain ⟨rfl, rfl⟩ := row_unique (C := Ctx.ofText env text) hq h1 (blanks_of hbl) hc.2.1 (by omega)
  have hj := (firstByte_of (C := Ctx.ofText env text) (q := q') hf hw hx).1
  refine h6 q' _ _ hlt ?_ hj (by omega)
  rcases hq' with h | h
  · omega
  · exact h

/-- A list on the page with an item from `a` to `b`. -/
def itemFromTo (bs : List (Located Block)) (a b : Nat) : Bool :=
  bs.any fun y => match y.inner with
    | .list items => items.any fun it => it.region.offset == a && it.region.offset + it.region.len == b
    | _ => false

/-- An item with a table and a line of text; the line after them is not indented. -/
example : ∃ s pg, parsePage demo b!"- a\n |b|\n c\nd\n" = .ok s pg ∧
    LineStart b!"- a\n |b|\n c\nd\n" 9 ∧ UnderLines b!"- a\n |b|\n c\nd\n" 0 0 10 ∧
    LineStart b!"- a\n |b|\n c\nd\n" 12 ∧ (b!"- a\n |b|\n c\nd\n" : Str).drop 12 = [] ++ c!"d" :: b!"\n" ∧
    itemFromTo pg.blocks 0 12 = true := by
  obtain ⟨s, pg, h, h'⟩ := page_test (text := b!"- a\n |b|\n c\nd\n")
    (fun pg => itemFromTo pg.blocks 0 12 = true) (by decide +kernel)
  refine ⟨s, pg, h, .inr rfl, ?_, .inr rfl, rfl, h'⟩
  intro p p1 p2 hp
  have hp : p = 4 ∨ p = 9 := by
    rcases hp with hp | hp
    · omega
    · exact (by decide : ∀ p, p < 10 → 0 < p →
        (b!"- a\n |b|\n c\nd\n" : Str)[p - 1]? = some 10 → p = 4 ∨ p = 9) p p2 p1 hp
  rcases hp with rfl | rfl
  · exact under_of (u := b!" ") (x := c!"|") (by simp [AllBlank]) (by decide) (by decide) (by decide) (by decide) (by decide)
  · exact under_of (u := b!" ") (x := c!"c") (by simp [AllBlank]) (by decide) (by decide) (by decide) (by decide) (by decide)

/-- A header does not belong to the item it is indented under. -/
theorem C109_header_violated :
    ∃ s pg, parsePage demo b!"- a\n  = h =\n" = .ok s pg ∧ itemFromTo pg.blocks 0 4 = true :=
  page_test _ (by decide +kernel)

end Vw
