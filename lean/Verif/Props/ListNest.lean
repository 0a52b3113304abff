import Verif.Props.ListWhole

/-!
# C108: lists nest by indentation
-/

namespace Vw

set_option maxRecDepth 20000

theorem blanks_of {C : Ctx} {a b : Nat} (h : AllBlank (sub C.inner a b)) : Blanks C a b :=
  fun i c i1 i2 hc => AllBlank.iff.1 h c (mem_sub.2 ⟨i, i1, i2, hc⟩)

theorem blanks_to {C : Ctx} {a b : Nat} (h : Blanks C a b) : AllBlank (sub C.inner a b) := by
  refine AllBlank.iff.2 fun c hc => ?_
  obtain ⟨i, i1, i2, i3⟩ := mem_sub.1 hc
  exact h i c i1 i2 i3

/-- The items of all lists inside an item, at whatever depth, stand at the beginnings of lines and
have more blanks before them than the item. -/
theorem C108_deeper {env : Env} {text : Str} {s' : Span} {pg : Page} (h : parsePage env text = .ok s' pg)
    {y : Located Block} (hy : y ∈ pg.blocks) {items : List (Located ListItem)} (hi : y.inner = .list items)
    {it : Located ListItem} (hit : it ∈ items) {q n : Nat} (hq : LineStart text q) (ho : it.region.offset = q + n)
    (hbl : AllBlank (sub text q (q + n)))
    {z : Located Block} (hz : z ∈ Block.allBlocks it.inner.contents) {its : List (Located ListItem)}
    (hzi : z.inner = .list its) {it' : Located ListItem} (hit' : it' ∈ its) :
    ∃ q' n', LineStart text q' ∧ it'.region.offset = q' + n' ∧ AllBlank (sub text q' (q' + n')) ∧ n < n' := by
  obtain ⟨n0, b, hr, -, -, hin⟩ := page_items h hy items hi
  obtain ⟨q0, h1, h2, ⟨c, hc⟩, -⟩ := hr.row _ (List.mem_map_of_mem hit)
  obtain ⟨rfl, rfl⟩ := row_unique (C := Ctx.ofText env text) hq h1 (blanks_of hbl) hc.2.1 (by omega)
  obtain ⟨n', b', hn', hr'⟩ := ((hin _ (List.mem_map_of_mem hit)).1 z hz).1 its hzi
  obtain ⟨q', h1', h2', ⟨c', hc'⟩, -⟩ := hr'.row _ (List.mem_map_of_mem hit')
  exact ⟨q', n', h1', h2', blanks_to hc'.2.1, hn'⟩

theorem item_no_list (C : Ctx) (q : Nat) (r : Region) (hq : Bol C q ∧ ∃ n, ItemForm (C.inner.drop q) n) :
    ¬ ∀ n, ItemForm (C.inner.drop q) n → ItemsHave ⟨.list [], r⟩ (q + n) := by
  intro h
  obtain ⟨-, n, hf⟩ := hq
  obtain ⟨items, e, it, hit, -⟩ := h n hf
  cases e
  cases hit

/-- If a line with an item is followed by lines that are indented more, not blank and no headers, and
the last of them is written as an item, that is an item of a list inside the first item, unless it is
inside a code block, a math block or a comment in the item, or it has two colons and belongs to a
definition list there.  (The full claim does not have the last exception, nor that about headers.) -/
theorem C108_inner_partial {env : Env} {text : Str} {s' : Span} {pg : Page} (h : parsePage env text = .ok s' pg)
    {y : Located Block} (hy : y ∈ pg.blocks) {items : List (Located ListItem)} (hi : y.inner = .list items)
    {it : Located ListItem} (hit : it ∈ items) {q n q' n' : Nat} (hq : LineStart text q) (ho : it.region.offset = q + n)
    (hbl : AllBlank (sub text q (q + n))) (hlt : q < q') (hq' : LineStart text q')
    (hf' : ItemForm (text.drop q') n') (hn : n < n') (hu : UnderLines text n q q') :
    q' < it.region.offset + it.region.len ∧
    ((∃ z ∈ Block.allBlocks it.inner.contents, ItemsHave z (q' + n')) ∨
      Verbatim (Block.allBlocks it.inner.contents) (Block.allInlines it.inner.contents) q' ∨
      ∃ z ∈ Block.allBlocks it.inner.contents, z.region.offset ≤ q' ∧ q' < z.region.offset + z.region.len ∧
        (∃ xs, z.inner = .defs xs) ∧ ColonLine text q') := by
  obtain ⟨n0, b, hr, -, -, hin⟩ := page_items h hy items hi
  obtain ⟨q0, h1, h2, ⟨c, hc⟩, h4, h5, -⟩ := hr.row _ (List.mem_map_of_mem hit)
  obtain ⟨d', hd', -, hne, hd2⟩ := ItemForm.first (C := Ctx.ofText env text) hf'
  obtain ⟨rfl, rfl⟩ := row_unique (C := Ctx.ofText env text) hq h1 (blanks_of hbl) hc.2.1 (by omega)
  obtain ⟨i1, i2, i3⟩ := hin _ (List.mem_map_of_mem hit)
  have hnl : text[q' - 1]? = some 10 := by
    rcases hq' with h | h
    · omega
    · exact h
  have hlt' : it.region.offset < q' := by
    rcases Nat.lt_or_ge it.region.offset q' with h | h
    · exact h
    · exact absurd (hc.2.1 (q' - 1) 10 (by omega) (by omega) hnl) (by decide)
  have hlen : q' < text.length := by
    rcases Nat.lt_or_ge q' text.length with h | h
    · exact h
    · have := hd'.2.2.1
      have e : (Ctx.ofText env text).inner = text := rfl
      rw [e, List.getElem?_eq_none (by omega)] at this
      cases this
  have hle := stop_under (C := Ctx.ofText env text) i2 h5 h4 hlen hu
  have hle : q' ≤ it.region.offset + it.region.len := hle
  have hend : q' < it.region.offset + it.region.len := by
    rcases Nat.eq_or_lt_of_le hle with e | e
    · exfalso
      have i2 : ItemStop (Ctx.ofText env text) n0 (it.region.offset + it.region.len) := i2
      rw [← e] at i2
      rcases i2 _ _ hd' with h | h | ⟨m, cc, mid, h⟩
      · omega
      · have hg : text[q' + n']? = some d' := hd'.2.2.1
        rw [show (Ctx.ofText env text).inner = text from rfl, drop_cons_of hg] at h
        rcases h with h | ⟨t, h⟩ | ⟨t, h⟩
        · cases h
        · have := (List.cons.inj h).1
          omega
        · have := (List.cons.inj h).1
          omega
      · obtain ⟨w, r, e, hw⟩ := h.begins
        have := firstByte_of (C := Ctx.ofText env text) (q := q') (x := c!"=") (by simpa using e) hw (by decide)
        have := (hd'.uniq this.1).2
        omega
    · exact e
  refine ⟨hend, ?_⟩
  rcases i3 _ _ (itemKind _) (item_no_list _) _ hlt' hend ⟨hq', n', hf'⟩ with (hh | hh | ⟨z, hz, hins, ⟨ls, hls⟩, -⟩) | ⟨z, hz, hh⟩
  · exact .inr (.inl hh)
  · exact .inr (.inr hh)
  · have := (i1 z hz).2 ls hls q' hq' (Nat.le_of_lt hins.1) hins.2 _ _ hd'
    have e : c!">" = 62 := rfl
    omega
  · exact .inl ⟨z, hz, hh n' hf'⟩

/-- Whether a list has an item at `p` that has a list with items at the places `ps` in it. -/
def itemOver (bs : List (Located Block)) (p : Nat) (ps : List Nat) : Bool :=
  bs.any fun y => match y.inner with
    | .list items => items.any fun it => it.region.offset == p && listOfOffsets (Block.allBlocks it.inner.contents) ps
    | _ => false

/-- Lists in lists: the third line is an item of a list inside the first item. -/
example : ∃ s pg, parsePage demo b!"- a\n  - b\n    1. c\n  - d\n- e\n" = .ok s pg ∧
    LineStart b!"- a\n  - b\n    1. c\n  - d\n- e\n" 10 ∧
    ItemForm ((b!"- a\n  - b\n    1. c\n  - d\n- e\n" : Str).drop 10) 4 ∧
    UnderLines b!"- a\n  - b\n    1. c\n  - d\n- e\n" 0 0 10 ∧
    itemOver pg.blocks 0 [6, 21] = true ∧ itemOver pg.blocks 0 [14] = true ∧ itemOver pg.blocks 6 [14] = true := by
  obtain ⟨s, pg, h, h'⟩ := page_test (text := b!"- a\n  - b\n    1. c\n  - d\n- e\n")
    (fun pg => itemOver pg.blocks 0 [6, 21] = true ∧ itemOver pg.blocks 0 [14] = true ∧
      itemOver pg.blocks 6 [14] = true) (by decide +kernel)
  refine ⟨s, pg, h, .inr rfl,
    ⟨b!"    ", _, _, b!"1. ", b!"c", _, rfl, by simp [AllBlank], rfl,
      .period (ty := .number) (w := b!"1") ⟨by simp, by simp [DigitByte], by simp [DigitByte]⟩,
    ⟨by decide, .inr (.inl ⟨_, rfl, by decide⟩)⟩, fun td v' e => ?_⟩, ?_, h'⟩
  · rw [no_todo (by decide) e]
    exact ⟨c!"c", by decide, by decide⟩
  · intro p p1 p2 hp
    have hp : p = 4 := by
      rcases hp with hp | hp
      · omega
      · exact (by decide : ∀ p, p < 10 → 0 < p →
          (b!"- a\n  - b\n    1. c\n  - d\n- e\n" : Str)[p - 1]? = some 10 → p = 4) p p2 p1 hp
    subst hp
    exact under_of (u := b!"  ") (x := c!"-") (by simp [AllBlank]) (by decide) (by decide) (by decide) (by decide) (by decide)

/-- An item with two colons inside an item is read as a definition. -/
theorem C108_colons_violated :
    (∃ s pg, parsePage demo b!"- a\n  - b :: c\n" = .ok s pg ∧ itemAt pg.blocks 6 = false ∧ itemAt pg.blocks 0 = true ∧
      verbatimAny pg = false) ∧
    ∃ s pg, parsePage demo b!"- a\n  - b : c\n" = .ok s pg ∧ itemOver pg.blocks 0 [6] = true :=
  ⟨page_test _ (by decide +kernel), page_test _ (by decide +kernel)⟩

end Vw
