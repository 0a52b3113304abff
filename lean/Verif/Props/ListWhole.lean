import Verif.Lemmas.ListWhole
import Verif.Spec.ListLines
import Verif.Props.BlockStarts

/-!
# C107: items that follow each other are in one list
-/

namespace Vw

set_option maxRecDepth 20000

/-- The items of a list, at whatever depth, stand at the beginnings of lines and have the same number
of blanks before them; and where an item ends, if the text goes on with an item with that number of
blanks, it is an item of the same list. -/
theorem C107_items {env : Env} {text : Str} {s' : Span} {pg : Page} (h : parsePage env text = .ok s' pg)
    {y : Located Block} (hy : y ∈ pg.blocks) {items : List (Located ListItem)} (hi : y.inner = .list items) :
    ∃ n, (∀ it ∈ items, ∃ q, LineStart text q ∧ it.region.offset = q + n ∧ AllBlank (sub text q (q + n))) ∧
      ∀ it ∈ items, LineStart text (it.region.offset + it.region.len) →
        ItemForm (text.drop (it.region.offset + it.region.len)) n →
        ∃ it' ∈ items, it'.region.offset = it.region.offset + it.region.len + n := by
  obtain ⟨n, b, hr, -, hb, -⟩ := page_items h hy items hi
  refine ⟨n, ?_, ?_⟩
  · intro it hit
    obtain ⟨q, hq⟩ := hr.row _ (List.mem_map_of_mem hit)
    obtain ⟨x, -, hbl, -⟩ := hq.2.2.1
    refine ⟨q, hq.1, hq.2.1, AllBlank.iff.2 fun c hc => ?_⟩
    obtain ⟨i, i1, i2, i3⟩ := mem_sub.1 hc
    exact hbl i c i1 i2 i3
  · intro it hit hl hf
    obtain ⟨r', hr', e⟩ := hr.next hb _ (List.mem_map_of_mem hit) hl hf
    obtain ⟨it', hit', rfl⟩ := List.mem_map.1 hr'
    exact ⟨it', hit', e⟩

theorem UnderForm.byte {C : Ctx} {p n : Nat} (h : UnderForm (C.inner.drop p) n) :
    ∃ j x, FirstByte C p j x ∧ p + n < j ∧ ¬ EolHere (C.inner.drop j) := by
  obtain ⟨ws, v, e, hw, hl, hv, he⟩ := h.first
  cases v with
  | nil => exact absurd (.inl rfl) he
  | cons x v =>
    have hd : C.inner.drop (p + ws.length) = x :: v := by
      rw [← List.drop_drop, e, List.drop_left]
    refine ⟨p + ws.length, x, (firstByte_of (C := C) (q := p) (ws := ws) (x := x) e hw (hv x rfl)).1, by omega, ?_⟩
    rw [hd]; exact he

/-- Where an item ends. -/
theorem stop_under {C : Ctx} {n q q' e : Nat} (hs : ItemStop C n e) (hb : Bol C e ∨ e = C.inner.length)
    (hq : q < e) (hl : q' < C.inner.length) (hu : UnderLines C.inner n q q') : q' ≤ e := by
  rcases Nat.lt_or_ge e q' with he | he
  · exfalso
    rcases hb with hb | hb
    · have h := hu e hq he hb
      obtain ⟨j, x, hj, hlt, hno⟩ := h.byte
      rcases hs j x hj with h1 | h1 | ⟨m, c, mid, h1⟩
      · omega
      · exact hno h1
      · exact h.header m c mid h1
    · omega
  · exact he

/-- The blanks before an item are counted from one place only. -/
theorem row_unique {C : Ctx} {q q0 n n0 : Nat} (hq : Bol C q) (hq0 : Bol C q0) (hb : Blanks C q (q + n))
    (hb0 : Blanks C q0 (q0 + n0)) (e : q + n = q0 + n0) : q0 = q ∧ n0 = n := by
  rcases Nat.lt_trichotomy q0 q with h | h | h
  · rcases hq with hq | hq
    · omega
    · exact absurd (hb0 (q - 1) 10 (by omega) (by omega) hq) (by decide)
  · omega
  · rcases hq0 with hq0 | hq0
    · omega
    · exact absurd (hb (q0 - 1) 10 (by omega) (by omega) hq0) (by decide)

/-- If two lines are written as items with the same number of blanks before them, the lines between
them are indented more, not blank and no headers, and the first is an item of a list, at whatever
depth, the second is an item of that list.  (The full claim is that this is so too with headers
between them.) -/
theorem C107_same_list_partial {env : Env} {text : Str} {s' : Span} {pg : Page} (h : parsePage env text = .ok s' pg)
    {q q' n : Nat} (hq : LineStart text q) (hf : ItemForm (text.drop q) n) (hlt : q < q') (hq' : LineStart text q')
    (hf' : ItemForm (text.drop q') n) (hu : UnderLines text n q q')
    {y : Located Block} (hy : y ∈ pg.blocks) (hi : ItemsHave y (q + n)) : ItemsHave y (q' + n) := by
  obtain ⟨items, hi, it, hit, hoff⟩ := hi
  refine ⟨items, hi, ?_⟩
  obtain ⟨n', b, hr, -, hb, hin⟩ := page_items h hy items hi
  obtain ⟨q0, h1, h2, ⟨c, hc⟩, h4, h5, h6, -⟩ := hr.row _ (List.mem_map_of_mem hit)
  obtain ⟨d, hd, -⟩ := ItemForm.first (C := Ctx.ofText env text) hf
  obtain ⟨d', hd', -⟩ := ItemForm.first (C := Ctx.ofText env text) hf'
  obtain ⟨rfl, rfl⟩ := row_unique (C := Ctx.ofText env text) hq h1 hd.2.1 hc.2.1 (by omega)
  have hnl : text[q' - 1]? = some 10 := by
    rcases hq' with h | h
    · omega
    · exact h
  have hlen : q' < text.length := by
    rcases Nat.lt_or_ge q' text.length with h | h
    · exact h
    · have := hd'.2.2.1
      have e : (Ctx.ofText env text).inner = text := rfl
      rw [e, List.getElem?_eq_none (by omega)] at this
      cases this
  have hend : it.region.offset + it.region.len = q' := by
    have e1 := h6 q' _ _ hlt hnl hd' (Nat.le_refl _)
    have e2 := stop_under (C := Ctx.ofText env text) (hin _ (List.mem_map_of_mem hit)).2.1 h5 h4 hlen hu
    have e2 : q' ≤ it.region.offset + it.region.len := e2
    omega
  obtain ⟨r', hr', e⟩ := hr.next hb _ (List.mem_map_of_mem hit) (by rw [hend]; exact hq') (by rw [hend]; exact hf')
  obtain ⟨it', hit', rfl⟩ := List.mem_map.1 hr'
  exact ⟨it', hit', by rw [e, hend]⟩

theorem under_of {u v : Str} {x : Byte} {n : Nat} (hu : AllBlank u) (hn : n < u.length) (hx : ¬ (x = 32 ∨ x = 9))
    (h1 : x ≠ 10) (h2 : x ≠ 13) (h3 : x ≠ c!"=") : UnderForm (u ++ x :: v) n := by
  refine ⟨⟨u, x :: v, rfl, hu, hn, fun c e => by cases e; exact hx, ?_⟩, ?_⟩
  · rintro (h | ⟨t, h⟩ | ⟨t, h⟩) <;> cases h <;> contradiction
  · intro m c mid hf
    obtain ⟨w, r, e, hw⟩ := hf.begins
    have a1 := firstByte_of (C := Ctx.ofText demo (u ++ x :: v)) (q := 0) rfl hu hx
    have a2 := firstByte_of (C := Ctx.ofText demo (u ++ x :: v)) (q := 0) (ws := w) (x := c!"=") (r := r) e hw (by decide)
    exact h3 (a1.1.uniq a2.1).2

/-- A list on the page with the items at these places. -/
def listOfOffsets (bs : List (Located Block)) (ps : List Nat) : Bool :=
  bs.any fun y => match y.inner with
    | .list items => items.map (·.region.offset) == ps
    | _ => false

/-- A list in a list: there are other lines between the items of the outer one. -/
example : ∃ s pg, parsePage demo b!"- a\n  - b\n  - c\n    x\n- d\n" = .ok s pg ∧
    LineStart b!"- a\n  - b\n  - c\n    x\n- d\n" 0 ∧ LineStart b!"- a\n  - b\n  - c\n    x\n- d\n" 22 ∧
    ItemForm ((b!"- a\n  - b\n  - c\n    x\n- d\n" : Str).drop 0) 0 ∧
    ItemForm ((b!"- a\n  - b\n  - c\n    x\n- d\n" : Str).drop 22) 0 ∧
    UnderLines b!"- a\n  - b\n  - c\n    x\n- d\n" 0 0 22 ∧
    listOfOffsets pg.blocks [6, 12] = true ∧ listOfOffsets pg.blocks [0, 22] = true := by
  obtain ⟨s, pg, h, h'⟩ := page_test (text := b!"- a\n  - b\n  - c\n    x\n- d\n")
    (fun pg => listOfOffsets pg.blocks [6, 12] = true ∧ listOfOffsets pg.blocks [0, 22] = true) (by decide +kernel)
  refine ⟨s, pg, h, .inl rfl, .inr rfl, ⟨b!"", _, _, b!"- ", b!"a", _, rfl, by simp [AllBlank], rfl, .hyphen,
    ⟨by decide, .inr (.inl ⟨_, rfl, by decide⟩)⟩, fun td v' e => ?_⟩,
    ⟨b!"", _, _, b!"- ", b!"d", _, rfl, by simp [AllBlank], rfl, .hyphen,
    ⟨by decide, .inr (.inl ⟨_, rfl, by decide⟩)⟩, fun td v' e => ?_⟩, ?_, h'⟩
  · rw [no_todo (by decide) e]
    exact ⟨c!"a", by decide, by decide⟩
  · rw [no_todo (by decide) e]
    exact ⟨c!"d", by decide, by decide⟩
  · intro p p1 p2 hp
    have hp : p = 4 ∨ p = 10 ∨ p = 16 := by
      rcases hp with hp | hp
      · omega
      · exact (by decide : ∀ p, p < 22 → 0 < p →
          (b!"- a\n  - b\n  - c\n    x\n- d\n" : Str)[p - 1]? = some 10 → p = 4 ∨ p = 10 ∨ p = 16) p p2 p1 hp
    rcases hp with rfl | rfl | rfl
    · exact under_of (u := b!"  ") (x := c!"-") (by simp [AllBlank]) (by decide) (by decide) (by decide) (by decide) (by decide)
    · exact under_of (u := b!"  ") (x := c!"-") (by simp [AllBlank]) (by decide) (by decide) (by decide) (by decide) (by decide)
    · exact under_of (u := b!"    ") (x := c!"x") (by simp [AllBlank]) (by decide) (by decide) (by decide) (by decide) (by decide)

/-- What stands between two items can part them: an indented line that begins no block of an item
ends the list. -/
theorem C107_indented_header_violated :
    (∃ s pg, parsePage demo b!"- a\n  = h =\n- b\n" = .ok s pg ∧ listOfOffsets pg.blocks [0, 12] = false ∧
      listOfOffsets pg.blocks [0] = true ∧ listOfOffsets pg.blocks [12] = true) ∧
    ∃ s pg, parsePage demo b!"- a\n  h\n- b\n" = .ok s pg ∧ listOfOffsets pg.blocks [0, 8] = true :=
  ⟨page_test _ (by decide +kernel), page_test _ (by decide +kernel)⟩

end Vw
