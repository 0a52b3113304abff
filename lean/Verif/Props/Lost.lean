import Verif.Lemmas.Pieces
import Verif.Lemmas.Fences
import Verif.Spec.Lost
import Verif.Spec.Demo

/-!
# Text that elements hold and text that is lost (C97), decorations in decorations (C98)
-/

namespace Vw

theorem Tile.touching {C : Ctx} {d a b : Nat} {xs : Inlines} (h : Tile C d a xs b) : Touching a xs b := by
  induction h with
  | nil => exact .nil
  | leaf hn _ _ _ _ _ _ _ ih => exact .cons rfl hn ih
  | deco hn _ _ _ _ _ _ _ _ _ _ ih => exact .cons rfl hn ih

theorem Payload.unheld {C : Ctx} {e n b : Nat} {x : Inline} (h : Payload C e (e + n) x)
    (hb : e + n ≤ b) (ho : x.Outside) : Unheld (sub C.inner e b) := by
  rw [← sub_append C.inner e (e + n) b (by omega) hb]
  cases x with
  | code c => exact .inl ⟨c, _, h.ne, by rw [h.eq]⟩
  | math c => exact .inr (.inl ⟨c, _, h.1.ne, by rw [h.1.eq]⟩)
  | tags ts =>
    obtain ⟨h1, _, _, ⟨w, hw⟩, h5⟩ := h
    cases ts with
    | nil => exact absurd rfl h1
    | cons t ts =>
      refine .inr (.inr ⟨t, ts.flatMap (· ++ b!":") ++ w ++ sub C.inner (e + n) b,
        (h5 t (by simp)).1, ?_⟩)
      rw [← hw]
      simp
  | _ => exact ho.elim

theorem Gap.bare {C : Ctx} {m : Str} {a b : Nat} (h : Gap C m a b) : Bare C.inner m a b := by
  refine ⟨h.le, fun x hx => ?_⟩
  obtain ⟨i, h1, h2, h3⟩ := mem_sub.1 hx
  exact h.all i x h1 h2 h3

theorem Bare.trans {text m : Str} {a b c : Nat} (h : Bare text m a b) (h' : Bare text m b c) :
    Bare text m a c := by
  refine ⟨Nat.le_trans h.1 h'.1, fun x hx => ?_⟩
  rw [← sub_append text a b c h.1 h'.1, List.mem_append] at hx
  exact hx.elim (h.2 x) (h'.2 x)

theorem Rows.held {C : Ctx} {d a b : Nat} {rows : List Inlines} (h : Rows C d a rows b) :
    LinesHeld C.inner a rows b := by
  induction h with
  | nil h => exact .nil h.bare
  | cons h1 h2 h3 _ ih => exact .cons h1.bare h3 h2.touching ih

theorem Spread.bare {α : Type} {text : Str} {a m b : Nat} {xs : List (Located α)}
    (h : Spread text m xs b) (hb : Bare text [] a m) : Spread text a xs b := by
  cases h with
  | nil h => exact .nil (hb.trans h)
  | cons h1 h2 h3 => exact .cons (hb.trans h1) h2 h3

theorem Spread.append {α : Type} {text : Str} {a m b : Nat} {xs ys : List (Located α)}
    (h : Spread text a xs m) (h' : Spread text m ys b) : Spread text a (xs ++ ys) b := by
  induction h with
  | nil h => exact h'.bare h
  | cons h1 h2 _ ih => exact .cons h1 h2 (ih h')

theorem LocRows.spread {C : Ctx} {d a b : Nat} {xs : List (Located Inlines)}
    (h : LocRows C d a xs b) : Spread C.inner a xs b := by
  induction h with
  | nil h => exact .nil h.bare
  | cons h1 _ ih => exact .cons h1.lo.bare h1.pos (ih.bare h1.hi.bare)

theorem LocRows.held {C : Ctx} {d a b : Nat} {xs : List (Located Inlines)}
    (h : LocRows C d a xs b) : ∀ y ∈ xs,
      RowHeld C.inner b!":" y.region.offset y.inner (y.region.offset + y.region.len) := by
  induction h with
  | nil h => simp
  | cons h1 _ ih =>
    obtain ⟨i, j, h2, h3, h4⟩ := h1.tile
    exact List.forall_mem_cons.2 ⟨⟨i, j, h2.bare, h1.ne, h3.touching, h4.bare⟩, ih⟩

theorem DefsAt.held {C : Ctx} {d a b : Nat} {xs : List (Located TermDefs)} (h : DefsAt C d a xs b) :
    Block.Held C.env.date C.inner a b (.defs xs) := by
  induction h with
  | nil h => exact ⟨.nil h.bare, by simp⟩
  | cons h1 _ _ _ _ _ _ ih =>
    refine ⟨?_, ?_⟩
    · rw [List.flatMap_cons]
      exact h1.spread.append ih.1
    · rw [List.flatMap_cons]
      intro y hy
      exact (List.mem_append.1 hy).elim (h1.held y) (ih.2 y)

theorem CellsAt.held {C : Ctx} {d a b : Nat} {xs : List (Located Cell)} (h : CellsAt C d a xs b) :
    ∀ c ∈ xs, ∀ ys, c.inner = .content ys →
      ys ≠ [] ∧ Touching c.region.offset ys (c.region.offset + c.region.len) := by
  induction h with
  | nil _ => simp
  | cons h1 _ ih =>
    refine List.forall_mem_cons.2 ⟨fun ys hy => ?_, ih⟩
    obtain ⟨h2, h3⟩ := h1.content ys hy
    exact ⟨h2, h3.touching⟩

theorem CellRows.held {C : Ctx} {d a b : Nat} {rows : List (List (Located Cell))}
    (h : CellRows C d a rows b) : ∀ c ∈ rows.flatten, ∀ ys, c.inner = .content ys →
      ys ≠ [] ∧ Touching c.region.offset ys (c.region.offset + c.region.len) := by
  induction h with
  | nil _ => simp
  | cons h1 _ _ ih =>
    intro c hc
    rw [List.flatten_cons, List.mem_append] at hc
    exact hc.elim (h1.held c) (ih c)

theorem BlocksAt.spread {C : Ctx} {d a b : Nat} {xs : List (Located Block)}
    (h : BlocksAt C d a xs b) : Spread C.inner a xs b := by
  match xs, h with
  | [], .nil h => exact .nil h.bare
  | _ :: _, .cons h1 h2 _ h4 => exact .cons h1.bare h2 h4.spread
termination_by xs.length

theorem ItemsAt.held {C : Ctx} {d a b : Nat} {xs : List (Located ListItem)}
    (h : ItemsAt C d a xs b) : Block.Held C.env.date C.inner a b (.list xs) := by
  match xs, h with
  | [], .nil h => exact ⟨.nil h.bare, by simp⟩
  | _ :: _, .cons h1 h2 _ h4 h5 h6 h7 h8 =>
    have ih := h8.held
    exact ⟨.cons h1.bare h2 ih.1,
      List.forall_mem_cons.2 ⟨⟨_, _, _, h5, h4, h6, h7.spread⟩, ih.2⟩⟩
termination_by xs.length

theorem BlockAt.held {C : Ctx} {d a b : Nat} {x : Block} (h : BlockAt C d a b x) :
    x.Held C.env.date C.inner a b := by
  cases h with
  | defs _ h => exact h.held
  | header _ _ h1 h2 h3 h4 => exact ⟨_, _, h1.bare, h4, h2.touching, h3.bare⟩
  | paragraph h _ => exact h.held
  | table h _ h3 =>
    refine ⟨_, Table.allCells_new h.ne .., h3, ?_⟩
    rw [Table.allCells_new h.ne]
    exact h.held
  | list _ _ h => exact h.held
  | blockquote _ h => exact h
  | code _ _ _ h =>
    refine ⟨?_, h.2⟩
    obtain ⟨hd, h1, ps, rfl, h2⟩ := h.1
    exact ⟨hd, h1, ps, Map.mem_collect ps, h2⟩
  | math _ _ h => exact h
  | divider h => exact h.bare
  | title _ h => exact h
  | noHtml h => exact h
  | template _ h => exact h
  | date h => exact h
  | other _ _ h => exact h

/-- **C97, blocks.** All text of paragraphs, headers, definition lists, tables, lists, quotes, code
and math blocks, dividers and placeholders is held by their parts, but blanks and line ends around
them and the marks that make them what they are. -/
theorem C97_blocks {env : Env} {text : Str} {s' : Span} {pg : Page}
    (h : parsePage env text = .ok s' pg) {x : Located Block} (hx : x ∈ pg.blocks) :
    x.inner.Held env.date text x.region.offset (x.region.offset + x.region.len) :=
  (parsePage_block h hx).2.2.held

/-- A list with a header before it, with an item of a paragraph of two lines and a list. -/
example : ∃ s pg, parsePage demo b!"= a =\n- [X] b *c*\n  d\n  - e\n- f\n" = .ok s pg ∧
    pg.blocks.length = 6 :=
  page_test (text := b!"= a =\n- [X] b *c*\n  d\n  - e\n- f\n") (fun pg => pg.blocks.length = 6)
    (by decide +kernel)

/-- Placeholders of four kinds and a divider. -/
example : ∃ s pg, parsePage demo b!"%title a b\n%nohtml \n%date 2020-01-02\n----\n%x\ty z\n" = .ok s pg ∧
    pg.blocks.map (·.region.len) = [10, 8, 16, 5, 6] :=
  page_test (text := b!"%title a b\n%nohtml \n%date 2020-01-02\n----\n%x\ty z\n")
    (fun pg => pg.blocks.map (·.region.len) = [10, 8, 16, 5, 6]) (by decide +kernel)

/-- **C97, decorations.** The elements in a decoration hold the text between its delimiters without
gaps, up to the end unless what follows is code, math or tags. Everything from there on is lost,
which is why this is partial. -/
theorem C97_decorations_partial {env : Env} {text : Str} {s' : Span} {pg : Page}
    (h : parsePage env text = .ok s' pg) {x : Located Inline} (hx : x ∈ pg.inlines) {k : Deco}
    {ys : Inlines} (hk : x.inner = .decorated k ys) :
    ∃ e, Touching (x.region.offset + k.delim.length) ys e ∧
      (e + k.delim.length = x.region.offset + x.region.len ∨
       e + k.delim.length < x.region.offset + x.region.len ∧
        Unheld (sub text e (x.region.offset + x.region.len - k.delim.length))) := by
  obtain ⟨e, h1, h2, h3⟩ := (parsePage_piece h hx).fill k ys hk
  refine ⟨e, h3.touching, ?_⟩
  rcases h2 with h2 | ⟨n, y, hn, hle, hp, ho⟩
  · exact .inl (by omega)
  · exact .inr ⟨by omega, hp.unheld hle ho⟩

/-- Decorations without backticks, dollars and colons lose nothing. -/
theorem C97_plain_decorations {env : Env} {text : Str} {s' : Span} {pg : Page}
    (h : parsePage env text = .ok s' pg) {x : Located Inline} (hx : x ∈ pg.inlines) {k : Deco}
    {ys : Inlines} (hk : x.inner = .decorated k ys)
    (hc : ∀ b ∈ sub text (x.region.offset + k.delim.length)
      (x.region.offset + x.region.len - k.delim.length), b ≠ c!"`" ∧ b ≠ c!"$" ∧ b ≠ c!":") :
    Touching (x.region.offset + k.delim.length) ys
      (x.region.offset + x.region.len - k.delim.length) := by
  obtain ⟨e, h1, h2⟩ := C97_decorations_partial h hx hk
  have hle := (((parsePage_piece h hx).fill k ys hk))
  rcases h2 with h2 | ⟨h2, h3⟩
  · rw [← h2, Nat.add_sub_cancel]; exact h1
  · exfalso
    have hs : ∀ b, b ∈ sub text e (x.region.offset + x.region.len - k.delim.length) →
        b ≠ c!"`" ∧ b ≠ c!"$" ∧ b ≠ c!":" := by
      intro b hb
      refine hc b ?_
      rw [mem_sub] at hb ⊢
      obtain ⟨i, i1, i2, i3⟩ := hb
      obtain ⟨e', _, _, h4⟩ := hle
      exact ⟨i, Nat.le_trans (chain_le h1) i1, i2, i3⟩
    rcases h3 with ⟨c, r, _, hw⟩ | ⟨c, r, _, hw⟩ | ⟨c, r, _, hw⟩
    · exact (hs c!"`" (by rw [hw]; simp)).1 rfl
    · exact (hs c!"$" (by rw [hw]; simp)).2.1 rfl
    · exact (hs c!":" (by rw [hw]; simp)).2.2 rfl
where
  chain_le {a b : Nat} {xs : Inlines} (h : Touching a xs b) : a ≤ b := by
    induction h with
    | nil => exact Nat.le_refl _
    | cons _ _ _ ih => omega

/-- A decoration with three words and an emphasised one: all of it is held. -/
example : ∃ s pg, parsePage demo b!"a *b _c_ d* e\n" = .ok s pg ∧ ∃ x ∈ pg.inlines, ∃ ys,
    x.inner = .decorated .bold ys ∧ ys.length = 3 := by
  obtain ⟨s, pg, h, x, hx, hy⟩ := page_test (text := b!"a *b _c_ d* e\n") (fun pg =>
    ∃ x ∈ pg.inlines, (match x.inner with
      | .decorated .bold ys => decide (ys.length = 3) | _ => false) = true) (by decide +kernel)
  refine ⟨s, pg, h, x, hx, ?_⟩
  split at hy
  · exact ⟨_, by assumption, by simpa using hy⟩
  · simp at hy

/-- **C97 is violated**: of the text `a`, code and more text in a decoration only the text before
the code is kept. -/
theorem C97_decorations_violated : ∃ s pg, parsePage demo b!"*a `b` c*\n" = .ok s pg ∧
    ∃ x ∈ pg.inlines, x.region = ⟨0, 9, 1⟩ ∧ ∃ r, x.inner = .decorated .bold [⟨.text b!"a ", r⟩] := by
  obtain ⟨s, pg, h, x, hx, hr, hy⟩ := page_test (text := b!"*a `b` c*\n") (fun pg =>
    ∃ x ∈ pg.inlines, x.region = ⟨0, 9, 1⟩ ∧ (match x.inner with
      | .decorated .bold [⟨.text t, _⟩] => decide (t = b!"a ") | _ => false) = true)
    (by decide +kernel)
  refine ⟨s, pg, h, x, hx, hr, ?_⟩
  split at hy
  · rename_i r he
    simp only [decide_eq_true_eq] at hy
    subst hy
    exact ⟨r, he⟩
  · simp at hy

/-- **C98.** No decoration is inside another one of its kind. -/
theorem C98_not_in_itself {env : Env} {text : Str} {s' : Span} {pg : Page}
    (h : parsePage env text = .ok s' pg) {x y : Located Inline} (hx : x ∈ pg.inlines) {k : Deco}
    {ys zs : Inlines} (hk : x.inner = .decorated k ys) (hy : y ∈ Inline.all ys) :
    y.inner ≠ .decorated k zs := by
  have ha := (parsePage_piece h hx).apart
  rw [hk, Inline.Apart] at ha
  exact fun he => Inline.Aparts.inside ha.2 y hy k zs he (by simp)

/-- So decorations nest at most five deep, one of each kind: elements are no deeper than that. -/
theorem C98_depth {env : Env} {text : Str} {s' : Span} {pg : Page}
    (h : parsePage env text = .ok s' pg) {x : Located Inline} (hx : x ∈ pg.inlines) :
    x.inner.nest ≤ 5 := by
  have := Inline.Apart.nest_le (ks := []) (by simp) (parsePage_piece h hx).apart
  simpa using this

/-- One decoration of each kind, each in the one before: the bound is reached. -/
example : ∃ s pg, parsePage demo b!"*_~~^,,a,,^~~_*\n" = .ok s pg ∧
    ∃ x ∈ pg.inlines, x.inner.nest = 5 :=
  page_test (text := b!"*_~~^,,a,,^~~_*\n") (fun pg => ∃ x ∈ pg.inlines, x.inner.nest = 5)
    (by decide +kernel)

end Vw
