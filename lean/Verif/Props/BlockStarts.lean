import Verif.Lemmas.TableStarts
import Verif.Props.LineStarts
import Verif.Spec.Demo

/-!
# C101: quotes, list items and table rows are found wherever they stand
-/

namespace Vw

set_option maxRecDepth 20000

/-- Every line that begins with `> ` after blanks is in a quote, however the lines before and after
it look, unless it is inside a code block, a math block or a comment, or it has two colons and
belongs to a definition list.  (The full claim has only the first exception.) -/
theorem C101_quote_partial {env : Env} {text : Str} {s' : Span} {pg : Page}
    (h : parsePage env text = .ok s' pg) {q : Nat}
    (hq : LineStart text q) (hf : QuoteForm (text.drop q)) :
    (∃ y ∈ pg.blocks, y.region.offset ≤ q ∧ q < y.region.offset + y.region.len ∧ ∃ ls, y.inner = .blockquote ls) ∨
      Verbatim pg.blocks pg.inlines q ∨
      ∃ y ∈ pg.blocks, y.region.offset ≤ q ∧ q < y.region.offset + y.region.len ∧
        (∃ xs, y.inner = .defs xs) ∧ ColonLine text q := by
  obtain ⟨ws, v, r, e, hw, -⟩ := id hf
  have h1 := (firstByte_of (C := Ctx.ofText env text) (q := q) (ws := ws) (x := c!">") e hw (by decide)).1
  have hd : ¬ DividerForm (text.drop q) := by
    rintro ⟨n, r', hn, e', -⟩
    obtain ⟨m, rfl⟩ : ∃ m, n = m + 1 := ⟨n - 1, by omega⟩
    have := (firstByte_of (C := Ctx.ofText env text) (q := q) (ws := []) (x := c!"-") e' (by simp [AllBlank]) (by decide)).1
    exact absurd (h1.uniq this).2 (by decide)
  rcases block_found (quoteKind (Ctx.ofText env text)) h ⟨hq, hf⟩ h1 (by decide) (by decide) hd with
    ⟨y, hy, hb, l1, l2⟩ | h' | h' | ⟨y, hy, l1, l2, hb, -⟩
  · exact .inl ⟨y, hy, l1, l2, hb⟩
  · exact .inr (.inl h')
  · exact .inr (.inr h')
  · exact .inl ⟨y, hy, l1, l2, hb⟩

/-- Every line that begins with the prefix of a list item after `n` blanks and has content begins
an item of a list of the page, at whatever depth and however the lines before and after it look,
unless it is inside a code block, a math block or a comment, or it has two colons and belongs to a
definition list, or it begins with four blanks and is in a quote.  (The full claim has only the
first exception.) -/
theorem C101_item_partial {env : Env} {text : Str} {s' : Span} {pg : Page}
    (h : parsePage env text = .ok s' pg) {q n : Nat}
    (hq : LineStart text q) (hf : ItemForm (text.drop q) n) :
    (∃ y ∈ pg.blocks, ItemsHave y (q + n)) ∨ Verbatim pg.blocks pg.inlines q ∨
      (∃ y ∈ pg.blocks, y.region.offset ≤ q ∧ q < y.region.offset + y.region.len ∧
        (∃ xs, y.inner = .defs xs) ∧ ColonLine text q) ∨ InQuote text pg.blocks q := by
  obtain ⟨x, h1, h2, h3, -⟩ := ItemForm.first (C := Ctx.ofText env text) hf
  have hd : ¬ DividerForm (text.drop q) := by
    rintro ⟨m, r', hm, e', -⟩
    obtain ⟨m, rfl⟩ : ∃ k, m = k + 2 := ⟨m - 2, by omega⟩
    obtain ⟨ws, ty, su, w, v, r, e, hw, rfl, hp, -⟩ := hf
    obtain ⟨c, u, rfl, -, -, h4, h5⟩ := hp.first
    rw [e] at e'
    cases ws with
    | nil =>
      simp only [List.nil_append, List.cons_append, List.replicate_succ] at e'
      obtain ⟨e1, e2⟩ := List.cons.inj e'
      rw [h4 e1] at e2
      exact absurd (List.cons.inj e2).1 (by decide)
    | cons z ws =>
      have hz := hw z (by simp)
      have := (List.cons.inj e').1
      rw [this] at hz
      exact absurd hz (by decide)
  rcases block_found (itemKind (Ctx.ofText env text)) h ⟨hq, n, hf⟩ h1 h2 h3 hd with
    ⟨y, hy, hb⟩ | h'
  · exact .inl ⟨y, hy, hb n hf⟩
  · exact .inr h'

/-- Every line with bars before, between and after its cells, of which the first is not an
alignment, is in a table, however the lines before and after it look, unless it is inside a code
block, a math block or a comment, or it has two colons and belongs to a definition list, or it
begins with four blanks and is in a quote.  (The full claim has only the first exception, and no
condition on how cells with text begin.) -/
theorem C101_row_partial {env : Env} {text : Str} {s' : Span} {pg : Page}
    (h : parsePage env text = .ok s' pg) {q : Nat}
    (hq : LineStart text q) (hf : RowForm (text.drop q)) :
    (∃ y ∈ pg.blocks, y.region.offset ≤ q ∧ q < y.region.offset + y.region.len ∧ ∃ t, y.inner = .table t) ∨
      Verbatim pg.blocks pg.inlines q ∨
      (∃ y ∈ pg.blocks, y.region.offset ≤ q ∧ q < y.region.offset + y.region.len ∧
        (∃ xs, y.inner = .defs xs) ∧ ColonLine text q) ∨ InQuote text pg.blocks q := by
  obtain ⟨ws, w, xs, r, e, hw, -⟩ := id hf
  have h1 := (firstByte_of (C := Ctx.ofText env text) (q := q) (ws := ws) (x := c!"|") e hw (by decide)).1
  have hd : ¬ DividerForm (text.drop q) := by
    rintro ⟨n, r', hn, e', -⟩
    obtain ⟨m, rfl⟩ : ∃ m, n = m + 1 := ⟨n - 1, by omega⟩
    have := (firstByte_of (C := Ctx.ofText env text) (q := q) (ws := []) (x := c!"-") e' (by simp [AllBlank]) (by decide)).1
    exact absurd (h1.uniq this).2 (by decide)
  rcases block_found (rowKind (Ctx.ofText env text)) h ⟨hq, hf⟩ h1 (by decide) (by decide) hd with
    ⟨y, hy, hb, l1, l2⟩ | h'
  · exact .inl ⟨y, hy, l1, l2, hb⟩
  · exact .inr h'

/-- Whether a block of the given sort contains `q`. -/
def blockOver (f : Block → Bool) (bs : List (Located Block)) (q : Nat) : Bool :=
  bs.any fun y => decide (y.region.offset ≤ q) && decide (q < y.region.offset + y.region.len) && f y.inner

/-- Whether a block is a quote. -/
def Block.isQuote : Block → Bool
  | .blockquote _ => true
  | _ => false

/-- Whether there is a list item at `p`. -/
def itemAt (bs : List (Located Block)) (p : Nat) : Bool :=
  bs.any fun y => match y.inner with
    | .list items => items.any fun it => it.region.offset == p
    | _ => false

/-- Whether a block is a table. -/
def Block.isTable : Block → Bool
  | .table _ => true
  | _ => false

/-- A text is a cell if it begins with a letter and has no bar and no line end. -/
theorem cellShape_letter {c : Byte} {w : Str} (h : 97 ≤ c ∧ c ≤ 122) (h1 : c!"|" ∉ w) (h2 : 10 ∉ w) :
    CellShape (c :: w) ∧ ∀ a b, ¬ HyphenForm (c :: w) a b := by
  refine ⟨⟨by simp, ?_, ?_, .inr (.inr (.inr ⟨?_, ?_, ?_⟩))⟩, ?_⟩
  · intro hm
    rcases List.mem_cons.1 hm with hm | hm
    · have : (124 : Nat) = c := hm
      omega
    · exact h1 hm
  · intro hm
    rcases List.mem_cons.1 hm with hm | hm
    · omega
    · exact h2 hm
  · intro a v e ha
    cases a with
    | nil =>
      simp only [List.nil_append] at e
      subst e
      constructor
      · rintro ⟨t, e⟩; simp at e; omega
      · rintro ⟨t, e⟩; simp at e; omega
    | cons x a =>
      have := ha x (by simp)
      have := (List.cons.inj e).1
      omega
  · rintro ⟨t, e⟩; simp at e; omega
  · rintro ⟨t, e⟩; simp at e; omega
  · rintro a b ⟨n, hn, e⟩
    obtain ⟨m, rfl⟩ : ∃ m, n = m + 1 := ⟨n - 1, by omega⟩
    cases a <;> simp [colonIf, List.replicate_succ] at e <;> omega

/-- A row with two colons is read as a definition. -/
theorem C101_row_colons_violated : ∃ s pg, parsePage demo b!"|a :: b|\n" = .ok s pg ∧
    LineStart b!"|a :: b|\n" 0 ∧ RowForm b!"|a :: b|\n" ∧
    blockOver Block.isTable pg.blocks 0 = false ∧ verbatimAny pg = false := by
  obtain ⟨s, pg, h, h'⟩ := page_test (text := b!"|a :: b|\n")
    (fun pg => blockOver Block.isTable pg.blocks 0 = false ∧ verbatimAny pg = false) (by decide +kernel)
  have hc := cellShape_letter (c := c!"a") (w := b!" :: b") (by decide) (by decide) (by decide)
  exact ⟨s, pg, h, .inl rfl, ⟨[], b!"a :: b", [], [10], rfl, by simp [AllBlank], by simpa using hc.1, hc.2,
    .inr (.inl ⟨_, rfl⟩)⟩, h'⟩

/-- A row with four blanks before it after an indented quote is part of the quote. -/
theorem C101_row_blanks_violated : ∃ s pg, parsePage demo b!"    qu\n    |a|\n" = .ok s pg ∧
    LineStart b!"    qu\n    |a|\n" 7 ∧ RowForm ((b!"    qu\n    |a|\n" : Str).drop 7) ∧
    blockOver Block.isTable pg.blocks 7 = false ∧ verbatimAny pg = false := by
  obtain ⟨s, pg, h, h'⟩ := page_test (text := b!"    qu\n    |a|\n")
    (fun pg => blockOver Block.isTable pg.blocks 7 = false ∧ verbatimAny pg = false) (by decide +kernel)
  have hc := cellShape_letter (c := c!"a") (w := []) (by decide) (by decide) (by decide)
  exact ⟨s, pg, h, .inr rfl, ⟨b!"    ", b!"a", [], [10], rfl, by simp [AllBlank], by simpa using hc.1, hc.2,
    .inr (.inl ⟨_, rfl⟩)⟩, h'⟩

/-- A negative number, an arrow with text or a hyphen with text at the beginning of a cell keeps the
row from being a row: the whole line is text. -/
theorem C101_cell_text_violated :
    (∃ s pg, parsePage demo b!"|a|-5|\n" = .ok s pg ∧ blockOver Block.isTable pg.blocks 0 = false) ∧
    (∃ s pg, parsePage demo b!"|a|> b|\n" = .ok s pg ∧ blockOver Block.isTable pg.blocks 0 = false) ∧
    (∃ s pg, parsePage demo b!"|a|\\/ b|\n" = .ok s pg ∧ blockOver Block.isTable pg.blocks 0 = false) ∧
    ∃ s pg, parsePage demo b!"|a| -5|\n" = .ok s pg ∧ blockOver Block.isTable pg.blocks 0 = true :=
  ⟨page_test _ (by decide +kernel), page_test _ (by decide +kernel), page_test _ (by decide +kernel),
    page_test _ (by decide +kernel)⟩

/-- Blanks after the last bar keep the line from being a row. -/
theorem C101_row_end_violated :
    (∃ s pg, parsePage demo b!"|a|b| \n" = .ok s pg ∧ blockOver Block.isTable pg.blocks 0 = false) ∧
    ∃ s pg, parsePage demo b!"|a|b|\n" = .ok s pg ∧ blockOver Block.isTable pg.blocks 0 = true :=
  ⟨page_test _ (by decide +kernel), page_test _ (by decide +kernel)⟩

/-- A row with a span, an alignment and text in a list item after a paragraph. -/
example : ∃ s pg, parsePage demo b!"p\n- x\n  y\n  |a|:-|>|\n" = .ok s pg ∧
    RowForm ((b!"p\n- x\n  y\n  |a|:-|>|\n" : Str).drop 10) ∧
    LineStart b!"p\n- x\n  y\n  |a|:-|>|\n" 10 ∧
    blockOver Block.isTable pg.blocks 10 = true := by
  obtain ⟨s, pg, h, h'⟩ := page_test (text := b!"p\n- x\n  y\n  |a|:-|>|\n")
    (fun pg => blockOver Block.isTable pg.blocks 10 = true) (by decide +kernel)
  have hc := cellShape_letter (c := c!"a") (w := []) (by decide) (by decide) (by decide)
  refine ⟨s, pg, h, ⟨b!"  ", b!"a", [b!":-", b!">"], [10], rfl, by simp [AllBlank], ?_, hc.2,
    .inr (.inl ⟨_, rfl⟩)⟩, .inr rfl, h'⟩
  intro x hx
  simp only [List.mem_cons, List.not_mem_nil, or_false] at hx
  rcases hx with rfl | rfl | rfl
  · exact hc.1
  · exact ⟨by decide, by decide, by decide, .inr (.inr (.inl ⟨true, false, 1, by decide, rfl⟩))⟩
  · exact ⟨by decide, by decide, by decide, .inr (.inl ⟨[], [], rfl, by simp [AllBlank], by simp [AllBlank]⟩)⟩

/-- A quote line with two colons is read as a definition. -/
theorem C101_quote_colons_violated : ∃ s pg, parsePage demo b!"> a :: b\n" = .ok s pg ∧
    LineStart b!"> a :: b\n" 0 ∧ QuoteForm b!"> a :: b\n" ∧
    blockOver Block.isQuote pg.blocks 0 = false ∧ verbatimAny pg = false := by
  obtain ⟨s, pg, h, h'⟩ := page_test (text := b!"> a :: b\n")
    (fun pg => blockOver Block.isQuote pg.blocks 0 = false ∧ verbatimAny pg = false) (by decide +kernel)
  exact ⟨s, pg, h, .inl rfl, ⟨[], b!"a :: b", [10], rfl, by simp [AllBlank],
    ⟨by decide, .inr (.inl ⟨_, rfl, by decide⟩)⟩, by decide⟩, h'⟩

theorem no_todo {td : Option Todo} {v v' : Str} (h : v.head? ≠ some c!"[") (e : v = todoText td ++ v') : v' = v := by
  cases td with
  | none => exact e.symm
  | some td => subst e; cases td <;> exact absurd rfl h

/-- A list item with two colons is read as a definition. -/
theorem C101_item_colons_violated : ∃ s pg, parsePage demo b!"- a :: b\n" = .ok s pg ∧
    LineStart b!"- a :: b\n" 0 ∧ ItemForm b!"- a :: b\n" 0 ∧
    itemAt pg.blocks 0 = false ∧ verbatimAny pg = false := by
  obtain ⟨s, pg, h, h'⟩ := page_test (text := b!"- a :: b\n")
    (fun pg => itemAt pg.blocks 0 = false ∧ verbatimAny pg = false) (by decide +kernel)
  refine ⟨s, pg, h, .inl rfl, ⟨[], _, _, b!"- ", b!"a :: b", [10], rfl, by simp [AllBlank], rfl, .hyphen,
    ⟨by decide, .inr (.inl ⟨_, rfl, by decide⟩)⟩, fun td v' e => ?_⟩, h'⟩
  rw [no_todo (by decide) e]
  exact ⟨c!"a", by decide, by decide⟩

/-- A list item with four blanks before it after an indented quote is part of the quote. -/
theorem C101_item_blanks_violated : ∃ s pg, parsePage demo b!"    qu\n    - a\n" = .ok s pg ∧
    LineStart b!"    qu\n    - a\n" 7 ∧ ItemForm ((b!"    qu\n    - a\n" : Str).drop 7) 4 ∧
    itemAt pg.blocks 11 = false ∧ verbatimAny pg = false := by
  obtain ⟨s, pg, h, h'⟩ := page_test (text := b!"    qu\n    - a\n")
    (fun pg => itemAt pg.blocks 11 = false ∧ verbatimAny pg = false) (by decide +kernel)
  refine ⟨s, pg, h, .inr rfl, ⟨b!"    ", _, _, b!"- ", b!"a", [10], rfl, by simp [AllBlank], rfl, .hyphen,
    ⟨by decide, .inr (.inl ⟨_, rfl, by decide⟩)⟩, fun td v' e => ?_⟩, h'⟩
  rw [no_todo (by decide) e]
  exact ⟨c!"a", by decide, by decide⟩

/-- An item with a box and nothing else is no item. -/
theorem C101_item_box_violated :
    (∃ s pg, parsePage demo b!"- [ ] \n" = .ok s pg ∧ itemAt pg.blocks 0 = false) ∧
    ∃ s pg, parsePage demo b!"- [ ] a\n" = .ok s pg ∧ itemAt pg.blocks 0 = true :=
  ⟨page_test _ (by decide +kernel), page_test _ (by decide +kernel)⟩

/-- A quote after a paragraph, a table and a list whose items go on. -/
example : ∃ s pg, parsePage demo b!"p *a\nb* c\n|a|b|\n- x\n  y\n  - z\n  > q\n" = .ok s pg ∧
    QuoteForm ((b!"p *a\nb* c\n|a|b|\n- x\n  y\n  - z\n  > q\n" : Str).drop 30) ∧
    LineStart b!"p *a\nb* c\n|a|b|\n- x\n  y\n  - z\n  > q\n" 30 ∧
    blockOver Block.isQuote pg.blocks 30 = true := by
  obtain ⟨s, pg, h, h'⟩ := page_test (text := b!"p *a\nb* c\n|a|b|\n- x\n  y\n  - z\n  > q\n")
    (fun pg => blockOver Block.isQuote pg.blocks 30 = true) (by decide +kernel)
  exact ⟨s, pg, h, ⟨b!"  ", b!"q", [10], rfl, by simp [AllBlank],
    ⟨by decide, .inr (.inl ⟨_, rfl, by decide⟩)⟩, by decide⟩, .inr rfl, h'⟩

/-- An item three levels deep. -/
example : ∃ s pg, parsePage demo b!"p *a\n- x\n  y\n  1. z\n    z\n    # [X] q\n" = .ok s pg ∧
    ItemForm ((b!"p *a\n- x\n  y\n  1. z\n    z\n    # [X] q\n" : Str).drop 26) 4 ∧
    LineStart b!"p *a\n- x\n  y\n  1. z\n    z\n    # [X] q\n" 26 ∧
    itemAt pg.blocks 30 = true := by
  obtain ⟨s, pg, h, h'⟩ := page_test (text := b!"p *a\n- x\n  y\n  1. z\n    z\n    # [X] q\n")
    (fun pg => itemAt pg.blocks 30 = true) (by decide +kernel)
  refine ⟨s, pg, h, ⟨b!"    ", _, _, b!"# ", b!"[X] q", [10], rfl, by simp [AllBlank], rfl, .pound,
    ⟨by decide, .inr (.inl ⟨_, rfl, by decide⟩)⟩, fun td v' e => ?_⟩, .inr rfl, h'⟩
  cases td with
  | none => rw [← show _ = v' from e]; exact ⟨c!"q", by decide, by decide⟩
  | some td =>
    cases td <;> first
      | (rw [← show b!"q" = v' from by simpa [todoText, todoMark] using e]; exact ⟨c!"q", by decide, by decide⟩)
      | exact absurd (congrArg (fun l => l[1]?) e) (by decide)

end Vw
