import Verif.Lemmas.ParaLines
import Verif.Spec.Demo

/-!
# C116: the rows of a paragraph are its lines
-/

namespace Vw

set_option maxRecDepth 20000

/-- The rows of a paragraph are, one after the other, the lines in its region.  Each row begins with
the first byte of its line that is no blank and ends with the line. -/
theorem C116_rows {env : Env} {text : Str} {s' : Span} {pg : Page} (h : parsePage env text = .ok s' pg)
    {y : Located Block} (hy : y ∈ pg.blocks) {rows : List Inlines} (hi : y.inner = .paragraph rows) :
    LineRows text y.region.offset rows (y.region.offset + y.region.len) := page_paragraphs h hy hi

/-- Every line of a paragraph is a row of it, unless it begins inside of a comment. -/
theorem C116_lines {env : Env} {text : Str} {s' : Span} {pg : Page} (h : parsePage env text = .ok s' pg)
    {y : Located Block} (hy : y ∈ pg.blocks) {rows : List Inlines} (hi : y.inner = .paragraph rows) {q : Nat}
    (hq : LineStart text q) (h1 : y.region.offset ≤ q) (h2 : q < y.region.offset + y.region.len) :
    (∃ xs ∈ rows, ∃ q', RowOfLine text xs q q') ∨
    ∃ xs ∈ rows, ∃ z ∈ Inline.all xs, z.region.Inside q ∧ ∃ ls, z.inner = .comment (.multi ls) :=
  (page_paragraphs h hy hi).line hq h1 h2

/-- A paragraph without comments over several lines has as many rows as there are line feeds in its
text, or one more if the text ends with it. -/
theorem C116_count {env : Env} {text : Str} {s' : Span} {pg : Page} (h : parsePage env text = .ok s' pg)
    {y : Located Block} (hy : y ∈ pg.blocks) {rows : List Inlines} (hi : y.inner = .paragraph rows)
    (hn : ∀ xs ∈ rows, ∀ z ∈ Inline.all xs, ∀ ls, z.inner ≠ .comment (.multi ls)) :
    (sub text y.region.offset (y.region.offset + y.region.len)).count 10 = rows.length ∨
    ((sub text y.region.offset (y.region.offset + y.region.len)).count 10 + 1 = rows.length ∧
      y.region.offset + y.region.len = text.length) := ((page_paragraphs h hy hi).feeds hn).2

/-- Whether a paragraph with this many rows is over the region. -/
def paraRows (bs : List (Located Block)) (r : Region) (n : Nat) : Bool :=
  bs.any fun y => decide (y.region = r) && match y.inner with
    | .paragraph rows => decide (rows.length = n)
    | _ => false

/-- A paragraph in an item, and one with a comment over two lines. -/
example : ∃ s pg, parsePage demo b!"- a *b*\n  c\nd %%+x\ny+%% e\n  f" = .ok s pg ∧
    LineStart b!"- a *b*\n  c\nd %%+x\ny+%% e\n  f" 8 ∧
    paraRows pg.blocks ⟨2, 10, 2⟩ 2 = true ∧ paraRows pg.blocks ⟨12, 17, 0⟩ 2 = true := by
  obtain ⟨s, pg, h, h'⟩ := page_test (text := b!"- a *b*\n  c\nd %%+x\ny+%% e\n  f")
    (fun pg => paraRows pg.blocks ⟨2, 10, 2⟩ 2 = true ∧ paraRows pg.blocks ⟨12, 17, 0⟩ 2 = true) (by decide +kernel)
  exact ⟨s, pg, h, .inr rfl, h'⟩

end Vw
