import Verif.Lemmas.BlankLines
import Verif.Spec.Demo

/-!
# C117: blank lines separate blocks
-/

namespace Vw

set_option maxRecDepth 20000

/-- A blank line in a block of a page, at whatever depth, is inside of a code block, a math block, a
comment over several lines or a quote, and that is the block or in the block. -/
theorem C117_inside {env : Env} {text : Str} {s' : Span} {pg : Page} (h : parsePage env text = .ok s' pg)
    {y : Located Block} (hy : y ∈ pg.blocks) {q : Nat} (hq : BlankAt text q) (h1 : y.region.offset ≤ q)
    (h2 : q < y.region.offset + y.region.len) :
    Verbatim (Block.allBlocks [y]) (Block.allInlines [y]) q ∨ QuotedAt (Block.allBlocks [y]) q :=
  block_blank h hy hq h1 h2

/-- A blank line that is in no such place is in no element: each element ends before it or begins
after it. -/
theorem C117_between {env : Env} {text : Str} {s' : Span} {pg : Page} (h : parsePage env text = .ok s' pg)
    {q : Nat} (hq : BlankAt text q) (hv : ¬ Verbatim pg.blocks pg.inlines q) (hn : ¬ QuotedAt pg.blocks q)
    {x : Located Block} (hx : x ∈ pg.elements) :
    x.region.offset + x.region.len ≤ q ∨ q < x.region.offset := by
  rcases Nat.lt_or_ge q x.region.offset with h1 | h1
  · exact .inr h1
  rcases Nat.lt_or_ge q (x.region.offset + x.region.len) with h2 | h2
  rotate_left
  · exact .inl h2
  obtain ⟨m1, m2⟩ := mem_allBlocks hx
  exfalso
  rcases element_blank h hx hq h1 h2 with (⟨y, hy, h⟩ | ⟨y, hy, h⟩) | ⟨y, hy, h⟩
  · exact hv (.inl ⟨y, m1 y hy, h⟩)
  · exact hv (.inr ⟨y, m2 y hy, h⟩)
  · exact hn ⟨y, m1 y hy, h⟩

/-- Whether the position is in the region. -/
def Region.has (r : Region) (q : Nat) : Bool := decide (r.offset ≤ q) && decide (q < r.offset + r.len)

/-- Whether the position is in a block of the kind. -/
def inKind (p : Block → Bool) (bs : List (Located Block)) (q : Nat) : Bool :=
  bs.any fun y => y.region.has q && p y.inner

def isQuote : Block → Bool
  | .blockquote _ => true
  | _ => false

def isCode : Block → Bool
  | .code _ _ _ => true
  | _ => false

/-- A blank line in a quote in an item. -/
example : ∃ s pg, parsePage demo b!"- a\n  > b\n  \n  > c\n" = .ok s pg ∧
    BlankAt b!"- a\n  > b\n  \n  > c\n" 10 ∧ (pg.blocks.any fun x => x.region.has 10) = true ∧
    inKind isQuote pg.blocks 10 = true := by
  obtain ⟨s, pg, h, h'⟩ := page_test (text := b!"- a\n  > b\n  \n  > c\n")
    (fun pg => (pg.blocks.any fun x => x.region.has 10) = true ∧ inKind isQuote pg.blocks 10 = true) (by decide +kernel)
  exact ⟨s, pg, h, ⟨.inr rfl, 12, by decide, by unfold AllBlank; decide, .inl rfl⟩, h'⟩

/-- A blank line in a code block. -/
example : ∃ s pg, parsePage demo b!"{{{\na\n\nb\n}}}\n" = .ok s pg ∧
    BlankAt b!"{{{\na\n\nb\n}}}\n" 6 ∧ (pg.blocks.any fun x => x.region.has 6) = true ∧
    inKind isCode pg.blocks 6 = true := by
  obtain ⟨s, pg, h, h'⟩ := page_test (text := b!"{{{\na\n\nb\n}}}\n")
    (fun pg => (pg.blocks.any fun x => x.region.has 6) = true ∧ inKind isCode pg.blocks 6 = true) (by decide +kernel)
  exact ⟨s, pg, h, ⟨.inr rfl, 6, by decide, by unfold AllBlank; decide, .inl rfl⟩, h'⟩

/-- A blank line between two paragraphs, which are two elements. -/
example : ∃ s pg, parsePage demo b!"a\n \t\r\nb" = .ok s pg ∧ BlankAt b!"a\n \t\r\nb" 2 ∧
    ¬ Verbatim pg.blocks pg.inlines 2 ∧ ¬ QuotedAt pg.blocks 2 ∧ pg.elements.length = 2 := by
  obtain ⟨s, pg, h, h1, h2, h3⟩ := page_test (text := b!"a\n \t\r\nb")
    (fun pg => (pg.blocks.all fun y => !y.region.has 2) = true ∧ (pg.inlines.all fun y => !y.region.has 2) = true ∧
      pg.elements.length = 2) (by decide +kernel)
  have out : ∀ {r : Region}, r.offset ≤ 2 → 2 < r.offset + r.len → r.has 2 = true := by
    intro r a b
    simp [Region.has, a, b]
  refine ⟨s, pg, h, ⟨.inr rfl, 4, by decide, by unfold AllBlank; decide, .inr (.inl ⟨rfl, rfl⟩)⟩, ?_, ?_, h3⟩
  · rintro (⟨y, hy, ⟨a, b⟩, -⟩ | ⟨y, hy, ⟨a, b⟩, -⟩)
    · have := List.all_eq_true.1 h1 y hy
      rw [out (by omega) b] at this
      cases this
    · have := List.all_eq_true.1 h2 y hy
      rw [out (by omega) b] at this
      cases this
  · rintro ⟨y, hy, a, b, -⟩
    have := List.all_eq_true.1 h1 y hy
    rw [out a b] at this
    cases this

end Vw
