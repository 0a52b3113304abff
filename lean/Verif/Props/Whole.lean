import Verif.Lemmas.Whole
import Verif.Props.PlainStarts
import Verif.Spec.Demo

/-!
# C106: blocks take in all lines that belong to them
-/

namespace Vw

set_option maxRecDepth 20000

/-- Two elements of a page with nothing between them are not both paragraphs, both tables or both
definition lists.  If both are quotes, one of them begins with four blanks and the other one with
an arrow.  If both are lists, their first items have different indentations. -/
theorem C106_not_split {env : Env} {text : Str} {s' : Span} {pg : Page} (h : parsePage env text = .ok s' pg)
    {x y : Located Block} (hx : x ∈ pg.elements) (hy : y ∈ pg.elements)
    (ha : y.region.offset = x.region.offset + x.region.len) :
    (∀ r r', ¬ (x.inner = .paragraph r ∧ y.inner = .paragraph r')) ∧
    (∀ t t', ¬ (x.inner = .table t ∧ y.inner = .table t')) ∧
    (∀ d d', ¬ (x.inner = .defs d ∧ y.inner = .defs d')) ∧
    (∀ l l', x.inner = .blockquote l → y.inner = .blockquote l' →
      (DeepLine text x.region.offset ∧ ArrowLine text y.region.offset) ∨
      (ArrowLine text x.region.offset ∧ DeepLine text y.region.offset)) ∧
    (∀ l l' n m, x.inner = .list l → y.inner = .list l' → ItemForm (text.drop x.region.offset) n →
      ItemForm (text.drop y.region.offset) m → n ≠ m) := by
  have runs : (∀ p, x.inner ≠ .placeholder p) → _ := fun hp => next_run h hx hy hp ha
  refine ⟨?_, ?_, ?_, ?_, ?_⟩
  · rintro r r' ⟨h1, h2⟩
    obtain ⟨s1, s2, s3, e1, e2⟩ := runs (by simp [h1])
    have k1 := topLevel_kind e1.run
    have k2 := topLevel_kind e2.run
    rw [h1] at k1
    rw [h2] at k2
    exact paragraph_whole k1 k2
  · rintro r r' ⟨h1, h2⟩
    obtain ⟨s1, s2, s3, e1, e2⟩ := runs (by simp [h1])
    have k1 := topLevel_kind e1.run
    have k2 := topLevel_kind e2.run
    rw [h1] at k1
    rw [h2] at k2
    exact table_whole k1 k2
  · rintro r r' ⟨h1, h2⟩
    obtain ⟨s1, s2, s3, e1, e2⟩ := runs (by simp [h1])
    have k1 := topLevel_kind e1.run
    have k2 := topLevel_kind e2.run
    rw [h1] at k1
    rw [h2] at k2
    exact defs_whole k1 k2
  · intro r r' h1 h2
    obtain ⟨s1, s2, s3, e1, e2⟩ := runs (by simp [h1])
    have k1 := topLevel_kind e1.run
    have k2 := topLevel_kind e2.run
    rw [h1] at k1
    rw [h2] at k2
    have deep : ∀ {x : Located Block} {s s' : Span}, ElementRun env text x s s' →
        indentedBlockquote s = .ok s' x → DeepLine text x.region.offset := by
      intro x s s' e hk
      obtain ⟨-, ho⟩ := ok_of_run (indented_lines e.inn) hk
      have hb := ok_of_run (topLevel_ok e.inn) e.run
      rw [← e.start]
      refine ho _ ?_ (Nat.le_refl _) hb.lt
      exact e.bolAt
    rcases alt_inv k1 with k1 | ⟨-, k1⟩ <;> rcases alt_inv k2 with k2 | ⟨-, k2⟩
    · exact (indented_whole k1 k2).elim
    · exact .inl ⟨deep e1 k1, arrow_first e2.view k2⟩
    · exact .inr ⟨arrow_first e1.view k1, deep e2 k2⟩
    · exact (arrow_whole k1 k2 e2.notBlank).elim
  · rintro r r' n m h1 h2 f1 f2 rfl
    obtain ⟨s1, s2, s3, e1, e2⟩ := runs (by simp [h1])
    have k1 := topLevel_kind e1.run
    rw [h1] at k1
    have b1 := ok_of_run (topLevel_ok e1.inn) e1.run
    have b2 := ok_of_run (topLevel_ok e2.inn) e2.run
    have l1 := b1.good.step.hi
    have l2 := b2.good.step.hi
    have l3 := b1.lt
    have l4 := b2.lt
    rw [← e1.start] at f1
    rw [← e2.start] at f2
    exact list_whole (C := Ctx.ofText env text) k1 rfl e1.inn e1.full (by omega) (by omega) e2.bolAt f1 f2

/-- Lines at the margin that follow each other and begin no block are in one paragraph, unless one of
them is inside a code block, a math block or a comment. -/
theorem C106_text_lines {env : Env} {text : Str} {s' : Span} {pg : Page} (h : parsePage env text = .ok s' pg)
    {q q' : Nat} (hq : LineStart text q) (hf : PlainForm (text.drop q))
    (hn : ∀ b, text[q]? = some b → ¬ (b = 32 ∨ b = 9))
    (he : q' = q + lineLen (text.drop q)) (hq' : LineStart text q') (hf' : PlainForm (text.drop q'))
    (hn' : ∀ b, text[q']? = some b → ¬ (b = 32 ∨ b = 9)) :
    (∃ z ∈ pg.elements, z.region.offset ≤ q ∧ q' < z.region.offset + z.region.len ∧
      ∃ rows, z.inner = .paragraph rows) ∨
    Verbatim pg.blocks pg.inlines q ∨ Verbatim pg.blocks pg.inlines q' := by
  by_cases hv : Verbatim pg.blocks pg.inlines q
  · exact .inr (.inl hv)
  by_cases hv' : Verbatim pg.blocks pg.inlines q'
  · exact .inr (.inr hv')
  obtain ⟨z, hz, h1, h2⟩ := plain_same h hq hf hn hv he hq' hf' hn' hv'
  exact .inl ⟨z, hz, h1.1, h2.2.1, h1.2.2⟩

/-- Whether two elements without anything between them satisfy the test. -/
def neighbours (f : Block → Block → Bool) (xs : List (Located Block)) : Bool :=
  xs.any fun x => xs.any fun y => decide (y.region.offset = x.region.offset + x.region.len) && f x.inner y.inner

/-- Whether a block is a list. -/
def Block.isList : Block → Bool
  | .list _ => true
  | _ => false

/-- Lists of different indentation and quotes of different forms can stand next to each other. -/
example : ∃ s pg, parsePage demo b!"  - a\n- b\n> c\n    def\n" = .ok s pg ∧
    neighbours (fun x y => x.isList && y.isList) pg.elements = true ∧
    neighbours (fun x y => x.isQuote && y.isQuote) pg.elements = true := by
  obtain ⟨s, pg, h, h'⟩ := page_test (text := b!"  - a\n- b\n> c\n    def\n")
    (fun pg => neighbours (fun x y => x.isList && y.isList) pg.elements &&
      neighbours (fun x y => x.isQuote && y.isQuote) pg.elements) (by decide +kernel)
  rw [Bool.and_eq_true] at h'
  exact ⟨s, pg, h, h'⟩

/-- Two lines of text between a list and a divider are one paragraph. -/
example : ∃ s pg, parsePage demo b!"- a\nuv\nxyz\n----\n" = .ok s pg ∧
    LineStart b!"- a\nuv\nxyz\n----\n" 4 ∧ PlainForm (b!"- a\nuv\nxyz\n----\n".drop 4) ∧
    7 = 4 + lineLen (b!"- a\nuv\nxyz\n----\n".drop 4) ∧
    LineStart b!"- a\nuv\nxyz\n----\n" 7 ∧ PlainForm (b!"- a\nuv\nxyz\n----\n".drop 7) ∧
    (pg.elements.any fun z => decide (z.region = ⟨4, 7, 0⟩) && z.inner.isParagraph) = true := by
  obtain ⟨s, pg, h, h'⟩ := page_test (text := b!"- a\nuv\nxyz\n----\n")
    (fun pg => pg.elements.any fun z => decide (z.region = ⟨4, 7, 0⟩) && z.inner.isParagraph) (by decide +kernel)
  exact ⟨s, pg, h, .inr rfl, plainForm_word (c := c!"u") (w := b!"v") (r := b!"\nxyz\n----\n") (ws := [])
    (by decide) (by decide) (by decide) (by simp [AllBlank]), by decide, .inr rfl,
    plainForm_word (c := c!"x") (w := b!"yz") (r := b!"\n----\n") (ws := [])
    (by decide) (by decide) (by decide) (by simp [AllBlank]), h'⟩

end Vw
