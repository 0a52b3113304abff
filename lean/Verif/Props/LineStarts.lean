import Verif.Lemmas.LineFound
import Verif.Spec.Demo

/-!
# C100: header, divider and placeholder lines are found wherever they stand
-/

namespace Vw

set_option maxRecDepth 20000

/-- Every line with the form of a header is a header element of the page with the level and the
centering of that form, however the lines before and after it look, unless it is inside a code
block, a math block or a comment, or it has two colons and belongs to a definition list, or it
begins with four blanks and continues a blockquote.  (The full claim has only the first exception;
the other two are the ways in which it fails, see the two theorems below.) -/
theorem C100_header_partial {env : Env} {text : Str} {s' : Span} {pg : Page}
    (h : parsePage env text = .ok s' pg) {q n : Nat} {c : Bool} {mid : Str}
    (hq : LineStart text q) (hf : HeaderForm (text.drop q) n c mid) :
    (∃ x ∈ pg.elements, x.region.offset = q ∧ ∃ xs, x.inner = .header xs n c) ∨
      Hidden text pg.blocks pg.inlines q := by
  rcases line_found (headerKind (Ctx.ofText env text)) h ⟨hq, n, c, mid, hf⟩ with ⟨x, hx, rfl⟩ | h'
  · exact .inl ⟨x, hx, rfl, (element_header h hx n c).1.2 ⟨mid, hf⟩⟩
  · exact .inr h'.hidden

/-- Every line of four or more hyphens is a divider element of the page, unless it is inside a
code block, a math block or a comment. -/
theorem C100_divider {env : Env} {text : Str} {s' : Span} {pg : Page}
    (h : parsePage env text = .ok s' pg) {q : Nat}
    (hq : LineStart text q) (hf : DividerForm (text.drop q)) :
    (∃ x ∈ pg.elements, x.region.offset = q ∧ x.inner = .divider) ∨
      Verbatim pg.blocks pg.inlines q := by
  obtain ⟨n, r, hn, e, hr⟩ := id hf
  rcases line_found (dividerKind (Ctx.ofText env text)) h ⟨hq, hf⟩ with ⟨x, hx, rfl⟩ | (h' | ⟨_, _, _, _, _, h'⟩ |
    ⟨_, _, _, _, h'⟩) | ⟨_, _, h'⟩
  · exact .inl ⟨x, hx, rfl, (element_divider h hx).1.2 hf⟩
  · exact .inr h'
  · exact absurd h' (no_colon e hr)
  · obtain ⟨m, rfl⟩ : ∃ m, n = m + 1 := ⟨n - 1, by omega⟩
    exact absurd h' (no_deep (x := c!"-") e (by decide))
  · exact h'.elim

/-- Every line with the form of a placeholder is that placeholder in the page, unless it is inside
a code block, a math block or a comment, or it has two colons and belongs to a definition list. -/
theorem C100_placeholder_partial {env : Env} {text : Str} {s' : Span} {pg : Page}
    (h : parsePage env text = .ok s' pg) {q : Nat} {p : Placeholder}
    (hq : LineStart text q) (hf : PlaceholderForm (text.drop q) p) :
    (∃ x ∈ pg.elements, x.region.offset = q ∧ x.inner = .placeholder p) ∨
      Verbatim pg.blocks pg.inlines q ∨
      ∃ y ∈ pg.blocks, y.region.offset ≤ q ∧ q < y.region.offset + y.region.len ∧
        (∃ xs, y.inner = .defs xs) ∧ ColonLine text q := by
  have hK := placeholderKind (Ctx.ofText env text)
  have hd : ¬ DeepLine text q := by
    obtain ⟨head, mk, ws, v, r, e, hh, -⟩ := hf
    obtain ⟨y, rfl, -⟩ := hh.shape
    exact no_deep (x := c!"%") e (by decide)
  have hid : Hidden text pg.blocks pg.inlines q → Verbatim pg.blocks pg.inlines q ∨
      ∃ y ∈ pg.blocks, y.region.offset ≤ q ∧ q < y.region.offset + y.region.len ∧
        (∃ xs, y.inner = .defs xs) ∧ ColonLine text q := by
    rintro (h | h | ⟨_, _, _, _, h⟩)
    · exact .inl h
    · exact .inr h
    · exact absurd h hd
  obtain ⟨x, hx, h1, h2⟩ := (parsePage_tiled h).has (C := Ctx.ofText env text) hK ⟨hq, p, hf⟩ (Nat.zero_le _)
  rcases Nat.eq_or_lt_of_le h1 with h1 | h1
  · subst h1
    rcases element_first hK h hx ⟨hq, p, hf⟩ (by omega) with ⟨xs, n, c, hxi⟩ | hxi | ⟨p', hxi⟩ | h' | h'
    · obtain ⟨mid, hf'⟩ := (element_header h hx n c).1.1 ⟨xs, hxi⟩
      exfalso
      obtain ⟨head, mk, ws, v, r, e, hh, -⟩ := hf
      obtain ⟨y, rfl, -⟩ := hh.shape
      obtain ⟨ws, b1, b2, ws', r, e', hw, -⟩ := hf'.form
      obtain ⟨m, rfl⟩ : ∃ m, n = m + 1 := ⟨n - 1, by have := hf'.level; omega⟩
      rw [e] at e'
      cases ws with
      | nil => simp [List.replicate_succ] at e'
      | cons z ws =>
        have hz := hw z (by simp)
        have := (List.cons.inj e').1
        rw [← this] at hz
        exact absurd hz (by decide)
    · obtain ⟨n, r', hn, e', -⟩ := (element_divider h hx).1.1 hxi
      exfalso
      obtain ⟨head, mk, ws, v, r, e, hh, -⟩ := hf
      obtain ⟨y, rfl, -⟩ := hh.shape
      obtain ⟨m, rfl⟩ : ∃ m, n = m + 1 := ⟨n - 1, by omega⟩
      rw [e] at e'
      simp [List.replicate_succ] at e'
    · obtain ⟨s1, s2, e⟩ := element_run h hx
      have hk := topLevel_kind e.run
      rw [hxi] at hk
      obtain ⟨_, y, e1, e2⟩ := placeholderForm_run (env := env) e.bol e.view hf
      rw [e1] at hk
      cases hk
      exact .inl ⟨x, hx, rfl, e2⟩
    · exact absurd h'.2 hd
    · exact .inr (hid h'.hidden)
  · exact .inr (hid (element_hidden hK h hx ⟨hq, p, hf⟩ h1 h2).hidden)

/-- Whether there is a header at `q` among the blocks. -/
def headerAt (bs : List (Located Block)) (q : Nat) : Bool :=
  bs.any fun y => y.region.offset == q && match y.inner with | .header _ _ _ => true | _ => false

/-- Whether there is a code block, a math block or a comment over several lines in the page. -/
def verbatimAny (pg : Page) : Bool :=
  (pg.blocks.any fun y => match y.inner with | .code _ _ _ => true | .math _ _ => true | _ => false) ||
    pg.inlines.any fun y => match y.inner with | .comment (.multi _) => true | _ => false

/-- A header line with two colons is swallowed by a definition list in the line before it: it is
neither a header nor inside anything verbatim. -/
theorem C100_header_colons_violated : ∃ s pg, parsePage demo b!"t :: d\n= a :: b =\n" = .ok s pg ∧
    LineStart b!"t :: d\n= a :: b =\n" 7 ∧
    HeaderForm ((b!"t :: d\n= a :: b =\n" : Str).drop 7) 1 false b!"a :: b" ∧
    headerAt pg.blocks 7 = false ∧ verbatimAny pg = false := by
  obtain ⟨s, pg, h, h'⟩ := page_test (text := b!"t :: d\n= a :: b =\n")
    (fun pg => headerAt pg.blocks 7 = false ∧ verbatimAny pg = false) (by decide +kernel)
  refine ⟨s, pg, h, .inr rfl, ⟨by decide, ⟨[], [32], [32], [], [10], ?_⟩, ?_, ?_, ?_, ?_⟩, h'⟩
  · exact ⟨rfl, by simp [AllBlank], by simp [AllBlank], by simp [AllBlank], by simp [AllBlank],
      .inr (.inl ⟨_, rfl⟩), by simp, by decide, by decide⟩
  all_goals simp

/-- A centered header line with four blanks before it is swallowed by a quote in the line before
it. -/
theorem C100_header_blanks_violated : ∃ s pg, parsePage demo b!"    qu\n    = a =\n" = .ok s pg ∧
    LineStart b!"    qu\n    = a =\n" 7 ∧
    HeaderForm ((b!"    qu\n    = a =\n" : Str).drop 7) 1 true b!"a" ∧
    headerAt pg.blocks 7 = false ∧ verbatimAny pg = false := by
  obtain ⟨s, pg, h, h'⟩ := page_test (text := b!"    qu\n    = a =\n")
    (fun pg => headerAt pg.blocks 7 = false ∧ verbatimAny pg = false) (by decide +kernel)
  refine ⟨s, pg, h, .inr rfl, ⟨by decide, ⟨b!"    ", [32], [32], [], [10], ?_⟩, ?_, ?_, ?_, ?_⟩, h'⟩
  · exact ⟨rfl, by simp [AllBlank], by simp [AllBlank], by simp [AllBlank], by simp [AllBlank],
      .inr (.inl ⟨_, rfl⟩), by simp, by decide, by decide⟩
  all_goals simp

/-- A placeholder line with two colons is read as a definition list. -/
theorem C100_placeholder_violated : ∃ s pg, parsePage demo b!"%title a :: b\n" = .ok s pg ∧
    LineStart b!"%title a :: b\n" 0 ∧ PlaceholderForm b!"%title a :: b\n" (.title b!"a :: b") ∧
    (∃ x ∈ pg.elements, x.region.offset = 0 ∧ ∃ xs, x.inner = .defs xs) := by
  obtain ⟨s, pg, h, h'⟩ := page_test (text := b!"%title a :: b\n")
    (fun pg => (pg.elements.any fun x => x.region.offset == 0 &&
      match x.inner with | .defs _ => true | _ => false) = true) (by decide +kernel)
  refine ⟨s, pg, h, .inl rfl, ⟨_, _, [32], b!"a :: b", [10], rfl, .title, rfl, by decide, by simp [AllBlank],
    ⟨by decide, .inr (.inl ⟨_, rfl, by decide⟩)⟩, by simp, ⟨c!":", by decide, by decide⟩⟩, ?_⟩
  obtain ⟨x, hx, h1⟩ := List.any_eq_true.1 h'
  simp only [Bool.and_eq_true, beq_iff_eq] at h1
  refine ⟨x, hx, h1.1, ?_⟩
  cases hxi : x.inner with
  | defs xs => exact ⟨xs, rfl⟩
  | _ => simp [hxi] at h1

/-- Lines of the three forms after a paragraph, a list item and a quote, and the same in a code
block. -/
example : ∃ s pg, parsePage demo b!"p\n= a =\n- b\n----\n> c\n%title dd\n{{{\n----\n}}}\n" = .ok s pg ∧
    (pg.elements.map fun x => (x.region.offset, match x.inner with
      | .header _ n _ => n | .divider => 10 | .placeholder _ => 11 | .code _ _ _ => 12 | _ => 0)) =
      [(0, 0), (2, 1), (8, 0), (12, 10), (17, 0), (21, 11), (31, 12)] := page_test _ (by decide +kernel)

example : DividerForm ((b!"p\n= a =\n- b\n----\n> c\n%title dd\n{{{\n----\n}}}\n" : Str).drop 12) :=
  ⟨4, _, by decide, rfl, .inr (.inl ⟨_, rfl⟩)⟩

example : LineStart b!"p\n= a =\n- b\n----\n> c\n%title dd\n{{{\n----\n}}}\n" 12 ∧
    LineStart b!"p\n= a =\n- b\n----\n> c\n%title dd\n{{{\n----\n}}}\n" 2 ∧
    LineStart b!"p\n= a =\n- b\n----\n> c\n%title dd\n{{{\n----\n}}}\n" 21 := ⟨.inr rfl, .inr rfl, .inr rfl⟩

example : HeaderForm ((b!"p\n= a =\n- b\n" : Str).drop 2) 1 false b!"a" := by
  refine ⟨by decide, ⟨[], [32], [32], [], b!"\n- b\n", ?_⟩, by simp, by simp, by simp, by simp⟩
  exact ⟨rfl, by simp [AllBlank], by simp [AllBlank], by simp [AllBlank], by simp [AllBlank],
    .inr (.inl ⟨_, rfl⟩), by simp, by decide, by decide⟩

end Vw
