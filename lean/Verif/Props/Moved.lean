import Verif.Lemmas.MovedBlank
import Verif.Props.Parse

/-!
# C89: the elements of a text do not depend on what is before them
-/

namespace Vw
open P Scan

/-! ## C89 -/

/-- C89: an element of a page and all that follow it are the elements of the text that begins with it, at
positions counted from the beginning of the page. -/
theorem C89_suffix {env : Env} {text : Str} {s : Span} {pg : Page} (h : parsePage env text = .ok s pg)
    {xs ys : List (Located Block)} {x : Located Block} (hx : pg.elements = xs ++ x :: ys) :
    ∃ s' pg', parsePage env (text.drop x.region.offset) = .ok s' pg' ∧
      (pg'.moved x.region.offset).elements = x :: ys := parsePage_drop h hx

/-- C89: after the text before an element is replaced, and an element still begins there, that element and
those after it are what they were, at positions that differ by the lengths of the replaced texts. -/
theorem C89_edited {env : Env} {a b u : Str} {s t : Span} {pg pg' : Page}
    (h : parsePage env (a ++ u) = .ok s pg) (h' : parsePage env (b ++ u) = .ok t pg')
    {xs ys xs' ys' : List (Located Block)} {x x' : Located Block}
    (hx : pg.elements = xs ++ x :: ys) (hx' : pg'.elements = xs' ++ x' :: ys')
    (ho : x.region.offset = a.length) (ho' : x'.region.offset = b.length) :
    ∃ zs, x :: ys = Block.allMoved a.length zs ∧ x' :: ys' = Block.allMoved b.length zs := by
  obtain ⟨s1, p1, e1, f1⟩ := parsePage_drop h hx
  obtain ⟨s2, p2, e2, f2⟩ := parsePage_drop h' hx'
  rw [ho] at e1 f1
  rw [ho'] at e2 f2
  rw [List.drop_left] at e1 e2
  rw [e1] at e2
  cases e2
  exact ⟨p1.elements, f1.symm, f2.symm⟩

/-- C89: blank lines before a text move its elements and change nothing else, neither whether the text
parses nor what is parsed. -/
theorem C89_blank_lines {env : Env} {a u : Str} (ha : BlankLines a) (hu : u ≠ []) :
    (∀ pg, (∃ s, parsePage env (a ++ u) = .ok s pg) ↔
      ∃ pg', (∃ s, parsePage env u = .ok s pg') ∧ pg = pg'.moved a.length) ∧
    ∀ r, parsePage env (a ++ u) = .panic r ↔ parsePage env u = .panic r := by
  have h := parsePage_blank (env := env) ha hu
  generalize parsePage env (a ++ u) = y at h ⊢
  generalize parsePage env u = x at h ⊢
  cases h with
  | @ok s t pg =>
    refine ⟨fun p => ⟨?_, ?_⟩, fun r => ⟨fun e => (by cases e), fun e => (by cases e)⟩⟩
    · rintro ⟨s', e⟩
      cases e
      exact ⟨pg, ⟨s, rfl⟩, rfl⟩
    · rintro ⟨pg', ⟨s', e⟩, rfl⟩
      cases e
      exact ⟨t, rfl⟩
  | err => exact ⟨fun p => ⟨fun ⟨_, e⟩ => (by cases e), fun ⟨_, ⟨_, e⟩, _⟩ => (by cases e)⟩,
      fun r => ⟨fun e => (by cases e), fun e => (by cases e)⟩⟩
  | panic => exact ⟨fun p => ⟨fun ⟨_, e⟩ => (by cases e), fun ⟨_, ⟨_, e⟩, _⟩ => (by cases e)⟩,
      fun r => ⟨fun e => e, fun e => e⟩⟩
  | diverge => exact ⟨fun p => ⟨fun ⟨_, e⟩ => (by cases e), fun ⟨_, ⟨_, e⟩, _⟩ => (by cases e)⟩,
      fun r => ⟨fun e => (by cases e), fun e => (by cases e)⟩⟩

/-- C89 fails for elements before a text: a blank line does not end an element that is still open, so that the
page of two texts on both sides of a blank line need not be the two pages. -/
theorem C89_violated : ∃ (env : Env) (a u : Str) (s1 s2 s3 : Span) (p1 p2 p3 : Page),
    parsePage env a = .ok s1 p1 ∧ parsePage env u = .ok s2 p2 ∧ parsePage env (a ++ b!"\n" ++ u) = .ok s3 p3 ∧
      p1.elements.length = 1 ∧ p2.elements.length = 1 ∧ p3.elements.length = 1 := by
  obtain ⟨s1, p1, h1, e1⟩ := page_test (text := b!"{{{\n") (fun p => p.elements.length = 1) (by decide +kernel)
  obtain ⟨s2, p2, h2, e2⟩ := page_test (text := b!"}}}\n") (fun p => p.elements.length = 1) (by decide +kernel)
  obtain ⟨s3, p3, h3, e3⟩ := page_test (text := b!"{{{\n" ++ b!"\n" ++ b!"}}}\n") (fun p => p.elements.length = 1)
    (by decide +kernel)
  exact ⟨demo, _, _, s1, s2, s3, p1, p2, p3, h1, h2, h3, e1, e2, e3⟩

/-- The sample has two elements with others around them. -/
example : ∃ s pg, parsePage demo sample = .ok s pg ∧ ∃ xs x y ys, pg.elements = xs ++ x :: y :: ys := by
  obtain ⟨s, pg, h, hl, _⟩ := sample_ok
  refine ⟨s, pg, h, ?_⟩
  match hp : pg.elements with
  | [] => rw [hp] at hl; cases hl
  | [a] => rw [hp] at hl; cases hl
  | a :: b :: l => exact ⟨[], a, b, l, rfl⟩

/-- Two texts that differ before the same element. -/
example : ∃ s t pg pg' x x', parsePage demo (b!"ab\n\n" ++ b!"= H =\n") = .ok s pg ∧
    parsePage demo (b!"----\n" ++ b!"= H =\n") = .ok t pg' ∧ pg.elements[1]? = some x ∧ pg'.elements[1]? = some x' ∧
    x.region.offset = (b!"ab\n\n").length ∧ x'.region.offset = (b!"----\n").length := by
  obtain ⟨s, pg, h, e⟩ := page_test (text := b!"ab\n\n" ++ b!"= H =\n")
    (fun p => (p.elements[1]?.map (·.region.offset)) = some 4) (by decide +kernel)
  obtain ⟨t, pg', h', e'⟩ := page_test (text := b!"----\n" ++ b!"= H =\n")
    (fun p => (p.elements[1]?.map (·.region.offset)) = some 5) (by decide +kernel)
  obtain ⟨x, hx, ox⟩ := Option.map_eq_some_iff.1 e
  obtain ⟨x', hx', ox'⟩ := Option.map_eq_some_iff.1 e'
  exact ⟨s, t, pg, pg', x, x', h, h', hx, hx', ox, ox'⟩

/-- Four blank lines before the sample. -/
example : BlankLines b!"\n \n\t\r\n\n" :=
  .cons (bs := []) (eol := b!"\n") (rest := b!" \n\t\r\n\n") (by simp) (.inl rfl)
    (.cons (bs := b!" ") (eol := b!"\n") (rest := b!"\t\r\n\n") (by decide) (.inl rfl)
      (.cons (bs := b!"\t") (eol := b!"\r\n") (rest := b!"\n") (by decide) (.inr rfl)
        (.cons (bs := []) (eol := b!"\n") (rest := []) (by simp) (.inl rfl) .nil)))

end Vw
