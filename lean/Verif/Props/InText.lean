import Verif.Lemmas.InText
import Verif.Spec.Demo

/-!
# No element begins inside of text (C113)
-/

namespace Vw

/-- The text of a text. -/
def Inline.text? : Inline → Option Str
  | .text t => some t
  | _ => none

/-- If something that reads as code, a formula, a comment, a keyword, a link, tags, an address or as a
decoration that does not begin with code or a formula stands in a row of elements, then no text of that
row holds the place where it begins. -/
theorem C113_text_partial {env : Env} {text : Str} {s : Span} {pg : Page}
    (h : parsePage env text = .ok s pg) {xs : Inlines} (hr : pg.Row xs) {x z : Located Inline}
    (hx : x ∈ xs) (hz : z ∈ xs) {t : Str} (ht : x.inner = .text t) {i : Nat}
    (h1 : x.region.offset ≤ i) (h2 : i < x.region.offset + x.region.len) :
    ¬ BeginsAt env text i (z.region.offset + z.region.len) := by
  obtain ⟨d, a, b, hT⟩ := page_row h hr
  have hq := hT.quiets x hx
  have hb := hT.ends z hz
  rw [ht] at hq
  obtain ⟨e, d', k, deco, q1, q2, q3, q4⟩ := hq
  obtain ⟨q4, n, q5, q6⟩ := q4 i h1 h2
  intro hbg
  have hlt := hbg.lt
  have hw := q2.step (s' := ⟨text, i, e, d'⟩) ⟨rfl, rfl, rfl, h1, by simp only; omega⟩
  refine nonText_begins (e := e) (text := text) hlt (by omega) q2.hi q4 (fun kd c hc hm => ?_) hbg
  rw [show deco ⟨text, i, e, d'⟩ = _ from q6]
  exact decoratedOf_found hw q3 q5 hc hm

set_option maxRecDepth 20000 in
/-- A line, a header, a cell and text in italics with texts beside other elements. -/
example : ∃ s pg, parsePage demo b!"see `x` at http://y now\n\n= a TODO =\n\n| b $c$ |\n\nd _e [[f]] g_ h\n" = .ok s pg ∧
    (pg.blocks.flatMap fun y => y.inner.rows).map (·.length) = [5, 2, 3, 3] ∧
    (pg.blocks.flatMap fun y => y.inner.rows).map (fun xs => (xs.map fun x => x.region.offset + x.region.len)) =
      [[4, 7, 11, 19, 23], [29, 33], [41, 44, 45], [50, 61, 63]] :=
  page_test (text := b!"see `x` at http://y now\n\n= a TODO =\n\n| b $c$ |\n\nd _e [[f]] g_ h\n")
    (fun pg => (pg.blocks.flatMap fun y => y.inner.rows).map (·.length) = [5, 2, 3, 3] ∧
    (pg.blocks.flatMap fun y => y.inner.rows).map (fun xs => (xs.map fun x => x.region.offset + x.region.len)) =
      [[4, 7, 11, 19, 23], [29, 33], [41, 44, 45], [50, 61, 63]]) (by decide +kernel)

/-- Code begins in the line of that page, and so does an address. -/
example : BeginsAt demo b!"see `x` at http://y now\n" 4 23 ∧ BeginsAt demo b!"see `x` at http://y now\n" 15 23 := by
  refine ⟨.code (c := b!"x") ⟨b!" at http://y now", by decide, by simp, by decide, by decide, ?_⟩,
    .raw (h := 11) (j := 19) (u := ⟨some b!"http", none, false, [b!"//y"], none, none⟩) (sc := b!"http")
      (by decide) (by decide) (by decide) (by decide) ?_ (by decide) ?_ (by decide) rfl (by decide)⟩
  · intro c' _ hne _
    exact List.length_pos_iff.2 hne
  · intro x _ hx
    simp at hx
    subst hx
    decide
  · intro x hx
    simp at hx
    exact .inl hx.symm

set_option maxRecDepth 20000 in
/-- It does not hold for decorations that begin with code: bold text around code is two texts with stars
and code. -/
theorem C113_violated : ∃ (text : Str) (s : Span) (pg : Page) (xs : Inlines) (x z : Located Inline) (t c : Str),
    parsePage demo text = .ok s pg ∧ pg.Row xs ∧ x ∈ xs ∧ z ∈ xs ∧ x.inner = .text t ∧
      BodyHere b!"*" b!"*" c (sub text x.region.offset (z.region.offset + z.region.len)) := by
  obtain ⟨s, pg, h, h2⟩ := page_test (text := b!"*`a`*") (fun pg =>
    (pg.blocks.flatMap fun y => y.inner.rows).map
      (fun xs => xs.map fun x => (x.region.offset, x.region.len, x.inner.text?)) =
      [[(0, 1, some b!"*"), (1, 3, none), (4, 1, some b!"*")]]) (by decide +kernel)
  cases hl : pg.blocks.flatMap fun y => y.inner.rows with
  | nil => rw [hl] at h2; cases h2
  | cons xs l =>
    have hm : xs ∈ pg.blocks.flatMap fun y => y.inner.rows := by rw [hl]; simp
    rw [hl] at h2
    simp only [List.map_cons, List.cons.injEq] at h2
    have h3 := h2.1
    cases xs with
    | nil => cases h3
    | cons x xs =>
    cases xs with
    | nil => simp at h3
    | cons y xs =>
    cases xs with
    | nil => simp at h3
    | cons z xs =>
      simp only [List.map_cons, List.cons.injEq, Prod.mk.injEq] at h3
      obtain ⟨⟨x1, -, x3⟩, -, ⟨z1, z2, -⟩, -⟩ := h3
      refine ⟨_, s, pg, _, x, z, b!"*", b!"`a`", h, .inl (List.mem_flatMap.1 hm), by simp, by simp, ?_, [], ?_,
        by simp, by simp, by decide, ?_⟩
      · cases hx : x.inner with
        | text t => rw [hx] at x3; cases x3; rfl
        | _ => rw [hx] at x3; cases x3
      · rw [x1, z1, z2]; decide
      · intro c' r' hne e
        match c', hne, e with
        | [a], _, e => simp at e
        | [a, b], _, e => simp at e
        | a :: b :: c :: d, _, _ => simp

end Vw
