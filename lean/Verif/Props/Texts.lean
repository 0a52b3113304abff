import Verif.Spec.Texts
import Verif.Spec.Demo
import Verif.Lemmas.Found
import Verif.Props.RoundTrip

/-!
# C115: text is never cut in two
-/

namespace Vw

theorem Tile.apart_texts {C : Ctx} {d a b : Nat} {xs : Inlines} (h : Tile C d a xs b) : TextsApart xs := by
  induction h with
  | nil => intro i y z hy; simp at hy
  | leaf _ _ _ _ _ _ _ hl ih =>
    intro i y z hy hz t t' ht
    cases i with
    | zero =>
      cases hy
      refine hl t ht z ?_ t'
      rw [List.head?_eq_getElem?]
      simpa using hz
    | succ i => exact ih i y z (by simpa using hy) (by simpa using hz) t t' ht
  | deco _ _ _ _ _ _ _ _ _ _ _ ih =>
    intro i y z hy hz t t' ht
    cases i with
    | zero => cases hy; cases ht
    | succ i => exact ih i y z (by simpa using hy) (by simpa using hz) t t' ht

/-- C115. In no row of elements of a page are two texts next to each other: not in the lines of
paragraphs (also those of items), headers, cells, terms and definitions and not inside of decorations. -/
theorem C115_texts_apart {env : Env} {text : Str} {s' : Span} {pg : Page}
    (h : parsePage env text = .ok s' pg) {xs : Inlines} (hx : pg.Row xs) : TextsApart xs := by
  obtain ⟨d, a, b, ht⟩ := page_row h hx
  exact ht.apart_texts

/-- C115. A row that holds nothing but text is one text. -/
theorem C115_one_text {env : Env} {text : Str} {s' : Span} {pg : Page}
    (h : parsePage env text = .ok s' pg) {xs : Inlines} (hx : pg.Row xs)
    (ht : ∀ x ∈ xs, ∃ t, x.inner = .text t) : xs.length ≤ 1 := by
  have ha := C115_texts_apart h hx
  match xs, ha, ht with
  | [], _, _ => simp
  | [_], _, _ => simp
  | y :: z :: zs, ha, ht =>
    obtain ⟨t, h1⟩ := ht y (by simp)
    obtain ⟨t', h2⟩ := ht z (by simp)
    exact absurd h2 (ha 0 y z rfl rfl t t' h1)

theorem Tile.first {C : Ctx} {d a b : Nat} {xs : Inlines} (h : Tile C d a xs b) {x : Located Inline}
    (hx : xs.head? = some x) : x.region.offset = a := by
  cases h with
  | nil => cases hx
  | leaf => cases hx; rfl
  | deco => cases hx; rfl

theorem Tile.last {C : Ctx} {d a b : Nat} {xs : Inlines} (h : Tile C d a xs b) {x : Located Inline}
    (hx : xs.getLast? = some x) : x.region.offset + x.region.len = b := by
  induction h with
  | nil => cases hx
  | @leaf d a n y xs b _ _ _ _ _ ht _ _ ih =>
    cases xs with
    | nil => cases ht; cases hx; rfl
    | cons z zs => exact ih (by rw [List.getLast?_cons_cons] at hx; exact hx)
  | @deco d a n kind ys e xs b _ _ _ _ _ _ _ _ _ ht _ ih =>
    cases xs with
    | nil => cases ht; cases hx; rfl
    | cons z zs => exact ih (by rw [List.getLast?_cons_cons] at hx; exact hx)

theorem infix_of_lead {L c R u : Str} (h : u = L ++ c ++ R) : L <:+: u := ⟨[], c ++ R, by simp [h]⟩

/-- The text of an element that is no text is not plain. -/
theorem Piece.marked {C : Ctx} (hs : C.env.SchemeSound) {x : Located Inline} (h : Piece C x)
    (hx : ∀ t, x.inner ≠ .text t) :
    ¬ PlainText (sub C.inner x.region.offset (x.region.offset + x.region.len)) := by
  obtain ⟨x, r⟩ := x
  intro hp
  simp only at hx hp
  rcases h.what with hw | ⟨k, ys, e, -, c, hb⟩
  · simp only at hw
    cases x with
    | text t => exact hx t rfl
    | code c => exact hp b!"`" (by decide) (infix_of_lead hw.eq)
    | math c => exact hp b!"$" (by decide) (infix_of_lead hw.1.eq)
    | keyword k =>
      refine hp k.bytes (by cases k <;> decide) ?_
      rw [show sub _ _ _ = _ from hw]
      exact List.infix_rfl
    | tags ts => exact hp b!":" (by decide) (((List.prefix_append _ _).trans hw.2.2.2.1).isInfix)
    | comment c =>
      cases c with
      | line t => rw [hw.1] at hp; exact hp b!"%%" (by decide) (List.prefix_append _ _).isInfix
      | multi ls =>
        obtain ⟨body, e, -⟩ := hw
        rw [e] at hp
        exact hp b!"%%" (by decide) ⟨[], b!"+" ++ body ++ b!"+%%", by simp⟩
    | decorated k ys => exact hw.elim
    | link l =>
      cases l with
      | raw d =>
        obtain ⟨h1, ⟨sc, h2, h3⟩, -⟩ := hw
        obtain ⟨q, e⟩ := hs _ _ _ h1 h2 h3
        have hm : c!":" ∈ (sub C.inner r.offset (r.offset + r.len)).map lowerByte := by
          rw [← e]; simp
        obtain ⟨y, hy, e⟩ := List.mem_map.1 hm
        have e : y = c!":" := by
          unfold lowerByte at e
          split at e
          · omega
          · exact e
        subst e
        obtain ⟨u, v, e⟩ := List.append_of_mem hy
        exact hp b!":" (by decide) ⟨u, v, by rw [e]; simp⟩
      | transclusion d => obtain ⟨⟨c, hb, -⟩, -⟩ := hw; exact hp b!"{{" (by decide) (infix_of_lead hb.eq)
      | wiki d => obtain ⟨⟨c, hb, -⟩, -⟩ := hw; exact hp b!"[[" (by decide) (infix_of_lead hb.eq)
      | indexed n d => obtain ⟨⟨c, hb, -⟩, -⟩ := hw; exact hp b!"[[" (by decide) (infix_of_lead hb.eq)
      | named n d => obtain ⟨⟨c, hb, -⟩, -⟩ := hw; exact hp b!"[[" (by decide) (infix_of_lead hb.eq)
      | diary n d => obtain ⟨⟨c, hb, -⟩, -⟩ := hw; exact hp b!"[[" (by decide) (infix_of_lead hb.eq)
  · exact hp k.delim (by cases k <;> decide) (infix_of_lead hb.eq)

/-- C115. A row in which nothing is written that elements begin with is one text, which is what is
written. -/
theorem C115_plain {env : Env} (hs : env.SchemeSound) {text : Str} {s' : Span} {pg : Page}
    (h : parsePage env text = .ok s' pg) {xs : Inlines} (hx : pg.Row xs) {x y : Located Inline}
    (hf : xs.head? = some x) (hl : xs.getLast? = some y)
    (hp : PlainText (sub text x.region.offset (y.region.offset + y.region.len))) :
    xs = [x] ∧ x.inner = .text (sub text x.region.offset (x.region.offset + x.region.len)) := by
  obtain ⟨d, a, b, ht⟩ := page_row h hx
  have ea := ht.first hf
  have eb := ht.last hl
  have hxm : x ∈ xs := List.mem_of_mem_head? (by rw [hf]; rfl)
  have hall : ∀ z ∈ xs, ∃ t, z.inner = .text t := by
    intro z hz
    by_cases hz' : ∃ t, z.inner = .text t
    · exact hz'
    exfalso
    refine (ht.piece z hz).marked hs (fun t e => hz' ⟨t, e⟩) fun w hw hi => hp w hw ?_
    have h1 := ht.starts z hz
    have h2 := ht.ends z hz
    refine hi.trans ?_
    show sub text _ _ <:+: _
    rw [ea, eb, ← sub_append text a z.region.offset b h1 (by omega),
      ← sub_append text z.region.offset (z.region.offset + z.region.len) b (by omega) h2]
    exact ⟨_, _, by rw [List.append_assoc]⟩
  have hlen := C115_one_text h hx hall
  match xs, hf, hlen with
  | [z], hf, _ =>
    cases hf
    refine ⟨rfl, ?_⟩
    obtain ⟨t, e⟩ := hall x (by simp)
    rcases (ht.piece x (by simp)).what with hw | ⟨k, ys, e', -⟩
    · rw [e] at hw ⊢
      exact congrArg _ hw.1
    · rw [e] at e'; cases e'

set_option maxRecDepth 20000

/-- A plain row: a header between other elements. -/
example : ∃ s' pg, parsePage demo b!"*a*\n= One, two [3] ~4 =\nb TODO\n" = .ok s' pg ∧
    ∃ xs x, pg.Row xs ∧ xs = [x] ∧ x.inner = .text b!"One, two [3] ~4" := by
  have hp : ∃ s' pg, parsePage demo b!"*a*\n= One, two [3] ~4 =\nb TODO\n" = .ok s' pg ∧
      ∃ y ∈ pg.blocks, ∃ xs, xs ∈ y.inner.rows ∧ ∃ x ∈ xs, xs.length = 1 ∧
        x.region.offset = 6 ∧ x.region.len = 15 :=
    page_test (text := b!"*a*\n= One, two [3] ~4 =\nb TODO\n")
      (fun pg => ∃ y ∈ pg.blocks, ∃ xs, xs ∈ y.inner.rows ∧ ∃ x ∈ xs, xs.length = 1 ∧
        x.region.offset = 6 ∧ x.region.len = 15) (by decide +kernel)
  obtain ⟨s', pg, h, y, hy, xs, hx, x, hm, hl, h3, h4⟩ := hp
  obtain ⟨z, rfl⟩ := List.length_eq_one_iff.1 hl
  obtain rfl := List.mem_singleton.1 hm
  obtain ⟨e1, e2⟩ := C115_plain demo_schemeSound (x := x) (y := x) h (.inl ⟨y, hy, hx⟩) rfl rfl
    (by rw [h3, h4]; unfold PlainText; decide +kernel)
  rw [h3, h4] at e2
  exact ⟨s', pg, h, _, x, .inl ⟨y, hy, hx⟩, e1, e2⟩

/-- Four texts in a row with other elements between them. -/
example : ∃ s' pg, parsePage demo b!"one `two` three TODO four http://a.b five\n" = .ok s' pg ∧
    ∃ xs, pg.Row xs ∧ xs.length = 7 ∧ TextsApart xs := by
  have hp : ∃ s' pg, parsePage demo b!"one `two` three TODO four http://a.b five\n" = .ok s' pg ∧
      ∃ y ∈ pg.blocks, ∃ xs, xs ∈ y.inner.rows ∧ xs.length = 7 :=
    page_test (text := b!"one `two` three TODO four http://a.b five\n")
      (fun pg => ∃ y ∈ pg.blocks, ∃ xs, xs ∈ y.inner.rows ∧ xs.length = 7) (by decide +kernel)
  obtain ⟨s', pg, h, y, hy, xs, hx, hl⟩ := hp
  exact ⟨s', pg, h, xs, .inl ⟨y, hy, hx⟩, hl, C115_texts_apart h (.inl ⟨y, hy, hx⟩)⟩

end Vw
