import Verif.Lemmas.Erased
import Verif.Lemmas.ErasedMoved
import Verif.Props.Crlf
import Verif.Props.Moved

/-!
# C94: what is written does not depend on where the elements are
-/

namespace Vw

/-! ## C94 -/

/-- Two pages are written alike: as vimwiki text, as HTML and as a whole HTML page, or fail with the same error. -/
def SameOutput (a b : Page) : Prop :=
  (∀ (L : OutLib) (cfg : VwCfg), a.toVimwiki L cfg = b.toVimwiki L cfg) ∧
  (∀ (L : HtmlLib) (c : HtmlCfg), toHtmlString (pageHtml L c a) = toHtmlString (pageHtml L c b)) ∧
  ∀ (L : HtmlLib) (c : HtmlCfg), toHtmlPage L c (pageHtml L c a) = toHtmlPage L c (pageHtml L c b)

/-- C94: pages whose elements differ at most in their places are written alike. -/
theorem C94_places {a b : Page} (h : a.erase = b.erase) : SameOutput a b := by
  refine ⟨fun L cfg => ?_, fun L c => ?_, fun L c => ?_⟩
  · rw [← toVimwiki_erase a, ← toVimwiki_erase b, h]
  · rw [← pageHtml_erase a, ← pageHtml_erase b, h]
  · rw [← pageHtml_erase a, ← pageHtml_erase b, h]

/-- C94: the line endings of a text do not change what is written. -/
theorem C94_line_endings {env : Env} {text : Str} (ht : 13 ∉ text) {s : Span} {pg : Page}
    (h : parsePage env text = .ok s pg) :
    ∃ s' pg', parsePage env (crlf text) = .ok s' pg' ∧ SameOutput pg' pg := by
  obtain ⟨s', pg', h1, h2, _⟩ := (C93_line_endings (env := env) ht).1 s pg h
  exact ⟨s', pg', h1, C94_places h2⟩

/-- C94: blank lines in front of a text do not change what is written. -/
theorem C94_blank_lines {env : Env} {a u : Str} (ha : BlankLines a) (hu : u ≠ []) {s : Span} {pg : Page}
    (h : parsePage env u = .ok s pg) :
    ∃ s' pg', parsePage env (a ++ u) = .ok s' pg' ∧ SameOutput pg' pg := by
  obtain ⟨s', h'⟩ := ((C89_blank_lines (env := env) ha hu).1 (pg.moved a.length)).2 ⟨pg, ⟨s, h⟩, rfl⟩
  exact ⟨s', _, h', C94_places (Page.erase_moved _ _)⟩

/-- The hypotheses are met: the sample has line endings, elements and places. -/
example : 13 ∉ sample ∧ crlf sample ≠ sample ∧ BlankLines b!" \n\r\n" ∧ sample ≠ [] ∧
    ∃ s pg, parsePage demo sample = .ok s pg ∧ pg.elements.length = 6 ∧
      pg.elements.map (·.region) ≠ pg.erase.elements.map (·.region) := by
  refine ⟨by decide +kernel, by decide +kernel, ?_, by decide +kernel, page_test _ (by decide +kernel)⟩
  exact .cons (bs := b!" ") (eol := b!"\n") (by decide) (.inl rfl) (.cons (bs := []) (by simp) (.inr rfl) .nil)

end Vw
