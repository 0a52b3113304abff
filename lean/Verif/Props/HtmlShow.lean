import Verif.Lemmas.HtmlShowBlocks
import Verif.Props.Html
import Verif.Props.RoundTrip

/-!
# HTML output: what is written for every element (C67), long ids (C68)
-/

namespace Vw
open W IdCache

/-- C67: if a page is converted, its HTML consists of the pieces that belong to its elements, in
their order. -/
theorem C67_elements_shown {L : HtmlLib} {c : HtmlCfg} {p : Page} {out : Str} (hp : p.Valid)
    (h : toHtmlString (pageHtml L c p) = .ok out) :
    ∃ t, out = Html.renderAll t ∧ BlocksShow L c [] p.elements t := by
  simp only [toHtmlString] at h
  cases hw : pageHtml L c p {} with
  | error e => rw [hw] at h; cases h
  | ok g =>
    rw [hw] at h
    cases h
    obtain ⟨_, t, h1, h2⟩ := blocks_makes (L := L) (c := c) p.elements hp [] {} g (fun l => rfl) hw
    exact ⟨t, by simpa using h1, h2⟩

/-- C67 for pages that were parsed. -/
theorem C67_parsed {L : HtmlLib} {c : HtmlCfg} {env : Env} {text : Str} {s : Span} {p : Page} {out : Str}
    (hp : parsePage env text = .ok s p) (h : toHtmlString (pageHtml L c p) = .ok out) :
    ∃ t, out = Html.renderAll t ∧ BlocksShow L c [] p.elements t :=
  C67_elements_shown (C65_valid env text hp) h

example : ∃ s pg, parsePage demo b!"= a =\n== b ==\n*c* :d:\n\n- [X] _e_\n\n|f|\n|-|\n|`g`|\n" = .ok s pg ∧
    toHtmlString (pageHtml demoHtml demoCfg pg) = .ok (b!"<h1 id=\"a\" class=\"header\"><a href=\"#a\">a</a></h1>\n" ++
      b!"<div id=\"a-b\"><h2 id=\"b\" class=\"header\"><a href=\"#a-b\">b</a></h2></div>\n" ++
      b!"<p><span id=\"a-b-c\"></span><strong id=\"c\">c</strong> " ++
      b!"<span id=\"a-b-d\"></span><span class=\"tag\" id=\"d\">d</span></p>\n" ++
      b!"<ul>\n<li class=\"done4\"><p><em>e</em></p></li>\n</ul>\n" ++
      b!"<table>\n<thead>\n<tr>\n<th>f</th>\n</tr>\n</thead>\n<tbody>\n<tr>\n<td><code>g</code></td>\n</tr>\n</tbody>\n</table>\n") :=
  body_test (by decide +kernel)

/-! ## C68: long ids -/

/-- C68, where no level is skipped: around a header that is not of level 1 there is an element
whose id names the sections the header is in, and the header links to it. -/
theorem C68_partial {L : HtmlLib} {c : HtmlCfg} {p : Page} {out : Str} (hp : p.Valid)
    (h : toHtmlString (pageHtml L c p) = .ok out) {pre post : List (Located Block)} {xs : Inlines} {level n : Nat}
    {ctr : Bool} {reg : Region} (hx : p.elements = pre ++ ⟨.header xs level ctr, reg⟩ :: post)
    (hn : Headers.NoSkip (Block.headersAll L pre) n) (h1 : 1 < level) (h2 : level ≤ n + 1) :
    ∃ a b u v ts, out = a ++ Html.render (.elem b!"div" [(b!"id", v)] [.elem (b!"h" ++ decStr level)
        [(b!"id", u), (b!"class", b!"header")] [.elem b!"a" [(b!"href", b!"#" ++ v)] ts]]) ++ b ∧
      Variant (normalizeId L.lower (Inline.displayAll L.toOutLib xs)) u ∧
      Variant (Headers.sectionPath (Block.headersAll L pre) level
        (normalizeId L.lower (Inline.displayAll L.toOutLib xs))) v := by
  obtain ⟨t, rfl, ht⟩ := C67_elements_shown hp h
  rw [hx] at ht
  obtain ⟨a, m, b, rfl, hm⟩ := ht.split
  rw [List.nil_append] at hm
  obtain ⟨u, ts, h3, h4, h5⟩ := hm
  rcases h5 with ⟨⟨rfl, _⟩, _⟩ | ⟨_, h5⟩
  · omega
  rcases h5 with ⟨_, v, h6, rfl⟩ | ⟨h6, _⟩
  · rw [hn.path h2] at h6
    refine ⟨Html.renderAll a, Html.renderAll b, u, v, ts, ?_, h3, h6⟩
    rw [renderAll_append, renderAll_append]
    simp [Html.renderAll]
  · exact absurd ⟨1, Nat.le_refl 1, h1, hn.spec.2 1 (Nat.le_refl 1) (by omega)⟩ h6

example : Headers.NoSkip [(1, b!"a"), (2, b!"b"), (1, b!"c"), (2, b!"d")] 2 ∧
    Headers.sectionPath [(1, b!"a"), (2, b!"b"), (1, b!"c"), (2, b!"d")] 3 b!"e" = b!"c-d-e" :=
  ⟨.snoc _ (.snoc _ (.snoc _ (.snoc _ .nil (by decide) (by decide)) (by decide) (by decide)) (by decide) (by decide))
    (by decide) (by decide), by decide⟩

/-- C68 fails if a level is skipped: the section `b` has ended before `d`. -/
theorem C68_violated : Headers.sectionPath [(1, b!"a"), (2, b!"b"), (1, b!"c")] 3 b!"d" = b!"c-d" ∧
    ∃ s pg, parsePage demo b!"= a =\n== b ==\n= c =\n=== d ===\n" = .ok s pg ∧
    toHtmlString (pageHtml demoHtml demoCfg pg) = .ok (b!"<h1 id=\"a\" class=\"header\"><a href=\"#a\">a</a></h1>\n" ++
      b!"<div id=\"a-b\"><h2 id=\"b\" class=\"header\"><a href=\"#a-b\">b</a></h2></div>\n" ++
      b!"<h1 id=\"c\" class=\"header\"><a href=\"#c\">c</a></h1>\n" ++
      b!"<div id=\"c-b-d\"><h3 id=\"d\" class=\"header\"><a href=\"#c-b-d\">d</a></h3></div>\n") :=
  ⟨by decide, body_test (by decide +kernel)⟩

/-- C68 fails for bold text even if no level is skipped. -/
theorem C68_violated_bold : Headers.NoSkip [(1, b!"a"), (2, b!"b"), (1, b!"c")] 1 ∧
    Headers.sectionPath [(1, b!"a"), (2, b!"b"), (1, b!"c")] 7 b!"d" = b!"c-d" ∧
    ∃ s pg, parsePage demo b!"= a =\n== b ==\n= c =\n*d*\n" = .ok s pg ∧
    toHtmlString (pageHtml demoHtml demoCfg pg) = .ok (b!"<h1 id=\"a\" class=\"header\"><a href=\"#a\">a</a></h1>\n" ++
      b!"<div id=\"a-b\"><h2 id=\"b\" class=\"header\"><a href=\"#a-b\">b</a></h2></div>\n" ++
      b!"<h1 id=\"c\" class=\"header\"><a href=\"#c\">c</a></h1>\n" ++
      b!"<p><span id=\"c-b-d\"></span><strong id=\"d\">d</strong></p>\n") :=
  ⟨.snoc _ (.snoc _ (.snoc _ .nil (by decide) (by decide)) (by decide) (by decide)) (by decide) (by decide),
    by decide, body_test (by decide +kernel)⟩

end Vw
