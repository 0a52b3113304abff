import Verif.Lemmas.Panics
import Verif.Lemmas.Tiled
import Verif.Spec.Demo

/-!
# Properties of parsing a page (C01-C08, C15)

`parsePage env text` is `Language::from_vimwiki_str(text).parse::<Page>()`; `env`
is any behaviour of the URI and date libraries.
-/

namespace Vw
open RTree (Nest)

set_option maxRecDepth 20000

/-- A page with most kinds of elements, used in the examples below. -/
def sample : Str :=
  b!"= *H* =\n \n- [ ] a `b`\n  - c :t:u:\n\nterm:: def\n%title x y\n|a|$m$|\n%% end\n"

/-- The sample parses. -/
theorem sample_ok : ∃ s pg, parsePage demo sample = .ok s pg ∧ pg.elements.length = 6 ∧
    pg.inlines.length = 11 ∧ pg.blocks.length = 9 := page_test _ (by decide +kernel)

/-! ## C01 -/

/-- C01: parsing any text returns; the fuel of the loops and recursions never
runs out. -/
theorem C01_parse_terminates (env : Env) (text : Str) : parsePage env text ≠ .diverge := by
  intro h
  have := parsePage_ok env text
  rw [h] at this
  exact this

/-! ## C02 -/

/-- C02: a text is never rejected, and a page accounts for the whole text. -/
theorem C02_every_text_is_a_page (env : Env) (text : Str) :
    (∃ r, parsePage env text = .panic r) ∨
    ∃ s pg, parsePage env text = .ok s pg ∧ s.start = text.length := by
  have h := parsePage_ok env text
  have he := parsePage_ne_err env text
  cases hp : parsePage env text with
  | ok s pg => rw [hp] at h; exact .inr ⟨s, pg, rfl, h.1⟩
  | err => exact absurd hp he
  | panic r => exact .inl ⟨r, rfl⟩
  | diverge => exact absurd hp (C01_parse_terminates env text)

/-! ## C03 -/

/-- C03 does not hold: three texts on which parsing panics, each at another place. -/
theorem C03_violated :
    parsePage demo b!"*a http:x*:y" = .panic .textUnderflow ∧
    parsePage demo (b!" {{{\n" ++ [194, 160] ++ b!"x\n }}}") = .panic .dedentBoundary ∧
    parsePage demo b!"[[diary:2021-03-05#my anchor]]" = .panic .diaryUnwrap :=
  ⟨Res.of_reason (by decide +kernel), Res.of_reason (by decide +kernel),
    Res.of_reason (by decide +kernel)⟩

/-- C03, what holds: a panic needs something particular in the text, which depends on its
site. -/
theorem C03_panic_sites_partial (env : Env) (text : Str) (r : Reason)
    (h : parsePage env text = .panic r) : PanicNeeds env text r := by
  have h' := parsePage_ok env text
  rw [h] at h'
  exact needs_of_allow h'

/-- The three texts above have what is needed. -/
example : LinkWord demo b!"*a http:x*:y" ∧
    (∃ w ∈ wideBlanks, w <:+: b!" {{{\n" ++ [194, 160] ++ b!"x\n }}}") ∧
    DiaryAnchor demo b!"[[diary:2021-03-05#my anchor]]" :=
  ⟨C03_panic_sites_partial demo _ _ C03_violated.1,
    ⟨[194, 160], by decide, b!" {{{\n", b!"x\n }}}", rfl⟩,
    C03_panic_sites_partial demo _ _ C03_violated.2.2⟩

/-- C03, what holds: without these, parsing never panics. -/
theorem C03_no_panic_partial (env : Env) (hs : env.SchemeSound) (text : Str)
    (ht : Calm env text) : ∃ s pg, parsePage env text = .ok s pg ∧ s.start = text.length := by
  rcases C02_every_text_is_a_page env text with ⟨r, h⟩ | h
  · exact absurd (C03_panic_sites_partial env text r h) (ht.no hs r)
  · exact h

/-- A text with colons and letters outside ASCII to which this applies. -/
def calmText : Str :=
  b!"= *H* =\n- a: [[b|c]] :t:\n- TODO\n|a|b|\nterm:: caf" ++ ([195, 169] ++ b!" 12:30\n{{{\n x\n}}}\n")

theorem calmText_calm : Calm demo calmText := by
  refine ⟨?_, by decide, ?_, fun w hw => calm_links (by decide) w hw, ?_⟩
  · exact (ValidUtf8.ascii (by decide)).append (.append (.two (by decide) (by decide)
      ⟨by decide, by decide⟩ .nil) (.ascii (by decide)))
  · decide
  · rintro ⟨h, -⟩
    revert h
    decide

example : ∃ s pg, parsePage demo calmText = .ok s pg ∧ pg.elements.length = 5 :=
  page_test _ (by decide +kernel)

/-! ## C04 -/

/-- C04: the region of every element, at any depth and including the wrappers of
definition lists, lies inside the text. -/
theorem C04_regions_in_bounds {env : Env} {text : Str} {s : Span} {pg : Page}
    (h : parsePage env text = .ok s pg) :
    ∀ r ∈ RTree.regionsList (pg.trees true), r.offset + r.len ≤ text.length :=
  fun r hr => ((parsePage_blocksAt h).within r hr).2

example : ∃ s pg, parsePage demo sample = .ok s pg ∧
    (RTree.regionsList (pg.trees true)).length = 28 := page_test _ (by decide +kernel)

/-! ## C05 -/

/-- C05, what holds: leaving out the two wrappers of the entries of a definition
list, the regions of all elements are non-empty, siblings are disjoint and in
source order, children lie inside their parent and are one level deeper. -/
theorem C05_regions_nest_partial {env : Env} {text : Str} {s : Span} {pg : Page}
    (h : parsePage env text = .ok s pg) : Nest 0 0 (pg.trees false) text.length :=
  (parsePage_blocksAt h).nest

example : ∃ s pg, parsePage demo sample = .ok s pg ∧
    (RTree.regionsList (pg.trees false)).length = 26 := page_test _ (by decide +kernel)

/-- C05 does not hold for the wrappers: the bundle of definitions does not contain
its first definition, and the entry ends before its last definition does. -/
theorem C05_violated : ∃ s pg, parsePage demo b!"term:: def\n:: def2\n" = .ok s pg ∧
    ¬ Nest 0 0 (pg.trees true) 19 := by
  obtain ⟨s, pg, h, hp⟩ := page_test (text := b!"term:: def\n:: def2\n")
    (fun pg => RTree.nestB 0 0 19 (pg.trees true) = false) (by decide +kernel)
  refine ⟨s, pg, h, fun hn => ?_⟩
  rw [hn.nestB] at hp
  cases hp

/-! ## C06 -/

/-- C06: the top-level elements cover the text in order, except for blank lines and
the line terminator after a placeholder. -/
theorem C06_elements_tile_page {env : Env} {text : Str} {s : Span} {pg : Page}
    (h : parsePage env text = .ok s pg) : Tiled text 0 pg.elements := parsePage_tiled h

example : ∃ s pg, parsePage demo sample = .ok s pg ∧
    pg.elements.map (fun x => (x.region.offset, x.region.len)) =
      [(0, 8), (10, 24), (35, 11), (46, 10), (57, 8), (65, 7)] := page_test _ (by decide +kernel)

/-! ## C07 -/

/-- C07: a text element holds exactly the bytes of its region, which are on one
line and not empty. -/
theorem C07_text_verbatim {env : Env} {text : Str} {s : Span} {pg : Page}
    (h : parsePage env text = .ok s pg) {t : Str} {r : Region}
    (ht : ⟨.text t, r⟩ ∈ pg.inlines) : t = r.source text ∧ t ≠ [] ∧ 10 ∉ t := by
  have hp := parsePage_piece h ht
  rcases hp.what with hw | ⟨_, _, he, _⟩
  · refine ⟨hw.1, ?_, hw.2⟩
    intro he
    have hl := congrArg List.length hw.1
    rw [he, sub_length _ _ _ hp.hi] at hl
    have : 0 < r.len := hp.pos
    simp only [List.length_nil] at hl
    omega
  · cases he

example : ∃ s pg, parsePage demo sample = .ok s pg ∧
    ∃ x ∈ pg.inlines, x.inner.strings = [b!"def"] := page_test _ (by decide +kernel)

/-! ## C08 -/

/-- C08: every string of the page parsed from valid UTF-8 is valid UTF-8. -/
theorem C08_strings_utf8 {env : Env} {text : Str} {s : Span} {pg : Page}
    (h : parsePage env text = .ok s pg) (hv : ValidUtf8 text) :
    ∀ w ∈ pg.strings, ValidUtf8 w := by
  intro w hw
  simp only [Page.strings, List.mem_append, List.mem_flatMap] at hw
  rcases hw with ⟨x, hx, hw⟩ | ⟨x, hx, hw⟩
  · exact (parsePage_piece h hx).valid hv w hw
  · exact (parsePage_block h hx).2.2.valid hv w hw

/-- `é*à*` and a code block with a no-break space and `€`. -/
def sampleUtf8 : Str :=
  [195, 169] ++ b!"*" ++ [195, 160] ++ b!"*\n{{{\n" ++ [194, 160, 226, 130, 172] ++ b!"\n}}}\n"

theorem sampleUtf8_valid : ValidUtf8 sampleUtf8 := by
  unfold sampleUtf8
  simp only [List.cons_append, List.nil_append]
  refine .two (by decide) (by decide) ⟨by decide, by decide⟩ (.one (by decide) (.two (by decide)
    (by decide) ⟨by decide, by decide⟩ ?_))
  iterate 6 refine .one (by decide) ?_
  refine .two (by decide) (by decide) ⟨by decide, by decide⟩ (.three (by decide) (by decide)
    ⟨by decide, by decide⟩ (by decide) (by decide) ⟨by decide, by decide⟩ ?_)
  iterate 5 refine .one (by decide) ?_
  exact .nil

example : ∃ s pg, parsePage demo sampleUtf8 = .ok s pg ∧
    pg.strings = [[195, 169], [195, 160], [194, 160, 226, 130, 172]] := page_test _ (by decide +kernel)

/-! ## C15 -/

/-- C15, what holds: a tag set is at the start of the text or after whitespace, its
tags are non-empty without colon or whitespace, and the source begins with the
tags written between colons. -/
theorem C15_tags_partial {env : Env} {text : Str} {s : Span} {pg : Page}
    (h : parsePage env text = .ok s pg) {ts : List Str} {r : Region}
    (ht : ⟨.tags ts, r⟩ ∈ pg.inlines) :
    ts ≠ [] ∧ (∀ t ∈ ts, t ≠ [] ∧ c!":" ∉ t ∧ ∀ b ∈ t, isGap b = false) ∧
    (r.offset = 0 ∨ ∃ b, text[r.offset - 1]? = some b ∧ isGap b = true) ∧
    ∃ rest, r.source text = b!":" ++ ts.flatMap (· ++ b!":") ++ rest := by
  have hp := parsePage_piece h ht
  rcases hp.what with hw | ⟨_, _, he, _⟩
  · obtain ⟨h1, h2, h3, ⟨rest, h4⟩, h5⟩ := hw
    have hgap : ∀ b, isGap b = isAsciiWs b := by
      intro b; unfold isGap isAsciiWs; cases b == 13 <;> simp
    refine ⟨h1, ?_, ?_, rest, h4.symm⟩
    · intro t ht
      refine ⟨(h5 t ht).1, (h5 t ht).2, fun b hb => ?_⟩
      rw [hgap]
      refine h3 b ?_
      rw [← h4]
      simp only [List.mem_append, List.mem_flatMap]
      exact .inl (.inr ⟨t, ht, .inl hb⟩)
    · rcases h2 with h2 | ⟨b, h2, h3⟩
      · exact .inl h2
      · exact .inr ⟨b, h2, by rw [hgap]; exact h3⟩
  · cases he

example : ∃ s pg, parsePage demo sample = .ok s pg ∧
    ∃ x ∈ pg.inlines, x.inner.strings = [b!"t", b!"u"] := page_test _ (by decide +kernel)

/-- C15 does not hold in full: the rest of the word after the last tag is part of
the element's region but of no tag, so it is lost. -/
theorem C15_violated : ∃ s pg r, parsePage demo b!":a:b:c" = .ok s pg ∧
    pg.inlines = [⟨.tags [b!"a", b!"b"], r⟩] ∧ r.source b!":a:b:c" = b!":a:b:c" :=
  ⟨_, _, _, rfl, rfl, rfl⟩

end Vw
