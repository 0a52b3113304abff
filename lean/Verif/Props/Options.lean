import Verif.Lemmas.Options
import Verif.Props.Template

/-!
# C95 and C96: what the options of the HTML output do
-/

namespace Vw
open W

/-- Used in examples: the HTML page of `text`. -/
theorem cfg_test {L : HtmlLib} {c : HtmlCfg} {text out : Str}
    (h : decide (((demoPage text).bind fun pg => (toHtmlPage L c (pageHtml L c pg)).toOption) = some out) = true) :
    ∃ s pg, parsePage demo text = .ok s pg ∧ toHtmlPage L c (pageHtml L c pg) = .ok out := by
  have h := of_decide_eq_true h
  simp only [demoPage] at h
  cases hp : parsePage demo text with
  | ok s pg =>
    rw [hp] at h
    simp only [Option.bind_some] at h
    cases ht : toHtmlPage L c (pageHtml L c pg) with
    | ok o => rw [ht] at h; simp only [Except.toOption, Option.some.injEq] at h; subst h; exact ⟨s, pg, rfl, ht⟩
    | error e => rw [ht] at h; cases h
  | _ => rw [hp] at h; cases h

/-! ## C95 -/

/-- C95: without `comment.include` a page is written as the page without its comments. -/
theorem C95_comments_partial {L : HtmlLib} {c : HtmlCfg} (hc : c.comments = false) (pg : Page) :
    toHtmlString (pageHtml L c pg) = toHtmlString (pageHtml L c pg.uncommented) ∧
      toHtmlPage L c (pageHtml L c pg) = toHtmlPage L c (pageHtml L c pg.uncommented) := by
  rw [page_uncommented hc]
  exact ⟨rfl, rfl⟩

/-- C95: with `paragraph.ignore_newline` a page is written as if the lines of its paragraphs were one line, with
spaces in between. -/
theorem C95_newlines_partial {L : HtmlLib} {c : HtmlCfg} (hc : c.ignoreNewline = true) (pg : Page) :
    toHtmlString (pageHtml L c pg) = toHtmlString (pageHtml L c pg.joined) ∧
      toHtmlPage L c (pageHtml L c pg) = toHtmlPage L c (pageHtml L c pg.joined) := by
  rw [page_joined hc]
  exact ⟨rfl, rfl⟩

/-- C95: without it there is a line break between any two parts of a paragraph. -/
theorem C95_breaks_partial {L : HtmlLib} {c : HtmlCfg} (hc : c.ignoreNewline = false) {as bs : List Inlines} (ha : as ≠ [])
    (hb : bs ≠ []) : paraLines L c (as ++ bs) = paraLines L c as ⊳ put b!"<br />" ⊳ paraLines L c bs := by
  rw [paraLines_app as bs ha hb, hc]
  rfl

/-- C95 fails: `template.name`, `template.ext`, `list.ignore_newline`, `link.base_url`, `link.canonicalize` and
`link.use_ugly_urls` change nothing that is written. -/
theorem C95_no_effect {L : HtmlLib} {c d : HtmlCfg} (h : c.AgreeOnRest d) (pg : Page) :
    toHtmlString (pageHtml L d pg) = toHtmlString (pageHtml L c pg) ∧
      toHtmlPage L d (pageHtml L d pg) = toHtmlPage L c (pageHtml L c pg) := by
  rw [(cfg2_rest h).page]
  refine ⟨rfl, ?_⟩
  rw [h]
  rfl

/-- A configuration that asks for line breaks in lists, canonical links and pretty links. -/
def wishfulCfg : HtmlCfg :=
  { demoCfg with listIgnoreNewline := false, canonicalize := true, uglyUrls := false, baseUrl := b!"https://a.b/" }

example : demoCfg.AgreeOnRest wishfulCfg := rfl

/-- C95 fails for lists: a line break in an item is not written as one although it shall not be ignored. -/
theorem C95_lists_violated : ∃ s pg, parsePage demo b!"- a\n  b\n" = .ok s pg ∧
    toHtmlPage demoHtml wishfulCfg (pageHtml demoHtml wishfulCfg pg) = .ok b!"<ul>\n<li><p>a b</p></li>\n</ul>\n" ∧
    wishfulCfg.listIgnoreNewline = false := by
  obtain ⟨s, pg, h1, h2⟩ := cfg_test (L := demoHtml) (c := wishfulCfg) (text := b!"- a\n  b\n")
    (out := b!"<ul>\n<li><p>a b</p></li>\n</ul>\n") (by decide +kernel)
  exact ⟨s, pg, h1, h2, rfl⟩

/-- C95 fails for links: they neither begin with the base url nor lose the name of the file. -/
theorem C95_links_violated : ∃ s pg, parsePage demo b!"[[b]]\n" = .ok s pg ∧
    toHtmlPage demoHtml wishfulCfg (pageHtml demoHtml wishfulCfg pg) = .ok b!"<p><a href=\"b.html\">b</a></p>\n" ∧
    wishfulCfg.canonicalize = true ∧ wishfulCfg.uglyUrls = false := by
  obtain ⟨s, pg, h1, h2⟩ := cfg_test (L := demoHtml) (c := wishfulCfg) (text := b!"[[b]]\n")
    (out := b!"<p><a href=\"b.html\">b</a></p>\n") (by decide +kernel)
  exact ⟨s, pg, h1, h2, rfl, rfl⟩

/-- A page with comments and paragraphs of more than one line meets the hypotheses. -/
example : demoCfg.comments = false ∧ demoCfg.ignoreNewline = true ∧ ∃ s pg,
    parsePage demo b!"a %%+ x +%% b\nc\n" = .ok s pg ∧
    toHtmlPage demoHtml demoCfg (pageHtml demoHtml demoCfg pg) = .ok b!"<p>a  b c</p>\n" ∧
    toHtmlPage demoHtml demoCfg (pageHtml demoHtml demoCfg pg.joined.uncommented) = .ok b!"<p>a  b c</p>\n" := by
  refine ⟨rfl, rfl, ?_⟩
  obtain ⟨s, pg, h1, h2⟩ := cfg_test (L := demoHtml) (c := demoCfg) (text := b!"a %%+ x +%% b\nc\n")
    (out := b!"<p>a  b c</p>\n") (by decide +kernel)
  refine ⟨s, pg, h1, h2, ?_⟩
  rw [← (C95_comments_partial rfl pg.joined).2, ← (C95_newlines_partial rfl pg).2, h2]

/-! ## C96 -/

/-- C96: a template that is named by a relative path is read from the directory of the templates, unless there is a
`..` in the path. -/
theorem C96_inside_partial {dir : Path} {n : Str} (hd : dir ≠ []) (hr : n.head? ≠ some c!"/") :
    dir.InDir (dir.join (.ofStr n)) ↔ b!".." ∉ splitOn c!"/" n := by
  rw [join_relative hd hr]
  constructor
  · rintro ⟨names, h⟩ hp
    have h := List.append_cancel_left h
    have hm : Comp.parent ∈ (Path.pieces true (splitOn c!"/" n)).filter (· ≠ .cur) :=
      List.mem_filter.2 ⟨pieces_parent _ _ hp, by decide⟩
    rw [h] at hm
    simp at hm
  · intro h
    obtain ⟨names, hn⟩ := pieces_names true _ h
    exact ⟨names, by rw [hn]⟩

/-- C96 fails: a template that is named by an absolute path is read from there, whatever the directory. -/
theorem C96_absolute (dir : Path) {n : Str} (hr : n.head? = some c!"/") : dir.join (.ofStr n) = .ofStr n := by
  unfold Path.join Path.push Path.ofStr
  rw [if_pos hr]
  rfl

/-- C96: of two file systems that agree on the directory of the templates, a page that names a template by a relative
name without `..`, or none, makes the same page. -/
theorem C96_reads_partial {L : HtmlLib} {rd : Path → Option Str} {c : HtmlCfg} {pg : Page} (hd : c.templateDir ≠ [])
    (hr : ∀ q, c.templateDir.InDir q → rd q = L.readFile q)
    (hn : ∀ n, pg.lastTemplate = some n → n.head? ≠ some c!"/" ∧ b!".." ∉ splitOn c!"/" n) :
    toHtmlPage { L with readFile := rd } c (pageHtml { L with readFile := rd } c pg) = toHtmlPage L c (pageHtml L c pg) := by
  rw [(cfg2_files L c rd).page]
  unfold toHtmlPage
  cases h : pageHtml L c pg {} with
  | error e => rfl
  | ok f =>
    have ht : pageTemplate { L with readFile := rd } c f = pageTemplate L c f := by
      unfold pageTemplate
      rw [(pageHtml_vars h).2.2]
      cases hl : pg.lastTemplate with
      | none => rfl
      | some n => simp only [hr _ ((C96_inside_partial hd (hn n hl).1).2 (hn n hl).2)]
    simp only [Except.bind, ht]
    rfl

/-- Files for the examples: a file elsewhere and a template with the configured extension. -/
def filesHtml : HtmlLib := { demoHtml with
  readFile := fun p => if p = .ofStr b!"/etc/secret" then some b!"secret" else
    if p = .ofStr b!"vimwiki/templates/tt.tpl" then some b!"[%content%]" else none }

/-- C96 fails: a page can show any file that can be read, by an absolute path or with `..`. -/
theorem C96_outside_violated : ∃ s pg, parsePage demo b!"%template /etc/secret\n" = .ok s pg ∧
    toHtmlPage filesHtml demoCfg (pageHtml filesHtml demoCfg pg) = .ok b!"secret" ∧
    ¬ demoCfg.templateDir.InDir (.ofStr b!"/etc/secret") := by
  obtain ⟨s, pg, h1, h2⟩ := cfg_test (L := filesHtml) (c := demoCfg) (text := b!"%template /etc/secret\n")
    (out := b!"secret") (by decide +kernel)
  refine ⟨s, pg, h1, h2, ?_⟩
  rintro ⟨names, h⟩
  have : (Path.ofStr b!"/etc/secret").head? = some .root := by decide
  rw [h] at this
  cases this

/-- C96 fails: the extension of templates is not put behind the name. -/
theorem C96_extension_violated : ∃ s pg, parsePage demo b!"%template tt\n" = .ok s pg ∧
    toHtmlPage filesHtml demoCfg (pageHtml filesHtml demoCfg pg) = .error .template ∧
    demoCfg.templateExt = b!"tpl" ∧
    filesHtml.readFile (demoCfg.templateDir.join (.ofStr b!"tt.tpl")) = some b!"[%content%]" := by
  have h : decide (((demoPage b!"%template tt\n").map fun pg =>
      (match toHtmlPage filesHtml demoCfg (pageHtml filesHtml demoCfg pg) with
        | .error e => some e
        | .ok _ => none)) = some (some HtmlErr.template)) = true := by decide +kernel
  have h := of_decide_eq_true h
  simp only [demoPage] at h
  cases hp : parsePage demo b!"%template tt\n" with
  | ok s pg =>
    rw [hp] at h
    refine ⟨s, pg, rfl, ?_, rfl, by decide +kernel⟩
    simp only [Option.map_some, Option.some.injEq] at h
    split at h
    · next e he => cases h; exact he
    · cases h
  | _ => rw [hp] at h; cases h

/-- The hypotheses are met by a page with a template that is there. -/
example : demoCfg.templateDir ≠ [] ∧ ∃ s pg, parsePage demo b!"%template tt.tpl\na\n" = .ok s pg ∧
    toHtmlPage filesHtml demoCfg (pageHtml filesHtml demoCfg pg) = .ok b!"[\n<p>a</p>\n]" ∧
    (b!"tt.tpl").head? ≠ some c!"/" ∧ b!".." ∉ splitOn c!"/" b!"tt.tpl" := by
  obtain ⟨s, pg, h1, h2⟩ := cfg_test (L := filesHtml) (c := demoCfg) (text := b!"%template tt.tpl\na\n")
    (out := b!"[\n<p>a</p>\n]") (by decide +kernel)
  exact ⟨by decide, s, pg, h1, h2, by decide, by decide⟩

end Vw
