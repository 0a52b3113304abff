import Verif.Lemmas.Template
import Verif.Props.Html

/-!
# The variables of a template (C71)
-/

namespace Vw

/-- C71: a template made of text and variables is written with every variable replaced by its value:
the last title set in the page or the name of its file, the last date or today, the path to the root,
the path of the page, the style sheet, the encoding and the page. The text may hold percent signs with
neighbours outside names; between two variables there is a byte outside names; the values but the page
hold no percent sign. -/
theorem C71_partial {L : HtmlLib} {c : HtmlCfg} {p : Page} {ts : List TPiece} {within : Path} {out : Str}
    (hw : c.pageWithin = some within) (ht : TemplateIs L c p (piecesText ts)) (ho : PiecesOk ts)
    (hv : ∀ v, v ≠ .content → c!"%" ∉ tvarValue L c p within [] v) :
    toHtmlPage L c (pageHtml L c p) = .ok out ↔
      ∃ body, toHtmlString (pageHtml L c p) = .ok body ∧ out = ts.flatMap (TPiece.fill (tvarValue L c p within body)) := by
  simp only [toHtmlPage, toHtmlString, hw]
  cases hf : pageHtml L c p {} with
  | error e => simp [Except.bind, Except.map]
  | ok f =>
    obtain ⟨h1, h2, h3⟩ := pageHtml_vars hf
    have htp : pageTemplate L c f = .ok (piecesText ts) := by
      unfold TemplateIs at ht
      simp only [pageTemplate, h3]
      cases hl : p.lastTemplate with
      | none => rw [hl] at ht; rw [ht]
      | some n => rw [hl] at ht; simp only [ht]
    have hr : rootPath c = tvarValue L c p within [] .rootPath := by
      simp only [rootPath, tvarValue, List.isEmpty_iff]
    have hfill : fillTemplate L c f within (piecesText ts) = piecesText ((((((ts.map
        (TPiece.subst .title (titleValue L c p))).map (TPiece.subst .date (dateValue L p))).map
        (TPiece.subst .rootPath (rootPath c))).map (TPiece.subst .wikiPath within.toUriString)).map
        (TPiece.subst .css c.currentWiki.cssName)).map (TPiece.subst .encoding b!"utf-8")) ∧ PiecesOk ((((((ts.map
        (TPiece.subst .title (titleValue L c p))).map (TPiece.subst .date (dateValue L p))).map
        (TPiece.subst .rootPath (rootPath c))).map (TPiece.subst .wikiPath within.toUriString)).map
        (TPiece.subst .css c.currentWiki.cssName)).map (TPiece.subst .encoding b!"utf-8")) := by
      have o1 := ho.subst (v := .title) (x := titleValue L c p) (hv .title (by decide))
      have o2 := o1.subst (v := .date) (x := dateValue L p) (hv .date (by decide))
      have o3 := o2.subst (v := .rootPath) (x := rootPath c) (hr ▸ hv .rootPath (by decide))
      have o4 := o3.subst (v := .wikiPath) (x := within.toUriString) (hv .wikiPath (by decide))
      have o5 := o4.subst (v := .css) (x := c.currentWiki.cssName) (hv .css (by decide))
      have o6 := o5.subst (v := .encoding) (x := b!"utf-8") (hv .encoding (by decide))
      refine ⟨?_, o6⟩
      have e1 := replace_pieces .title (pageTitle L c f) ts ho
      have e0 : pageTitle L c f = titleValue L c p := by simp only [pageTitle, titleValue, h1]
      have e0' : L.dateStr (f.date.getD L.today) = dateValue L p := by simp only [dateValue, h2]
      rw [e0] at e1
      simp only [fillTemplate, e0, e0']
      have e2 := replace_pieces .date (dateValue L p) _ o1
      have e3 := replace_pieces .rootPath (rootPath c) _ o2
      have e4 := replace_pieces .wikiPath within.toUriString _ o3
      have e5 := replace_pieces .css c.currentWiki.cssName _ o4
      have e6 := replace_pieces .encoding b!"utf-8" _ o5
      simp only [TVar.name] at e1 e2 e3 e4 e5 e6
      rw [← e6, ← e5, ← e4, ← e3, ← e2, ← e1]
      rfl
    have hlast := replace_pieces .content f.content _ hfill.2
    have hall : replace b!"%content%" f.content (fillTemplate L c f within (piecesText ts)) =
        ts.flatMap (TPiece.fill (tvarValue L c p within f.content)) := by
      rw [hfill.1]
      refine hlast.trans ?_
      simp only [piecesText, List.map_map, List.flatMap_map]
      congr 1
      funext t
      cases t with
      | lit s => rfl
      | var v => cases v <;> simp [Function.comp, TPiece.subst, TPiece.text, TPiece.fill, tvarValue, hr]
    simp only [Except.bind, Except.map, htp, hall, Except.ok.injEq]
    exact ⟨fun h => ⟨_, rfl, h.symm⟩, fun ⟨_, h, e⟩ => by rw [e, ← h]⟩

/-- Used in examples: the page of `text` with the template `t`. -/
def demoFull (t text : Str) : Option Str :=
  (demoPage text).bind fun pg => (toHtmlPage demoHtml { demoCfg with templateText := t }
    (pageHtml demoHtml { demoCfg with templateText := t } pg)).toOption

theorem full_test {t text out : Str} (h : decide (demoFull t text = some out) = true) :
    ∃ s pg, parsePage demo text = .ok s pg ∧ toHtmlPage demoHtml { demoCfg with templateText := t }
      (pageHtml demoHtml { demoCfg with templateText := t } pg) = .ok out := by
  have h := of_decide_eq_true h
  simp only [demoFull, demoPage] at h
  cases hp : parsePage demo text with
  | ok s pg =>
    rw [hp] at h
    simp only [Option.bind_some] at h
    cases ht : toHtmlPage demoHtml { demoCfg with templateText := t }
      (pageHtml demoHtml { demoCfg with templateText := t } pg) with
    | ok o => rw [ht] at h; simp only [Except.toOption, Option.some.injEq] at h; subst h; exact ⟨s, pg, rfl, ht⟩
    | error e => rw [ht] at h; cases h
  | _ => rw [hp] at h; cases h

/-- C71: a page that names a template that cannot be read is not converted. -/
theorem C71_missing_template {L : HtmlLib} {c : HtmlCfg} {p : Page} {n : Str} (hn : p.lastTemplate = some n)
    (hr : L.readFile (c.templateDir.join (.ofStr n)) = none) (out : Str) : toHtmlPage L c (pageHtml L c p) ≠ .ok out := by
  simp only [toHtmlPage]
  cases hf : pageHtml L c p {} with
  | error e => simp [Except.bind]
  | ok f =>
    obtain ⟨-, -, h3⟩ := pageHtml_vars hf
    simp only [Except.bind, pageTemplate, h3, hn, hr]
    exact fun h => by cases h

example : ∃ s pg, parsePage demo b!"%template ab\n" = .ok s pg ∧ pg.lastTemplate = some b!"ab" ∧
    demoHtml.readFile (demoCfg.templateDir.join (.ofStr b!"ab")) = none := by
  obtain ⟨s, pg, h1, h2⟩ := page_test (text := b!"%template ab\n") (fun pg => pg.lastTemplate = some b!"ab") (by decide +kernel)
  exact ⟨s, pg, h1, h2, rfl⟩

/-- The pieces of an example template. -/
def demoPieces : List TPiece :=
  [.lit b!"<a w=\"9%\">", .var .title, .lit b!", ", .var .date, .lit b!"</a> ", .var .rootPath, .lit b!" ", .var .content,
    .lit b!"&", .var .title]

/-- A template with a percent sign in its text and the title twice; the second title counts. -/
example : ∃ s pg, parsePage demo b!"%title ab\n%title cd\n%title%\n" = .ok s pg ∧
    toHtmlPage demoHtml { demoCfg with templateText := piecesText demoPieces }
      (pageHtml demoHtml { demoCfg with templateText := piecesText demoPieces } pg) =
    .ok b!"<a w=\"9%\">cd, 2021-03-05</a> ../ \n\n<p>%title%</p>\n&cd" := full_test (by decide +kernel)

example : PiecesOk demoPieces := by
  have h0 : ∀ s : Str, c!"%" ∉ s → Harmless s := fun s => harmless_of
  have h1 : ∀ s : Str, (∃ b ∈ s, isLower b = false ∧ b ≠ c!"_") → ∃ b ∈ s, ¬ NameByte b := by
    rintro s ⟨b, hb, h1, h2⟩
    exact ⟨b, hb, fun h => h.elim (by simp [h1]) h2⟩
  have h2 : Harmless b!"<a w=\"9%\">" := harmless_one (p := b!"<a w=\"9") (q := b!"\">") (by decide) (by decide)
    ⟨_, rfl, fun h => h.elim (by decide) (by decide)⟩ ⟨_, rfl, fun h => h.elim (by decide) (by decide)⟩
  refine ⟨h2, .inl (h1 _ (by decide)), h0 _ (by decide), .inl (h1 _ (by decide)), h0 _ (by decide), .inl (h1 _ (by decide)),
    h0 _ (by decide), .inl (h1 _ (by decide)), h0 _ (by decide), ?_⟩
  exact ⟨trivial, trivial⟩

/-- C71 fails for a title that holds a variable: it is replaced as well. -/
theorem C71_violated : ∃ s pg out, parsePage demo b!"%title %date%\n" = .ok s pg ∧
    toHtmlPage demoHtml { demoCfg with templateText := piecesText [.var .title] }
      (pageHtml demoHtml { demoCfg with templateText := piecesText [.var .title] } pg) = .ok out ∧
    titleValue demoHtml demoCfg pg = b!"%date%" ∧ out = b!"2021-03-05" := by
  obtain ⟨s, pg, h1, h2⟩ := full_test (t := piecesText [.var .title]) (text := b!"%title %date%\n") (out := b!"2021-03-05")
    (by decide +kernel)
  refine ⟨s, pg, _, h1, h2, ?_, rfl⟩
  have : (demoPage b!"%title %date%\n").map (titleValue demoHtml demoCfg) = some b!"%date%" := by decide +kernel
  rw [demoPage, h1] at this
  simpa using this

end Vw
