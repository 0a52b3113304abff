import Verif.Lemmas.HtmlFails
import Verif.Lemmas.Template
import Verif.Props.HtmlShow
import Verif.Props.Links

/-!
# When a page is converted to HTML (C91)
-/

namespace Vw
open W

/-- C91: a page is converted exactly if every link shown in it can be resolved and every code block shown in it can be
highlighted; if not, the error is that of one of them. -/
theorem C91_converted (L : HtmlLib) (c : HtmlCfg) {p : Page} (hp : p.Valid) :
    ((∃ s, toHtmlString (pageHtml L c p) = .ok s) ↔ ∀ n, p.Needs c n → n.answer L c = .ok ()) ∧
      ∀ e, toHtmlString (pageHtml L c p) = .error e → ∃ n, p.Needs c n ∧ n.answer L c = .error e := by
  unfold toHtmlString
  rcases page_wants (L := L) (c := c) hp {} with ⟨g, h1, h2⟩ | ⟨e, n, h1, h2, h3⟩
  · rw [h1]
    exact ⟨⟨fun _ => h2, fun _ => ⟨_, rfl⟩⟩, fun e h => by cases h⟩
  · rw [h3]
    refine ⟨⟨fun ⟨s, h⟩ => (by cases h), fun h => ?_⟩, fun e' h => ?_⟩
    · rw [h n h1] at h2; cases h2
    · cases h; exact ⟨n, h1, h2⟩

/-- C91: a page with its template is converted exactly if what it needs is there, the template it names can be read and
the page lies in its wiki; if not, the error is that of one of them. -/
theorem C91_page (L : HtmlLib) (c : HtmlCfg) {p : Page} (hp : p.Valid) :
    ((∃ s, toHtmlPage L c (pageHtml L c p) = .ok s) ↔
      (∀ n, p.Needs c n → n.answer L c = .ok ()) ∧ (∃ t, TemplateIs L c p t) ∧ c.pageWithin.isSome) ∧
    ∀ e, toHtmlPage L c (pageHtml L c p) = .error e →
      (∃ n, p.Needs c n ∧ n.answer L c = .error e) ∨ (e = .template ∧ ¬ ∃ t, TemplateIs L c p t) ∨
        (e = .panic ∧ c.pageWithin = none) := by
  unfold toHtmlPage
  rcases page_wants (L := L) (c := c) hp {} with ⟨g, h1, h2⟩ | ⟨e, n, h1, h2, h3⟩
  · have ht : ∀ t, pageTemplate L c g = .ok t ↔ TemplateIs L c p t := by
      intro t
      simp only [pageTemplate, (pageHtml_vars h1).2.2, TemplateIs]
      cases p.lastTemplate with
      | none => exact ⟨fun h => (by cases h; rfl), fun h => by rw [h]⟩
      | some n => cases h : L.readFile (c.templateDir.join (.ofStr n)) <;> simp [h]
    have he : ∀ e, pageTemplate L c g = .error e → e = .template := by
      intro e h
      simp only [pageTemplate] at h
      split at h
      · cases h
      · split at h
        · cases h
        · cases h; rfl
    simp only [h1, Except.bind]
    cases hx : pageTemplate L c g with
    | error e =>
      have hno : ¬ ∃ t, TemplateIs L c p t := fun ⟨t, h⟩ => by rw [(ht t).2 h] at hx; cases hx
      refine ⟨⟨fun ⟨s, h⟩ => (by cases h), fun ⟨_, h, _⟩ => absurd h hno⟩, fun e' h => ?_⟩
      cases h
      exact .inr (.inl ⟨he e hx, hno⟩)
    | ok t =>
      have hyes : ∃ t, TemplateIs L c p t := ⟨t, (ht t).1 hx⟩
      cases hw : c.pageWithin with
      | none =>
        refine ⟨⟨fun ⟨s, h⟩ => (by cases h), fun ⟨_, _, h⟩ => (by cases h)⟩, fun e h => ?_⟩
        cases h
        exact .inr (.inr ⟨rfl, rfl⟩)
      | some w => exact ⟨⟨fun _ => ⟨h2, hyes, rfl⟩, fun _ => ⟨_, rfl⟩⟩, fun e h => by cases h⟩
  · rw [h3]
    refine ⟨⟨fun ⟨s, h⟩ => (by cases h), fun ⟨h, _⟩ => ?_⟩, fun e' h => ?_⟩
    · have := h n h1
      rw [h2] at this
      cases this
    · cases h; exact .inl ⟨n, h1, h2⟩

/-- The library rejects the way from the output of the page to the output of another file of some wiki. -/
def WayRejected (L : LinkLib) (c : HtmlCfg) : Prop :=
  ∃ page own w file ext other, c.pageWithin = some page ∧ c.currentWiki.outputPath page b!"html" = some own ∧
    (w = c.currentWiki ∨ w ∈ c.wikis) ∧ Wiki.outputPath w file ext = some other ∧ L.relRef (Path.relativeLink own other).toUriString = none

/-- C91: in a page of its wiki a link is not resolved only if it names a wiki that is not configured, or the library that
makes references does not accept the way to its target. -/
theorem C91_unresolved (L : HtmlLib) {c : HtmlCfg} (hw : c.pageWithin.isSome) {l : Link} {e : HtmlErr}
    (h : resolveHere L c l = .error e) :
    (∃ i d, l = .indexed i d ∧ c.wikis.length ≤ i ∧ e = .missingIndex i) ∨
    (∃ n d, l = .named n d ∧ (∀ w ∈ c.wikis, w.name ≠ some n) ∧ e = .missingName n) ∨
    (e = .relativeReference ∧ WayRejected L.link c) := by
  obtain ⟨p, hp⟩ := Option.isSome_iff_exists.1 hw
  obtain ⟨own, ho⟩ := Option.isSome_iff_exists.1 (C48_no_panic c.currentWiki p b!"html")
  simp only [resolveHere, hp, resolveLink, ho] at h
  have key : ∀ (w : Wiki) (f : Path) (ext : Str) (g : Uri → Uri), (w = c.currentWiki ∨ w ∈ c.wikis) →
      (linkTo L.link own (w.outputPath f ext)).map g = .error e → e = .relativeReference ∧ WayRejected L.link c := by
    intro w f ext g hm hk
    obtain ⟨t, ht⟩ := Option.isSome_iff_exists.1 (C48_no_panic w f ext)
    simp only [linkTo, ht, makeRelativeLink] at hk
    cases hr : L.link.relRef (Path.relativeLink own t).toUriString with
    | none =>
      rw [hr] at hk
      cases hk
      exact ⟨rfl, p, own, w, f, ext, t, hp, ho, hm, ht, hr⟩
    | some u => rw [hr] at hk; cases hk
  have key' : ∀ (d : LinkData) (path : Path) (ext : Str) (g : Uri → Uri),
      (linkTo L.link own (localOut c.currentWiki p d path ext)).map g = .error e → e = .relativeReference ∧ WayRejected L.link c := by
    intro d path ext g hk
    unfold localOut at hk
    split at hk
    · exact key _ _ _ g (.inl rfl) hk
    · exact key _ _ _ g (.inl rfl) hk
  have idm : ∀ r : Except HtmlErr Uri, r.map (fun u => u) = r := by intro r; cases r <;> rfl
  cases l with
  | wiki d =>
    simp only at h
    split at h
    · exact .inr (.inr (key' _ _ _ _ h))
    · cases h
  | indexed i d =>
    simp only [HtmlCfg.wikiByIndex] at h
    cases hi : c.wikis[i]? with
    | none => rw [hi] at h; cases h; exact .inl ⟨i, d, rfl, List.getElem?_eq_none_iff.1 hi, rfl⟩
    | some w =>
      rw [hi] at h
      exact .inr (.inr (key _ _ _ _ (.inr (List.mem_of_getElem? hi)) h))
  | named n d =>
    simp only at h
    cases hn : c.wikiByName n with
    | none => rw [hn] at h; cases h; exact .inr (.inl ⟨n, d, rfl, (C69_by_name c n).2 hn, rfl⟩)
    | some w =>
      rw [hn] at h
      obtain ⟨j, hj, -⟩ := (C69_by_name c n).1 w hn
      exact .inr (.inr (key _ _ _ _ (.inr (List.mem_of_getElem? hj)) h))
  | diary dt d => exact .inr (.inr (key _ _ _ _ (.inl rfl) h))
  | raw d => cases h
  | transclusion d =>
    simp only at h
    split at h
    · exact .inr (.inr (key' _ _ _ (fun u => u) ((idm _).trans h)))
    · cases h

/-- C91: a page whose wiki is found by its path, or that has a directory but no wiki, lies in its wiki. -/
theorem C91_within {c : HtmlCfg} {dir : List Str} {n : Str} (hp : c.page = absPath (dir ++ [n]))
    (hi : c.wikiIndex = c.wikiIndexByPath c.page) : c.pageWithin.isSome := by
  cases h : c.wikiIndexByPath c.page with
  | none =>
    have : c.activeWiki = none := by simp [HtmlCfg.activeWiki, hi, h]
    rw [(C48_outside (ext := b!"html") this hp (by decide)).2]
    rfl
  | some i =>
    obtain ⟨w, hw, ⟨rest, hr⟩, -⟩ := C49_deepest c c.page i h
    have ha : c.currentWiki = w := by simp [HtmlCfg.currentWiki, HtmlCfg.activeWiki, hi, h, HtmlCfg.wikiByIndex, hw]
    unfold HtmlCfg.pageWithin Wiki.pathWithin
    rw [ha, hr, stripPrefix_append]
    rfl

/-- C91: the conversion of a page of its wiki neither panics nor runs forever, provided that the highlighter does neither. -/
theorem C91_no_panic (L : HtmlLib) {c : HtmlCfg} {p : Page} (hp : p.Valid) (hw : c.pageWithin.isSome)
    (hL : ∀ lang ls e, L.highlight lang ls = .error e → e = .theme) {e : HtmlErr} (h : toHtmlPage L c (pageHtml L c p) = .error e) :
    e ≠ .panic ∧ e ≠ .diverge := by
  rcases (C91_page L c hp).2 e h with ⟨n, -, hn⟩ | ⟨rfl, -⟩ | ⟨-, h1⟩
  · cases n with
    | link l =>
      simp only [Need.answer] at hn
      cases hr : resolveHere L c l with
      | ok u => rw [hr] at hn; cases hn
      | error e' =>
        rw [hr] at hn
        cases hn
        rcases C91_unresolved L hw hr with ⟨_, _, _, _, rfl⟩ | ⟨_, _, _, _, rfl⟩ | ⟨rfl, _⟩ <;> exact ⟨nofun, nofun⟩
    | code lang ls =>
      simp only [Need.answer] at hn
      cases hr : L.highlight lang ls with
      | ok u => rw [hr] at hn; cases hn
      | error e' =>
        rw [hr] at hn
        cases hn
        rw [hL _ _ _ hr]
        exact ⟨nofun, nofun⟩
  · exact ⟨nofun, nofun⟩
  · rw [h1] at hw; cases hw

/-- C91: with a library that accepts every way, a highlighter that never fails and a template that can be read, a page of
its wiki is converted exactly if every link to another wiki that is shown names a configured wiki. -/
theorem C91_wikis (L : HtmlLib) {c : HtmlCfg} {p : Page} (hp : p.Valid) (hw : c.pageWithin.isSome)
    (hr : ∀ s, (L.link.relRef s).isSome) (hh : ∀ lang ls, ∃ s, L.highlight lang ls = .ok s) (ht : ∃ t, TemplateIs L c p t) :
    (∃ s, toHtmlPage L c (pageHtml L c p) = .ok s) ↔
      (∀ i d, p.Needs c (.link (.indexed i d)) → i < c.wikis.length) ∧
      (∀ n d, p.Needs c (.link (.named n d)) → ∃ w ∈ c.wikis, w.name = some n) := by
  rw [(C91_page L c hp).1]
  obtain ⟨page, hpage⟩ := Option.isSome_iff_exists.1 hw
  have hres : ∀ l, (Need.link l).answer L c = .ok () → ∃ u, resolveLink L.link c c.currentWiki page l = .ok u := by
    intro l h
    simp only [Need.answer, resolveHere, hpage] at h
    cases hx : resolveLink L.link c c.currentWiki page l with
    | ok u => exact ⟨u, rfl⟩
    | error e => rw [hx] at h; cases h
  obtain ⟨out, hout⟩ := Option.isSome_iff_exists.1 (C48_no_panic c.currentWiki page b!"html")
  constructor
  · rintro ⟨h, -, -⟩
    refine ⟨fun i d hn => ?_, fun n d hn => ?_⟩
    · obtain ⟨u, hu⟩ := hres _ (h _ hn)
      exact (C69_missing_wiki L.link c c.currentWiki page d hout).2.2.1 i u hu
    · obtain ⟨u, hu⟩ := hres _ (h _ hn)
      exact (C69_missing_wiki L.link c c.currentWiki page d hout).2.2.2 n u hu
  · rintro ⟨h1, h2⟩
    refine ⟨fun n hn => ?_, ht, hw⟩
    cases n with
    | code lang ls =>
      obtain ⟨s, hs⟩ := hh lang ls
      simp [Need.answer, hs, Except.map]
    | link l =>
      simp only [Need.answer]
      cases hx : resolveHere L c l with
      | ok u => rfl
      | error e =>
        exfalso
        rcases C91_unresolved L hw hx with ⟨i, d, rfl, hi, -⟩ | ⟨m, d, rfl, hm, -⟩ | ⟨-, _, own, w, f, ext, t, -, -, -, -, hno⟩
        · have := h1 i d hn; omega
        · obtain ⟨w, hw', hw''⟩ := h2 m d hn
          exact hm w hw' hw''
        · have := hr (Path.relativeLink own t).toUriString
          rw [hno] at this
          cases this

/-- The error of a conversion. -/
private def errOf : Except HtmlErr Str → Option HtmlErr
  | .ok _ => none
  | .error e => some e

/-- A page with a link in bold text in a list and one in a table. -/
example : ∃ s pg, parsePage demo b!"- a *[[wiki1:b]]*\n\n| [[c]] |\n" = .ok s pg ∧ pg.Valid ∧ demoCfg.pageWithin.isSome ∧
    (∃ t, toHtmlPage demoHtml demoCfg (pageHtml demoHtml demoCfg pg) = .ok t) := by
  obtain ⟨s, pg, h1, h2⟩ := page_test (text := b!"- a *[[wiki1:b]]*\n\n| [[c]] |\n")
    (fun pg => errOf (toHtmlPage demoHtml demoCfg (pageHtml demoHtml demoCfg pg)) = none) (by decide +kernel)
  refine ⟨s, pg, h1, C65_valid _ _ h1, by decide, ?_⟩
  cases h : toHtmlPage demoHtml demoCfg (pageHtml demoHtml demoCfg pg) with
  | ok t => exact ⟨t, rfl⟩
  | error e => rw [h] at h2; cases h2

/-- One link to a wiki that is not configured keeps the whole page from being converted. -/
example : ∃ s pg, parsePage demo b!"= a =\n- b\n  | [[wiki7:c]] |\n" = .ok s pg ∧
    toHtmlPage demoHtml demoCfg (pageHtml demoHtml demoCfg pg) = .error (.missingIndex 7) := by
  obtain ⟨s, pg, h1, h2⟩ := page_test (text := b!"= a =\n- b\n  | [[wiki7:c]] |\n")
    (fun pg => errOf (toHtmlPage demoHtml demoCfg (pageHtml demoHtml demoCfg pg)) = some (.missingIndex 7)) (by decide +kernel)
  refine ⟨s, pg, h1, ?_⟩
  cases h : toHtmlPage demoHtml demoCfg (pageHtml demoHtml demoCfg pg) with
  | ok t => rw [h] at h2; cases h2
  | error e => rw [h] at h2; cases h2; rfl

example : ∃ c : HtmlCfg, c.page = absPath ([b!"home", b!"u"] ++ [b!"a.wiki"]) ∧ c.wikiIndex = c.wikiIndexByPath c.page ∧ c.wikiIndex = some 0 :=
  ⟨{ demoCfg with page := absPath [b!"home", b!"u", b!"a.wiki"], wikiIndex := some 0 }, rfl, by decide, rfl⟩

end Vw
