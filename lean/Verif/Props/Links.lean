import Verif.Props.HtmlShow

/-!
# Links: other wikis, anchors, and links to sections (C69, C70)
-/

namespace Vw
open Path

/-! ## C69 -/

theorem indexByName_spec (n : Str) (ws : List Wiki) : ∀ i, (∀ k, HtmlCfg.indexByName n i ws = some k →
      ∃ j w, k = i + j ∧ ws[j]? = some w ∧ w.name = some n ∧ ∀ j' w', j' < j → ws[j']? = some w' → w'.name ≠ some n) ∧
    (HtmlCfg.indexByName n i ws = none → ∀ w ∈ ws, w.name ≠ some n) := by
  induction ws with
  | nil => intro i; simp [HtmlCfg.indexByName]
  | cons w ws ih =>
    intro i
    by_cases hw : w.name = some n
    · refine ⟨fun k hk => ?_, fun h => by simp [HtmlCfg.indexByName, hw] at h⟩
      simp only [HtmlCfg.indexByName, hw, if_true, Option.some.injEq] at hk
      exact ⟨0, w, hk.symm, rfl, hw, fun j' w' h => by omega⟩
    · obtain ⟨h1, h2⟩ := ih (i + 1)
      simp only [HtmlCfg.indexByName, hw, if_false]
      refine ⟨fun k hk => ?_, fun h v hv => ?_⟩
      · obtain ⟨j, v, rfl, hv, hn, hf⟩ := h1 k hk
        refine ⟨j + 1, v, by omega, by simpa using hv, hn, fun j' w' hj hw' => ?_⟩
        cases j' with
        | zero => simp at hw'; subst hw'; exact hw
        | succ j' => exact hf j' w' (by omega) (by simpa using hw')
      · rcases List.mem_cons.1 hv with rfl | hv
        · exact hw
        · exact h2 h v hv

/-- C69: a name stands for the first wiki of that name, and for none only if there is none. -/
theorem C69_by_name (c : HtmlCfg) (n : Str) :
    (∀ w, c.wikiByName n = some w → ∃ j : Nat, c.wikis[j]? = some w ∧ w.name = some n ∧
      ∀ (j' : Nat) w', j' < j → c.wikis[j']? = some w' → w'.name ≠ some n) ∧
    (c.wikiByName n = none → ∀ w ∈ c.wikis, w.name ≠ some n) := by
  obtain ⟨h1, h2⟩ := indexByName_spec n c.wikis 0
  unfold HtmlCfg.wikiByName HtmlCfg.wikiIndexByName HtmlCfg.wikiByIndex
  constructor
  · intro w hw
    cases hi : HtmlCfg.indexByName n 0 c.wikis with
    | none => rw [hi] at hw; cases hw
    | some k =>
      obtain ⟨j, v, rfl, hv, hn, hf⟩ := h1 k hi
      rw [hi] at hw
      simp only [Option.bind_some, Nat.zero_add] at hw
      rw [hv] at hw
      cases hw
      exact ⟨j, hv, hn, hf⟩
  · intro hw
    cases hi : HtmlCfg.indexByName n 0 c.wikis with
    | none => exact h2 hi
    | some k =>
      obtain ⟨j, v, rfl, hv, hn, hf⟩ := h1 k hi
      rw [hi] at hw
      simp only [Option.bind_some, Nat.zero_add] at hw
      rw [hv] at hw
      cases hw

/-- C69: a link to a wiki that is not configured is an error that names it, and a link that is
resolved belongs to a configured wiki. -/
theorem C69_missing_wiki (L : LinkLib) (c : HtmlCfg) (w : Wiki) (src : Path) (d : LinkData)
    {out : Path} (ho : w.outputPath src b!"html" = some out) :
    (∀ i, c.wikis.length ≤ i → resolveLink L c w src (.indexed i d) = .error (.missingIndex i)) ∧
    (∀ n, (∀ v ∈ c.wikis, v.name ≠ some n) → resolveLink L c w src (.named n d) = .error (.missingName n)) ∧
    (∀ i u, resolveLink L c w src (.indexed i d) = .ok u → i < c.wikis.length) ∧
    (∀ n u, resolveLink L c w src (.named n d) = .ok u → ∃ v ∈ c.wikis, v.name = some n) := by
  refine ⟨fun i hi => ?_, fun n hn => ?_, fun i u hu => ?_, fun n u hu => ?_⟩
  · simp [resolveLink, ho, HtmlCfg.wikiByIndex, List.getElem?_eq_none hi]
  · have : c.wikiByName n = none := by
      cases hw : c.wikiByName n with
      | none => rfl
      | some v =>
        obtain ⟨j, hv, hv', _⟩ := (C69_by_name c n).1 v hw
        exact absurd hv' (hn v (List.mem_of_getElem? hv))
    simp [resolveLink, ho, this]
  · simp only [resolveLink, ho, HtmlCfg.wikiByIndex] at hu
    cases hi : c.wikis[i]? with
    | none => rw [hi] at hu; cases hu
    | some v => exact (List.getElem?_eq_some_iff.1 hi).1
  · simp only [resolveLink, ho] at hu
    cases hw : c.wikiByName n with
    | none => rw [hw] at hu; cases hu
    | some v =>
      obtain ⟨j, hv, hv', _⟩ := (C69_by_name c n).1 v hw
      exact ⟨v, List.mem_of_getElem? hv, hv'⟩

example : demoWiki.outputPath (ofStr b!"sub/a.wiki") b!"html" = some (ofStr b!"/out/sub/a.html") ∧
    resolveLink demoLinks demoCfg demoWiki (ofStr b!"sub/a.wiki") (.indexed 2 (pathLink [b!"c"])) = .error (.missingIndex 2) ∧
    resolveLink demoLinks demoCfg demoWiki (ofStr b!"sub/a.wiki") (.named b!"x" (pathLink [b!"c"])) = .error (.missingName b!"x") :=
  ⟨by decide, rfl, rfl⟩

/-- C69: links with a scheme, apart from `file` and `local`, links to a place in the page itself and
raw links are left as they are. -/
theorem C69_unchanged (L : LinkLib) (c : HtmlCfg) (w : Wiki) (src : Path) (d : LinkData)
    {out : Path} (ho : w.outputPath src b!"html" = some out) :
    resolveLink L c w src (.raw d) = .ok d.uri ∧
    (OwnAnchor d → resolveLink L c w src (.wiki d) = .ok d.uri) ∧
    (∀ s, d.uri.scheme = some s → s ≠ b!"file" → s ≠ b!"local" →
      resolveLink L c w src (.wiki d) = .ok d.uri ∧ resolveLink L c w src (.transclusion d) = .ok d.uri) := by
  refine ⟨by simp [resolveLink, ho], fun h => by simp [resolveLink, ho, (isLocalAnchor_iff d).2 h], fun s hs h1 h2 => ?_⟩
  have : d.isLocal = false := by simp [LinkData.isLocal, hs, h1, h2]
  simp [resolveLink, ho, this]

/-- The anchor of a link, its parts joined by dashes, as far as a URI may contain it. -/
def fragmentFor (L : LinkLib) (parts : List Str) : Option Str :=
  if L.fragOk (joinWith b!"-" parts) then some (joinWith b!"-" parts) else none

theorem linkTo_fragment {L : LinkLib} (hL : ∀ s u, L.relRef s = some u → u.fragment = none) {d : LinkData} {a : Path} {o : Option Path} {u : Uri}
    (h : (linkTo L a o).map (withAnchor L d) = .ok u) : u.fragment = d.toAnchor.bind (fragmentFor L) := by
  cases o with
  | none => cases h
  | some t =>
    simp only [linkTo, makeRelativeLink] at h
    cases hr : L.relRef (relativeLink a t).toUriString with
    | none => rw [hr] at h; cases h
    | some v =>
      rw [hr] at h
      cases h
      unfold withAnchor fragmentFor
      cases d.toAnchor with
      | none => exact hL _ _ hr
      | some x => rfl

/-- C69: the fragment of a resolved link to a page consists of the parts of its anchor, joined by
dashes. `hL` says that the paths written contain no `#`. -/
theorem C69_fragment {L : LinkLib} (hL : ∀ s u, L.relRef s = some u → u.fragment = none) (c : HtmlCfg) (w : Wiki)
    (src : Path) (d : LinkData) {u : Uri} (l : Link)
    (hl : (l = .wiki d ∧ LocalLink d ∧ ¬ OwnAnchor d) ∨ (∃ i, l = .indexed i d) ∨ (∃ n, l = .named n d) ∨ ∃ dt, l = .diary dt d)
    (hu : resolveLink L c w src l = .ok u) : u.fragment = d.toAnchor.bind (fragmentFor L) := by
  cases ho : w.outputPath src b!"html" with
  | none => simp [resolveLink, ho] at hu
  | some out =>
    rcases hl with ⟨rfl, h1, h2⟩ | ⟨i, rfl⟩ | ⟨n, rfl⟩ | ⟨dt, rfl⟩
    · rw [← isLocal_iff] at h1
      rw [← isLocalAnchor_iff, Bool.not_eq_true] at h2
      simp only [resolveLink, ho, h1, h2, Bool.not_false, Bool.and_true, if_true] at hu
      exact linkTo_fragment hL hu
    · simp only [resolveLink, ho] at hu
      cases hw : c.wikiByIndex i with
      | none => rw [hw] at hu; cases hu
      | some v => rw [hw] at hu; exact linkTo_fragment hL hu
    · simp only [resolveLink, ho] at hu
      cases hw : c.wikiByName n with
      | none => rw [hw] at hu; cases hu
      | some v => rw [hw] at hu; exact linkTo_fragment hL hu
    · simp only [resolveLink, ho] at hu
      exact linkTo_fragment hL hu

/-- A link with a path and an anchor. -/
def anchorLink (segs : List Str) (frag : Str) : LinkData := ⟨⟨none, none, false, segs, none, some frag⟩, none, none⟩

example : ∃ u, resolveLink demoLinks demoCfg demoWiki (ofStr b!"sub/a.wiki") (.wiki (anchorLink [b!"c"] b!"x%23y")) = .ok u ∧
    u.fragment = some b!"x-y" ∧ LocalLink (anchorLink [b!"c"] b!"x%23y") ∧ ¬ OwnAnchor (anchorLink [b!"c"] b!"x%23y") :=
  ⟨_, rfl, by decide, (isLocal_iff _).1 (by decide), fun h => absurd ((isLocalAnchor_iff _).2 h) (by decide)⟩

theorem nameExt_dot (t e : Str) (hn : t ≠ []) (h : c!"." ∉ e) : nameExt (t ++ c!"." :: e) = some e := by
  have : memrchr (· == c!".") (t ++ c!"." :: e) = some t.length :=
    memrchr_append _ _ _ _ (by decide) (fun y hy => by
      have : y ≠ 46 := fun e => h (e ▸ hy)
      simpa using this)
  cases t with
  | nil => exact absurd rfl hn
  | cons b bs =>
    simp only [nameExt, this, List.length_cons]
    simp

/-- C69: a transclusion of a local file leads to the file of the same name and extension in the
output directory. -/
theorem C69_transclusion {L : LinkLib} (hL : L.Sound) (c : HtmlCfg) {w : Wiki} {h sdir tdir : List Str} {sname t e : Str}
    {d : LinkData} {u : Uri} (hh : w.pathHtml = absPath h)
    (hl : LocalLink d) (ha : d.uri.absolute = false) (hs : d.uri.segments = tdir ++ [t ++ c!"." :: e])
    (he : c!"." ∉ e) (hne : e ≠ []) (ht : t ≠ [])
    (hc : ∀ s ∈ h ++ sdir ++ tdir ++ [t ++ c!"." :: e], CleanName s)
    (hd : ∀ s ∈ tdir, ¬ IsHtml s)
    (hu : resolveLink L c w (names (sdir ++ [sname])) (.transclusion d) = .ok u) :
    resolveRef (outNames h sdir sname) u = h ++ sdir ++ tdir ++ [t ++ c!"." :: e] := by
  have hsrc : w.outputPath (names (sdir ++ [sname])) b!"html" = some (absPath (outNames h sdir sname)) := by
    rw [outputPath_names .relative (by decide), hh, outNames]
    simp [absPath, names_append, names_single]
  have hcl : ∀ s ∈ d.uri.segments, CleanName s := by
    intro s hm
    rw [hs] at hm
    exact hc s (by rw [List.append_assoc]; exact List.mem_append.2 (.inr hm))
  have hpath : d.toPath = names (tdir ++ [t ++ c!"." :: e]) := by
    rw [toPath_clean d hcl, ha, hs]; rfl
  have hext : d.toPath.extension = some e := by
    rw [hpath]
    simp [extension, fileName, names_append, names_single, nameExt_dot t e ht he]
  have hparent : (Path.parent (names (sdir ++ [sname]))).getD [] = names sdir := by
    simp [Path.parent, names_append, names_single]
  have hj : Path.join (names sdir) (names (tdir ++ [t ++ c!"." :: e])) = names (sdir ++ tdir ++ [t ++ c!"." :: e]) := by
    rw [Path.join, push_names, ← names_append, List.append_assoc]
  have hout : w.outputPath (names (sdir ++ tdir ++ [t ++ c!"." :: e])) e =
      some (absPath (h ++ sdir ++ tdir ++ [t ++ c!"." :: e])) := by
    rw [outputPath_names .relative hne, hh, nameStem_dot t e ht he]
    simp [absPath, names_append, names_single]
  rw [← isLocal_iff] at hl
  simp only [resolveLink, hsrc, hl, if_true, localOut, ha, Bool.false_eq_true, if_false, hparent, hext,
    Option.getD_some, linkTo] at hu
  rw [hpath, hj, hout] at hu
  refine (link_resolves hL hc ?_ ?_ hu).2.2
  · rintro ⟨k, hk, hx⟩
    rw [outNames, List.append_assoc, List.append_assoc, List.append_assoc, List.append_assoc] at hx
    have hx := List.append_cancel_left (List.append_cancel_left hx)
    have hx := congrArg List.dropLast hx
    rw [List.dropLast_append_of_ne_nil hk, List.dropLast_concat] at hx
    exact hd _ (by rw [hx]; simp) (isHtml_out sname)
  · intro _ hx
    have := congrArg List.length hx
    simp [outNames] at this

/-- The picture `{{pic.png}}` in `sub/a.wiki` is `/out/sub/pic.png`. -/
example : ∃ u, resolveLink demoLinks demoCfg demoWiki (ofStr b!"sub/a.wiki") (.transclusion (pathLink [b!"pic.png"])) = .ok u ∧
    resolveRef (outNames [b!"out"] [b!"sub"] b!"a.wiki") u = [b!"out", b!"sub", b!"pic.png"] :=
  ⟨_, rfl, by decide⟩

/-! ## C70: links to sections -/

/-- The ids of the sections around a header of level `l` that comes after the headers `hs`, and its
own id. -/
def Headers.sectionIds (hs : Headers) (l : Nat) (i : Str) : List Str :=
  (hs.sections.filter fun e => e.1 < l).map (·.2) ++ [i]

/-- C70 (partial): if the parts of the anchor of a link are the ids of the sections around a header
of the target page and of the header itself, then the HTML of the target has an element whose id is
the fragment of the link, up to the numbers that make ids unique. Missing: parts that differ from the
ids of the headers they name, and links within a page. -/
theorem C70_partial {L : HtmlLib} (hL : ∀ s u, L.link.relRef s = some u → u.fragment = none) {c c' : HtmlCfg}
    {w : Wiki} {src : Path} {d : LinkData} {l : Link} {u : Uri}
    (hl : (l = .wiki d ∧ LocalLink d ∧ ¬ OwnAnchor d) ∨ (∃ i, l = .indexed i d) ∨ (∃ n, l = .named n d) ∨ ∃ dt, l = .diary dt d)
    (hu : resolveLink L.link c w src l = .ok u)
    {p : Page} {out : Str} (hp : p.Valid) (h : toHtmlString (pageHtml L c' p) = .ok out)
    {pre post : List (Located Block)} {xs : Inlines} {level n : Nat} {ctr : Bool} {reg : Region}
    (hx : p.elements = pre ++ ⟨.header xs level ctr, reg⟩ :: post)
    (hn : Headers.NoSkip (Block.headersAll L pre) n) (h1 : 1 ≤ level) (h2 : level ≤ n + 1)
    (ha : d.toAnchor = some (Headers.sectionIds (Block.headersAll L pre) level
      (normalizeId L.lower (Inline.displayAll L.toOutLib xs))))
    (hf : L.link.fragOk (Headers.sectionPath (Block.headersAll L pre) level
      (normalizeId L.lower (Inline.displayAll L.toOutLib xs))) = true) :
    ∃ t frag, out = Html.renderAll t ∧ u.fragment = some frag ∧ ∃ v ∈ Html.idsAll t, Variant frag v := by
  have hfr := C69_fragment hL c w src d l hl hu
  rw [ha] at hfr
  simp only [Option.bind_some, fragmentFor] at hfr
  change u.fragment = if L.link.fragOk (Headers.sectionPath (Block.headersAll L pre) level _) then _ else _ at hfr
  rw [if_pos hf] at hfr
  obtain ⟨t, rfl, ht⟩ := C67_elements_shown hp h
  refine ⟨t, _, rfl, hfr, ?_⟩
  change ∃ v ∈ Html.idsAll t, Variant (Headers.sectionPath (Block.headersAll L pre) level _) v
  rw [hx] at ht
  obtain ⟨a, m, b, rfl, hm⟩ := ht.split
  rw [List.nil_append] at hm
  obtain ⟨u, ts, h3, h4, h5⟩ := hm
  rw [idsAll_append, idsAll_append, ← hn.path h2]
  by_cases hlev : level = 1
  · subst hlev
    have hpath : Headers.pathTo (Block.headersAll L pre) (1 - 1) (normalizeId L.lower (Inline.displayAll L.toOutLib xs)) =
      normalizeId L.lower (Inline.displayAll L.toOutLib xs) := rfl
    rw [hpath]
    refine ⟨u, ?_, h3⟩
    rcases h5 with ⟨_, rfl⟩ | ⟨_, ⟨⟨l, h6, h7, _⟩, _⟩ | ⟨_, rfl⟩⟩
    · simp [Html.idsAll, Html.ids, idsOf]
    · omega
    · simp [Html.idsAll, Html.ids, idsOf]
  · rcases h5 with ⟨⟨rfl, _⟩, _⟩ | ⟨_, h5⟩
    · exact absurd rfl hlev
    rcases h5 with ⟨_, v, h6, rfl⟩ | ⟨h6, _⟩
    · exact ⟨v, by simp [Html.idsAll, Html.ids, idsOf], h6⟩
    · exact absurd ⟨1, Nat.le_refl 1, by omega, hn.spec.2 1 (Nat.le_refl 1) (by omega)⟩ h6

/-- URI references of the form `path#fragment`, used in the examples. -/
def fragUri (s : Str) : Option Uri :=
  if s.any (fun b => b ≤ 32 || b == 34 || b ≥ 127) then none
  else match splitOn c!"#" s with
    | [p] => some ⟨none, none, false, [p], none, none⟩
    | [p, f] => some ⟨none, none, false, [p], none, some f⟩
    | _ => none

/-- Libraries that print fragments, used in the examples. -/
def fragHtml : HtmlLib := { demoHtml with
  uriStr := fun u => joinWith b!"/" u.segments ++ (match u.fragment with
    | some f => c!"#" :: f
    | none => []) }

/-- The HTML of an example text. -/
def fragBody (text : Str) : Option Str :=
  match parsePage ⟨fragUri, demoDate⟩ text with
  | .ok _ pg => (toHtmlString (pageHtml fragHtml demoCfg pg)).toOption
  | _ => none

theorem frag_test {text out : Str} (h : decide (fragBody text = some out) = true) :
    ∃ s pg, parsePage ⟨fragUri, demoDate⟩ text = .ok s pg ∧ toHtmlString (pageHtml fragHtml demoCfg pg) = .ok out := by
  have h := of_decide_eq_true h
  simp only [fragBody] at h
  cases hp : parsePage ⟨fragUri, demoDate⟩ text with
  | ok s pg =>
    rw [hp] at h
    dsimp only at h
    cases ht : toHtmlString (pageHtml fragHtml demoCfg pg) with
    | ok o => rw [ht] at h; simp only [Except.toOption, Option.some.injEq] at h; subst h; exact ⟨s, pg, rfl, ht⟩
    | error e => rw [ht] at h; cases h
  | _ => rw [hp] at h; cases h

/-- The hypotheses of `C70_partial` met: the link `p#a#b` leads to the header `b` in the section `a`. -/
example : ∃ s pg, parsePage ⟨fragUri, demoDate⟩ b!"= a =\n== b ==\n[[p#a#b]]\n" = .ok s pg ∧
    toHtmlString (pageHtml fragHtml demoCfg pg) = .ok (b!"<h1 id=\"a\" class=\"header\"><a href=\"#a\">a</a></h1>\n" ++
      b!"<div id=\"a-b\"><h2 id=\"b\" class=\"header\"><a href=\"#a-b\">b</a></h2></div>\n" ++
      b!"<p><a href=\"p.html#a-b\">p#a#b</a></p>\n") :=
  frag_test (by decide +kernel)

/-- C70 fails for links within a page: the parts of the anchor are not joined by a dash. -/
theorem C70_violated_local : ∃ s pg, parsePage ⟨fragUri, demoDate⟩ b!"= a =\n== b ==\n[[#a#b]]\n" = .ok s pg ∧
    toHtmlString (pageHtml fragHtml demoCfg pg) = .ok (b!"<h1 id=\"a\" class=\"header\"><a href=\"#a\">a</a></h1>\n" ++
      b!"<div id=\"a-b\"><h2 id=\"b\" class=\"header\"><a href=\"#a-b\">b</a></h2></div>\n" ++
      b!"<p><a href=\"#a%23b\">#a#b</a></p>\n") :=
  frag_test (by decide +kernel)

/-- C70 fails for headers with capital letters and blanks: the id is `a-b`, the fragment `A%20b`. -/
theorem C70_violated : ∃ s pg, parsePage ⟨fragUri, demoDate⟩ b!"= A b =\n[[p#A b]]\n" = .ok s pg ∧
    toHtmlString (pageHtml fragHtml demoCfg pg) = .ok (b!"<h1 id=\"a-b\" class=\"header\"><a href=\"#a-b\">A b</a></h1>\n" ++
      b!"<p><a href=\"p.html#A%20b\">p#A b</a></p>\n") :=
  frag_test (by decide +kernel)

/-! ## C78: what kind of link it is -/

/-- C78: a link is local exactly if it has no scheme or one of the schemes `file` and `local`, it
is an anchor of its own page exactly if it consists of a fragment only, and it names a directory
exactly if its path ends with a slash, that is, with an empty segment. -/
theorem C78_predicates (d : LinkData) :
    (d.isLocal = true ↔ LocalLink d) ∧ (d.isLocalAnchor = true ↔ OwnAnchor d) ∧
    (d.isPathDir = true ↔ ∃ dir, d.uri.segments = dir ++ [[]]) ∧ (d.hasAnchor = true ↔ ∃ f, d.uri.fragment = some f) := by
  refine ⟨isLocal_iff d, isLocalAnchor_iff d, ?_, Option.isSome_iff_exists⟩
  unfold LinkData.isPathDir
  cases hs : d.uri.segments.getLast? with
  | none =>
    simp only [Bool.false_eq_true, false_iff]
    rintro ⟨dir, h⟩
    simp [h] at hs
  | some s =>
    rw [List.getLast?_eq_some_iff] at hs
    obtain ⟨dir, h⟩ := hs
    rw [h]
    simp only [List.isEmpty_iff]
    constructor
    · rintro rfl; exact ⟨dir, rfl⟩
    · rintro ⟨dir', h'⟩
      simpa using (List.append_inj' h' rfl).2

example : (anchorLink [b!"c", []] b!"x").isPathDir ∧ (anchorLink [[]] b!"x").isLocalAnchor ∧
    ¬ (anchorLink [b!"c"] b!"x").isPathDir ∧ ¬ (LinkData.mk ⟨some b!"http", none, true, [], none, none⟩ none none).isLocal := by
  decide

/-- C78: the path of a link with clean segments has those segments, from the root exactly if the path
of the link begins with a slash; an empty last segment adds nothing. -/
theorem C78_path (d : LinkData) (dir : List Str) (hd : d.uri.segments = dir ∨ d.uri.segments = dir ++ [[]])
    (h : ∀ s ∈ dir, CleanName s) : d.toPath = if d.uri.absolute then absPath dir else names dir := by
  have : d.toPath = loc d.uri.absolute dir := by
    rcases hd with rfl | hd
    · exact toPath_clean d h
    · exact toPath_dir d hd h
  rw [this]
  cases d.uri.absolute <;> rfl

/-- C78: a dot in front of a relative path is kept, as are two dots. -/
theorem C78_path_dots (d : LinkData) (dir : List Str) (ha : d.uri.absolute = false) (h : ∀ s ∈ dir, CleanName s) :
    (d.uri.segments = b!"." :: dir → d.toPath = .cur :: names dir) ∧
    (d.uri.segments = b!".." :: dir → d.toPath = .parent :: names dir) := by
  have h1 : Path.ofStr b!"." = [.cur] := by decide
  have h2 : Path.ofStr b!".." = [.parent] := by decide
  constructor <;> intro hs
  · simp only [LinkData.toPath, hs, ha, List.foldl_cons, h1, Bool.false_eq_true, if_false]
    rw [toPath_fold dir h]
    rfl
  · simp only [LinkData.toPath, hs, ha, List.foldl_cons, h2, Bool.false_eq_true, if_false]
    rw [toPath_fold dir h]
    rfl

example : (anchorLink [b!".", b!"c"] b!"x").toPath = [.cur, .normal b!"c"] := by decide

example : (∀ s ∈ [b!"c", b!"d"], CleanName s) ∧ (anchorLink [b!"c", b!"d", []] b!"x").toPath = names [b!"c", b!"d"] := by
  refine ⟨?_, by decide⟩
  intro s hs
  simp only [List.mem_cons, List.not_mem_nil, or_false] at hs
  rcases hs with rfl | rfl <;> exact ⟨by decide, by decide, by decide, by decide, by decide, by decide⟩

end Vw
