import Verif.Lemmas.Paths

/-! # Properties of paths and links in the HTML output: C46 to C50 and C59 -/

namespace Vw
open Path

/-! ## C46: path normalisation -/

/-- C46: a normalised path has no `.` and `..`. -/
theorem C46_no_dots (p : Path) : NoDots (normalize p) := by
  intro c hc
  rw [normalize_eq] at hc
  generalize p.any (· == .root) = a at hc
  cases a <;> simp [loc, absPath, names] at hc
  · obtain ⟨n, _, rfl⟩ := hc; simp
  · rcases hc with rfl | ⟨n, _, rfl⟩ <;> simp

/-- C46: normalising twice changes nothing more. -/
theorem C46_idempotent (p : Path) : normalize (normalize p) = normalize p := by
  rw [normalize_eq (normalize p), normalize_eq p, any_root_loc, walk_loc]

/-- C46: a normalised absolute path is absolute and leads to the same place. `walk` stays
in the root when `..` is followed there, so the root is never left. -/
theorem C46_same_place (p : Path) (h : p.hasRoot) :
    ∃ ns, normalize p = absPath ns ∧ ∀ dir, walk dir p = ns := by
  cases p with
  | nil => simp [hasRoot] at h
  | cons c p =>
    have : c = .root := by simpa [hasRoot] using h
    subst this
    exact ⟨walk [] p, by rw [normalize_eq]; simp [loc, walk], fun dir => rfl⟩

/-- C46: a relative path that does not climb above its start leads to the same place
from everywhere. -/
theorem C46_relative (p : Path) (h : Stays 0 p) (dir : List Str) :
    walk dir (normalize p) = walk dir p := by
  rw [normalize_eq, stays_no_root p 0 h]
  have := walk_stays p dir [] h
  simp only [List.append_nil] at this
  rw [this]
  simp [loc, walk_names]

/-- A relative path that climbs loses its leading `..`, so the condition is needed. -/
theorem C46_climbing : ∃ p dir, walk dir (normalize p) ≠ walk dir p :=
  ⟨ofStr b!"../a", [b!"x"], by decide⟩

example : normalize (ofStr b!"/a/./b/../../..//c/d/.") = absPath [b!"c", b!"d"] := by decide
example : (ofStr b!"/a/./b/../c").hasRoot := by decide
example : Stays 0 (ofStr b!"a/../b/./c") := by simp [ofStr, splitOn, pieces, pieceComp, Stays]

/-! ## C47: relative links -/

/-- C47 (partial): the link made for a target, resolved as RFC 3986 says against the
source, is the target. Both may be written with `.` and `..`. Missing: the target is the
directory of the source, or lies below the source as if that were a directory. -/
theorem C47_link_partial {L : LinkLib} (hL : L.Sound) {p q : Path} {src target : List Str} {u : Uri}
    (hp : Stays 0 p) (hq : Stays 0 q) (hs : walk [] p = src) (ht : walk [] q = target)
    (hc : ∀ s ∈ target, CleanName s) (h1 : ¬ ProperPrefix src target)
    (h2 : src ≠ [] → target ≠ src.dropLast)
    (h : makeRelativeLink L (.root :: p) (.root :: q) = .ok u) :
    u.scheme = none ∧ u.authority = none ∧ resolveRef src u = target := by
  rw [makeRelativeLink, relativeLink_dots p q hp hq, hs, ht] at h
  exact link_resolves hL hc h1 h2 h

/-- A library that reads every text without `?` and `#` as a relative path. -/
def demoLinks : LinkLib where
  relRef s := some ⟨none, none, false, splitOn c!"/" s, none, none⟩
  fragOk _ := true
  dateStr _ := b!"2021-03-05"

theorem demoLinks_sound : demoLinks.Sound where
  rel := by
    intro s u h _ _ _
    simp only [demoLinks, Option.some.injEq] at h
    subst h
    exact ⟨rfl, rfl, rfl, rfl, rfl, rfl⟩

theorem cleanName_of {s : Str} (h : s ≠ [] ∧ s ≠ b!"." ∧ s ≠ b!".." ∧ c!"/" ∉ s ∧ c!"?" ∉ s ∧ c!"#" ∉ s) :
    CleanName s := ⟨h.1, h.2.1, h.2.2.1, h.2.2.2.1, h.2.2.2.2.1, h.2.2.2.2.2⟩

/-- From `/out/a/b.html` to `/out/c/d.html` the link is `../c/d.html`. -/
example : ∃ u, makeRelativeLink demoLinks (absPath [b!"out", b!"a", b!"b.html"])
      (absPath [b!"out", b!"c", b!"d.html"]) = .ok u ∧
    u.segments = [b!"..", b!"c", b!"d.html"] ∧
    resolveRef [b!"out", b!"a", b!"b.html"] u = [b!"out", b!"c", b!"d.html"] :=
  ⟨_, rfl, by decide, by decide⟩

/-- The same with a target written with dots. -/
example : Stays 0 (names [b!"out", b!"a", b!"b.html"]) ∧ Stays 0 (ofStr b!"out/./x/../c/d.html") ∧
    walk [] (ofStr b!"out/./x/../c/d.html") = [b!"out", b!"c", b!"d.html"] ∧
    ∃ u, makeRelativeLink demoLinks (.root :: names [b!"out", b!"a", b!"b.html"])
      (.root :: ofStr b!"out/./x/../c/d.html") = .ok u ∧ u.segments = [b!"..", b!"c", b!"d.html"] :=
  ⟨by simp [names, Stays], by simp [ofStr, splitOn, pieces, pieceComp, Stays], by decide, _, rfl, by decide⟩

example : (∀ s ∈ [b!"out", b!"c", b!"d.html"], CleanName s) ∧
    ¬ ProperPrefix [b!"out", b!"a", b!"b.html"] [b!"out", b!"c", b!"d.html"] ∧
    [b!"out", b!"c", b!"d.html"] ≠ [b!"out", b!"a", b!"b.html"].dropLast := by
  refine ⟨?_, ?_, by decide⟩
  · intro s hs
    simp only [List.mem_cons, List.not_mem_nil, or_false] at hs
    rcases hs with rfl | rfl | rfl <;> exact cleanName_of (by decide)
  · rintro ⟨c, _, h⟩
    simp at h

/-- C47 fails: the page `b.wiki` linking to `[[b.html/c]]` gets the link `c.html`, which
leads to `/out/c.html` and not to `/out/b.html/c.html`. -/
theorem C47_violated : ∃ (src target : List Str) (u : Uri),
    makeRelativeLink demoLinks (absPath src) (absPath target) = .ok u ∧
    (∀ s ∈ target, CleanName s) ∧ resolveRef src u ≠ target :=
  ⟨[b!"out", b!"b.html"], [b!"out", b!"b.html", b!"c.html"], _, rfl, by
    intro s hs
    simp only [List.mem_cons, List.not_mem_nil, or_false] at hs
    rcases hs with rfl | rfl | rfl <;> exact cleanName_of (by decide), by decide⟩

/-! ## C48: output paths -/

/-- C48: `make_output_path` never panics, whatever the input path. -/
theorem C48_no_panic (w : Wiki) (input : Path) (ext : Str) : (w.outputPath input ext).isSome := by
  simp [Wiki.outputPath, stripPrefix, inputPath_inside]

/-- C48: the output of a file of the wiki lies in the output directory, at the same place
below it, and keeps the name up to the extension. -/
theorem C48_inside {w : Wiki} {dir : List Str} {n : Str} {input : Path} {ext : Str}
    (h : NamesFile w (dir ++ [n]) input) (he : ext ≠ []) :
    w.outputPath input ext
      = some (w.pathHtml ++ names dir ++ [.normal (nameStem n ++ c!"." :: ext)]) :=
  outputPath_names h he

/-- C48: two files of a wiki have the same output exactly if they are in the same
directory and have the same name up to the extension. -/
theorem C48_distinct {w : Wiki} {d1 d2 : List Str} {n1 n2 : Str} {i1 i2 : Path} {ext : Str}
    (h1 : NamesFile w (d1 ++ [n1]) i1) (h2 : NamesFile w (d2 ++ [n2]) i2) (he : ext ≠ []) :
    w.outputPath i1 ext = w.outputPath i2 ext ↔ d1 = d2 ∧ nameStem n1 = nameStem n2 := by
  rw [outputPath_names h1 he, outputPath_names h2 he]
  constructor
  · intro h
    have h := Option.some.inj h
    rw [List.append_assoc, List.append_assoc] at h
    have h := List.append_cancel_left h
    have h3 := List.append_inj' h rfl
    refine ⟨names_inj h3.1, ?_⟩
    have h4 : nameStem n1 ++ c!"." :: ext = nameStem n2 ++ c!"." :: ext := by
      simpa using h3.2
    exact List.append_cancel_right h4
  · rintro ⟨rfl, h⟩; rw [h]

/-- What the stem of a name is: everything before the last dot, if that is not
empty. -/
theorem C48_stem (t ext : Str) (hn : t ≠ []) (h : c!"." ∉ ext) :
    nameStem (t ++ c!"." :: ext) = t := nameStem_dot t ext hn h

/-- The stem of a name without a dot, or with one at the beginning only, is the whole name. -/
theorem C48_stem_whole (n : Str) (h : c!"." ∉ n.drop 1) : nameStem n = n := by
  cases n with
  | nil => rfl
  | cons b n =>
    by_cases hb : b = c!"."
    · subst hb
      have : memrchr (· == c!".") (c!"." :: n) = some 0 :=
        memrchr_append _ [] _ _ (by decide) (fun y hy => by
          have : y ≠ 46 := fun e => h (e ▸ hy)
          simpa using this)
      simp only [nameStem, this]
    · refine nameStem_noDot _ fun hm => ?_
      rcases List.mem_cons.mp hm with e | hm
      · exact hb e.symm
      · exact h hm

example : nameStem b!".hidden" = b!".hidden" ∧ nameStem b!"plain" = b!"plain" :=
  ⟨C48_stem_whole _ (by decide), C48_stem_whole _ (by decide)⟩

/-- The wiki of the examples. -/
def demoWiki : Wiki where
  path := ofStr b!"/home/u/wiki"
  pathHtml := absPath [b!"out"]
  name := some b!"main"
  cssName := b!"style.css"
  ext := b!"wiki"
  diaryRel := names [b!"diary"]

example : NamesFile demoWiki ([b!"sub"] ++ [b!"a.wiki"]) (ofStr b!"/home/u/wiki/sub/a.wiki") :=
  .inside (w := demoWiki) (rel := [b!"sub", b!"a.wiki"]) (by decide)

example : demoWiki.outputPath (ofStr b!"/home/u/wiki/sub/a.wiki") b!"html"
    = some (ofStr b!"/out/sub/a.html") := by decide

/-- C48: a page outside of all wikis is taken to be in a wiki of its own directory: its output is in the
default output directory itself. -/
theorem C48_outside {c : HtmlCfg} {dir : List Str} {n : Str} {ext : Str} (hw : c.activeWiki = none)
    (hp : c.page = absPath (dir ++ [n])) (he : ext ≠ []) :
    c.currentWiki.outputPath c.page ext = some (c.defaultWiki.pathHtml ++ [.normal (nameStem n ++ c!"." :: ext)]) ∧
      c.pageWithin = some (names [n]) := by
  have hr : c.page.parent.getD [] = absPath dir := by
    have : absPath (dir ++ [n]) = absPath dir ++ [.normal n] := by simp [absPath, names]
    rw [hp, this]
    unfold Path.parent
    rw [List.getLast?_concat, List.dropLast_concat]
    rfl
  have hc : c.currentWiki = { c.defaultWiki with path := absPath dir } := by
    simp only [HtmlCfg.currentWiki, hw, Option.getD_none, HtmlCfg.tmpWiki, hr]
  have hpp : c.page = c.currentWiki.path ++ names ([] ++ [n]) := by
    rw [hc, hp]; simp [absPath, names]
  have hh : c.currentWiki.path.hasRoot := by rw [hc]; rfl
  constructor
  · conv => lhs; rw [hpp]
    rw [outputPath_names (.inside hh) he, hc]
    simp [names]
  · unfold HtmlCfg.pageWithin Wiki.pathWithin
    conv => lhs; rw [hpp]
    rw [stripPrefix_append]
    rfl

/-- The directory of the wiki itself is not a page: its output is beside the output
directory. The files of C48 are therefore strictly inside the wiki. -/
theorem C48_root : demoWiki.outputPath demoWiki.path b!"html" = some (ofStr b!"/out.html") := by
  decide

/-! ## C49: the deepest wiki -/

/-- A file lies in a directory. -/
def Inside (p dir : Path) : Prop := ∃ rest, p = dir ++ rest

/-- C49: no wiki is found exactly if no wiki contains the file. -/
theorem C49_none (c : HtmlCfg) (p : Path) :
    c.wikiIndexByPath p = none ↔ ∀ w ∈ c.wikis, ¬ Inside p w.path := by
  obtain ⟨h1, h2⟩ := deepest_spec p c.wikis 0 none (by simp)
  simp only [HtmlCfg.wikiIndexByPath, Option.map_eq_none_iff]
  constructor
  · intro h w hw hi
    obtain ⟨j, hj⟩ := List.getElem?_of_mem hw
    exact h1 h _ (.inr ⟨j, w, hj, rfl, (startsWith_iff p w.path).2 hi⟩)
  · intro h
    cases hd : HtmlCfg.deepest p 0 none c.wikis with
    | none => rfl
    | some r =>
      rcases (h2 r hd).1 with e | ⟨j, w, hj, _, hs⟩
      · cases e
      · exact absurd ((startsWith_iff p w.path).1 hs) (h w (List.mem_of_getElem? hj))

/-- C49: the wiki found contains the file, no wiki containing it is deeper, and of the
equally deep ones it is the last. -/
theorem C49_deepest (c : HtmlCfg) (p : Path) (i : Nat) (h : c.wikiIndexByPath p = some i) :
    ∃ w, c.wikis[i]? = some w ∧ Inside p w.path ∧
      ∀ (j : Nat) w', c.wikis[j]? = some w' → Inside p w'.path →
        w'.path.length ≤ w.path.length ∧ (w'.path.length = w.path.length → j ≤ i) := by
  obtain ⟨_, h2⟩ := deepest_spec p c.wikis 0 none (by simp)
  simp only [HtmlCfg.wikiIndexByPath, Option.map_eq_some_iff] at h
  obtain ⟨r, hr, rfl⟩ := h
  obtain ⟨hc, hd⟩ := h2 r hr
  rcases hc with e | ⟨j, w, hj, hx, hs⟩
  · cases e
  · refine ⟨w, by rw [hx]; simpa using hj, (startsWith_iff p w.path).1 hs, ?_⟩
    intro k w' hk hi
    have := hd (0 + k, w'.path.length) (.inr ⟨k, w', hk, rfl, (startsWith_iff p w'.path).2 hi⟩)
    rw [hx] at this ⊢
    simp only [Dom] at this
    exact ⟨this.1, fun e => by have := this.2 e; omega⟩

/-- A configuration with two nested wikis. -/
def demoCfg : HtmlCfg where
  wikis := [{ demoWiki with path := ofStr b!"/home/u" }, demoWiki]
  wikiIndex := some 1
  page := ofStr b!"/home/u/wiki/sub/a.wiki"
  defaultWiki := demoWiki
  toc := b!"Contents"
  ignoreNewline := true
  comments := false
  templateText := b!"%content%"
  serverSide := false

example : ∃ c : HtmlCfg, c.activeWiki = none ∧ c.page = absPath ([b!"tmp"] ++ [b!"a.wiki"]) :=
  ⟨{ demoCfg with page := absPath [b!"tmp", b!"a.wiki"], wikiIndex := none }, rfl, rfl⟩

example : demoCfg.wikiIndexByPath (ofStr b!"/home/u/wiki/a.wiki") = some 1 := by decide
example : demoCfg.wikiIndexByPath (ofStr b!"/home/u/b.wiki") = some 0 := by decide
example : demoCfg.wikiIndexByPath (ofStr b!"/home/v/b.wiki") = none := by decide

/-! ## C50: the way back to the root of the wiki -/

theorem pathToRoot_fold (n : Nat) :
    (List.range n).foldl (fun (r : Path) _ => r.push [.parent]) [] = List.replicate n .parent := by
  have hp : ∀ r : Path, Path.push r [.parent] = r ++ [.parent] := by
    intro r; cases r <;> simp [push, hasRoot]
  induction n with
  | zero => rfl
  | succ n ih => rw [List.range_succ, List.foldl_append, ih]; simp [hp, List.replicate_succ']

theorem walk_parents (n : Nat) : ∀ (base dir : List Str), dir.length = n →
    walk (base ++ dir) (List.replicate n .parent) = base := by
  induction n with
  | zero => intro base dir h; simp [List.length_eq_zero_iff.1 h, walk]
  | succ n ih =>
    intro base dir h
    have hd : dir ≠ [] := by intro e; simp [e] at h
    rw [List.replicate_succ, walk, List.dropLast_append_of_ne_nil hd]
    exact ih base dir.dropLast (by simp [h])

/-- C50: followed from the directory of the output of a page, the path to the root leads
to the output directory of the wiki. -/
theorem C50_root {w : Wiki} {h dir : List Str} {n ext : Str}
    (hh : w.pathHtml = absPath h) (hr : w.path.hasRoot) (he : ext ≠ []) :
    ∃ r out, w.pathToRoot (w.path ++ names (dir ++ [n])) = some r ∧
      w.outputPath (w.path ++ names (dir ++ [n])) ext = some out ∧
      walk (walk [] out).dropLast r = h := by
  refine ⟨List.replicate dir.length .parent, _, ?_, outputPath_names (.inside hr) he, ?_⟩
  · simp only [Wiki.pathToRoot, Wiki.pathWithin, stripPrefix_append, Option.bind_some,
      names_length, List.length_append, List.length_singleton]
    rw [if_pos (by omega), pathToRoot_fold]
    rfl
  · rw [hh, walk_append, walk_append, walk_abs, walk_names]
    simp only [walk, List.dropLast_concat]
    exact walk_parents dir.length h dir rfl

/-- C50: the same for the page being written, as the template variable `root_path`
uses it. -/
theorem C50_page {c : HtmlCfg} {w : Wiki} {h dir : List Str} {n : Str}
    (hw : c.activeWiki = some w) (hp : c.page = w.path ++ names (dir ++ [n]))
    (hh : w.pathHtml = absPath h) (hr : w.path.hasRoot) :
    ∃ out, c.currentWiki.outputPath c.page b!"html" = some out ∧
      walk (walk [] out).dropLast c.pageToRoot = h := by
  obtain ⟨r, out, h1, h2, h3⟩ := C50_root (n := n) (dir := dir) (ext := b!"html") hh hr (by decide)
  refine ⟨out, ?_, ?_⟩
  · simp [HtmlCfg.currentWiki, hw, hp, h2]
  · simp [HtmlCfg.pageToRoot, hw, hp, h1, h3]

/-- C50: there is a path to the root exactly for the files of the wiki. -/
theorem C50_none (w : Wiki) (p : Path) :
    w.pathToRoot p = none ↔ ¬ ∃ rest, rest ≠ [] ∧ p = w.path ++ rest := by
  simp only [Wiki.pathToRoot, Wiki.pathWithin]
  cases hs : p.stripPrefix w.path with
  | none =>
    simp only [Option.bind_none, true_iff]
    rintro ⟨r, _, rfl⟩
    rw [stripPrefix_append] at hs
    cases hs
  | some r =>
    simp only [Option.bind_some]
    have hp := stripPrefix_some hs
    cases r with
    | nil =>
      simp only [List.length_nil, Nat.lt_irrefl, gt_iff_lt, if_false, true_iff]
      rintro ⟨r, hr, e⟩
      rw [hp] at e
      exact hr (List.append_cancel_left e).symm
    | cons x xs =>
      simp only [List.length_cons, gt_iff_lt, Nat.zero_lt_succ, if_true]
      constructor
      · intro h; cases h
      · intro h; exact absurd ⟨x :: xs, by simp, hp⟩ h

example : demoCfg.activeWiki = some demoWiki ∧ demoWiki.path.hasRoot ∧
    demoCfg.page = demoWiki.path ++ names ([b!"sub"] ++ [b!"a.wiki"]) := by decide
example : demoCfg.pageToRoot = ofStr b!".." := by decide

/-! ## C59: links lead to the output of the page they name -/

/-- The names of the output of the file `dir/name` of a wiki whose output directory is
`h`. -/
def outNames (h dir : List Str) (name : Str) : List Str := h ++ dir ++ [nameStem name ++ b!".html"]

theorem isHtml_out (n : Str) : IsHtml (nameStem n ++ b!".html") := ⟨_, rfl⟩

theorem linkTo_resolves {L : LinkLib} (hL : L.Sound) {d : LinkData} {f t : List Str} {x y : Str}
    {u : Uri} {o : Option Path} (ho : o = some (absPath (t ++ [y])))
    (hf : ∀ s ∈ f, ¬ IsHtml s) (ht : ∀ s ∈ t, ¬ IsHtml s) (hx : IsHtml x) (hy : IsHtml y)
    (hc : ∀ s ∈ t, CleanName s) (hcy : CleanName y)
    (h : (linkTo L (absPath (f ++ [x])) o).map (withAnchor L d) = .ok u) :
    resolveRef (f ++ [x]) u = t ++ [y] := by
  subst ho
  simp only [linkTo] at h
  cases hm : makeRelativeLink L (absPath (f ++ [x])) (absPath (t ++ [y])) with
  | error e => rw [hm] at h; cases h
  | ok v =>
    rw [hm] at h
    cases h
    have hp := html_not_prefix hf ht hx hy
    have hcl : ∀ s ∈ t ++ [y], CleanName s := by
      intro s hs
      rcases List.mem_append.1 hs with hs | hs
      · exact hc s hs
      · simp at hs; rw [hs]; exact hcy
    rw [resolveRef_anchor]
    exact (link_resolves hL hcl hp.1 (fun _ => hp.2) hm).2.2

/-- C59 (partial), plain links: the link written in the page `sdir/sname` for `[[tdir/t]]`
leads to the output of the page `t` with the extension of the wiki, in the directory
`tdir` seen from the source; the link `[[tdir/]]` leads to the page `index` of that directory, and
a link that begins with a slash is seen from the root of the wiki. Missing: names with a dot, where
the code takes the part after the last dot for an extension; names that no URI path can hold as they
are; directories called `*.html`; links that begin with a slash and then repeat the path of the
wiki. -/
theorem C59_wiki_partial {L : LinkLib} (hL : L.Sound) (c : HtmlCfg) {w : Wiki}
    {h sdir tdir : List Str} {sname t : Str} {d : LinkData} {u : Uri}
    (hh : w.pathHtml = absPath h) (hr : w.path.hasRoot) (he : c!"." ∉ w.ext)
    (hl : LocalLink d) (hs : NamesPage d.uri.segments tdir t)
    (ha : d.uri.absolute = true → ¬ ∃ rest, absPath (tdir ++ [t]) = w.path ++ rest)
    (hc : ∀ s ∈ h ++ sdir ++ tdir, CleanName s) (ht : CleanName t) (hdot : c!"." ∉ t)
    (hd : ∀ s ∈ h ++ sdir ++ tdir, ¬ IsHtml s)
    (hu : resolveLink L c w (names (sdir ++ [sname])) (.wiki d) = .ok u) :
    let base := if d.uri.absolute then [] else sdir
    w.outputPath (w.path ++ names (base ++ tdir ++ [t ++ c!"." :: w.ext])) b!"html"
        = some (absPath (outNames h (base ++ tdir) (t ++ c!"." :: w.ext))) ∧
      resolveRef (outNames h sdir sname) u
        = outNames h (base ++ tdir) (t ++ c!"." :: w.ext) := by
  intro base
  have hstem := nameStem_dot t w.ext ht.ne he
  have hout : w.outputPath (w.path ++ names (base ++ tdir ++ [t ++ c!"." :: w.ext])) b!"html"
      = some (absPath (outNames h (base ++ tdir) (t ++ c!"." :: w.ext))) := by
    rw [outputPath_names (.inside hr) (by decide), hh, outNames]
    simp [absPath, names_append, names_single]
  refine ⟨hout, ?_⟩
  have hsrc : w.outputPath (names (sdir ++ [sname])) b!"html"
      = some (absPath (outNames h sdir sname)) := by
    rw [outputPath_names .relative (by decide), hh, outNames]
    simp [absPath, names_append, names_single]
  obtain ⟨hpath, hown⟩ := namesPage_path hs (fun s hm => hc s (by simp [hm])) ht
  have hanch : d.isLocalAnchor = false := by
    rw [← isLocalAnchor_iff] at hown
    simpa using hown
  rw [← isLocal_iff] at hl
  have hparent : (Path.parent (names (sdir ++ [sname]))).getD [] = names sdir := by
    simp [Path.parent, names_append, names_single]
  simp only [resolveLink, hsrc, hl, hanch, Bool.not_false, Bool.and_true, if_true, hpath] at hu
  have hfile : ∃ input, NamesFile w (base ++ tdir ++ [t]) input ∧
      localOut w (names (sdir ++ [sname])) d (loc d.uri.absolute (tdir ++ [t])) b!"html" =
        w.outputPath input b!"html" := by
    unfold localOut
    cases hab : d.uri.absolute with
    | true => exact ⟨_, by simp only [base, hab, if_true, List.nil_append]; exact .outside (ha hab), rfl⟩
    | false =>
      refine ⟨_, .relative, ?_⟩
      have hj : Path.join (names sdir) (names (tdir ++ [t])) = names (sdir ++ tdir ++ [t]) := by
        rw [Path.join, push_names, ← names_append, List.append_assoc]
      simp only [base, hab, hparent, loc, Bool.false_eq_true, if_false, hj]
  obtain ⟨input, hf, hlo⟩ := hfile
  rw [hlo] at hu
  have hbase : ∀ s, s ∈ base → s ∈ sdir := by
    intro s hm
    simp only [base] at hm
    split at hm
    · cases hm
    · exact hm
  have hsub : ∀ s ∈ h ++ (base ++ tdir), s ∈ h ++ sdir ++ tdir := by
    intro s hm
    simp only [List.mem_append] at hm ⊢
    rcases hm with hm | hm | hm
    · exact .inl (.inl hm)
    · exact .inl (.inr (hbase s hm))
    · exact .inr hm
  have := linkTo_resolves (x := nameStem sname ++ b!".html") (y := t ++ b!".html")
    (f := h ++ sdir) (t := h ++ (base ++ tdir)) hL (by
      rw [outputPath_names hf (by decide), hh, nameStem_noDot t hdot]
      simp [absPath, names_append, names_single])
    (fun s hm => hd s (List.mem_append.2 (.inl hm)))
    (fun s hm => hd s (hsub s hm)) (isHtml_out _) ⟨t, rfl⟩
    (fun s hm => hc s (hsub s hm)) (cleanName_html t ht) hu
  rw [outNames, this, outNames, hstem]

/-- C59 (partial), links to another wiki, by index or by name: the same, from the root of
that wiki. Missing: as above, and links to directories. -/
theorem C59_interwiki_partial {L : LinkLib} (hL : L.Sound) (c : HtmlCfg) {sw w : Wiki}
    {sh h sdir tdir : List Str} {sname t : Str} {d : LinkData} {l : Link} {u : Uri}
    (hsh : sw.pathHtml = absPath sh) (hh : w.pathHtml = absPath h) (hr : w.path.hasRoot)
    (he : c!"." ∉ w.ext)
    (hl : (∃ i, l = .indexed i d ∧ c.wikiByIndex i = some w) ∨
      (∃ n, l = .named n d ∧ c.wikiByName n = some w))
    (ha : d.uri.absolute = false) (hs : d.uri.segments = tdir ++ [t])
    (hc : ∀ s ∈ h ++ tdir, CleanName s) (ht : CleanName t) (hdot : c!"." ∉ t)
    (hd : ∀ s ∈ sh ++ sdir ++ h ++ tdir, ¬ IsHtml s)
    (hu : resolveLink L c sw (names (sdir ++ [sname])) l = .ok u) :
    w.outputPath (w.path ++ names (tdir ++ [t ++ c!"." :: w.ext])) b!"html"
        = some (absPath (outNames h tdir (t ++ c!"." :: w.ext))) ∧
      resolveRef (outNames sh sdir sname) u = outNames h tdir (t ++ c!"." :: w.ext) := by
  have hstem := nameStem_dot t w.ext ht.ne he
  have hout : w.outputPath (w.path ++ names (tdir ++ [t ++ c!"." :: w.ext])) b!"html"
      = some (absPath (outNames h tdir (t ++ c!"." :: w.ext))) := by
    rw [outputPath_names (.inside hr) (by decide), hh, outNames]
    simp [absPath, names_append, names_single]
  refine ⟨hout, ?_⟩
  have hsrc : sw.outputPath (names (sdir ++ [sname])) b!"html"
      = some (absPath (outNames sh sdir sname)) := by
    rw [outputPath_names .relative (by decide), hsh, outNames]
    simp [absPath, names_append, names_single]
  have hcl : ∀ s ∈ d.uri.segments, CleanName s := by
    intro s hm
    rw [hs] at hm
    rcases List.mem_append.1 hm with hm | hm
    · exact hc s (by simp [hm])
    · simp at hm; rw [hm]; exact ht
  have hpath : d.toPath = names (tdir ++ [t]) := by
    rw [toPath_clean d hcl, ha, hs]; rfl
  have hu' : (linkTo L (absPath (outNames sh sdir sname))
      (w.outputPath (names (tdir ++ [t])) b!"html")).map (withAnchor L d) = .ok u := by
    rcases hl with ⟨i, rfl, hi⟩ | ⟨n, rfl, hn⟩
    · simpa only [resolveLink, hsrc, hi, hpath] using hu
    · simpa only [resolveLink, hsrc, hn, hpath] using hu
  have := linkTo_resolves (x := nameStem sname ++ b!".html") (y := t ++ b!".html")
    (f := sh ++ sdir) (t := h ++ tdir) hL (by
      rw [outputPath_names .relative (by decide), hh, nameStem_noDot t hdot]
      simp [absPath, names_append, names_single])
    (fun s hm => hd s (by simp at hm ⊢; rcases hm with hm | hm <;> simp [hm]))
    (fun s hm => hd s (by simp at hm ⊢; rcases hm with hm | hm <;> simp [hm]))
    (isHtml_out _) ⟨t, rfl⟩
    hc (cleanName_html t ht) hu'
  rw [outNames, this, outNames, hstem]

/-- C59 (partial), diary links: the link leads to the output of the diary page. -/
theorem C59_diary_partial {L : LinkLib} (hL : L.Sound) (c : HtmlCfg) {w : Wiki}
    {h sdir ddir : List Str} {sname : Str} {dt : Date} {d : LinkData} {u : Uri}
    (hh : w.pathHtml = absPath h) (hr : w.path.hasRoot) (he : c!"." ∉ w.ext)
    (hdd : w.diaryRel = names ddir)
    (hc : ∀ s ∈ h ++ ddir, CleanName s) (ht : CleanName (L.dateStr dt))
    (hdot : c!"." ∉ L.dateStr dt)
    (hd : ∀ s ∈ h ++ sdir ++ ddir, ¬ IsHtml s)
    (hu : resolveLink L c w (names (sdir ++ [sname])) (.diary dt d) = .ok u) :
    w.outputPath (w.path ++ names (ddir ++ [L.dateStr dt ++ c!"." :: w.ext])) b!"html"
        = some (absPath (outNames h ddir (L.dateStr dt ++ c!"." :: w.ext))) ∧
      resolveRef (outNames h sdir sname) u
        = outNames h ddir (L.dateStr dt ++ c!"." :: w.ext) := by
  have hstem := nameStem_dot (L.dateStr dt) w.ext ht.ne he
  have hout : w.outputPath (w.path ++ names (ddir ++ [L.dateStr dt ++ c!"." :: w.ext])) b!"html"
      = some (absPath (outNames h ddir (L.dateStr dt ++ c!"." :: w.ext))) := by
    rw [outputPath_names (.inside hr) (by decide), hh, outNames]
    simp [absPath, names_append, names_single]
  refine ⟨hout, ?_⟩
  have hsrc : w.outputPath (names (sdir ++ [sname])) b!"html"
      = some (absPath (outNames h sdir sname)) := by
    rw [outputPath_names .relative (by decide), hh, outNames]
    simp [absPath, names_append, names_single]
  have hj : Path.join (Path.join w.path w.diaryRel) (Path.ofStr (L.dateStr dt))
      = w.path ++ names (ddir ++ [L.dateStr dt]) := by
    rw [hdd, ofStr_clean _ ht, ← names_single, Path.join, Path.join, push_names, push_names,
      names_append, List.append_assoc]
  simp only [resolveLink, hsrc, hj] at hu
  have := linkTo_resolves (x := nameStem sname ++ b!".html") (y := L.dateStr dt ++ b!".html")
    (f := h ++ sdir) (t := h ++ ddir) hL (by
      rw [outputPath_names (.inside hr) (by decide), hh, nameStem_noDot _ hdot]
      simp [absPath, names_append, names_single])
    (fun s hm => hd s (by simp at hm ⊢; rcases hm with hm | hm <;> simp [hm]))
    (fun s hm => hd s (by simp at hm ⊢; rcases hm with hm | hm <;> simp [hm]))
    (isHtml_out _) ⟨_, rfl⟩ hc (cleanName_html _ ht) hu
  rw [outNames, this, outNames, hstem]

/-- A link with a path and nothing else. -/
def pathLink (segs : List Str) : LinkData := ⟨⟨none, none, false, segs, none, none⟩, none, none⟩

/-- The link `[[/x/]]` in `sub/a.wiki` meets the hypotheses of `C59_wiki_partial` and leads to
`/out/x/index.html`. -/
example : ∃ u d, d = LinkData.mk ⟨none, none, true, [b!"x", []], none, none⟩ none none ∧ LocalLink d ∧
    NamesPage d.uri.segments [b!"x"] b!"index" ∧ (¬ ∃ rest, absPath [b!"x", b!"index"] = demoWiki.path ++ rest) ∧
    resolveLink demoLinks demoCfg demoWiki (ofStr b!"sub/a.wiki") (.wiki d) = .ok u ∧
    resolveRef (outNames [b!"out"] [b!"sub"] b!"a.wiki") u = [b!"out", b!"x", b!"index.html"] :=
  ⟨_, _, rfl, (isLocal_iff _).1 (by decide), .index [b!"x"] (by simp), by
    rintro ⟨rest, h⟩
    have := (startsWith_iff (absPath [b!"x", b!"index"]) demoWiki.path).2 ⟨rest, h⟩
    exact absurd this (by decide), rfl, by decide⟩

/-- The link `[[b/c]]` in `sub/a.wiki` leads to `/out/sub/b/c.html`. -/
example : ∃ u, resolveLink demoLinks demoCfg demoWiki (ofStr b!"sub/a.wiki")
      (.wiki (pathLink [b!"b", b!"c"])) = .ok u ∧
    resolveRef (outNames [b!"out"] [b!"sub"] b!"a.wiki") u = [b!"out", b!"sub", b!"b", b!"c.html"] :=
  ⟨_, rfl, by decide⟩

example : ∃ u, resolveLink demoLinks demoCfg demoWiki (ofStr b!"sub/a.wiki")
      (.named b!"main" (pathLink [b!"c"])) = .ok u ∧
    resolveRef (outNames [b!"out"] [b!"sub"] b!"a.wiki") u = [b!"out", b!"c.html"] :=
  ⟨_, rfl, by decide⟩

example : ∃ u, resolveLink demoLinks demoCfg demoWiki (ofStr b!"sub/a.wiki")
      (.diary ⟨2021, 3, 5⟩ (pathLink [[]])) = .ok u ∧
    resolveRef (outNames [b!"out"] [b!"sub"] b!"a.wiki") u = [b!"out", b!"diary", b!"2021-03-05.html"] :=
  ⟨_, rfl, by decide⟩

/-- C59 fails: `[[v1.2]]` leads to `v1.html`, but the page `v1.2.wiki` is written to
`v1.2.html`. -/
theorem C59_violated : ∃ u,
    resolveLink demoLinks demoCfg demoWiki (ofStr b!"a.wiki") (.wiki (pathLink [b!"v1.2"])) = .ok u ∧
    demoWiki.outputPath (ofStr b!"v1.2.wiki") b!"html" = some (ofStr b!"/out/v1.2.html") ∧
    resolveRef [b!"out", b!"a.html"] u = [b!"out", b!"v1.html"] :=
  ⟨_, rfl, by decide, by decide⟩

/-- C59 fails for directories of other wikis: `[[dir/]]` leads to `dir/index.html`, but
`[[wn.main:dir/]]` leads to `dir.html`. -/
theorem C59_violated_directory : ∃ u v,
    resolveLink demoLinks demoCfg demoWiki (ofStr b!"a.wiki")
      (.wiki (pathLink [b!"dir", []])) = .ok u ∧
    resolveLink demoLinks demoCfg demoWiki (ofStr b!"a.wiki")
      (.named b!"main" (pathLink [b!"dir", []])) = .ok v ∧
    resolveRef [b!"out", b!"a.html"] u = [b!"out", b!"dir", b!"index.html"] ∧
    resolveRef [b!"out", b!"a.html"] v = [b!"out", b!"dir.html"] :=
  ⟨_, _, rfl, rfl, by decide, by decide⟩

end Vw
