import Verif.Lemmas.Convert
import Verif.Props.Cli
import Verif.Props.Html

/-!
# Converting wikis to HTML (C72)
-/

namespace Vw

open Path

variable {L : CliLib} {H : HtmlLib}

/-- The run of `convert` on a disk. -/
def runConvert (L : CliLib) (H : HtmlLib) (isDir : Path → Bool) (c : HtmlCfg) (o : ConvOpt) (css : Str) (noPrune : Bool)
    (faults : Path → Fault) (stuck : List Str → Bool) (d : Disk) : Option ConvErr × Conv :=
  convertAll L H isDir c o css noPrune faults stuck d.files d.cache

/-- What is assumed about a run: the directories of wikis are no files, and pages have other extensions
than the output. -/
structure ConvOk (isDir : Path → Bool) (c : HtmlCfg) (o : ConvOpt) (d : Disk) : Prop where
  wikis : ∀ w ∈ (convertCfg isDir c o).wikis, w.path ∉ d.files.map (·.1)
  dflt : c.defaultWiki.path ∉ d.files.map (·.1)
  ext : ∀ e ∈ convertPlan (convertCfg isDir c o) o, e.2.1 ≠ b!"html" ∧ e.2.1 ≠ b!"css"

/-- The pages a run goes through. -/
def runPages (isDir : Path → Bool) (c : HtmlCfg) (o : ConvOpt) (d : Disk) : List Path :=
  planPages d.files (convertPlan (convertCfg isDir c o) o)

theorem runConvert_spec (hL : L.Sound) {d : Disk} (h : d.Reached L) {isDir : Path → Bool} {c : HtmlCfg} {o : ConvOpt}
    (hok : ConvOk isDir c o d) {css : Str} {noPrune : Bool} {faults : Path → Fault} {stuck : List Str → Bool}
    {r : Option ConvErr} {s : Conv} (ho : o.stdout = false)
    (hr : runConvert L H isDir c o css noPrune faults stuck d = (r, s)) :
    ∃ ws, s.files = writeAll d.files ws ∧
      (∀ x ∈ ws, (∃ p ∈ runPages isDir c o d, OutputIs (convertCfg isDir c o) p x.1 ∧
          PageHtmlIs L H (convertCfg isDir c o) d.files p x.2) ∨
        o.css = true ∧ ∃ e ∈ convertPlan (convertCfg isDir c o) o, x = (cssPath e.2.2, css)) ∧
      (r = none → (∀ p ∈ runPages isDir c o d, ∃ x ∈ ws, OutputIs (convertCfg isDir c o) p x.1 ∧
          PageHtmlIs L H (convertCfg isDir c o) d.files p x.2) ∧
        (o.css = true → ∀ e ∈ convertPlan (convertCfg isDir c o) o, (cssPath e.2.2, css) ∈ ws)) ∧
      (∀ e, r = some e → (∃ p ∈ runPages isDir c o d, PageFails L H (convertCfg isDir c o) d.files p e) ∨
        ∃ w ∈ (convertCfg isDir c o).wikis, ∃ p ∈ d.files.walk w.path w.ext, ∃ e', e = .io e' ∧ L.fresh d.files p = .error e') := by
  simp only [runConvert, convertAll] at hr
  cases hl : loadAst L d.files d.cache (convertCfg isDir c o).wikis o.incl o.noCache noPrune faults stuck with
  | mk r1 c1 =>
    rw [hl] at hr
    cases r1 with
    | error e =>
      cases hr
      refine ⟨[], rfl, by simp, by simp, fun e' he => .inr ?_⟩
      cases he
      obtain ⟨i, w, hi, _, p, hp, hf⟩ := C53_error hL h (by rw [hl])
      exact ⟨w, List.mem_of_getElem? hi, p, hp, e, rfl, hf⟩
    | ok a =>
      obtain ⟨ts, hcol, hf, hc⟩ := h.inv hL
      have hinv : ConvInv L d.files ts ⟨d.files, a, c1, []⟩ := by
        refine ⟨fun _ _ => rfl, fun _ _ _ => rfl, ?_, fun f hfa => C51_all_files hL h (by rw [hl]) hfa⟩
        have := loadAst_cache_inv hL hcol hf hc (convertCfg isDir c o).wikis o.incl o.noCache noPrune faults stuck
        rw [hl] at this
        exact this
      have hpx : ∀ e ∈ convertPlan (convertCfg isDir c o) o, ¬ OutExt (some e.2.1) := fun e he hx => by
        obtain ⟨h1, h2⟩ := hok.ext e he
        rcases hx with hx | hx
        · exact h1 (Option.some.inj hx)
        · exact h2 (Option.some.inj hx)
      obtain ⟨_, ws, h1, h2, h3, h4⟩ := convertEach_spec (H := H) (c := convertCfg isDir c o) hL hcol hf ho css faults
        hok.wikis hok.dflt _ hpx _ hinv r s hr
      exact ⟨ws, h1, h2, h3, fun e he => .inl (h4 e he)⟩

theorem PageHtmlIs.unique {c : HtmlCfg} {fs : Files} {p : Path} {x y : Str} (hx : PageHtmlIs L H c fs p x)
    (hy : PageHtmlIs L H c fs p y) : x = y := by
  obtain ⟨f, h1, h2⟩ := hx
  obtain ⟨g, h3, h4⟩ := hy
  rw [h1] at h3
  cases h3
  rw [h2] at h4
  exact Except.ok.inj h4

theorem OutputIs.unique {c : HtmlCfg} {p x y : Path} (hx : OutputIs c p x) (hy : OutputIs c p y) : x = y := by
  rw [OutputIs] at hx hy
  rw [hx] at hy
  exact Option.some.inj hy

theorem runPages_ext {d : Disk} {isDir : Path → Bool} {c : HtmlCfg} {o : ConvOpt} (hok : ConvOk isDir c o d) {p q : Path}
    (hp : p ∈ runPages isDir c o d) (hq : OutputIs (convertCfg isDir c o) p q) : q.extension = some b!"html" := by
  simp only [runPages, planPages, List.mem_flatMap] at hp
  obtain ⟨e, _, hp⟩ := hp
  exact walk_output hok.wikis hok.dflt hp hq

/-- C72 (partial): after a successful run every page of the selected wikis, or below the paths given, has
been converted: its output file holds the HTML of a page with that output file, which is its own if no
other page has the same one. The style sheets are written if asked for, and no other file is changed.
Missing: pages with the same output file, see `C72_violated`. -/
theorem C72_partial (hL : L.Sound) {d : Disk} (h : d.Reached L) {isDir : Path → Bool} {c : HtmlCfg} {o : ConvOpt}
    (hok : ConvOk isDir c o d) {css : Str} {noPrune : Bool} {faults : Path → Fault} {stuck : List Str → Bool} {s : Conv}
    (ho : o.stdout = false) (hr : runConvert L H isDir c o css noPrune faults stuck d = (none, s)) :
    (∀ p ∈ runPages isDir c o d, ∃ out html, OutputIs (convertCfg isDir c o) p out ∧
      PageHtmlIs L H (convertCfg isDir c o) d.files p html ∧
      (∃ q ∈ runPages isDir c o d, OutputIs (convertCfg isDir c o) q out ∧ ∃ x, s.files.get out = some (some x) ∧
        PageHtmlIs L H (convertCfg isDir c o) d.files q x) ∧
      ((∀ q ∈ runPages isDir c o d, OutputIs (convertCfg isDir c o) q out → q = p) → s.files.get out = some (some html))) ∧
    (o.css = true → ∀ e ∈ convertPlan (convertCfg isDir c o) o, s.files.get (cssPath e.2.2) = some (some css)) ∧
    (∀ q, (∀ p ∈ runPages isDir c o d, ¬ OutputIs (convertCfg isDir c o) p q) →
      (o.css = true → ∀ e ∈ convertPlan (convertCfg isDir c o) o, q ≠ cssPath e.2.2) → s.files.get q = d.files.get q) := by
  obtain ⟨ws, h1, h2, h3, _⟩ := runConvert_spec hL h hok ho hr
  obtain ⟨h4, h5⟩ := h3 rfl
  have hcss : ∀ w : Wiki, ∀ p ∈ runPages isDir c o d, ¬ OutputIs (convertCfg isDir c o) p (cssPath w) := by
    intro w p hp hq
    have := runPages_ext hok hp hq
    rw [cssPath_ext] at this
    exact absurd this (by decide)
  rw [h1]
  refine ⟨fun p hp => ?_, fun hc e he => ?_, fun q hq hc => ?_⟩
  · obtain ⟨⟨out, html⟩, hx, ho1, ho2⟩ := h4 p hp
    have hlast : ∃ q ∈ runPages isDir c o d, OutputIs (convertCfg isDir c o) q out ∧
        ∃ x, (writeAll d.files ws).get out = some (some x) ∧ PageHtmlIs L H (convertCfg isDir c o) d.files q x := by
      rcases writeAll_get d.files ws out with ⟨hn, _⟩ | ⟨y, hy, hy1, hy2⟩
      · exact absurd rfl (hn _ hx)
      · rcases h2 y hy with ⟨q, hq, hq1, hq2⟩ | ⟨_, e, _, rfl⟩
        · exact ⟨q, hq, hy1 ▸ hq1, y.2, hy2, hq2⟩
        · exact absurd (hy1 ▸ ho1) (hcss _ p hp)
    refine ⟨out, html, ho1, ho2, hlast, fun hu => ?_⟩
    obtain ⟨q, hq, hq1, x, hx1, hx2⟩ := hlast
    rw [hx1]
    cases hu q hq hq1
    rw [hx2.unique ho2]
  · rcases writeAll_get d.files ws (cssPath e.2.2) with ⟨hn, _⟩ | ⟨y, hy, hy1, hy2⟩
    · exact absurd rfl (hn _ (h5 hc e he))
    · rw [hy2]
      rcases h2 y hy with ⟨q, hq, hq1, hq2⟩ | ⟨_, e, _, rfl⟩
      · exact absurd (hy1 ▸ hq1) (hcss _ q hq)
      · rfl
  · rcases writeAll_get d.files ws q with ⟨_, h⟩ | ⟨y, hy, hy1, _⟩
    · exact h
    · rcases h2 y hy with ⟨p, hp, hp1, _⟩ | ⟨hc', e, he, rfl⟩
      · exact absurd (hy1 ▸ hp1) (hq p hp)
      · exact absurd hy1.symm (hc hc' e he)

/-- C72: a run that ends with an error names the error of one of the pages, and a file it changed is the
output file of a page and holds the HTML of a page, or is a style sheet. -/
theorem C72_failure (hL : L.Sound) {d : Disk} (h : d.Reached L) {isDir : Path → Bool} {c : HtmlCfg} {o : ConvOpt}
    (hok : ConvOk isDir c o d) {css : Str} {noPrune : Bool} {faults : Path → Fault} {stuck : List Str → Bool} {e : ConvErr}
    {s : Conv} (ho : o.stdout = false) (hr : runConvert L H isDir c o css noPrune faults stuck d = (some e, s)) :
    ((∃ p ∈ runPages isDir c o d, PageFails L H (convertCfg isDir c o) d.files p e) ∨
      ∃ w ∈ (convertCfg isDir c o).wikis, ∃ p ∈ d.files.walk w.path w.ext, ∃ e', e = .io e' ∧ L.fresh d.files p = .error e') ∧
    ∀ q, s.files.get q = d.files.get q ∨
      (∃ p ∈ runPages isDir c o d, OutputIs (convertCfg isDir c o) p q ∧ ∃ x, s.files.get q = some (some x) ∧
        PageHtmlIs L H (convertCfg isDir c o) d.files p x) ∨
      (o.css = true ∧ s.files.get q = some (some css) ∧ ∃ x ∈ convertPlan (convertCfg isDir c o) o, q = cssPath x.2.2) := by
  obtain ⟨ws, h1, h2, _, h4⟩ := runConvert_spec hL h hok ho hr
  refine ⟨h4 e rfl, fun q => ?_⟩
  rw [h1]
  rcases writeAll_get d.files ws q with ⟨_, h⟩ | ⟨y, hy, rfl, hy2⟩
  · exact .inl h
  · rcases h2 y hy with ⟨p, hp, hp1, hp2⟩ | ⟨hc, x, hx, rfl⟩
    · exact .inr (.inl ⟨p, hp, hp1, y.2, hy2, hp2⟩)
    · exact .inr (.inr ⟨hc, hy2, x, hx, rfl⟩)

/-- C72: no run changes a page or any other file whose extension is neither `html` nor `css`. -/
theorem C72_sources (hL : L.Sound) {d : Disk} (h : d.Reached L) {isDir : Path → Bool} {c : HtmlCfg} {o : ConvOpt}
    (hok : ConvOk isDir c o d) {css : Str} {noPrune : Bool} {faults : Path → Fault} {stuck : List Str → Bool}
    {r : Option ConvErr} {s : Conv} (ho : o.stdout = false)
    (hr : runConvert L H isDir c o css noPrune faults stuck d = (r, s)) (q : Path)
    (hq : q.extension ≠ some b!"html" ∧ q.extension ≠ some b!"css") : s.files.get q = d.files.get q := by
  obtain ⟨ws, h1, h2, _, _⟩ := runConvert_spec hL h hok ho hr
  rw [h1]
  rcases writeAll_get d.files ws q with ⟨_, h⟩ | ⟨y, hy, rfl, _⟩
  · exact h
  · rcases h2 y hy with ⟨p, hp, hp1, _⟩ | ⟨_, x, _, rfl⟩
    · exact absurd (runPages_ext hok hp hp1) hq.1
    · exact absurd (cssPath_ext _) hq.2

/-- C72: with `--stdout` no file is changed and the HTML of the pages is printed, page by page in order,
up to the first that fails. -/
theorem C72_stdout (hL : L.Sound) {d : Disk} (h : d.Reached L) {isDir : Path → Bool} {c : HtmlCfg} {o : ConvOpt}
    (hok : ConvOk isDir c o d) {css : Str} {noPrune : Bool} {faults : Path → Fault} {stuck : List Str → Bool}
    {r : Option ConvErr} {s : Conv} (ho : o.stdout = true)
    (hr : runConvert L H isDir c o css noPrune faults stuck d = (r, s)) :
    s.files = d.files ∧
    (r = none → s.printed.length = (runPages isDir c o d).length) ∧
    ∀ (k : Nat) (x : Str), s.printed[k]? = some x → ∃ p, (runPages isDir c o d)[k]? = some p ∧
      PageHtmlIs L H (convertCfg isDir c o) d.files p x := by
  simp only [runConvert, convertAll] at hr
  cases hl : loadAst L d.files d.cache (convertCfg isDir c o).wikis o.incl o.noCache noPrune faults stuck with
  | mk r1 c1 =>
    rw [hl] at hr
    cases r1 with
    | error e =>
      cases hr
      exact ⟨rfl, by simp, by simp⟩
    | ok a =>
      obtain ⟨ts, hcol, hf, hc⟩ := h.inv hL
      have hinv : ConvInv L d.files ts ⟨d.files, a, c1, []⟩ := by
        refine ⟨fun _ _ => rfl, fun _ _ _ => rfl, ?_, fun f hfa => C51_all_files hL h (by rw [hl]) hfa⟩
        have := loadAst_cache_inv hL hcol hf hc (convertCfg isDir c o).wikis o.incl o.noCache noPrune faults stuck
        rw [hl] at this
        exact this
      have hpx : ∀ e ∈ convertPlan (convertCfg isDir c o) o, ¬ OutExt (some e.2.1) := fun e he hx => by
        obtain ⟨h1, h2⟩ := hok.ext e he
        rcases hx with hx | hx
        · exact h1 (Option.some.inj hx)
        · exact h2 (Option.some.inj hx)
      obtain ⟨h1, done, rest, h2, h3, h4, h5, _⟩ := convertEach_print (H := H) (c := convertCfg isDir c o) hL hcol hf ho css
        faults _ hpx _ hinv rfl r s hr
      rw [List.nil_append] at h3
      refine ⟨h1, fun hn => ?_, fun k x hk => ?_⟩
      · rw [runPages, h2, h5 hn, h3]
        simp
      · rw [h3, List.getElem?_map] at hk
        obtain ⟨y, hy, rfl⟩ := Option.map_eq_some_iff.1 hk
        refine ⟨y.1, ?_, h4 y (List.mem_of_getElem? hy)⟩
        obtain ⟨hlt, _⟩ := List.getElem?_eq_some_iff.1 hy
        rw [runPages, h2, List.getElem?_append_left (by simpa using hlt), List.getElem?_map, hy]
        rfl

/-- C72: without `--include` and without paths, the pages are the files below the directories of the
configured wikis that have the extension of the wiki. -/
theorem C72_pages {isDir : Path → Bool} {c : HtmlCfg} {o : ConvOpt} {d : Disk} (hi : o.incl = []) (hx : o.extra = [])
    (p : Path) : p ∈ runPages isDir c o d ↔
      ∃ w ∈ c.wikis, p ∈ d.files.map (·.1) ∧ p.startsWith w.path = true ∧ p.extension = some w.ext := by
  have hall : ∀ (ws : List Wiki) (i : Nat), (selectFrom [] i ws).map (·.2) = ws := by
    intro ws
    induction ws with
    | nil => intro i; rfl
    | cons w ws ih => intro i; simp [selectFrom, selects, ih]
  have hw : (convertCfg isDir c o).wikis = c.wikis := by
    simp only [convertCfg, keepWikis, hi, hx, List.filterMap_nil, List.append_nil, hall]
  have hpl : (convertPlan (convertCfg isDir c o) o) = c.wikis.map fun w => (w.path, w.ext, w) := by
    simp only [convertPlan, hx, if_true, hi, hw]
    conv => rhs; rw [← hall c.wikis 0]
    rw [List.map_map]
    rfl
  simp only [runPages, planPages, hpl, List.mem_flatMap, List.mem_map, Files.walk, List.mem_filter, Bool.and_eq_true,
    beq_iff_eq]
  constructor
  · rintro ⟨_, ⟨w, hw, rfl⟩, h1, h2, h3⟩
    exact ⟨w, hw, h1, h2, h3⟩
  · rintro ⟨w, hw, h1, h2, h3⟩
    exact ⟨_, ⟨w, hw, rfl⟩, h1, h2, h3⟩

/-- C72: with paths on the command line, the pages are the `wiki` files at or below them. -/
theorem C72_paths {isDir : Path → Bool} {c : HtmlCfg} {o : ConvOpt} {d : Disk} (hx : o.extra ≠ [])
    (p : Path) : p ∈ runPages isDir c o d ↔
      ∃ q ∈ o.extra, p ∈ d.files.map (·.1) ∧ p.startsWith q = true ∧ p.extension = some b!"wiki" := by
  simp only [runPages, planPages, convertPlan, if_neg hx, List.mem_flatMap, List.mem_map, Files.walk, List.mem_filter,
    Bool.and_eq_true, beq_iff_eq]
  constructor
  · rintro ⟨_, ⟨q, hq, rfl⟩, h1, h2, h3⟩
    exact ⟨q, hq, h1, h2, h3⟩
  · rintro ⟨q, hq, h1, h2, h3⟩
    exact ⟨_, ⟨q, hq, rfl⟩, h1, h2, h3⟩

/-! ### Examples and violations -/

/-- Two wikis with one output directory. -/
def convCfg : HtmlCfg := { demoCfg with wikis := twoWikis, defaultWiki := demoWikiAt b!"home" }

/-- All wikis, into files, with the style sheet. -/
def convOpt : ConvOpt := ⟨[], true, false, true, []⟩

/-- Nothing is written to the cache. -/
def quiet : Fault := ⟨false, false, .nothing⟩

/-- The run of the examples. -/
noncomputable def demoRun (o : ConvOpt) (fs : Files) : Option ConvErr × Conv :=
  runConvert demoCli demoHtml (fun _ => false) convCfg o b!"css" true (fun _ => quiet) (fun _ => false) ⟨fs, []⟩

/-- A path of the examples. -/
def at2 (x y : Str) : Path := [.root, .normal x, .normal y]

theorem twoFiles_run : (demoRun convOpt twoFiles).1 = none ∧
    (demoRun convOpt twoFiles).2.files.get (at2 b!"html" b!"b.html") = some (some b!"<p>b</p>\n") := by
  decide +kernel

theorem twoFiles_ok (o : ConvOpt) (h : convertCfg (fun _ => false) convCfg o = convCfg)
    (h' : convertPlan convCfg o = twoWikis.map fun w => (w.path, w.ext, w)) :
    ConvOk (fun _ => false) convCfg o ⟨twoFiles, []⟩ := by
  refine ⟨?_, by decide +kernel, ?_⟩
  · rw [h]
    decide +kernel
  · rw [h, h']
    decide +kernel

theorem pair_of_fst {α β : Type} {x : α × β} {a : α} (h : x.1 = a) : x = (a, x.2) := by
  cases x
  cases h
  rfl

/-- Both pages of `twoFiles` are converted, each to its own file. -/
example : (∀ p ∈ runPages (fun _ => false) convCfg convOpt ⟨twoFiles, []⟩, ∃ out html,
      OutputIs (convertCfg (fun _ => false) convCfg convOpt) p out ∧
      (demoRun convOpt twoFiles).2.files.get out = some (some html)) ∧
    runPages (fun _ => false) convCfg convOpt ⟨twoFiles, []⟩ = [at2 b!"v" b!"b.wiki", demoFile] := by
  have hr := pair_of_fst twoFiles_run.1
  have hpages : runPages (fun _ => false) convCfg convOpt ⟨twoFiles, []⟩ = [at2 b!"v" b!"b.wiki", demoFile] := by
    decide +kernel
  obtain ⟨h1, -, -⟩ := C72_partial demoCli_sound twoFiles_reached
    (twoFiles_ok convOpt (by simp [convertCfg, convOpt, keepWikis, convCfg, twoWikis, selectFrom, selects]) (by decide +kernel)) rfl hr
  refine ⟨fun p hp => ?_, hpages⟩
  obtain ⟨out, html, h2, h3, h4, h5⟩ := h1 p hp
  refine ⟨out, html, h2, h5 fun q hq ho => ?_⟩
  rw [hpages] at hp hq
  simp only [List.mem_cons, List.not_mem_nil, or_false] at hp hq
  have hne : ∀ x, OutputIs (convertCfg (fun _ => false) convCfg convOpt) (at2 b!"v" b!"b.wiki") x →
      ¬ OutputIs (convertCfg (fun _ => false) convCfg convOpt) demoFile x := by
    intro x hx hy
    have h6 : OutputIs (convertCfg (fun _ => false) convCfg convOpt) (at2 b!"v" b!"b.wiki") (at2 b!"html" b!"b.html") := by
      unfold OutputIs; decide +kernel
    have h7 : OutputIs (convertCfg (fun _ => false) convCfg convOpt) demoFile (at2 b!"html" b!"a.html") := by
      unfold OutputIs; decide +kernel
    have := (hx.unique h6).symm.trans (hy.unique h7)
    exact absurd this (by decide)
  rcases hp with rfl | rfl <;> rcases hq with rfl | rfl
  · rfl
  · exact absurd ho (hne _ h2)
  · exact absurd h2 (hne _ ho)
  · rfl

/-- The style sheet is written, and the pages are left alone. -/
example : (demoRun convOpt twoFiles).2.files.get (at2 b!"html" b!"style.css") = some (some b!"css") ∧
    (demoRun convOpt twoFiles).2.files.get demoFile = some (some b!"= a =") := by decide +kernel

/-- With `--stdout` the pages are printed. -/
example : (demoRun { convOpt with stdout := true } twoFiles).1 = none ∧
    (demoRun { convOpt with stdout := true } twoFiles).2.files = twoFiles ∧
    (demoRun { convOpt with stdout := true } twoFiles).2.printed.length = 2 := by decide +kernel

/-- A page that is no UTF-8 text makes the run fail. -/
example : (demoRun convOpt [(at2 b!"v" b!"b.wiki", none), (demoFile, some b!"= a =")]).1 ≠ none := by decide +kernel

/-- C72: a page given by its path that lies in no configured wiki is written to the output directory of
the default wiki. -/
theorem C72_standalone {isDir : Path → Bool} {c : HtmlCfg} {o : ConvOpt} {dir : List Str} {n : Str} (hi : o.incl = [])
    (hx : o.extra = [absPath (dir ++ [n])]) (hd : isDir (absPath (dir ++ [n])) = false)
    (hw : ∀ w ∈ c.wikis, ¬ Inside (absPath (dir ++ [n])) w.path) (out : Path) :
    OutputIs (convertCfg isDir c o) (absPath (dir ++ [n])) out ↔
      out = c.defaultWiki.pathHtml ++ [.normal (nameStem n ++ b!".html")] := by
  have hpar : (absPath (dir ++ [n])).parent = some (absPath dir) := by
    have e : absPath (dir ++ [n]) = absPath dir ++ [.normal n] := by simp [absPath, names]
    rw [e, Path.parent, List.getLast?_concat]
    simp
  have hall : ∀ (ws : List Wiki) (i : Nat), (selectFrom [] i ws).map (·.2) = ws := by
    intro ws
    induction ws with
    | nil => intro i; rfl
    | cons w ws ih => intro i; simp [selectFrom, selects, ih]
  have hws : (convertCfg isDir c o).wikis = c.wikis ++ [{ c.defaultWiki with path := absPath dir }] := by
    simp only [convertCfg, keepWikis, hi, hx, hall, List.filterMap_cons, List.filterMap_nil, extraWiki, hd, hpar,
      Bool.false_eq_true, if_false, Option.map_some]
  have hin : Inside (absPath (dir ++ [n])) (absPath dir) := ⟨[.normal n], by simp [absPath, names]⟩
  cases hidx : (convertCfg isDir c o).wikiIndexByPath (absPath (dir ++ [n])) with
  | none =>
    have := (C49_none _ _).1 hidx { c.defaultWiki with path := absPath dir } (by rw [hws]; simp)
    exact absurd hin this
  | some i =>
    obtain ⟨w, h1, h2, -⟩ := C49_deepest _ _ _ hidx
    have hm := List.mem_of_getElem? h1
    rw [hws] at hm
    rcases List.mem_append.1 hm with hm | hm
    · exact absurd h2 (hw w hm)
    · have : w = { c.defaultWiki with path := absPath dir } := by simpa using hm
      subst this
      simp only [OutputIs, hidx, Option.bind_some, h1, Option.getD_some]
      have hN : NamesFile { c.defaultWiki with path := absPath dir } ([] ++ [n]) (absPath (dir ++ [n])) := by
        have := NamesFile.inside (w := { c.defaultWiki with path := absPath dir }) (rel := [] ++ [n]) (by simp [absPath, Path.hasRoot])
        have e : absPath dir ++ names ([] ++ [n]) = absPath (dir ++ [n]) := by simp [absPath, names]
        rw [e] at this
        exact this
      rw [C48_inside hN (by decide)]
      constructor
      · intro h
        cases h
        simp [names]
      · rintro rfl
        simp [names]

example : let p := absPath [b!"x", b!"b.wiki"]
    (∀ w ∈ convCfg.wikis, ¬ Inside p w.path) ∧ (demoRun ⟨[], true, false, false, [p]⟩ [(p, some b!"one")]).2.files =
      [(p, some b!"one"), (at2 b!"html" b!"b.html", some b!"<p>one</p>\n")] := by
  refine ⟨?_, by decide +kernel⟩
  intro w hw hi
  have h := (startsWith_iff _ _).2 hi
  clear hi
  revert h
  revert w
  decide +kernel

/-- C72 fails: two pages given by their paths, in different directories but with the same name, have the
same output file, and the second replaces the first. -/
theorem C72_violated :
    let o : ConvOpt := ⟨[], true, false, false, [at2 b!"x" b!"b.wiki", at2 b!"y" b!"b.wiki"]⟩
    let fs : Files := [(at2 b!"x" b!"b.wiki", some b!"one"), (at2 b!"y" b!"b.wiki", some b!"two")]
    (demoRun o fs).1 = none ∧ runPages (fun _ => false) convCfg o ⟨fs, []⟩ = [at2 b!"x" b!"b.wiki", at2 b!"y" b!"b.wiki"] ∧
    (demoRun o fs).2.files = fs ++ [(at2 b!"html" b!"b.html", some b!"<p>two</p>\n")] := by
  decide +kernel

/-- C72 fails: with `--include 1` the second wiki is selected, but nothing is converted. -/
theorem C72_violated_include :
    let o : ConvOpt := ⟨[.index 1], true, false, false, []⟩
    selectFrom o.incl 0 convCfg.wikis = [(1, demoWikiAt b!"w")] ∧ (demoRun o twoFiles).1 = none ∧
    (demoRun o twoFiles).2.files = twoFiles := by
  decide +kernel

/-- C72: a page with `%nohtml` is converted all the same. -/
theorem C72_violated_nohtml :
    (∃ s pg, parsePage demo b!"%nohtml\nsecret" = .ok s pg ∧ pg.elements.length = 2) ∧
    (demoRun convOpt [(demoFile, some b!"%nohtml\nsecret")]).2.files.get (at2 b!"html" b!"a.html") =
      some (some b!"\n<p>secret</p>\n") := by
  refine ⟨?_, by decide +kernel⟩
  obtain ⟨s, pg, hp, h⟩ := page_test (text := b!"%nohtml\nsecret") (fun p => p.elements.length = 2) (by decide +kernel)
  exact ⟨s, pg, hp, h⟩

end Vw
