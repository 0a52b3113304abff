import Verif.Spec.Convert
import Verif.Lemmas.Cli
import Verif.Props.Links

/-! # Converting wikis to HTML -/

namespace Vw
open Path

variable {L : CliLib} {H : HtmlLib} {c : HtmlCfg} {fs fs0 : Files}

theorem loadWikiFile_congr {fs fs' : Files} {p : Path} (h : fs.get p = fs'.get p) (ch : Cache) (nc : Bool) (f : Fault) :
    L.loadWikiFile fs ch p nc f = L.loadWikiFile fs' ch p nc f := by
  simp only [CliLib.loadWikiFile, Files.read, h]

theorem Ast.mem_files_find {a : Ast} {p : Path} {f : WikiFile} (h : a.find p = some f) : f ∈ a.files ∧ f.path = p := by
  simp only [Ast.find] at h
  obtain ⟨w, hw, hf⟩ := List.exists_of_findSome?_eq_some h
  exact ⟨List.mem_flatMap.2 ⟨w, hw, List.mem_of_find?_eq_some hf⟩, by simpa using List.find?_some hf⟩

theorem Ast.mem_place {a : Ast} {p : Path} {f g : WikiFile} (h : g ∈ (a.place p f).files) : g = f ∨ g ∈ a.files := by
  simp only [Ast.place] at h
  split at h
  · exact Ast.mem_pushFile h
  · simp only [Ast.files, List.flatMap_append, List.mem_append] at h
    rcases h with h | h
    · exact .inr h
    · simp at h; exact .inl h

/-- The extensions of output files. -/
def OutExt (e : Option Str) : Prop := e = some b!"html" ∨ e = some b!"css"

theorem walk_set (fs : Files) (q : Path) (t : Str) (dir : Path) (ext : Str) (h : q.extension ≠ some ext) :
    (fs.set q t).walk dir ext = fs.walk dir ext := by
  simp only [Files.walk]
  induction fs with
  | nil => simp [Files.set, h]
  | cons e fs ih =>
    simp only [Files.set]
    split
    · next he =>
      have he : e.1 = q := by simpa using he
      simp [he, h]
    · simp only [List.map_cons, List.filter_cons, ih]

/-- The files are those at the start but for output files, the cache is right and the pages loaded are those of
the files. -/
structure ConvInv (L : CliLib) (fs0 : Files) (ts : List Str) (s : Conv) : Prop where
  same : ∀ q, ¬ OutExt q.extension → s.files.get q = fs0.get q
  walk : ∀ dir ext, ¬ OutExt (some ext) → s.files.walk dir ext = fs0.walk dir ext
  cache : L.Inv ts s.cache
  ast : ∀ f ∈ s.ast.files, L.fresh fs0 f.path = .ok f

theorem fresh_path {fs : Files} {p : Path} {f : WikiFile} (h : L.fresh fs p = .ok f) : f.path = p := by
  simp only [CliLib.fresh] at h
  split at h
  · cases h
  · cases h
  · split at h
    · cases h; rfl
    · cases h

theorem obtain_spec (hL : L.Sound) {ts : List Str} (hcol : L.NoCollision ts) (hts : ∀ t ∈ fs0.texts, t ∈ ts) {s : Conv}
    (hs : ConvInv L fs0 ts s) {p : Path} (hp : ¬ OutExt p.extension) (nc : Bool) (f : Fault) {r : Except IoErr WikiFile} {a : Ast}
    {ch : Cache} (h : s.ast.obtain L s.files s.cache p nc f = (r, a, ch)) :
    r = L.fresh fs0 p ∧ ConvInv L fs0 ts { s with ast := a, cache := ch } := by
  simp only [Ast.obtain] at h
  cases hf : s.ast.find p with
  | some g =>
    rw [hf] at h
    cases h
    obtain ⟨h1, h2⟩ := Ast.mem_files_find hf
    have := hs.ast g h1
    rw [h2] at this
    exact ⟨this.symm, hs.same, hs.walk, hs.cache, hs.ast⟩
  | none =>
    rw [hf] at h
    simp only [Ast.loadFile] at h
    rw [loadWikiFile_congr (hs.same p hp)] at h
    obtain ⟨h1, h2⟩ := loadWikiFile_spec (fs := fs0) hL hs.cache hcol hts p nc f
    cases hl : L.loadWikiFile fs0 s.cache p nc f with
    | mk r1 c1 =>
      rw [hl] at h h1 h2
      cases r1 with
      | error e =>
        cases h
        exact ⟨h1, hs.same, hs.walk, h2, hs.ast⟩
      | ok g =>
        have hg : g.path = p := fresh_path h1.symm
        obtain ⟨_, h4, _⟩ := Ast.find_place s.ast p g hg
        dsimp only at h
        rw [h4 hf] at h
        cases h
        refine ⟨h1, hs.same, hs.walk, h2, fun k hk => ?_⟩
        rcases Ast.mem_place hk with rfl | hk
        · rw [hg]; exact h1.symm
        · exact hs.ast k hk

theorem ConvInv.set {ts : List Str} {s : Conv} (hs : ConvInv L fs0 ts s) {q : Path} (hq : OutExt q.extension) (t : Str) :
    ConvInv L fs0 ts { s with files := s.files.set q t } := by
  refine ⟨fun p hp => ?_, fun dir ext he => ?_, hs.cache, hs.ast⟩
  · rw [Files.get_set, if_neg (fun e => hp (by rw [e]; exact hq))]
    exact hs.same p hp
  · rw [walk_set s.files q t dir ext (fun e => he (by rw [← e]; exact hq))]
    exact hs.walk dir ext he

theorem writeAll_append (fs : Files) (a b : List (Path × Str)) : writeAll fs (a ++ b) = writeAll (writeAll fs a) b :=
  List.foldl_append

/-- What the loop over some pages does, where the output goes to files. -/
theorem processFiles_spec (hL : L.Sound) {ts : List Str} (hcol : L.NoCollision ts) (hts : ∀ t ∈ fs0.texts, t ∈ ts)
    (nc : Bool) (faults : Path → Fault) (ps : List Path) (hp : ∀ p ∈ ps, ¬ OutExt p.extension)
    (hx : ∀ p ∈ ps, ∀ o, OutputIs c p o → OutExt o.extension) : ∀ s, ConvInv L fs0 ts s → ∀ r s',
    processFiles L H c nc false faults ps s = (r, s') →
    ConvInv L fs0 ts s' ∧ ∃ ws, s'.files = writeAll s.files ws ∧
      (∀ x ∈ ws, ∃ p ∈ ps, OutputIs c p x.1 ∧ PageHtmlIs L H c fs0 p x.2) ∧
      (r = none → ∀ p ∈ ps, ∃ x ∈ ws, OutputIs c p x.1 ∧ PageHtmlIs L H c fs0 p x.2) ∧
      (∀ e, r = some e → ∃ p ∈ ps, PageFails L H c fs0 p e) := by
  induction ps with
  | nil =>
    intro s hs r s' h
    cases h
    exact ⟨hs, [], rfl, by simp, by simp, by simp⟩
  | cons p ps ih =>
    intro s hs r s' h
    simp only [processFiles, processFile] at h
    cases ho : s.ast.obtain L s.files s.cache p nc (faults p) with
    | mk r1 ac =>
      obtain ⟨a, ch⟩ := ac
      obtain ⟨h1, h2⟩ := obtain_spec hL hcol hts hs (hp p (by simp)) nc (faults p) ho
      rw [ho] at h
      cases r1 with
      | error e =>
        cases h
        exact ⟨h2, [], rfl, by simp, by simp, fun e' he => ⟨p, by simp, by cases he; exact .load h1.symm⟩⟩
      | ok f =>
        dsimp only at h
        cases hh : toHtmlPage H (c.forPage p) (pageHtml H (c.forPage p) f.data) with
        | error e =>
          rw [hh] at h
          cases h
          exact ⟨h2, [], rfl, by simp, by simp, fun e' he => ⟨p, by simp, by cases he; exact .html h1.symm hh⟩⟩
        | ok html =>
          rw [hh] at h
          simp only [Bool.false_eq_true, if_false] at h
          cases hout : ((c.wikiByPath p).getD c.defaultWiki).outputPath p b!"html" with
          | none =>
            rw [hout] at h
            cases h
            refine ⟨h2, [], rfl, by simp, by simp, fun e' he => ⟨p, by simp, ?_⟩⟩
            cases he
            exact .out h1.symm fun o ho => by cases hout.symm.trans ho
          | some out =>
            rw [hout] at h
            have hpo : OutputIs c p out := hout
            have hph : PageHtmlIs L H c fs0 p html := ⟨f, h1.symm, hh⟩
            obtain ⟨i1, ws, i2, i3, i4, i5⟩ := ih (fun q hq => hp q (by simp [hq])) (fun q hq => hx q (by simp [hq]))
              _ (h2.set (hx p (by simp) out hpo) html) r s' h
            refine ⟨i1, (out, html) :: ws, i2, ?_, ?_, ?_⟩
            · intro x hx'
              rcases List.mem_cons.1 hx' with rfl | hx'
              · exact ⟨p, by simp, hpo, hph⟩
              · obtain ⟨q, hq, h3⟩ := i3 x hx'
                exact ⟨q, by simp [hq], h3⟩
            · intro hr q hq
              rcases List.mem_cons.1 hq with rfl | hq
              · exact ⟨(out, html), by simp, hpo, hph⟩
              · obtain ⟨x, hx', h3⟩ := i4 hr q hq
                exact ⟨x, by simp [hx'], h3⟩
            · intro e he
              obtain ⟨q, hq, h3⟩ := i5 e he
              exact ⟨q, by simp [hq], h3⟩

/-! ## Extensions of output files -/

theorem push_last {p q : Path} {n : Str} (h : q.getLast? = some (.normal n)) : (Path.push p q).getLast? = some (.normal n) := by
  simp only [Path.push]
  split
  · exact h
  · split
    · exact h
    · obtain ⟨r, rfl⟩ : ∃ r, q = r ++ [.normal n] := ⟨q.dropLast, by
        rw [List.getLast?_eq_some_iff] at h
        obtain ⟨r, rfl⟩ := h
        simp⟩
      simp [List.filter_append]

theorem collect_last (r : Path) (n : Str) : (Path.collect (r ++ [.normal n])).getLast? = some (.normal n) := by
  simp only [Path.collect, List.foldl_append, List.foldl_cons, List.foldl_nil]
  exact push_last rfl

theorem makeRelative_last {p : Path} {n : Str} (h : p.getLast? = some (.normal n)) :
    p.makeRelative.getLast? = some (.normal n) := by
  rw [List.getLast?_eq_some_iff] at h
  obtain ⟨r, rfl⟩ := h
  simp only [Path.makeRelative, List.filter_append]
  exact collect_last _ n

theorem stripPrefix_last {p b r : Path} {n : Str} (h : p.stripPrefix b = some r) (hl : p.getLast? = some (.normal n))
    (hne : p ≠ b) : r.getLast? = some (.normal n) := by
  simp only [Path.stripPrefix] at h
  split at h
  · next hp =>
    rw [Path.startsWith, List.isPrefixOf_iff_prefix] at hp
    obtain ⟨t, rfl⟩ := hp
    simp only [List.drop_left, Option.some.injEq] at h
    subst h
    cases t with
    | nil => simp at hne
    | cons x t => simpa [List.getLast?_append] using hl
  · cases h

theorem nameExt_stem {n e : Str} (h : nameExt n = some e) : nameStem n ≠ [] := by
  simp only [nameExt] at h
  simp only [nameStem]
  split at h
  · cases h
  · cases h
  · next i hi hm =>
    cases i with
    | zero => exact absurd rfl hi
    | succ i =>
      cases n with
      | nil => cases hm
      | cons b n => simp

theorem outputPath_ext {w : Wiki} {p out : Path} {n e : Str} (hl : p.getLast? = some (.normal n)) (he : nameExt n = some e)
    (hne : p ≠ w.path) (h : w.outputPath p b!"html" = some out) : out.extension = some b!"html" := by
  simp only [Wiki.outputPath, Option.map_eq_some_iff] at h
  obtain ⟨rel, h1, rfl⟩ := h
  have hrel : rel.getLast? = some (.normal n) := by
    by_cases hi : !p.hasRoot || !p.startsWith w.path
    · have hin : w.inputPath p = w.path.join p.makeRelative := by simp only [Wiki.inputPath]; rw [if_pos hi]
      rw [hin] at h1
      refine stripPrefix_last h1 (push_last (makeRelative_last hl)) fun e => ?_
      have hm := makeRelative_last hl
      rw [Path.join, Path.push] at e
      split at e
      · next hr => rw [makeRelative_noRoot] at hr; cases hr
      · split at e
        · next hemp =>
          rw [e] at hm
          rw [List.isEmpty_iff] at hemp
          rw [hemp] at hm
          cases hm
        · have := congrArg List.length e
          simp only [List.length_append] at this
          rw [List.getLast?_eq_some_iff] at hm
          obtain ⟨r, hr⟩ := hm
          rw [hr] at this
          simp [List.filter_append] at this
    · have hin : w.inputPath p = p := by simp only [Wiki.inputPath]; rw [if_neg hi]
      rw [hin] at h1
      exact stripPrefix_last h1 hl hne
  have hj : (w.pathHtml.join rel).getLast? = some (.normal n) := push_last hrel
  simp only [Path.withExtension, Path.fileName, hj, Path.extension]
  simp [nameExt_dot _ _ (nameExt_stem he)]

theorem walk_mem {fs : Files} {dir p : Path} {ext : Str} (h : p ∈ fs.walk dir ext) :
    p ∈ fs.map (·.1) ∧ p.startsWith dir ∧ p.extension = some ext := by
  simp only [Files.walk, List.mem_filter, Bool.and_eq_true, beq_iff_eq] at h
  exact ⟨h.1, h.2.1, h.2.2⟩

theorem walk_output {c : HtmlCfg} {fs : Files} {dir p : Path} {ext : Str} (hw : ∀ w ∈ c.wikis, w.path ∉ fs.map (·.1))
    (hd : c.defaultWiki.path ∉ fs.map (·.1))
    (h : p ∈ fs.walk dir ext) {o : Path} (ho : OutputIs c p o) : o.extension = some b!"html" := by
  obtain ⟨h1, _, h3⟩ := walk_mem h
  simp only [Path.extension, Option.bind_eq_some_iff] at h3
  obtain ⟨n, hn, he⟩ := h3
  have hl : p.getLast? = some (.normal n) := by
    simp only [Path.fileName] at hn
    split at hn
    · next m hm => cases hn; exact hm
    · cases hn
  have hne : p ≠ ((c.wikiByPath p).getD c.defaultWiki).path := by
    intro e
    cases hp : c.wikiByPath p with
    | none => rw [hp] at e; exact hd (by rw [← show p = c.defaultWiki.path from e]; exact h1)
    | some w =>
      rw [hp] at e
      have : w ∈ c.wikis := by
        simp only [HtmlCfg.wikiByPath, Option.bind_eq_some_iff] at hp
        obtain ⟨i, _, hi⟩ := hp
        exact List.mem_of_getElem? hi
      exact hw w this (by rw [← show p = w.path from e]; exact h1)
  exact outputPath_ext hl he hne ho

theorem cssPath_ext (w : Wiki) : (cssPath w).extension = some b!"css" := by
  have : (cssPath w).getLast? = some (.normal b!"style.css") := push_last (p := w.pathHtml) (q := Path.ofStr b!"style.css") (by decide)
  simp only [Path.extension, Path.fileName, this]
  decide

/-- What the loop over wikis or paths does, where the output goes to files. -/
theorem convertEach_spec (hL : L.Sound) {ts : List Str} (hcol : L.NoCollision ts) (hts : ∀ t ∈ fs0.texts, t ∈ ts)
    {o : ConvOpt} (ho : o.stdout = false) (css : Str) (faults : Path → Fault)
    (hw : ∀ w ∈ c.wikis, w.path ∉ fs0.map (·.1)) (hd : c.defaultWiki.path ∉ fs0.map (·.1))
    (plan : List (Path × Str × Wiki)) (hp : ∀ e ∈ plan, ¬ OutExt (some e.2.1)) : ∀ s, ConvInv L fs0 ts s → ∀ r s',
    convertEach L H c o css faults plan s = (r, s') →
    ConvInv L fs0 ts s' ∧ ∃ ws, s'.files = writeAll s.files ws ∧
      (∀ x ∈ ws, (∃ p ∈ planPages fs0 plan, OutputIs c p x.1 ∧ PageHtmlIs L H c fs0 p x.2) ∨
        o.css = true ∧ ∃ e ∈ plan, x = (cssPath e.2.2, css)) ∧
      (r = none → (∀ p ∈ planPages fs0 plan, ∃ x ∈ ws, OutputIs c p x.1 ∧ PageHtmlIs L H c fs0 p x.2) ∧
        (o.css = true → ∀ e ∈ plan, (cssPath e.2.2, css) ∈ ws)) ∧
      (∀ e, r = some e → ∃ p ∈ planPages fs0 plan, PageFails L H c fs0 p e) := by
  induction plan with
  | nil =>
    intro s hs r s' h
    cases h
    exact ⟨hs, [], rfl, by simp, by simp [planPages], by simp⟩
  | cons x plan ih =>
    obtain ⟨dir, ext, w⟩ := x
    intro s hs r s' h
    have hext : ¬ OutExt (some ext) := hp (dir, ext, w) (by simp)
    simp only [convertEach, processPath, ho] at h
    rw [hs.walk dir ext hext] at h
    have hpe : ∀ p ∈ fs0.walk dir ext, ¬ OutExt p.extension := fun p hp => by rw [(walk_mem hp).2.2]; exact hext
    have hxo : ∀ p ∈ fs0.walk dir ext, ∀ q, OutputIs c p q → OutExt q.extension := fun p hp q hq =>
      .inl (walk_output hw hd hp hq)
    cases h1 : processFiles L H c o.noCache false faults (fs0.walk dir ext) s with
    | mk r1 s1 =>
      obtain ⟨i1, ws, i2, i3, i4, i5⟩ := processFiles_spec hL hcol hts o.noCache faults _ hpe hxo s hs r1 s1 h1
      rw [h1] at h
      cases r1 with
      | some e =>
        cases h
        refine ⟨i1, ws, i2, fun x hx => .inl ?_, by simp, fun e' he => ?_⟩
        · obtain ⟨p, hp, h⟩ := i3 x hx
          exact ⟨p, by simp [planPages, hp], h⟩
        · obtain ⟨p, hp, h⟩ := i5 e' he
          exact ⟨p, by simp [planPages, hp], h⟩
      | none =>
        dsimp only at h
        have hs2 : ConvInv L fs0 ts (writeCss css o w s1) ∧ (writeCss css o w s1).files =
            writeAll s1.files (if o.css then [(cssPath w, css)] else []) := by
          simp only [writeCss, ho, Bool.not_false, Bool.true_and]
          cases o.css
          · exact ⟨i1, rfl⟩
          · exact ⟨i1.set (.inr (cssPath_ext w)) css, rfl⟩
        obtain ⟨j1, vs, j2, j3, j4, j5⟩ := ih (fun e he => hp e (by simp [he])) _ hs2.1 r s' h
        refine ⟨j1, ws ++ (if o.css then [(cssPath w, css)] else []) ++ vs, ?_, ?_, ?_, ?_⟩
        · rw [j2, hs2.2, i2, writeAll_append, writeAll_append]
        · intro x hx
          rcases List.mem_append.1 hx with hx | hx
          · rcases List.mem_append.1 hx with hx | hx
            · obtain ⟨p, hp, h⟩ := i3 x hx
              exact .inl ⟨p, by simp [planPages, hp], h⟩
            · split at hx
              · next hc => exact .inr ⟨hc, (dir, ext, w), by simp, by simpa using hx⟩
              · cases hx
          · rcases j3 x hx with ⟨p, hp, h⟩ | ⟨hc, e, he, h⟩
            · exact .inl ⟨p, by simp only [planPages, List.flatMap_cons, List.mem_append]; exact .inr hp, h⟩
            · exact .inr ⟨hc, e, by simp [he], h⟩
        · intro hr
          obtain ⟨k1, k2⟩ := j4 hr
          refine ⟨fun p hp => ?_, fun hc e he => ?_⟩
          · simp only [planPages, List.flatMap_cons, List.mem_append] at hp
            rcases hp with hp | hp
            · obtain ⟨x, hx, h⟩ := i4 rfl p hp
              exact ⟨x, by simp [hx], h⟩
            · obtain ⟨x, hx, h⟩ := k1 p hp
              exact ⟨x, by simp [hx], h⟩
          · rcases List.mem_cons.1 he with rfl | he
            · simp [hc]
            · simp [k2 hc e he]
        · intro e he
          obtain ⟨p, hp, h⟩ := j5 e he
          exact ⟨p, by simp only [planPages, List.flatMap_cons, List.mem_append]; exact .inr hp, h⟩

/-- What is read after files were written: what was written last, or what was there. -/
theorem writeAll_get (fs : Files) (ws : List (Path × Str)) (q : Path) :
    ((∀ x ∈ ws, x.1 ≠ q) ∧ (writeAll fs ws).get q = fs.get q) ∨
    ∃ x ∈ ws, x.1 = q ∧ (writeAll fs ws).get q = some (some x.2) := by
  induction ws generalizing fs with
  | nil => exact .inl ⟨by simp, rfl⟩
  | cons x ws ih =>
    rcases ih (fs.set x.1 x.2) with ⟨h1, h2⟩ | ⟨y, hy, h1, h2⟩
    · by_cases hx : x.1 = q
      · refine .inr ⟨x, by simp, hx, ?_⟩
        rw [writeAll, List.foldl_cons, ← writeAll, h2, Files.get_set, if_pos hx.symm]
      · refine .inl ⟨fun y hy => ?_, ?_⟩
        · rcases List.mem_cons.1 hy with rfl | hy
          · exact hx
          · exact h1 y hy
        · rw [writeAll, List.foldl_cons, ← writeAll, h2, Files.get_set, if_neg (Ne.symm hx)]
    · exact .inr ⟨y, by simp [hy], h1, h2⟩

/-- What the loop over some pages does, where the output is printed. -/
theorem processFiles_print (hL : L.Sound) {ts : List Str} (hcol : L.NoCollision ts) (hts : ∀ t ∈ fs0.texts, t ∈ ts)
    (nc : Bool) (faults : Path → Fault) (ps : List Path) (hp : ∀ p ∈ ps, ¬ OutExt p.extension) :
    ∀ s, ConvInv L fs0 ts s → ∀ r s', processFiles L H c nc true faults ps s = (r, s') →
    ConvInv L fs0 ts s' ∧ s'.files = s.files ∧ ∃ (done : List (Path × Str)) (rest : List Path), ps = done.map (·.1) ++ rest ∧
      s'.printed = s.printed ++ done.map (·.2) ∧ (∀ x ∈ done, PageHtmlIs L H c fs0 x.1 x.2) ∧ (r = none → rest = []) ∧
      (∀ e, r = some e → ∃ p, rest.head? = some p ∧ PageFails L H c fs0 p e) := by
  induction ps with
  | nil =>
    intro s hs r s' h
    cases h
    exact ⟨hs, rfl, [], [], rfl, by simp, by simp, by simp, by simp⟩
  | cons p ps ih =>
    intro s hs r s' h
    simp only [processFiles, processFile] at h
    cases ho : s.ast.obtain L s.files s.cache p nc (faults p) with
    | mk r1 ac =>
      obtain ⟨a, ch⟩ := ac
      obtain ⟨h1, h2⟩ := obtain_spec hL hcol hts hs (hp p (by simp)) nc (faults p) ho
      rw [ho] at h
      cases r1 with
      | error e =>
        cases h
        exact ⟨h2, rfl, [], p :: ps, rfl, by simp, by simp, by simp, fun e' he => ⟨p, rfl, by cases he; exact .load h1.symm⟩⟩
      | ok f =>
        dsimp only at h
        cases hh : toHtmlPage H (c.forPage p) (pageHtml H (c.forPage p) f.data) with
        | error e =>
          rw [hh] at h
          cases h
          exact ⟨h2, rfl, [], p :: ps, rfl, by simp, by simp, by simp,
            fun e' he => ⟨p, rfl, by cases he; exact .html h1.symm hh⟩⟩
        | ok html =>
          rw [hh] at h
          simp only [if_true] at h
          have h3 : ConvInv L fs0 ts { s with ast := a, cache := ch, printed := s.printed ++ [html] } :=
            ⟨h2.same, h2.walk, h2.cache, h2.ast⟩
          obtain ⟨i1, i2, done, rest, rfl, i3, i4, i5, i6⟩ := ih (fun q hq => hp q (by simp [hq])) _ h3 r s' h
          refine ⟨i1, i2, (p, html) :: done, rest, rfl, by rw [i3]; simp, fun x hx => ?_, i5, i6⟩
          rcases List.mem_cons.1 hx with rfl | hx
          · exact ⟨f, h1.symm, hh⟩
          · exact i4 x hx

theorem convertEach_print (hL : L.Sound) {ts : List Str} (hcol : L.NoCollision ts) (hts : ∀ t ∈ fs0.texts, t ∈ ts)
    {o : ConvOpt} (ho : o.stdout = true) (css : Str) (faults : Path → Fault) (plan : List (Path × Str × Wiki))
    (hp : ∀ e ∈ plan, ¬ OutExt (some e.2.1)) : ∀ s, ConvInv L fs0 ts s → s.files = fs0 → ∀ r s',
    convertEach L H c o css faults plan s = (r, s') →
    s'.files = fs0 ∧ ∃ (done : List (Path × Str)) (rest : List Path), planPages fs0 plan = done.map (·.1) ++ rest ∧
      s'.printed = s.printed ++ done.map (·.2) ∧ (∀ x ∈ done, PageHtmlIs L H c fs0 x.1 x.2) ∧ (r = none → rest = []) ∧
      (∀ e, r = some e → ∃ p, rest.head? = some p ∧ PageFails L H c fs0 p e) := by
  induction plan with
  | nil =>
    intro s hs hf r s' h
    cases h
    exact ⟨hf, [], [], rfl, by simp, by simp, by simp, by simp⟩
  | cons x plan ih =>
    obtain ⟨dir, ext, w⟩ := x
    intro s hs hf r s' h
    have hext : ¬ OutExt (some ext) := hp (dir, ext, w) (by simp)
    simp only [convertEach, processPath, ho] at h
    cases hpf : processFiles L H c o.noCache true faults (s.files.walk dir ext) s with
    | mk r1 s1 =>
      rw [hpf] at h
      obtain ⟨i1, i2, done, rest, i3, i4, i5, i6, i7⟩ := processFiles_print hL hcol hts o.noCache faults _
        (fun q hq => by rw [(walk_mem hq).2.2]; exact hext) s hs r1 s1 hpf
      rw [hf] at i2 i3
      cases r1 with
      | some e =>
        cases h
        refine ⟨i2, done, rest ++ planPages fs0 plan, ?_, i4, i5, by simp, fun e' he => ?_⟩
        · simp only [planPages, List.flatMap_cons, i3, List.append_assoc]
        · obtain ⟨q, hq, hq'⟩ := i7 e' he
          exact ⟨q, by cases rest <;> simp_all, hq'⟩
      | none =>
        have hcs : writeCss css o w s1 = s1 := by simp [writeCss, ho]
        simp only [hcs] at h
        obtain ⟨j2, done', rest', j3, j4, j5, j6, j7⟩ := ih (fun e he => hp e (by simp [he])) s1 i1 i2 r s' h
        have h0 := i6 rfl
        subst h0
        refine ⟨j2, done ++ done', rest', ?_, by rw [j4, i4]; simp, ?_, j6, j7⟩
        · rw [List.append_nil] at i3
          simp only [planPages, List.flatMap_cons, i3] at j3 ⊢
          rw [j3]
          simp
        · intro x hx
          rcases List.mem_append.1 hx with hx | hx
          · exact i5 x hx
          · exact j5 x hx

end Vw
