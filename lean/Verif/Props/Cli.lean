import Verif.Lemmas.Cli
import Verif.Lemmas.Panics
import Verif.Lemmas.Tree
import Verif.Spec.Demo

/-!
# The command line tool: C51 to C56, C60 to C63

The theorems about loading hold for every `CliLib` with the assumptions of `CliLib.Sound`,
every history and every outcome of the system calls whose failure the tool only logs.
-/

namespace Vw

variable {L : CliLib}

/-! ## An example library -/

/-- A pair of functions satisfying the assumptions about `serde_json`, for the examples: a page
is written as a text that parses to it, each byte raised by one, with a zero at the end. -/
noncomputable def demoCli : CliLib where
  env := demo
  sha := id
  ser p := open Classical in
    if h : ∃ t s, parsePage demo t = .ok s p then h.choose.map (· + 1) ++ [0] else []
  deser b :=
    match b.reverse with
    | 0 :: r =>
      if 0 ∈ r then none
      else match parsePage demo (r.reverse.map (· - 1)) with
        | .ok _ p => some p
        | _ => none
    | _ => none

theorem demoCli_parse {t : Str} {p : Page} (h : demoCli.parse t = .ok p) :
    ∃ s, parsePage demo t = .ok s p := by
  simp only [CliLib.parse, demoCli] at h
  cases hp : parsePage demo t with
  | ok s q => rw [hp] at h; simp at h; exact ⟨s, by rw [h]⟩
  | err => rw [hp] at h; simp at h
  | panic r => rw [hp] at h; simp at h
  | diverge => rw [hp] at h; simp at h

theorem demoCli_ser {t : Str} {p : Page} (h : demoCli.parse t = .ok p) :
    ∃ u s, parsePage demo u = .ok s p ∧ demoCli.ser p = u.map (· + 1) ++ [0] := by
  obtain ⟨s, hs⟩ := demoCli_parse h
  have hex : ∃ t s, parsePage demo t = .ok s p := ⟨t, s, hs⟩
  obtain ⟨s', h'⟩ := hex.choose_spec
  exact ⟨hex.choose, s', h', by simp [demoCli, hex]⟩

theorem demoCli_keeps {t : Str} {p : Page} (h : demoCli.parse t = .ok p) : demoCli.Keeps p := by
    unfold CliLib.Keeps
    obtain ⟨u, s, hu, he⟩ := demoCli_ser h
    rw [he]
    simp only [demoCli, List.reverse_append, List.reverse_cons, List.reverse_nil, List.nil_append,
      List.singleton_append, List.reverse_reverse]
    rw [if_neg (by simp)]
    have : (u.map (· + 1)).map (· - 1) = u := by simp [Function.comp_def]
    rw [this, hu]

theorem demoCli_sound : demoCli.Sound := by
  constructor
  intro t p n q h hq
  by_cases hn : n < (demoCli.ser p).length
  · refine absurd hq ?_
    obtain ⟨u, s, hu, he⟩ := demoCli_ser h
    rw [he] at hn ⊢
    have hn' : n ≤ (u.map (· + 1)).length := by
      simp at hn ⊢; omega
    rw [List.take_append_of_le_length hn']
    cases hr : ((u.map (· + 1)).take n).reverse with
    | nil => simp [demoCli, hr]
    | cons x r =>
      have hx : x ∈ u.map (· + 1) := by
        have : x ∈ ((u.map (· + 1)).take n).reverse := by rw [hr]; exact List.mem_cons_self
        exact List.mem_of_mem_take (List.mem_reverse.mp this)
      obtain ⟨y, _, rfl⟩ := List.mem_map.mp hx
      simp [demoCli, hr]
  · rw [List.take_of_length_le (by omega), demoCli_keeps h] at hq
    exact (Option.some.inj hq).symm

/-! ## C51 -/

theorem Disk.Reached.inv (hL : L.Sound) {d : Disk} (h : d.Reached L) :
    ∃ ts, L.NoCollision ts ∧ d.Inv L ts := by
  obtain ⟨fs, evs, rfl, hcol⟩ := h
  refine ⟨_, hcol, Disk.Inv.run hL hcol evs ⟨?_, ?_⟩ ?_⟩
  · intro t ht
    exact List.mem_append_left _ ht
  · intro t _ b p hb
    simp [Cache.get_nil] at hb
  · intro e he t ht
    exact List.mem_append_right _ (List.mem_flatMap.mpr ⟨e, he, ht⟩)

/-- C51: whatever happened before, loading a file gives what reading and parsing it without
any cache gives. -/
theorem C51_transparent (hL : L.Sound) {d : Disk} (h : d.Reached L) (p : Path) (noCache : Bool)
    (f : Fault) : (L.loadWikiFile d.files d.cache p noCache f).1 = L.fresh d.files p := by
  obtain ⟨ts, hcol, hf, hc⟩ := h.inv hL
  exact (loadWikiFile_spec hL hc hcol hf p noCache f).1

/-- C51 for a whole run of the tool: every page it holds is the parse of the file as it is
now. -/
theorem C51_all_files (hL : L.Sound) {d : Disk} (h : d.Reached L) {wikis : List Wiki}
    {incl : List IndexOrName} {noCache noPrune : Bool} {faults : Path → Fault}
    {stuck : List Str → Bool} {a : Ast}
    (ha : (loadAst L d.files d.cache wikis incl noCache noPrune faults stuck).1 = .ok a)
    {f : WikiFile} (hf : f ∈ a.files) : L.fresh d.files f.path = .ok f := by
  obtain ⟨ts, hcol, htx, hc⟩ := h.inv hL
  obtain ⟨-, h2, -⟩ := loadWikis_spec (fs := d.files) hL hcol htx noCache faults
    (selectFrom incl 0 wikis) [] d.cache hc
    (by intro k iw hk; simpa using selectFrom_index incl wikis 0 k iw hk)
  obtain ⟨out, ho, hlen, hx⟩ := h2 a (loadAst_ok ha)
  rw [List.nil_append] at ho
  subst ho
  obtain ⟨x, hxa, hfx⟩ := List.mem_flatMap.mp hf
  obtain ⟨k, hk⟩ := List.getElem?_of_mem hxa
  have hklt : k < (selectFrom incl 0 wikis).length := by
    rw [← hlen]
    exact (List.getElem?_eq_some_iff.mp hk).1
  obtain ⟨-, -, -, files, hm, hfiles⟩ := hx k _ x (List.getElem?_eq_getElem hklt) hk
  rw [hfiles] at hfx
  split at hfx
  · have : Except.ok f ∈ files.map (Except.ok (ε := IoErr)) := List.mem_map.mpr ⟨f, hfx, rfl⟩
    rw [hm] at this
    obtain ⟨p, -, hp⟩ := List.mem_map.mp this
    have : f.path = p := by
      simp only [CliLib.fresh] at hp
      split at hp
      · cases hp
      · cases hp
      · split at hp
        · cases hp; rfl
        · cases hp
    rw [this]
    exact hp
  · cases hfx

/-- The page at `/w/a.wiki`. -/
def demoFile : Path := [.root, .normal b!"w", .normal b!"a.wiki"]

/-- A history: the file is written, a load dies after three bytes of the cache entry, the file
is changed, loaded, changed back. -/
def demoHistory : List Event :=
  [.edit demoFile b!"= a =", .load demoFile false ⟨false, false, .first 3⟩,
   .edit demoFile b!"b", .load demoFile false noFault, .edit demoFile b!"= a ="]

example : Disk.Reached demoCli (Disk.run demoCli ⟨[], []⟩ demoHistory) :=
  ⟨[], demoHistory, rfl, fun _ _ _ _ h => h⟩

/-- The cache of that history does hold an entry under the checksum of the present text, torn. -/
example : ∃ b, (Disk.run demoCli ⟨[], []⟩ demoHistory).cache.get [demoCli.sha b!"= a ="] = some b ∧
    b.length ≤ 3 := by
  obtain ⟨s, pg, hp, -⟩ := page_test (text := b!"= a =") (fun _ => True) (by decide +kernel)
  obtain ⟨s', pg', hp', -⟩ := page_test (text := b!"b") (fun _ => True) (by decide +kernel)
  have h1 : demoCli.parse b!"= a =" = .ok pg := by simp only [CliLib.parse, demoCli, hp]
  have h2 : demoCli.parse b!"b" = .ok pg' := by simp only [CliLib.parse, demoCli, hp']
  refine ⟨(demoCli.ser pg).take 3, ?_, by simp; omega⟩
  have hsha : ∀ t, demoCli.sha t = t := fun _ => rfl
  simp only [demoHistory, Disk.run, List.foldl_cons, List.foldl_nil, Disk.after, Files.set,
    CliLib.loadWikiFile, Files.read, Files.get_cons, if_true, CliLib.cached, Cache.get_nil,
    h1, CliLib.store, beq_self_eq_true, h2, noFault, hsha, Cache.set, Cache.del,
    Cache.get_cons, Bool.false_eq_true, if_false]
  simp [Cache.get_cons, Cache.get_nil]

/-! ## C52 -/

/-- C52: after all wikis are loaded with the cache in use and no system call failing, there is
an entry for every loaded file whose page reads back from what is written of it, and it holds
that page. Which pages those are is `C87_cache`. -/
theorem C52_kept_partial {fs : Files} {c : Cache} {wikis : List Wiki}
    {incl : List IndexOrName} {noPrune : Bool} {stuck : List Str → Bool} {a : Ast} {c' : Cache}
    (h : loadAst L fs c wikis incl false noPrune (fun _ => noFault) stuck = (.ok a, c')) :
    ∀ f ∈ a.files, L.Keeps f.data → ∃ b, c'.get [f.checksum] = some b ∧ L.deser b = some f.data := by
  simp only [loadAst] at h
  cases hl : loadWikis L fs false (fun _ => noFault) (selectFrom incl 0 wikis) [] c with
  | mk r c1 =>
    rw [hl] at h
    cases r with
    | error e => simp at h
    | ok b =>
      simp only [Prod.mk.injEq, Except.ok.injEq] at h
      obtain ⟨rfl, rfl⟩ := h
      intro f hf hk
      obtain ⟨x, hx, hd⟩ := loadWikis_stored _ [] c (by simp [Ast.files]) _ _ hl f hf hk
      refine ⟨x, ?_, hd⟩
      split
      · rw [prune_get, if_pos]
        · exact hx
        · have : (f.checksum) ∈ (Ast.files b).map (·.checksum) := List.mem_map.mpr ⟨f, hf, rfl⟩
          simp [inUse]
          exact .inr ⟨f, hf, rfl⟩
      · exact hx

/-- C52: pruning changes neither the result nor any entry whose name is the checksum of a
loaded file, and removes every other entry it can remove. -/
theorem C52_pruned {fs : Files} {c : Cache} {wikis : List Wiki} {incl : List IndexOrName}
    {faults : Path → Fault} {stuck : List Str → Bool} {a : Ast} {c' : Cache}
    (h : loadAst L fs c wikis incl false true faults stuck = (.ok a, c')) :
    ∃ c'', loadAst L fs c wikis incl false false faults stuck = (.ok a, c'') ∧
      ∀ dir name, c''.get (dir ++ [name]) =
        if stuck (dir ++ [name]) ∨ ∃ f ∈ a.files, f.checksum = name then c'.get (dir ++ [name])
        else none := by
  simp only [loadAst] at h ⊢
  cases hl : loadWikis L fs false faults (selectFrom incl 0 wikis) [] c with
  | mk r c1 =>
    rw [hl] at h
    cases r with
    | error e => simp at h
    | ok b =>
      simp only [Prod.mk.injEq, Except.ok.injEq] at h
      obtain ⟨rfl, rfl⟩ := h
      refine ⟨_, rfl, ?_⟩
      intro dir name
      simp only [Bool.not_false, Bool.and_self, if_true, Bool.not_true, Bool.false_and,
        Bool.false_eq_true, if_false]
      rw [prune_get]
      simp [inUse]

/-! ## C53 -/

/-- A wiki at `/name` with extension `wiki`. -/
def demoWikiAt (name : Str) : Wiki :=
  ⟨[.root, .normal name], [.root, .normal b!"html"], some name, b!"style.css", b!"wiki", []⟩

/-- Two wikis with one page each. -/
def twoWikis : List Wiki := [demoWikiAt b!"v", demoWikiAt b!"w"]

/-- Their files. -/
def twoFiles : Files :=
  [([.root, .normal b!"v", .normal b!"b.wiki"], some b!"b"), (demoFile, some b!"= a =")]

theorem twoFiles_reached : Disk.Reached demoCli ⟨twoFiles, []⟩ :=
  ⟨twoFiles, [], rfl, fun _ _ _ _ h => h⟩

/-- Both wikis load, with one page each, and their entries are in the cache. -/
theorem twoFiles_load (noPrune : Bool) : ∃ a c', loadAst demoCli twoFiles [] twoWikis [] false noPrune
    (fun _ => noFault) (fun _ => false) = (.ok a, c') ∧ a.files.length = 2 := by
  obtain ⟨s, pg, hp, -⟩ := page_test (text := b!"= a =") (fun _ => True) (by decide +kernel)
  obtain ⟨s', pg', hp', -⟩ := page_test (text := b!"b") (fun _ => True) (by decide +kernel)
  have h1 : demoCli.parse b!"= a =" = .ok pg := by simp only [CliLib.parse, demoCli, hp]
  have h2 : demoCli.parse b!"b" = .ok pg' := by simp only [CliLib.parse, demoCli, hp']
  have hs : selectFrom [] 0 twoWikis = [(0, demoWikiAt b!"v"), (1, demoWikiAt b!"w")] := by
    decide +kernel
  have hv : twoFiles.walk (demoWikiAt b!"v").path (demoWikiAt b!"v").ext =
      [[.root, .normal b!"v", .normal b!"b.wiki"]] := by decide +kernel
  have hw : twoFiles.walk (demoWikiAt b!"w").path (demoWikiAt b!"w").ext = [demoFile] := by
    decide +kernel
  have hrv : twoFiles.read [.root, .normal b!"v", .normal b!"b.wiki"] = .ok b!"b" := by
    have : twoFiles.get [.root, .normal b!"v", .normal b!"b.wiki"] = some (some b!"b") := by
      decide +kernel
    simp only [Files.read, this]
  have hr : twoFiles.read demoFile = .ok b!"= a =" := by
    have : twoFiles.get demoFile = some (some b!"= a =") := by decide +kernel
    simp only [Files.read, this]
  have hget : ∀ x, Cache.get (Cache.set [] [demoCli.sha b!"b"] x) [demoCli.sha b!"= a ="] = none := by
    intro x
    rw [Cache.get_set, if_neg (show ¬ [demoCli.sha b!"= a ="] = [demoCli.sha b!"b"] from by
      show ¬ [b!"= a ="] = [b!"b"]; decide), Cache.get_nil]
  simp only [loadAst, hs, loadWikis, hw, hv, loadFiles, CliLib.loadWikiFile, hr, hrv, CliLib.cached,
    Cache.get_nil, h1, h2, Bool.false_eq_true, if_false, CliLib.store, noFault, hget]
  exact ⟨_, _, rfl, rfl⟩

example : ∃ a c', loadAst demoCli twoFiles [] twoWikis [] false true (fun _ => noFault)
    (fun _ => false) = (.ok a, c') ∧
    ∀ f ∈ a.files, ∃ b, c'.get [f.checksum] = some b ∧ demoCli.deser b = some f.data := by
  obtain ⟨a, c', h, -⟩ := twoFiles_load true
  refine ⟨a, c', h, fun f hf => C52_kept_partial h f hf ?_⟩
  have hfr := C51_all_files demoCli_sound twoFiles_reached (by rw [h]) hf
  simp only [CliLib.fresh] at hfr
  split at hfr
  · cases hfr
  · cases hfr
  · split at hfr
    · next hp => rw [← Except.ok.inj hfr]; exact demoCli_keeps hp
    · cases hfr

/-- C53 fails: with the second of two wikis selected, its page is not in the result. -/
theorem C53_violated :
    (∃ p ∈ twoFiles.walk (demoWikiAt b!"w").path (demoWikiAt b!"w").ext, p = demoFile) ∧
    selectFrom [.index 1] 0 twoWikis = [(1, demoWikiAt b!"w")] ∧
    ∃ a, (loadAst demoCli twoFiles [] twoWikis [.index 1] false false (fun _ => noFault)
      (fun _ => false)).1 = .ok a ∧ a.files = [] ∧ a.map (·.index) = [1] := by
  refine ⟨⟨demoFile, by decide +kernel, rfl⟩, by decide +kernel, ?_⟩
  obtain ⟨s, pg, hp, -⟩ := page_test (text := b!"= a =") (fun _ => True) (by decide +kernel)
  have h1 : demoCli.parse b!"= a =" = .ok pg := by simp only [CliLib.parse, demoCli, hp]
  have hs : selectFrom [.index 1] 0 twoWikis = [(1, demoWikiAt b!"w")] := by decide +kernel
  have hw : twoFiles.walk (demoWikiAt b!"w").path (demoWikiAt b!"w").ext = [demoFile] := by
    decide +kernel
  have hr : twoFiles.read demoFile = .ok b!"= a =" := by
    have : twoFiles.get demoFile = some (some b!"= a =") := by decide +kernel
    simp only [Files.read, this]
  refine ⟨[⟨1, some b!"w", (demoWikiAt b!"w").path, []⟩], ?_, rfl, rfl⟩
  simp only [loadAst, hs, loadWikis, hw, loadFiles, CliLib.loadWikiFile, hr, CliLib.cached,
    Cache.get_nil, h1, Bool.false_eq_true, if_false]
  rfl

/-- C53, what holds in general: there is one entry for each selected wiki, in order; all of its
files have been loaded, and the entry has them if its position is also its index, otherwise
none. -/
theorem C53_partial (hL : L.Sound) {d : Disk} (h : d.Reached L) {wikis : List Wiki}
    {incl : List IndexOrName} {noCache noPrune : Bool} {faults : Path → Fault}
    {stuck : List Str → Bool} {a : Ast}
    (ha : (loadAst L d.files d.cache wikis incl noCache noPrune faults stuck).1 = .ok a) :
    ∃ sel : List (Nat × Wiki), Chosen (fun i w => selects incl i w.name = true) wikis sel ∧
      a.length = sel.length ∧ ∀ (k i : Nat) (w : Wiki) (x : WikiAst), sel[k]? = some (i, w) → a[k]? = some x →
        x.index = i ∧ x.name = w.name ∧ x.path = w.path ∧
        ∃ files : List WikiFile,
          files.map Except.ok = (d.files.walk w.path w.ext).map (L.fresh d.files) ∧
          x.files = if i = k then files else [] := by
  obtain ⟨ts, hcol, htx, hc⟩ := h.inv hL
  obtain ⟨-, h2, -⟩ := loadWikis_spec (fs := d.files) hL hcol htx noCache faults
    (selectFrom incl 0 wikis) [] d.cache hc
    (by intro k iw hk; simpa using selectFrom_index incl wikis 0 k iw hk)
  obtain ⟨out, ho, hlen, hx⟩ := h2 a (loadAst_ok ha)
  rw [List.nil_append] at ho
  subst ho
  refine ⟨selectFrom incl 0 wikis, ⟨selectFrom_sorted incl wikis 0, ?_⟩, hlen, ?_⟩
  · intro i w
    simpa using selectFrom_mem incl wikis 0 i w
  · intro k i w x hk hkx
    have := hx k (i, w) x hk hkx
    simpa [Entry] using this

/-- C53 when no wiki is left out before a selected one, as when all are selected: every entry
has all files of its wiki. -/
theorem C53_prefix_partial (hL : L.Sound) {d : Disk} (h : d.Reached L) {wikis : List Wiki}
    {incl : List IndexOrName} {noCache noPrune : Bool} {faults : Path → Fault}
    {stuck : List Str → Bool} {a : Ast}
    (ha : (loadAst L d.files d.cache wikis incl noCache noPrune faults stuck).1 = .ok a)
    (hpre : ∀ (i j : Nat) (w v : Wiki), wikis[i]? = some w → wikis[j]? = some v → i ≤ j →
      selects incl j v.name = true → selects incl i w.name = true) :
    ∀ (k : Nat) (x : WikiAst), a[k]? = some x → ∃ w : Wiki, wikis[k]? = some w ∧ selects incl k w.name = true ∧
      x.files.map Except.ok = (d.files.walk w.path w.ext).map (L.fresh d.files) := by
  obtain ⟨sel, ⟨hsort, hmem⟩, hlen, hx⟩ := C53_partial hL h ha
  have hidx : ∀ (k i : Nat) (w : Wiki), sel[k]? = some (i, w) → i = k := by
    intro k
    induction k using Nat.strongRecOn with
    | _ k ih =>
      intro i w hk
      have hklt : k < sel.length := (List.getElem?_eq_some_iff.mp hk).1
      have hin := (hmem i w).mp (List.mem_of_getElem? hk)
      have hge : k ≤ i := by
        cases k with
        | zero => omega
        | succ m =>
          have hm : sel[m]? = some sel[m] := List.getElem?_eq_getElem (by omega)
          have h1 := ih m (by omega) sel[m].1 sel[m].2 hm
          have h2 := List.pairwise_iff_getElem.mp hsort m (m + 1) (by omega) hklt (by omega)
          have h3 : sel[m + 1] = (i, w) := (List.getElem?_eq_some_iff.mp hk).2
          rw [h3] at h2
          simp only at h2
          omega
      rcases Nat.lt_or_ge k i with hlt | hle
      · -- the wiki with index `k` is selected too, and would come earlier
        exfalso
        have hkw : k < wikis.length := by
          have := (List.getElem?_eq_some_iff.mp hin.1).1
          omega
        have hsel := hpre k i _ w (List.getElem?_eq_getElem hkw) hin.1 (by omega) hin.2
        have hmk := (hmem k wikis[k]).mpr ⟨List.getElem?_eq_getElem hkw, hsel⟩
        obtain ⟨j, hj⟩ := List.getElem?_of_mem hmk
        have hjlt : j < sel.length := (List.getElem?_eq_some_iff.mp hj).1
        rcases Nat.lt_trichotomy j k with hjk | hjk | hjk
        · have := ih j hjk _ _ hj
          omega
        · subst hjk
          rw [hj] at hk
          cases hk
          omega
        · have h2 := List.pairwise_iff_getElem.mp hsort k j hklt hjlt hjk
          have h3 : sel[k] = (i, w) := (List.getElem?_eq_some_iff.mp hk).2
          have h4 : sel[j] = (k, wikis[k]) := (List.getElem?_eq_some_iff.mp hj).2
          rw [h3, h4] at h2
          simp only at h2
          omega
      · omega
  intro k x hk
  have hklt : k < sel.length := by
    rw [← hlen]; exact (List.getElem?_eq_some_iff.mp hk).1
  have hs : sel[k]? = some (sel[k].1, sel[k].2) := List.getElem?_eq_getElem hklt
  have hi := hidx k _ _ hs
  obtain ⟨-, -, -, files, hm, hf⟩ := hx k _ _ x hs hk
  have hin := (hmem _ _).mp (List.mem_of_getElem? hs)
  rw [hi] at hin hf
  refine ⟨sel[k].2, hin.1, hin.2, ?_⟩
  rw [hf, if_pos rfl]
  exact hm

/-- C53: loading fails only if some file of a selected wiki cannot be read or parsed. -/
theorem C53_error (hL : L.Sound) {d : Disk} (h : d.Reached L) {wikis : List Wiki}
    {incl : List IndexOrName} {noCache noPrune : Bool} {faults : Path → Fault}
    {stuck : List Str → Bool} {e : IoErr}
    (ha : (loadAst L d.files d.cache wikis incl noCache noPrune faults stuck).1 = .error e) :
    ∃ (i : Nat) (w : Wiki), wikis[i]? = some w ∧ selects incl i w.name = true ∧
      ∃ p ∈ d.files.walk w.path w.ext, L.fresh d.files p = .error e := by
  obtain ⟨ts, hcol, htx, hc⟩ := h.inv hL
  obtain ⟨-, -, h3⟩ := loadWikis_spec (fs := d.files) hL hcol htx noCache faults
    (selectFrom incl 0 wikis) [] d.cache hc
    (by intro k iw hk; simpa using selectFrom_index incl wikis 0 k iw hk)
  obtain ⟨⟨i, w⟩, hiw, p, hp, hf⟩ := h3 e (loadAst_error ha)
  have := (selectFrom_mem incl wikis 0 i w).mp hiw
  exact ⟨i, w, by simpa using this.2.1, this.2.2, p, hp, hf⟩

/-! ## C54 -/

/-- C54: after a file is loaded it is found, and every other file is found as before. A file
that was not there before is found as it is now. -/
theorem C54_found {fs : Files} {a a' : Ast} {c c' : Cache} {p : Path} {noCache : Bool} {f : Fault}
    {file : WikiFile} (h : a.loadFile L fs c p noCache f = (.ok file, a', c')) :
    a'.find p = some file ∧ file.path = p ∧ (∀ q, q ≠ p → a'.find q = a.find q) ∧
    (a.find p = none → (L.loadWikiFile fs c p noCache f).1 = .ok file) := by
  simp only [Ast.loadFile] at h
  cases hl : L.loadWikiFile fs c p noCache f with
  | mk r c1 =>
    rw [hl] at h
    cases r with
    | error e => simp at h
    | ok g =>
      have hg : g.path = p := loadWikiFile_path (L := L) (fs := fs) (c := c) (nc := noCache)
        (f := f) (by rw [hl])
      obtain ⟨h1, h2, k, hk, hkp⟩ := Ast.find_place a p g hg
      dsimp only at h
      rw [hk] at h
      simp only [Prod.mk.injEq, Except.ok.injEq] at h
      obtain ⟨rfl, rfl, rfl⟩ := h
      refine ⟨hk, hkp, h1, ?_⟩
      intro hn
      have := h2 hn
      rw [hk] at this
      rw [Option.some.inj this]

/-- C54: a load that fails changes nothing. -/
theorem C54_failed {fs : Files} {a a' : Ast} {c c' : Cache} {p : Path} {noCache : Bool} {f : Fault}
    {e : IoErr} (h : a.loadFile L fs c p noCache f = (.error e, a', c')) : a' = a := by
  simp only [Ast.loadFile] at h
  cases hl : L.loadWikiFile fs c p noCache f with
  | mk r c1 =>
    rw [hl] at h
    cases r with
    | error e => simp at h; exact h.2.1.symm
    | ok g =>
      have hg : g.path = p := loadWikiFile_path (L := L) (fs := fs) (c := c) (nc := noCache)
        (f := f) (by rw [hl])
      obtain ⟨h1, h2, k, hk, hkp⟩ := Ast.find_place a p g hg
      dsimp only at h
      rw [hk] at h
      simp at h

/-- One call of `load_file`, with the files on disk at that time. -/
structure Call where
  files : Files
  path : Path
  noCache : Bool
  fault : Fault

/-- The state after a sequence of calls. -/
def Call.runs (L : CliLib) (s : Ast × Cache) (calls : List Call) : Ast × Cache :=
  calls.foldl (fun s k => (s.1.loadFile L k.files s.2 k.path k.noCache k.fault).2) s

/-- C54 for sequences: a path that is found once is found ever after. -/
theorem C54_history (a : Ast) (c : Cache) (calls : List Call) (p : Path) (file : WikiFile)
    (h : a.find p = some file) :
    ∃ g, (Call.runs L (a, c) calls).1.find p = some g ∧ g.path = p := by
  have hp : file.path = p := by
    simp only [Ast.find] at h
    obtain ⟨w, _, hw⟩ := List.exists_of_findSome?_eq_some h
    simpa using List.find?_some hw
  suffices ∀ (calls : List Call) (s : Ast × Cache), (∃ g, s.1.find p = some g ∧ g.path = p) →
      ∃ g, (Call.runs L s calls).1.find p = some g ∧ g.path = p from
    this calls (a, c) ⟨file, h, hp⟩
  intro calls
  induction calls with
  | nil => intro s h; exact h
  | cons k calls ih =>
    rintro ⟨a, c⟩ hs
    refine ih _ ?_
    cases hl : a.loadFile L k.files c k.path k.noCache k.fault with
    | mk r s' =>
      obtain ⟨a', c'⟩ := s'
      dsimp only
      rw [hl]
      cases r with
      | error e => rw [C54_failed hl]; exact hs
      | ok g =>
        obtain ⟨h1, h2, h3, -⟩ := C54_found hl
        by_cases hpk : p = k.path
        · subst hpk; exact ⟨g, h1, h2⟩
        · rw [h3 p hpk]; exact hs

/-- C54 as `convert` uses it, which loads only what it does not find: what is found never
changes, and what is obtained is found. -/
theorem C54_obtain {fs : Files} {a a' : Ast} {c c' : Cache} {p : Path} {noCache : Bool} {f : Fault}
    {file : WikiFile} (h : a.obtain L fs c p noCache f = (.ok file, a', c')) :
    a'.find p = some file ∧ ∀ q g, a.find q = some g → a'.find q = some g := by
  simp only [Ast.obtain] at h
  cases hf : a.find p with
  | some g =>
    rw [hf] at h
    simp only [Prod.mk.injEq, Except.ok.injEq] at h
    obtain ⟨rfl, rfl, rfl⟩ := h
    exact ⟨hf, fun q g h => h⟩
  | none =>
    rw [hf] at h
    obtain ⟨h1, -, h3, -⟩ := C54_found h
    refine ⟨h1, ?_⟩
    intro q g hq
    rw [h3 q]
    · exact hq
    · rintro rfl
      rw [hf] at hq; cases hq

/-- Loading a file a second time does not make the new text visible: the entry of the first
load is the one that is found. -/
theorem C54_reload {fs : Files} {a a' : Ast} {c c' : Cache} {p : Path} {noCache : Bool} {f : Fault}
    {old file : WikiFile} {i : Nat} (ha : a.find p = some old)
    (hi : a.findIdx? (fun w => p.startsWith w.path) = some i)
    (hold : ∃ w : WikiAst, a[i]? = some w ∧ old ∈ w.files)
    (hfirst : ∀ (k : Nat) (w : WikiAst) (g : WikiFile), a[k]? = some w → g ∈ w.files → g.path = p → i ≤ k)
    (h : a.loadFile L fs c p noCache f = (.ok file, a', c')) : file = old := by
  simp only [Ast.loadFile] at h
  cases hl : L.loadWikiFile fs c p noCache f with
  | mk r c1 =>
    rw [hl] at h
    cases r with
    | error e => simp at h
    | ok g =>
      have hg : g.path = p := loadWikiFile_path (L := L) (fs := fs) (c := c) (nc := noCache)
        (f := f) (by rw [hl])
      dsimp only at h
      have key : (a.place p g).find p = some old := by
        simp only [Ast.place, hi]
        clear hl h hi
        obtain ⟨w, hw, hwo⟩ := hold
        induction a generalizing i with
        | nil => simp at hw
        | cons v a ih =>
          cases i with
          | zero =>
            simp only [List.getElem?_cons_zero, Option.some.injEq] at hw
            subst hw
            have e : Ast.pushFile (v :: a) 0 g = { v with files := v.files ++ [g] } :: a := by
              simp [Ast.pushFile]
            rw [e, Ast.find_cons]
            rw [Ast.find_cons] at ha
            dsimp only
            rw [List.find?_append]
            cases hv : v.files.find? (fun f => f.path == p) with
            | some k => rw [hv] at ha; simp at ha; simp [ha]
            | none =>
              have hop : old.path = p := by
                rw [hv] at ha
                simp only [Option.none_or, Ast.find] at ha
                obtain ⟨w, _, hw⟩ := List.exists_of_findSome?_eq_some ha
                simpa using List.find?_some hw
              have := List.find?_eq_none.mp hv old hwo
              simp [hop] at this
          | succ i =>
            have e : Ast.pushFile (v :: a) (i + 1) g = v :: Ast.pushFile a i g := by
              simp [Ast.pushFile]
            have hv : v.files.find? (fun f => f.path == p) = none := by
              rw [List.find?_eq_none]
              intro x hx hxp
              have := hfirst 0 v x (by simp) hx (by simpa using hxp)
              omega
            rw [e, Ast.find_cons, hv]
            rw [Ast.find_cons, hv] at ha
            simp only [Option.none_or] at ha ⊢
            refine ih ha ?_ (by simpa using hw)
            intro k w g hk hg hgp
            have := hfirst (k + 1) w g (by simpa using hk) hg hgp
            omega
      rw [key] at h
      simp only [Prod.mk.injEq, Except.ok.injEq] at h
      exact h.1.symm

/-- A wiki with one loaded page, of which the file has changed since. -/
example (old file : WikiFile) (hp : old.path = demoFile) (a' : Ast) (c c' : Cache)
    (h : Ast.loadFile demoCli twoFiles [⟨0, none, [.root, .normal b!"w"], [old]⟩] c demoFile false
      noFault = (.ok file, a', c')) : file = old := by
  have hs : demoFile.startsWith [.root, .normal b!"w"] = true := by decide +kernel
  refine C54_reload (i := 0) ?_ (by simp [List.findIdx?_cons, hs]) ⟨_, rfl, List.mem_cons_self⟩
    (fun _ _ _ _ _ _ => Nat.zero_le _) h
  simp [Ast.find, hp]

/-! ## C55 -/

/-- C55: given the arguments of `--include`, the wikis kept are exactly the named ones, in
their order. -/
theorem C55_selected (args : List Str) (wikis : List Wiki) :
    ∃ sel : List (Nat × Wiki), Chosen (fun i w => Named args i w.name) wikis sel ∧
      keepWikis (args.map IndexOrName.ofStr) wikis = sel.map (·.2) := by
  refine ⟨selectFrom (args.map IndexOrName.ofStr) 0 wikis, ⟨selectFrom_sorted _ _ 0, ?_⟩, rfl⟩
  intro i w
  rw [selectFrom_mem, selects_ofStr]
  simp

/-- C55: the index is read in decimal. -/
theorem C55_index (n i : Nat) (name : Option Str) (hn : n < 2 ^ 64) :
    selects [IndexOrName.ofStr (decStr n)] i name = true ↔ n = i := by
  have h : parseUsize (decStr n) = some n :=
    (parseUsize_iff _ _).mpr ⟨[], decStr n, rfl, .inl rfl, decStr_ne_nil n, decStr_digits n,
      decStr_value n, hn⟩
  cases name <;>
    simp [selects, IndexOrName.ofStr, h, IndexOrName.matchesEither, IndexOrName.eqIndex,
      IndexOrName.eqName]

/-- C55: a wiki whose name is a number cannot be selected by name. -/
theorem C55_numeric_name (s : Str) (n i : Nat) (h : Numeral s n) (hi : i ≠ n) :
    selects [IndexOrName.ofStr s] i (some s) = false := by
  have h := (parseUsize_iff s n).mpr h
  simp [selects, IndexOrName.ofStr, h, IndexOrName.matchesEither, IndexOrName.eqIndex,
    IndexOrName.eqName, Ne.symm hi]

example : selects [IndexOrName.ofStr b!"7"] 3 (some b!"7") = false :=
  C55_numeric_name b!"7" 7 3 ⟨[], b!"7", rfl, .inl rfl, by decide, by decide, by decide, by decide⟩
    (by decide)

example : selectFrom ([b!"w", b!"+0"].map IndexOrName.ofStr) 0
    [demoWikiAt b!"v", demoWikiAt b!"u", demoWikiAt b!"w"] =
    [(0, demoWikiAt b!"v"), (2, demoWikiAt b!"w")] := by decide +kernel

/-! ## C56 -/

/-- C56: Markdown and Mediawiki input is refused for every kind of element. -/
theorem C56_refused (env : Env) (k : Kind) (s : Str) :
    k.fromLanguage env (.markdown s) = .err ∧ k.fromLanguage env (.mediawiki s) = .err :=
  ⟨rfl, rfl⟩

/-! ## C60 -/

/-- C60 fails: `--include 1` with two wikis leaves nothing, since the second wiki becomes the
first and only one and is filtered out again. -/
theorem C60_violated (L : CliLib) (fs : Files) (c : Cache) :
    keepWikis [IndexOrName.ofStr b!"1"] twoWikis = [demoWikiAt b!"w"] ∧
    (loadAll L fs c twoWikis [IndexOrName.ofStr b!"1"] false false (fun _ => noFault)
      (fun _ => false)).1 = .ok [] := by
  have h : selectFrom [IndexOrName.ofStr b!"1"] 0
      (keepWikis [IndexOrName.ofStr b!"1"] twoWikis) = [] := by decide +kernel
  refine ⟨by decide +kernel, ?_⟩
  simp only [loadAll, loadAst, h, loadWikis]

/-- C60, what holds: when the wikis are named by name, or all are wanted, the tool works on
exactly the named wikis, in order, with all of their files. -/
theorem C60_partial (hL : L.Sound) {d : Disk} (h : d.Reached L) {args : List Str}
    {wikis : List Wiki} (hargs : ∀ x ∈ args, ∀ n, ¬ Numeral x n) {noCache noPrune : Bool}
    {faults : Path → Fault} {stuck : List Str → Bool} {a : Ast}
    (ha : (loadAll L d.files d.cache wikis (args.map IndexOrName.ofStr) noCache noPrune faults
      stuck).1 = .ok a) :
    ∃ sel : List (Nat × Wiki), Chosen (fun i w => Named args i w.name) wikis sel ∧ a.length = sel.length ∧
      ∀ (k i : Nat) (w : Wiki) (x : WikiAst), sel[k]? = some (i, w) → a[k]? = some x → x.name = w.name ∧ x.path = w.path ∧
        x.files.map Except.ok = (d.files.walk w.path w.ext).map (L.fresh d.files) := by
  have hn : ∀ x ∈ args.map IndexOrName.ofStr, ∃ s, x = .name s := by
    intro x hx
    obtain ⟨s, hs, rfl⟩ := List.mem_map.mp hx
    have : parseUsize s = none := by
      cases hu : parseUsize s with
      | none => rfl
      | some n => exact absurd ((parseUsize_iff s n).mp hu) (hargs s hs n)
    exact ⟨s, by simp [IndexOrName.ofStr, this]⟩
  obtain ⟨sel, hch, hkeep⟩ := C55_selected args wikis
  have hall : ∀ j w, w ∈ keepWikis (args.map IndexOrName.ofStr) wikis →
      selects (args.map IndexOrName.ofStr) j w.name = true := by
    intro j w hw
    rw [hkeep] at hw
    obtain ⟨⟨i, v⟩, hv, rfl⟩ := List.mem_map.mp hw
    rw [selects_names hn j i, selects_ofStr]
    exact ((hch.2 i v).mp hv).2
  obtain ⟨sel', hch', hlen, hx⟩ := C53_partial hL h ha
  have hp := C53_prefix_partial hL h ha (by
    intro i j w v hw _ _ _
    exact hall i w (List.mem_of_getElem? hw))
  have hlen' : a.length = sel.length := by
    obtain ⟨ts, hcol, htx, hc⟩ := h.inv hL
    obtain ⟨-, h2, -⟩ := loadWikis_spec (fs := d.files) hL hcol htx noCache faults
      (selectFrom (args.map IndexOrName.ofStr) 0 (keepWikis (args.map IndexOrName.ofStr) wikis))
      [] d.cache hc
      (by intro k iw hk; simpa using selectFrom_index _ _ 0 k iw hk)
    obtain ⟨out, ho, hl, -⟩ := h2 a (loadAst_ok ha)
    rw [List.nil_append] at ho
    rw [ho, hl, selectFrom_all _ _ 0 hall, hkeep]
    simp
  refine ⟨sel, hch, hlen', ?_⟩
  intro k i w x hk hxk
  obtain ⟨v, hv, hvs, hf⟩ := hp k x hxk
  have hvw : v = w := by
    rw [hkeep, List.getElem?_map, hk] at hv
    simpa using hv.symm
  subst hvw
  have hklt : k < sel'.length := by
    rw [← hlen]; exact (List.getElem?_eq_some_iff.mp hxk).1
  have hs : sel'[k]? = some (sel'[k].1, sel'[k].2) := List.getElem?_eq_getElem hklt
  obtain ⟨-, h2, h3, -⟩ := hx k _ _ x hs hxk
  -- the entry at position `k` is that of the `k`-th kept wiki
  have hsel' : sel'[k].2 = v := by
    have hsort := hch'.1
    have hidx : ∀ m (hm : m < sel'.length), sel'[m].1 = m := by
      intro m hm
      have hlk : sel'.length = (keepWikis (args.map IndexOrName.ofStr) wikis).length := by
        rw [← hlen, hlen', hkeep]; simp
      have hub : ∀ q (hq : q < sel'.length), sel'[q].1 < sel'.length := by
        intro q hq
        have := ((hch'.2 _ _).mp (List.getElem_mem hq)).1
        rw [hlk]
        exact (List.getElem?_eq_some_iff.mp this).1
      have hlow : ∀ q (hq : q < sel'.length), q ≤ sel'[q].1 := by
        intro q
        induction q with
        | zero => intro _; omega
        | succ q ih =>
          intro hq
          have := List.pairwise_iff_getElem.mp hsort q (q + 1) (by omega) hq (by omega)
          have := ih (by omega)
          omega
      have hhigh : ∀ r q (hq : q < sel'.length), sel'.length - 1 - q = r → sel'[q].1 ≤ q := by
        intro r
        induction r with
        | zero => intro q hq hr; have := hub q hq; omega
        | succ r ih =>
          intro q hq hr
          have := List.pairwise_iff_getElem.mp hsort q (q + 1) hq (by omega) (by omega)
          have := ih (q + 1) (by omega) (by omega)
          omega
      exact Nat.le_antisymm (hhigh _ m hm rfl) (hlow m hm)
    have h4 := ((hch'.2 _ _).mp (List.mem_of_getElem? hs)).1
    rw [hidx k hklt, hv] at h4
    exact (Option.some.inj h4).symm
  rw [hsel'] at h2 h3
  exact ⟨h2, h3, hf⟩

example : ∃ a, (loadAll demoCli twoFiles [] twoWikis ([].map IndexOrName.ofStr) false false
    (fun _ => noFault) (fun _ => false)).1 = .ok a ∧ a.files.length = 2 := by
  obtain ⟨a, c', h, hl⟩ := twoFiles_load false
  refine ⟨a, ?_, hl⟩
  have hk : keepWikis [] twoWikis = twoWikis := by decide +kernel
  simp only [List.map_nil, loadAll, hk, h]

/-! ## C61 -/

/-- C61: a file that cannot be read, parsed or formatted is left alone, and so is everything
else. -/
theorem C61_error {fmt : Page → Option Str} {fs fs' : Files} {p : Path} {e : IoErr}
    (h : formatInline L fmt fs p = (.error e, fs')) : fs' = fs := by
  simp only [formatInline] at h
  cases hf : formatted L fmt fs p with
  | error e' => rw [hf] at h; simp at h; exact h.2.symm
  | ok out => rw [hf] at h; simp at h

/-- C61: otherwise the file holds the formatted text and no other file has changed. -/
theorem C61_done {fmt : Page → Option Str} {fs fs' : Files} {p : Path}
    (h : formatInline L fmt fs p = (.ok (), fs')) :
    ∃ t pg out, fs.get p = some (some t) ∧ L.parse t = .ok pg ∧ fmt pg = some out ∧
      fs'.get p = some (some out) ∧ ∀ q, q ≠ p → fs'.get q = fs.get q := by
  simp only [formatInline] at h
  cases hf : formatted L fmt fs p with
  | error e' => rw [hf] at h; simp at h
  | ok out =>
    rw [hf] at h
    simp only [Prod.mk.injEq, true_and] at h
    subst h
    simp only [formatted] at hf
    cases hr : fs.read p with
    | error e => simp [hr] at hf
    | ok t =>
      simp only [hr] at hf
      cases hp : L.parse t with
      | error e => simp [hp] at hf
      | ok pg =>
        simp only [hp] at hf
        cases hm : fmt pg with
        | none => simp [hm] at hf
        | some o =>
          simp [hm] at hf
          subst hf
          refine ⟨t, pg, o, read_ok hr, hp, hm, by rw [Files.get_set, if_pos rfl], ?_⟩
          intro q hq
          rw [Files.get_set, if_neg hq]

/-- C61 for a run over many files: whether it ends or stops at an error, each file holds its
old text or what formatting made of it or of that. -/
theorem C61_run (fmt : Page → Option Str) (ps : List Path) : ∀ (fs : Files) (q : Path),
    q ∉ ps → (formatAll L fmt fs ps).2.get q = fs.get q := by
  induction ps with
  | nil => intro fs q _; rfl
  | cons p ps ih =>
    intro fs q hq
    simp only [formatAll]
    cases h : formatInline L fmt fs p with
    | mk r fs' =>
      cases r with
      | error e => rw [C61_error h]
      | ok u =>
        dsimp only
        rw [ih fs' q (fun hm => hq (List.mem_cons_of_mem _ hm))]
        obtain ⟨_, _, _, _, _, _, _, h2⟩ := C61_done h
        exact h2 q (fun e => hq (e ▸ List.mem_cons_self))

/-- C61: a run without error formats every file it is given once, from the text it had. -/
theorem C61_all (fmt : Page → Option Str) (ps : List Path) (hnd : ps.Nodup) : ∀ (fs fs' : Files),
    formatAll L fmt fs ps = (.ok (), fs') → ∀ p ∈ ps,
    ∃ t pg out, fs.get p = some (some t) ∧ L.parse t = .ok pg ∧ fmt pg = some out ∧
      fs'.get p = some (some out) := by
  induction ps with
  | nil => intro fs fs' _ p hp; cases hp
  | cons p ps ih =>
    intro fs fs' h q hq
    obtain ⟨hnot, hnd⟩ := List.nodup_cons.mp hnd
    simp only [formatAll] at h
    cases hi : formatInline L fmt fs p with
    | mk r fs1 =>
      rw [hi] at h
      cases r with
      | error e => simp at h
      | ok u =>
        dsimp only at h
        obtain ⟨t, pg, out, h1, h2, h3, h4, h5⟩ := C61_done hi
        rcases List.mem_cons.mp hq with rfl | hq
        · refine ⟨t, pg, out, h1, h2, h3, ?_⟩
          have := C61_run (L := L) fmt ps fs1 q hnot
          rw [h] at this
          rw [this, h4]
        · obtain ⟨t', pg', out', g1, g2, g3, g4⟩ := ih hnd fs1 fs' h q hq
          refine ⟨t', pg', out', ?_, g2, g3, g4⟩
          rw [← h5 q (fun e => hnot (e ▸ hq))]
          exact g1

/-- C61 fails when the tool is interrupted: the file may end up with neither its old nor its
new text. -/
theorem C61_violated :
    ∃ t out, twoFiles.get demoFile = some (some t) ∧
      formatted demoCli (fun _ => some b!"= a =\n") twoFiles demoFile = .ok out ∧
      (formatCrash demoCli (fun _ => some b!"= a =\n") twoFiles demoFile 0).get demoFile =
        some (some []) ∧ t ≠ [] ∧ out ≠ [] := by
  obtain ⟨s, pg, hp, -⟩ := page_test (text := b!"= a =") (fun _ => True) (by decide +kernel)
  have h1 : demoCli.parse b!"= a =" = .ok pg := by simp only [CliLib.parse, demoCli, hp]
  have hg : twoFiles.get demoFile = some (some b!"= a =") := by decide +kernel
  have hf : formatted demoCli (fun _ => some b!"= a =\n") twoFiles demoFile = .ok b!"= a =\n" := by
    simp only [formatted, Files.read, hg, h1]
  refine ⟨_, _, hg, hf, ?_, by decide, by decide⟩
  simp only [formatCrash, hf]
  rw [Files.get_set, if_pos rfl]
  rfl

/-! ## C62 -/

/-- The region of a parsed element other than a page. -/
def Parsed.region : Parsed → Option Region
  | .page _ => none
  | .block x => some x.region
  | .inlines x => some x.region
  | .inline x => some x.region
  | .item x => some x.region

/-- What parsing a text as an element promises: the parser stops inside the text and the
element lies, with a non-empty region, in what was read. -/
def ElementPost (text : Str) (s' : Span) (x : Parsed) : Prop :=
  s'.start ≤ text.length ∧
  ∀ r, x.region = some r → 0 < r.len ∧ r.offset + r.len ≤ s'.start ∧ r.depth = 0

theorem Kind.parser_ok (env : Env) (text : Str) (k : Kind) :
    (Ctx.ofText env text).Ok (k.parser env (Span.ofStr text)) (ElementPost text) := by
  have h2 := Ctx.ofText_in env text
  have h1 := h2.mono (show 1 ≤ 2 by omega)
  have h0 := h2.mono (show 0 ≤ 2 by omega)
  have hstop : (Span.ofStr text).stop = text.length := rfl
  have hst : (Span.ofStr text).start = 0 := rfl
  have hd : (Span.ofStr text).depth = 0 := rfl
  have blk : ∀ s' x, BlockRes (Ctx.ofText env text) (Span.ofStr text) s' x →
      ElementPost text s' (.block x) := by
    intro s' x h
    refine ⟨hstop ▸ h.good.step.hi, ?_⟩
    intro r hr
    simp only [Parsed.region, Option.some.injEq] at hr
    subst hr
    have hreg := h.region
    have hgap := h.gap
    rw [hst, hd] at hreg
    rw [hst] at hgap
    refine ⟨h.len, ?_, by rw [hreg]⟩
    have : x.region.offset = 0 := by rw [hreg]
    omega
  have inl : ∀ s' x, Elem (Ctx.ofText env text) (Span.ofStr text) s' x →
      ElementPost text s' (.inline x) := by
    intro s' x h
    refine ⟨hstop ▸ h.good.step.hi, ?_⟩
    intro r hr
    simp only [Parsed.region, Option.some.injEq] at hr
    subst hr
    have ht := h.tile
    rw [hst, hd] at ht
    cases ht with
    | leaf h1 _ _ _ _ h6 => exact ⟨h1, h6.le, rfl⟩
    | deco h1 _ _ _ _ _ _ _ _ h9 => exact ⟨h1, h9.le, rfl⟩
  cases k with
  | page =>
    refine Ctx.Ok.map ((parsePage_ok env text).mono ?_)
    rintro s' pg ⟨h, -⟩
    exact ⟨by omega, fun r hr => by simp [Parsed.region] at hr⟩
  | block => exact Ctx.Ok.map ((topLevel_ok h2).mono blk)
  | inlines =>
    refine Ctx.Ok.map ((inlineContainer_ok h1).mono ?_)
    rintro s' x ⟨hc, hr⟩
    refine ⟨hstop ▸ hc.good.step.hi, ?_⟩
    intro r h
    simp only [Parsed.region, Option.some.injEq] at h
    have hlt := hc.lt
    rw [← h, hr, hst, hd]
    rw [hst] at hlt
    exact ⟨by simpa using hlt, by simp, rfl⟩
  | inline => exact Ctx.Ok.map ((inlineElement_ok h0).mono inl)
  | blockquote => exact Ctx.Ok.map ((blockquote_ok h0).mono blk)
  | codeInline => exact Ctx.Ok.map ((codeInline_ok h0).mono inl)
  | comment => exact Ctx.Ok.map ((comment_ok h0).mono inl)
  | lineComment => exact Ctx.Ok.map ((lineComment_ok h0).mono inl)
  | multiLineComment => exact Ctx.Ok.map ((multiLineComment_ok h0).mono inl)
  | definitionList => exact Ctx.Ok.map ((definitionList_ok h2).mono blk)
  | divider => exact Ctx.Ok.map ((divider_ok h0).mono blk)
  | header => exact Ctx.Ok.map ((header_ok h1).mono blk)
  | link => exact Ctx.Ok.map ((link_ok h0).mono inl)
  | list => exact Ctx.Ok.map ((list_ok h2).mono blk)
  | listItem =>
    refine Ctx.Ok.map ((listItemOf_ok h1 (nestedF_ok _) (by rw [remainingLen_eq]; omega)).mono ?_)
    rintro s' ⟨n, x⟩ h
    refine ⟨hstop ▸ h.good.step.hi, ?_⟩
    intro r hr
    simp only [Parsed.region, Option.some.injEq] at hr
    subst hr
    have hi := h.cons 0 s'.start [] (by rw [hst]; exact .refl) (.nil .refl)
    rw [hd] at hi
    cases hi with
    | cons _ h2 _ _ _ _ _ h5 => exact ⟨h2, h5.le, rfl⟩
  | mathInline => exact Ctx.Ok.map ((mathInline_ok h0).mono inl)
  | mathBlock => exact Ctx.Ok.map ((mathBlock_ok h0).mono blk)
  | paragraph => exact Ctx.Ok.map ((paragraph_ok h2).mono blk)
  | placeholder => exact Ctx.Ok.map ((placeholder_ok h0).mono blk)
  | codeBlock => exact Ctx.Ok.map ((codeBlock_ok h0).mono blk)
  | table => exact Ctx.Ok.map ((table_ok h2).mono blk)
  | tags => exact Ctx.Ok.map ((tags_ok h0).mono inl)
  | text => exact Ctx.Ok.map ((text_ok h0).mono inl)
  | decoratedText => exact Ctx.Ok.map ((decoratedText_ok h0).mono inl)
  | keyword => exact Ctx.Ok.map ((keyword_ok h0).mono inl)

/-- C62: parsing any text as any kind of element ends. -/
theorem C62_terminates (env : Env) (k : Kind) (l : Language) : k.fromLanguage env l ≠ .diverge := by
  cases l with
  | vimwiki text =>
    intro h
    have := Kind.parser_ok env text k
    simp only [Kind.fromLanguage] at h
    rw [h] at this
    exact this
  | markdown => simp [Kind.fromLanguage]
  | mediawiki => simp [Kind.fromLanguage]

/-- C62: an element that is returned lies in the text and is not empty. -/
theorem C62_inside (env : Env) (k : Kind) (text : Str) {s : Span} {x : Parsed} {r : Region}
    (h : k.fromLanguage env (.vimwiki text) = .ok s x) (hr : x.region = some r) :
    0 < r.len ∧ r.offset + r.len ≤ text.length := by
  have := ok_of_run (Kind.parser_ok env text k) h
  obtain ⟨h1, h2⟩ := this
  obtain ⟨h3, h4, -⟩ := h2 r hr
  exact ⟨h3, by omega⟩

/-- C62: whatever the element, a panic needs the same in the text as for a page (C03). -/
theorem C62_panic_sites_partial (env : Env) (k : Kind) (text : Str) (r : Reason)
    (h : k.fromLanguage env (.vimwiki text) = .panic r) : PanicNeeds env text r := by
  have h' := Kind.parser_ok env text k
  simp only [Kind.fromLanguage] at h
  rw [h] at h'
  exact needs_of_allow h'

/-- C62: whatever the element, parsing a text without all that does not panic. -/
theorem C62_no_panic_partial (env : Env) (hs : env.SchemeSound) (k : Kind) (text : Str)
    (ht : Calm env text) (r : Reason) : k.fromLanguage env (.vimwiki text) ≠ .panic r :=
  fun h => ht.no hs r (C62_panic_sites_partial env k text r h)

example : Calm demo b!"a: :b: - [[c]]" :=
  ⟨.ascii (by decide), by decide, by decide, calm_links (by decide), fun h => by
    have := h.1
    revert this
    decide⟩

/-- The tags `:a:b:` parsed on their own. -/
example : ∃ s x, Kind.tags.fromLanguage demo (.vimwiki b!":a:b: c") = .ok s x ∧ s.start = 5 := by
  obtain ⟨s, x, h1, h2⟩ := Res.of_test (r := Kind.tags.fromLanguage demo (.vimwiki b!":a:b: c"))
    (f := fun s _ => s.start == 5) (by decide +kernel)
  exact ⟨s, x, h1, by simpa using h2⟩

/-! ## C63 -/

/-- C63, what holds: with `--no-cache` the result does not depend on the cache, nor on what
happens to it. -/
theorem C63_partial (fs : Files) (c c' : Cache) (wikis : List Wiki) (incl : List IndexOrName)
    (noPrune noPrune' : Bool) (faults faults' : Path → Fault) (stuck stuck' : List Str → Bool) :
    (loadAst L fs c wikis incl true noPrune faults stuck).1 =
      (loadAst L fs c' wikis incl true noPrune' faults' stuck').1 := by
  have h := loadWikis_noCache (L := L) (fs := fs) faults faults' (selectFrom incl 0 wikis) [] c c'
  simp only [loadAst]
  cases h1 : loadWikis L fs true faults (selectFrom incl 0 wikis) [] c with
  | mk r c1 =>
    cases h2 : loadWikis L fs true faults' (selectFrom incl 0 wikis) [] c' with
    | mk r' c2 =>
      rw [h1, h2] at h
      dsimp only at h
      subst h
      cases r <;> rfl

/-- C63, what is left of the second half: with `--no-cache` no entry of the cache is removed, and
those that change belong to texts of files that were loaded. -/
theorem C63_kept (fs : Files) (c : Cache) (wikis : List Wiki) (incl : List IndexOrName) (noPrune : Bool)
    (faults : Path → Fault) (stuck : List Str → Bool) (k : List Str) :
    (loadAst L fs c wikis incl true noPrune faults stuck).2.get k = c.get k ∨
    ∃ t p n, t ∈ fs.texts ∧ k = [L.sha t] ∧ L.parse t = .ok p ∧
      (loadAst L fs c wikis incl true noPrune faults stuck).2.get k = some ((L.ser p).take n) := by
  have h := loadWikis_kept (L := L) (fs := fs) faults (selectFrom incl 0 wikis) [] c k
  have e : (loadAst L fs c wikis incl true noPrune faults stuck).2 =
      (loadWikis L fs true faults (selectFrom incl 0 wikis) [] c).2 := by
    simp only [loadAst]
    cases h1 : loadWikis L fs true faults (selectFrom incl 0 wikis) [] c with
    | mk r c1 => cases r <;> simp
  rw [e]
  exact h

/-- C63 fails: with `--no-cache` an entry is written all the same, here over an existing one. -/
theorem C63_violated :
    ∃ b, (demoCli.loadWikiFile twoFiles [([demoCli.sha b!"= a ="], b!"old")] demoFile true
      noFault).2.get [demoCli.sha b!"= a ="] = some b ∧ b ≠ b!"old" := by
  obtain ⟨s, pg, hp, -⟩ := page_test (text := b!"= a =") (fun _ => True) (by decide +kernel)
  have h1 : demoCli.parse b!"= a =" = .ok pg := by simp only [CliLib.parse, demoCli, hp]
  have hg : twoFiles.get demoFile = some (some b!"= a =") := by decide +kernel
  obtain ⟨u, s', -, hu⟩ := demoCli_ser h1
  refine ⟨demoCli.ser pg, ?_, ?_⟩
  · simp only [CliLib.loadWikiFile, Files.read, hg, CliLib.cached, if_true, h1, CliLib.store,
      noFault]
    rw [Cache.get_set, if_pos rfl]
  · rw [hu]
    intro h
    have := congrArg List.getLast? h
    simp at this

end Vw
