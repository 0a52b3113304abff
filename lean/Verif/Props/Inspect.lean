import Verif.Model.Inspect
import Verif.Props.Serde
import Verif.Props.Cli

/-!
# The cache and `inspect` with pages as JSON: C51, C52, C87, C88
-/

namespace Vw

/-! ## The cache -/

/-- The library the command line tool uses: pages are kept as JSON. -/
def jsonCli (env : Env) (sha : Str → Str) (K : SerdeLib) : CliLib := ⟨env, sha, Page.toText K, Page.ofText K⟩

/-- Hash maps keep their order, and URIs come back as they are. -/
structure SerdeLib.Exact (K : SerdeLib) : Prop where
  uri : ∀ u, K.uri u = u
  order : ∀ m, K.order m = m
  cellOrder : ∀ c, K.cellOrder c = c

section
variable {K : SerdeLib} (hE : K.Exact)
include hE

theorem copy_id_desc : ∀ d : Description, d.copy K.toCopyLib = d
  | .text _ => by simp [Description.copy]
  | .transclusion _ none p => by cases p <;> simp [Description.copy, hE.uri, hE.order]
  | .transclusion _ (some d) p => by cases p <;> simp [Description.copy, hE.uri, hE.order, copy_id_desc d]

theorem copy_id_data (x : LinkData) : x.copy K.toCopyLib = x := by
  obtain ⟨u, d, p⟩ := x
  cases d <;> cases p <;> simp [LinkData.copy, hE.uri, hE.order, copy_id_desc hE]

theorem copy_id_link (l : Link) : l.copy K.toCopyLib = l := by cases l <;> simp [Link.copy, copy_id_data hE]

mutual
theorem copy_id_inline : ∀ x : Inline, x.copy K.toCopyLib = x
  | .text _ | .keyword _ | .tags _ | .code _ | .math _ | .comment _ => by simp [Inline.copy]
  | .link l => by simp [Inline.copy, copy_id_link hE]
  | .decorated k xs => by simp [Inline.copy, copy_id_inlines xs]
theorem copy_id_inlines : ∀ xs : List (Located Inline), Inline.copies K.toCopyLib xs = xs
  | [] => by simp [Inline.copies]
  | ⟨x, r⟩ :: xs => by simp [Inline.copies, copy_id_inline x, copy_id_inlines xs]
end

theorem copy_id_cell (c : Cell) : c.copy K.toCopyLib = c := by cases c <;> simp [Cell.copy, copy_id_inlines hE]

omit hE in
theorem copy_id_located {α : Type} {f : α → α} (h : ∀ x, f x = x) (x : Located α) : x.map f = x := by
  obtain ⟨x, r⟩ := x
  simp [Located.map, h]

theorem copy_id_term (x : TermDefs) : x.copy K.toCopyLib = x := by
  obtain ⟨t, ds⟩ := x
  have h : ∀ x : Located Inlines, x.map (Inline.copies K.toCopyLib) = x := copy_id_located (copy_id_inlines hE)
  simp [TermDefs.copy, h]
  exact copy_id_located (fun _ => rfl) ds

mutual
theorem copy_id_block : ∀ x : Block, x.copy K.toCopyLib = x
  | .blockquote _ => by simp [Block.copy]
  | .code _ _ _ => by simp [Block.copy, hE.order]
  | .defs xs => by simp [Block.copy, copy_id_located (copy_id_term hE)]
  | .divider => by simp [Block.copy]
  | .header c _ _ => by simp [Block.copy, copy_id_inlines hE]
  | .list xs => by simp [Block.copy, copy_id_items xs]
  | .math _ _ => by simp [Block.copy]
  | .paragraph rs => by
    have : (Inline.copies K.toCopyLib) = id := funext (copy_id_inlines hE)
    simp [Block.copy, this]
  | .placeholder _ => by simp [Block.copy]
  | .table t => by
    obtain ⟨cs, ce⟩ := t
    simp [Block.copy, Table.copy, hE.cellOrder, copy_id_located (copy_id_cell hE)]
theorem copy_id_items : ∀ xs : List (Located (ItemF Block)), Block.copyItems K.toCopyLib xs = xs
  | [] => by simp [Block.copyItems]
  | ⟨⟨_, _, _, cs, _⟩, _⟩ :: xs => by simp [Block.copyItems, copy_id_blocks cs, copy_id_items xs]
theorem copy_id_blocks : ∀ xs : List (Located Block), Block.copies K.toCopyLib xs = xs
  | [] => by simp [Block.copies]
  | ⟨x, r⟩ :: xs => by simp [Block.copies, copy_id_block x, copy_id_blocks xs]
end

theorem copy_id_page (pg : Page) : pg.copy K.toCopyLib = pg := by simp [Page.copy, copy_id_blocks hE]

end

theorem jsonCli_parse {env : Env} {sha : Str → Str} {K : SerdeLib} {t : Str} {p : Page}
    (h : (jsonCli env sha K).parse t = .ok p) : ∃ s, parsePage env t = .ok s p := by
  simp only [CliLib.parse, jsonCli] at h
  cases hp : parsePage env t with
  | ok s q => rw [hp] at h; simp at h; exact ⟨s, by rw [h]⟩
  | err => rw [hp] at h; simp at h
  | panic r => rw [hp] at h; simp at h
  | diverge => rw [hp] at h; simp at h

/-- C87: which pages the cache gives back: those without definition lists whose JSON is not too deep. -/
theorem C87_cache {env : Env} {sha : Str → Str} {K : SerdeLib} (hK : K.Sound) (hE : K.Exact) {t : Str} {p : Page}
    (h : (jsonCli env sha K).parse t = .ok p) :
    (jsonCli env sha K).Keeps p ↔ p.hasDefs = false ∧ (p.toJson K).depth < 128 := by
  obtain ⟨s, hs⟩ := jsonCli_parse h
  unfold CliLib.Keeps
  simp only [jsonCli]
  rw [C87_back hK env t hs, copy_id_page hE]
  split
  · next hc => exact iff_of_true rfl hc
  · next hc => exact iff_of_false (by simp) hc

/-- The assumption of C51, C53, C60 and C72 about the cache holds of pages kept as JSON: a cache entry, whole or
torn anywhere, gives back the page of the text or nothing. -/
theorem C87_sound {env : Env} {sha : Str → Str} {K : SerdeLib} (hK : K.Sound) (hE : K.Exact) : (jsonCli env sha K).Sound where
  back t p n q h hq := by
    obtain ⟨s, hs⟩ := jsonCli_parse h
    simp only [jsonCli] at hq
    by_cases hn : n < (p.toText K).length
    · rw [C87_torn K p hn] at hq
      cases hq
    · rw [List.take_of_length_le (by omega), C87_back hK env t hs, copy_id_page hE] at hq
      split at hq
      · exact (Option.some.inj hq).symm
      · cases hq

theorem plainSerde_exact : plainSerde.Exact := ⟨fun _ => rfl, fun _ => rfl, fun _ => rfl⟩

/-- C51 for pages kept as JSON: however the disk came about, a load gives what reading and parsing the file gives. -/
theorem C87_transparent {env : Env} {sha : Str → Str} {K : SerdeLib} (hK : K.Sound) (hE : K.Exact) {d : Disk}
    (h : d.Reached (jsonCli env sha K)) (p : Path) (noCache : Bool) (f : Fault) :
    ((jsonCli env sha K).loadWikiFile d.files d.cache p noCache f).1 = (jsonCli env sha K).fresh d.files p :=
  C51_transparent (C87_sound hK hE) h p noCache f

example : Disk.Reached (jsonCli demo id plainSerde) (Disk.run (jsonCli demo id plainSerde) ⟨[], []⟩ demoHistory) :=
  ⟨[], demoHistory, rfl, fun _ _ _ _ h => h⟩

/-- C52 is violated: a page with a definition list is loaded, but its cache entry cannot be read, so it is parsed
again each time. -/
theorem C52_definition_violated : ∃ f c, (jsonCli demo id plainSerde).loadWikiFile [(demoFile, some b!"a:: b\n")] [] demoFile false
    noFault = (.ok f, c) ∧ ∃ b, c.get [f.checksum] = some b ∧ (jsonCli demo id plainSerde).deser b = none := by
  obtain ⟨s, pg, hp, hd⟩ := page_test (text := b!"a:: b\n") (fun pg => pg.hasDefs = true) (by decide +kernel)
  have h1 : (jsonCli demo id plainSerde).parse b!"a:: b\n" = .ok pg := by simp only [CliLib.parse, jsonCli, hp]
  have hr : Files.read [(demoFile, some b!"a:: b\n")] demoFile = .ok b!"a:: b\n" := by
    simp only [Files.read, Files.get_cons, if_true]
  refine ⟨⟨demoFile, b!"a:: b\n", pg⟩, Cache.set [] [b!"a:: b\n"] (pg.toText plainSerde), ?_, pg.toText plainSerde, ?_, ?_⟩
  · simp only [CliLib.loadWikiFile, hr, CliLib.cached, Cache.get_nil, h1, Bool.false_eq_true, if_false]
    rfl
  · exact (Cache.get_set ..).trans (if_pos rfl)
  · simp only [jsonCli]
    rw [C87_back plainSerde_sound demo _ hp, if_neg (by simp [hd])]

/-! ## C88 -/

mutual
theorem toValue_eq : ∀ j : Json, j.toValue = if j.Complete = true then some j else none
  | .null => rfl
  | .bool _ => rfl
  | .num _ => rfl
  | .str _ => rfl
  | .torn => rfl
  | .arr xs => by
    simp only [Json.toValue, toValues_eq xs, Json.Complete]
    split <;> simp [*]
  | .obj fs => by
    simp only [Json.toValue, toFields_eq fs, Json.Complete]
    split <;> simp [*]
theorem toValues_eq : ∀ xs : List Json, Json.toValues xs = if Json.Completes xs = true then some xs else none
  | [] => rfl
  | x :: xs => by
    simp only [Json.toValues, toValue_eq x, toValues_eq xs, Json.Completes, Bool.and_eq_true]
    by_cases h : x.Complete = true <;> by_cases h' : Json.Completes xs = true <;> simp [h, h']
theorem toFields_eq : ∀ xs : List (Str × Json), Json.toFields xs = if Json.CompleteFields xs = true then some xs else none
  | [] => rfl
  | (k, x) :: xs => by
    simp only [Json.toFields, toValue_eq x, toFields_eq xs, Json.CompleteFields, Bool.and_eq_true]
    by_cases h : x.Complete = true <;> by_cases h' : Json.CompleteFields xs = true <;> simp [h, h']
end

theorem completes_all : ∀ xs : List Json, Json.Completes xs = xs.all Json.Complete
  | [] => rfl
  | x :: xs => by simp [Json.Completes, completes_all xs]

/-- Every page of the wikis came out of the parser. -/
def Ast.Parsed (env : Env) (a : Ast) : Prop := ∀ f ∈ a.files, ∃ t s, parsePage env t = .ok s f.data

theorem ast_complete {I : InspectLib} (hK : I.serde.Sound) {env : Env} {a : Ast} (h : a.Parsed env) :
    (a.toJson I).Complete = true ↔ ∀ f ∈ a.files, f.data.hasDefs = false := by
  have hf : ∀ f ∈ a.files, (f.toJson I).Complete = !f.data.hasDefs := by
    intro f hf
    obtain ⟨t, s, hs⟩ := h f hf
    simp [WikiFile.toJson, Json.Complete, Json.CompleteFields, complete_page hK f.data (C65_well_formed env t hs)]
  have ho : ∀ o : Option Str, (Json.opt .str o).Complete = true := fun o => complete_opt fun a _ => by simp [Json.Complete]
  simp only [Ast.toJson, Json.Complete, Json.CompleteFields, Bool.and_true, completes_all, List.all_map, List.all_eq_true,
    Function.comp_apply, WikiAst.toJson, ho, Bool.true_and]
  constructor
  · intro hw f hm
    obtain ⟨w, hw', hfw⟩ := List.mem_flatMap.mp hm
    have := hw w hw' f hfw
    rw [hf f hm] at this
    simpa using this
  · intro hn w hw f hfw
    have hm : f ∈ a.files := List.mem_flatMap.mpr ⟨w, hw, hfw⟩
    rw [hf f hm, hn f hm]
    rfl

/-- C88: of wikis without definition lists, `inspect` writes the array of the values selected from the JSON of the
wikis, and the text it writes reads back as that array if it is not too deep. -/
theorem C88_partial {I : InspectLib} (hK : I.serde.Sound) {env : Env} {a : Ast} (h : a.Parsed env)
    (hd : ∀ f ∈ a.files, f.data.hasDefs = false) {q : Str} {vs : List Json} (hs : I.select (a.toJson I) q = some vs) :
    ∃ text, inspect I a q = .ok text ∧ (Json.Completes vs = true → (Json.arr vs).depth < 128 →
      Json.ofText text = some (.arr vs)) := by
  refine ⟨(Json.arr vs).toText, ?_, fun hc hl => ?_⟩
  · simp only [inspect, toValue_eq, if_pos ((ast_complete hK h).mpr hd), hs]
  · rw [Json.ofText_toText (by simpa [Json.Complete] using hc), if_pos hl]

/-- C88 fails: if there is a definition list on any page of the wikis, `inspect` fails whatever is asked for. -/
theorem C88_definition {I : InspectLib} (hK : I.serde.Sound) {env : Env} {a : Ast} (h : a.Parsed env) {f : WikiFile}
    (hf : f ∈ a.files) (hd : f.data.hasDefs = true) (q : Str) : inspect I a q = .error .invalidData := by
  have : ¬ (a.toJson I).Complete = true := by
    rw [ast_complete hK h]
    intro hn
    rw [hn f hf] at hd
    cases hd
  simp only [inspect, toValue_eq, if_neg this]

/-- For the examples: `$` selects everything. -/
def plainInspect : InspectLib := ⟨plainSerde, fun _ => [], fun j q => if q = b!"$" then some [j] else none⟩

example : ∃ a text, Ast.Parsed demo a ∧ a.files ≠ [] ∧ inspect plainInspect a b!"$" = .ok text ∧
    Json.ofText text = some (.arr [a.toJson plainInspect]) := by
  obtain ⟨s, pg, hp, hd⟩ := page_test (text := b!"= a =\n- b\n")
    (fun pg => pg.hasDefs = false ∧
      (Json.arr [Ast.toJson plainInspect [⟨0, none, [], [⟨[], [], pg⟩]⟩]]).depth < 128) (by decide +kernel)
  have h : Ast.Parsed demo [⟨0, none, [], [⟨[], [], pg⟩]⟩] := by
    intro f hf
    simp only [Ast.files, List.flatMap_cons, List.flatMap_nil, List.append_nil, List.mem_cons, List.not_mem_nil, or_false] at hf
    subst hf
    exact ⟨_, s, hp⟩
  have hn : ∀ f ∈ Ast.files [⟨0, none, [], [⟨[], [], pg⟩]⟩], f.data.hasDefs = false := by
    intro f hf
    simp only [Ast.files, List.flatMap_cons, List.flatMap_nil, List.append_nil, List.mem_cons, List.not_mem_nil, or_false] at hf
    subst hf
    exact hd.1
  obtain ⟨text, h1, h2⟩ := C88_partial (I := plainInspect) plainSerde_sound h hn (q := b!"$") (vs := [Ast.toJson plainInspect [⟨0, none, [], [⟨[], [], pg⟩]⟩]])
    (by simp [plainInspect])
  refine ⟨_, text, h, by simp [Ast.files], h1, h2 ?_ hd.2⟩
  have := (ast_complete (I := plainInspect) plainSerde_sound h).mpr hn
  simp [Json.Completes, this]

/-- C88 is violated: there are wikis of which nothing can be inspected. -/
theorem C88_violated : ∃ a, Ast.Parsed demo a ∧ ∀ q, inspect plainInspect a q = .error .invalidData := by
  obtain ⟨s, pg, hp, hd⟩ := page_test (text := b!"a:: b\n") (fun pg => pg.hasDefs = true) (by decide +kernel)
  have hm : ⟨[], [], pg⟩ ∈ Ast.files [⟨0, none, [], [⟨[], [], pg⟩]⟩] := by simp [Ast.files]
  have h : Ast.Parsed demo [⟨0, none, [], [⟨[], [], pg⟩]⟩] := by
    intro f hf
    simp only [Ast.files, List.flatMap_cons, List.flatMap_nil, List.append_nil, List.mem_cons, List.not_mem_nil, or_false] at hf
    subst hf
    exact ⟨_, s, hp⟩
  exact ⟨_, h, fun q => C88_definition (I := plainInspect) plainSerde_sound h hm hd q⟩

end Vw
