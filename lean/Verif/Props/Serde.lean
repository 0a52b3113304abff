import Verif.Lemmas.Serde
import Verif.Props.Copy

/-!
# C87: pages as JSON
-/

namespace Vw

/-- C87: whatever the text, the page is read back from its JSON exactly if it has no definition list and its
JSON is nested less than 128 levels deep; otherwise reading fails. The page that is read is a copy. -/
theorem C87_back {K : SerdeLib} (hK : K.Sound) (env : Env) (text : Str) {s : Span} {pg : Page}
    (h : parsePage env text = .ok s pg) :
    Page.ofText K (pg.toText K) =
      if pg.hasDefs = false ∧ (pg.toJson K).depth < 128 then some (pg.copy K.toCopyLib) else none := by
  have hw := C65_well_formed env text h
  have hc := complete_page hK pg hw
  unfold Page.ofText Page.toText
  cases hd : pg.hasDefs with
  | true =>
    rw [hd] at hc
    have := Json.ofText_torn (j := pg.toJson K) rfl (pg.toJson K).toText.length (.inr (by simpa using hc))
    rw [List.take_length] at this
    simp [this]
  | false =>
    rw [hd] at hc
    rw [Json.ofText_toText (by simpa using hc)]
    split
    · rename_i hn
      simp [hn, page_back hK pg 128 hw hd (by omega)]
    · rename_i hn
      simp [hn]

/-- C87: a part of the JSON of a page, as a writer leaves it that is interrupted, is never read as a page. -/
theorem C87_torn (K : SerdeLib) (pg : Page) {n : Nat} (hn : n < (pg.toText K).length) :
    Page.ofText K ((pg.toText K).take n) = none := by
  unfold Page.ofText Page.toText at *
  rw [Json.ofText_torn rfl n (.inl hn)]
  rfl

/-- C87: the page that is read back is strictly equal to the page, with the same regions. -/
theorem C87_equal {K : SerdeLib} (hK : K.Sound) {ue : Uri → Uri → Bool} (hC : K.toCopyLib.Sound ue) (env : Env) (text : Str)
    {s : Span} {pg pg' : Page} (h : parsePage env text = .ok s pg) (hr : Page.ofText K (pg.toText K) = some pg') :
    pg'.strictEq ue pg = true ∧ pg'.same ue pg = true ∧ pg'.Valid ∧ pg'.regions = pg.regions := by
  rw [C87_back hK env text h] at hr
  split at hr
  · cases hr
    exact C85_page hC (C65_valid env text h)
  · cases hr

/-! ## Libraries for the examples -/

/-- URIs and dates as arrays of their parts. -/
def plainSerde : SerdeLib where
  uri := id
  order := id
  cellOrder := id
  writeUri u := .arr [Json.opt .str u.scheme, Json.opt .str u.authority, .bool u.absolute, Json.strs u.segments,
    Json.opt .str u.query, Json.opt .str u.fragment]
  readUri
    | .arr [sc, au, .bool ab, sg, q, f] =>
      (Json.readOpt Json.asStr [] [([], sc)]).bind fun sc => (Json.readOpt Json.asStr [] [([], au)]).bind fun au =>
        (Json.readArr Json.asStr sg).bind fun sg => (Json.readOpt Json.asStr [] [([], q)]).bind fun q =>
          (Json.readOpt Json.asStr [] [([], f)]).map fun f => ⟨sc, au, ab, sg, q, f⟩
    | _ => none
  writeDate d := .arr [.bool (decide (d.year < 0)), .num d.year.natAbs, .num d.month, .num d.day]
  readDate
    | .arr [.bool neg, .num y, .num m, .num d] => some ⟨if neg then -(y : Int) else y, m, d⟩
    | _ => none

theorem plainSerde_sound : plainSerde.Sound where
  uri u := by
    obtain ⟨sc, au, ab, sg, q, f⟩ := u
    simp only [plainSerde, Json.readArr_strs]
    cases sc <;> cases au <;> cases q <;> cases f <;> simp [Json.readOpt, Json.opt, Json.field?, Json.asStr]
  uriDone u := by
    have : ∀ o : Option Str, (Json.opt .str o).Complete = true := fun o => complete_opt fun a _ => by simp [Json.Complete]
    simp [plainSerde, Json.Complete, Json.Completes, this, complete_strs]
  date d := by
    obtain ⟨y, m, d⟩ := d
    simp only [plainSerde, Option.some.injEq, Date.mk.injEq, and_self, and_true]
    by_cases h : y < 0 <;> simp [h] <;> omega
  dateDone d := by simp [plainSerde, Json.Complete, Json.Completes]

theorem plainSerde_copy : plainSerde.toCopyLib.Sound (fun u v => decide (u = v)) :=
  ⟨fun _ => by simp [plainSerde], fun _ => .refl _, fun _ => .refl _⟩

/-- A page with a link, a list and code is read back. -/
example : ∃ s pg, parsePage demo b!"= a =\n- [ ] [[b|c]] \"d\\\n\n{{{e f=\"g\"\nh\n}}}\n" = .ok s pg ∧
    Page.ofText plainSerde (pg.toText plainSerde) = some (pg.copy plainSerde.toCopyLib) := by
  obtain ⟨s, pg, h, hp⟩ := page_test (text := b!"= a =\n- [ ] [[b|c]] \"d\\\n\n{{{e f=\"g\"\nh\n}}}\n")
    (fun pg => pg.hasDefs = false ∧ (pg.toJson plainSerde).depth < 128) (by decide +kernel)
  exact ⟨s, pg, h, by rw [C87_back plainSerde_sound demo _ h, if_pos hp]⟩

/-! ## Violations -/

/-- C87 is violated: a page with a definition list cannot be written, and what is left of it cannot be read. -/
theorem C87_definition_violated : ∃ text s pg, parsePage demo text = .ok s pg ∧ (pg.toJson plainSerde).Complete = false ∧
    ∀ n, Page.ofText plainSerde ((pg.toText plainSerde).take n) = none := by
  obtain ⟨s, pg, h, hp⟩ := page_test (text := b!"a:: b\n") (fun pg => pg.hasDefs = true) (by decide +kernel)
  have hc := complete_page plainSerde_sound pg (C65_well_formed demo _ h)
  rw [hp] at hc
  refine ⟨_, s, pg, h, by simpa using hc, fun n => ?_⟩
  unfold Page.ofText Page.toText
  rw [Json.ofText_torn rfl n (.inr (by simpa using hc))]
  rfl

/-- `k + 1` lists in each other. -/
def nestBlock : Nat → Block
  | 0 => .list [⟨⟨.hyphen, .none, 0, [⟨.paragraph [[⟨.text b!"a", ⟨0, 0, 0⟩⟩]], ⟨0, 0, 0⟩⟩], none⟩, ⟨0, 0, 0⟩⟩]
  | k + 1 => .list [⟨⟨.hyphen, .none, 0, [⟨.paragraph [[⟨.text b!"a", ⟨0, 0, 0⟩⟩]], ⟨0, 0, 0⟩⟩, ⟨nestBlock k, ⟨0, 0, 0⟩⟩], none⟩, ⟨0, 0, 0⟩⟩]

theorem nestBlock_ok : ∀ k d : Nat, d + 2 * k + 3 ≤ 65535 → NestOk demo (fun u v => u == v) demoOut {} d (nestBlock k) := by
  have para : ∀ d : Nat, d + 1 ≤ 65535 → NestOk demo (fun u v => u == v) demoOut {} d (.paragraph [[⟨.text b!"a", ⟨0, 0, 0⟩⟩]]) := by
    intro d hd
    have he : Inline.textAll demoOut {} [⟨.text b!"a", ⟨0, 0, 0⟩⟩] = b!"a" := by simp [Inline.textAll, Inline.textOf]
    simp only [NestOk]
    refine ⟨⟨by simp, fun l hl => ?_⟩, fun l hl => ?_⟩
    · simp only [List.mem_cons, List.not_mem_nil, or_false] at hl
      subst hl
      refine ⟨contentOk_safe (tight_safe (by decide) (by decide) (by decide)) (by decide), ?_⟩
      rw [he]
      exact plainLine_safe ⟨by decide, by decide⟩
    · simp only [List.mem_cons, List.not_mem_nil, or_false] at hl
      subst hl
      rw [he]
      exact ⟨by decide, by simpa [Inline.nestAll, Inline.nest] using hd⟩
  intro k
  induction k with
  | zero =>
    intro d hd
    simp only [nestBlock, NestOk, ItemsOk, ContsOk]
    refine ⟨by simp, rfl, trivial, ⟨.hyphen, .hyphen, fun _ => rfl⟩, ?_, by simp [Apart], ⟨_, _, rfl, .inl rfl⟩, ⟨?_, trivial⟩, trivial⟩
    · intro s hs
      exact absurd (head_of_prefix hs rfl) (by decide)
    · have := para (d + 2) (by omega)
      simpa only [NestOk] using this
  | succ k ih =>
    intro d hd
    simp only [nestBlock, NestOk, ItemsOk, ContsOk]
    refine ⟨by simp, rfl, trivial, ⟨.hyphen, .hyphen, fun _ => rfl⟩, ?_, ?_, ⟨_, _, rfl, .inl rfl⟩, ⟨?_, ?_, trivial⟩, trivial⟩
    · intro s hs
      have hh := head_of_prefix hs rfl
      have e : paraText demoOut {} (indentText {} 0) false [[⟨.text b!"a", ⟨0, 0, 0⟩⟩]] = b!"a\n" := by decide +kernel
      simp only [contentsText, blockText, e] at hh
      revert hh
      simp
    · cases k <;> simp [Apart, nestBlock, Block.kind]
    · have := para (d + 2) (by omega)
      simpa only [NestOk] using this
    · exact ih (d + 2) (by omega)

/-- What equals lists in lists has lists in lists. -/
theorem nestBlock_depth (K : SerdeLib) (ue : Uri → Uri → Bool) : ∀ (k : Nat) (b : Block), Block.eqv false ue b (nestBlock k) = true →
    5 * (k + 1) ≤ (b.toJson K).depth := by
  have item : ∀ (ty : ItemType) (su : Suffix) (pos : Nat) (cs : List (Located Block)) (td : Option Todo) (r : Region)
      (xs : List (Located (ItemF Block))), Json.depths (Block.toJsons K cs) + 5 ≤
        ((Block.list (⟨⟨ty, su, pos, cs, td⟩, r⟩ :: xs)).toJson K).depth := by
    intro ty su pos cs td r xs
    have hl := Json.depth_located [(b!"ty", ty.toJson), (b!"suffix", Json.tag su.jsonName), (b!"pos", .num pos),
      (b!"contents", .arr (Block.toJsons K cs)),
      (b!"attributes", .obj [(b!"todo_status", Json.opt (fun t : Todo => Json.tag t.jsonName) td)])] r
    simp only [Block.toJson, Json.depth_tagged, Json.depth, Json.depthFields, Block.toJsonItems, Json.depths] at hl ⊢
    omega
  intro k
  induction k with
  | zero =>
    intro b h
    cases b with
    | list xs =>
      cases xs with
      | nil => simp [nestBlock, Block.eqv, Block.eqvItems] at h
      | cons x xs =>
        obtain ⟨⟨ty, su, pos, cs, td⟩, r⟩ := x
        have := item ty su pos cs td r xs
        omega
    | _ => simp [nestBlock, Block.eqv] at h
  | succ k ih =>
    intro b h
    cases b with
    | list xs =>
      cases xs with
      | nil => simp [nestBlock, Block.eqv, Block.eqvItems] at h
      | cons x xs =>
        obtain ⟨⟨ty, su, pos, cs, td⟩, r⟩ := x
        have hi := item ty su pos cs td r xs
        simp only [nestBlock, Block.eqv, Block.eqvItems, Bool.and_eq_true] at h
        obtain ⟨⟨⟨⟨_, hcs⟩, _⟩, _⟩, _⟩ := h
        cases cs with
        | nil => simp [Block.eqvs] at hcs
        | cons c cs =>
          obtain ⟨c, rc⟩ := c
          simp only [Block.eqvs, Bool.and_eq_true] at hcs
          cases cs with
          | nil => simp [Block.eqvs] at hcs
          | cons d cs =>
            obtain ⟨d, rd⟩ := d
            simp only [Block.eqvs, Bool.and_eq_true] at hcs
            have hd := ih d hcs.2.1.1
            obtain ⟨fs, e, _⟩ := d.toJson_obj (K := K)
            have hl := Json.depth_located fs rd
            rw [← e] at hl
            simp only [Block.toJsons, Json.depths] at hi
            omega
    | _ => simp [nestBlock, Block.eqv] at h

/-- A page with 26 lists in each other. -/
def deepPage : Page := ⟨[⟨nestBlock 25, ⟨0, 0, 0⟩⟩]⟩

theorem deepPage_text : ((deepPage.toVimwiki demoOut {}).elim false fun text =>
    text.all (fun b => decide (b < 128)) && !text.contains c!":" && decide (text.length < 65533)) = true := by decide +kernel

theorem nestBlock_defs : ∀ k, (nestBlock k).hasDefs = false
  | 0 => rfl
  | k + 1 => by simp [nestBlock, Block.hasDefs, Block.itemsHaveDefs, Block.anyDefs, nestBlock_defs k]

theorem deepPage_ok : ∀ x ∈ deepPage.elements, TopOk demo (fun u v => u == v) demoOut {} x.inner := by
  intro x hx
  have h := nestBlock_ok 25 0 (by decide)
  have e : x.inner = nestBlock (24 + 1) := by
    simp only [deepPage, List.mem_cons, List.not_mem_nil, or_false] at hx
    rw [hx]
  rw [e]
  exact h

theorem deepPage_depth (K : SerdeLib) (ue : Uri → Uri → Bool) {pg : Page} (hs : pg.same ue deepPage = true) :
    128 ≤ (pg.toJson K).depth := by
  obtain ⟨es⟩ := pg
  cases es with
  | nil => simp [Page.same, deepPage, Block.eqvs] at hs
  | cons x es =>
    obtain ⟨x, r⟩ := x
    have hs' : Block.eqvs false ue (⟨x, r⟩ :: es) [⟨nestBlock 25, ⟨0, 0, 0⟩⟩] = true := hs
    rw [Block.eqvs, Bool.and_eq_true, Bool.and_eq_true] at hs'
    have := nestBlock_depth K _ 25 x hs'.1.1
    obtain ⟨fs, e, _⟩ := x.toJson_obj (K := K)
    have hl := Json.depth_located fs r
    rw [← e] at hl
    simp only [Page.toJson, Json.depth, Json.depthFields, Block.toJsons, Json.depths]
    omega

theorem deepPage_defs : deepPage.hasDefs = false := by
  have := nestBlock_defs 25
  simp only [deepPage, Page.hasDefs, Block.anyDefs, Bool.or_false]
  exact this

attribute [irreducible] deepPage

/-- C87 is violated: the JSON of a page with 26 lists in each other is written, but cannot be read back. -/
theorem C87_depth_violated : ∃ text s pg, parsePage demo text = .ok s pg ∧ (pg.toJson plainSerde).Complete = true ∧
    Page.ofText plainSerde (pg.toText plainSerde) = none := by
  have hb := deepPage_text
  cases ht : deepPage.toVimwiki demoOut {} with
  | none => rw [ht] at hb; cases hb
  | some text =>
    rw [ht] at hb
    simp only [Option.elim_some, Bool.and_eq_true, List.all_eq_true, decide_eq_true_eq, Bool.not_eq_true', List.contains_eq_mem,
      decide_eq_false_iff_not] at hb
    obtain ⟨s, pg, hp, hs, -⟩ := C64_round_trip_calm_partial demoOut {} demo (fun u v => u == v) demo_schemeSound
      (by unfold AllBlank; decide) (by decide) deepPage deepPage_ok (by unfold deepPage; trivial) text ht (.ascii hb.1.1 hb.1.2 hb.2)
    have hd := deepPage_depth plainSerde _ hs
    refine ⟨text, s, pg, hp, ?_, by rw [C87_back plainSerde_sound demo text hp, if_neg (by omega)]⟩
    rw [complete_page plainSerde_sound pg (C65_well_formed demo text hp), Page.same_hasDefs hs, deepPage_defs]
    rfl

end Vw
