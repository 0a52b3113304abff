import Verif.Props.Convert
import Verif.Props.Links

/-!
# The numbers of wikis in links (C92)
-/

namespace Vw

/-- All wikis known to the tool: those of the configuration and those made for the paths given. -/
def knownWikis (isDir : Path → Bool) (c : HtmlCfg) (o : ConvOpt) : List Wiki := c.wikis ++ o.extra.filterMap (extraWiki isDir c)

/-- C92: number `i` in a link stands for the `i`-th of the selected wikis, in the order of the configuration. -/
theorem C92_number (isDir : Path → Bool) (c : HtmlCfg) (o : ConvOpt) {args : List Str} (ha : o.incl = args.map IndexOrName.ofStr) :
    ∃ sel, Chosen (fun i w => Named args i w.name) (knownWikis isDir c o) sel ∧
      ∀ i, (convertCfg isDir c o).wikiByIndex i = (sel[i]?).map (·.2) := by
  obtain ⟨sel, h1, h2⟩ := C55_selected args (knownWikis isDir c o)
  refine ⟨sel, h1, fun i => ?_⟩
  simp only [HtmlCfg.wikiByIndex, convertCfg, ha]
  unfold knownWikis at h2
  rw [h2, List.getElem?_map]

/-- The elements of an increasing list are no smaller than their places, and equal to them as long as none is left out. -/
theorem sorted_place {sel : List (Nat × Wiki)} (h : sel.Pairwise fun a b => a.1 < b.1) :
    ∀ lo, (∀ x ∈ sel, lo ≤ x.1) → ∀ i x, sel[i]? = some x → lo + i ≤ x.1 := by
  induction sel with
  | nil => simp
  | cons y ys ih =>
    intro lo hlo i x hx
    have hp := List.pairwise_cons.1 h
    cases i with
    | zero => simp at hx; subst hx; simpa using hlo y (by simp)
    | succ i =>
      have h1 := hlo y (by simp)
      have := ih hp.2 (lo + 1) (fun z hz => by have := hp.1 z hz; omega) i x (by simpa using hx)
      omega

theorem sorted_mem_place {sel : List (Nat × Wiki)} (h : sel.Pairwise fun a b => a.1 < b.1) :
    ∀ lo, (∀ x ∈ sel, lo ≤ x.1) → ∀ i, (∀ j, j ≤ i → ∃ w, (lo + j, w) ∈ sel) → ∃ w, sel[i]? = some (lo + i, w) := by
  induction sel with
  | nil => intro lo _ i hm; obtain ⟨w, hw⟩ := hm 0 (by omega); cases hw
  | cons y ys ih =>
    intro lo hlo i hm
    have hp := List.pairwise_cons.1 h
    have hy : y.1 = lo := by
      obtain ⟨w, hw⟩ := hm 0 (by omega)
      rcases List.mem_cons.1 hw with rfl | hw
      · rfl
      · have h1 := hp.1 _ hw
        have h2 := hlo y (by simp)
        simp only [Nat.add_zero] at h1
        omega
    cases i with
    | zero => obtain ⟨a, b⟩ := y; simp at hy; subst hy; exact ⟨b, by simp⟩
    | succ i =>
      obtain ⟨w, hw⟩ := ih hp.2 (lo + 1) (fun z hz => by have := hp.1 z hz; omega) i fun j hj => by
        obtain ⟨w, hw⟩ := hm (j + 1) (by omega)
        rcases List.mem_cons.1 hw with rfl | hw
        · simp at hy
        · exact ⟨w, by rw [show lo + 1 + j = lo + (j + 1) by omega]; exact hw⟩
      exact ⟨w, by rw [show lo + (i + 1) = lo + 1 + i by omega]; simpa using hw⟩

/-- C92 as long as no wiki up to the number is left out: the number stands for the same wiki as in the configuration. -/
theorem C92_partial (isDir : Path → Bool) (c : HtmlCfg) (o : ConvOpt) {args : List Str} (ha : o.incl = args.map IndexOrName.ofStr)
    {i : Nat} (hi : i < c.wikis.length) (h : ∀ (j : Nat) w, j ≤ i → c.wikis[j]? = some w → Named args j w.name) :
    (convertCfg isDir c o).wikiByIndex i = c.wikiByIndex i := by
  obtain ⟨sel, ⟨h1, h2⟩, h3⟩ := C92_number isDir c o ha
  have hk : ∀ j, j < c.wikis.length → (knownWikis isDir c o)[j]? = c.wikis[j]? := by
    intro j hj
    simp [knownWikis, List.getElem?_append_left hj]
  obtain ⟨w, hw⟩ := sorted_mem_place h1 0 (by simp) i fun j hj => by
    have hl : j < c.wikis.length := by omega
    refine ⟨c.wikis[j], ?_⟩
    rw [Nat.zero_add, h2, hk j hl]
    exact ⟨List.getElem?_eq_getElem hl, h j _ hj (List.getElem?_eq_getElem hl)⟩
  rw [h3, hw]
  rw [Nat.zero_add] at hw
  have := ((h2 i w).1 (List.mem_of_getElem? hw)).1
  rw [hk i hi] at this
  simp [HtmlCfg.wikiByIndex, this]

/-- C92 fails from the first wiki left out on: the number stands for a wiki further back, or for none. -/
theorem C92_shifted (isDir : Path → Bool) (c : HtmlCfg) (o : ConvOpt) {args : List Str} (ha : o.incl = args.map IndexOrName.ofStr)
    {i j : Nat} {w : Wiki} (hj : j ≤ i) (hw : c.wikis[j]? = some w) (hn : ¬ Named args j w.name) :
    (convertCfg isDir c o).wikiByIndex i = none ∨
      ∃ k v, i < k ∧ (knownWikis isDir c o)[k]? = some v ∧ Named args k v.name ∧ (convertCfg isDir c o).wikiByIndex i = some v := by
  obtain ⟨sel, ⟨h1, h2⟩, h3⟩ := C92_number isDir c o ha
  rw [h3]
  cases hs : sel[i]? with
  | none => exact .inl rfl
  | some x =>
    obtain ⟨k, v⟩ := x
    have hm := (h2 k v).1 (List.mem_of_getElem? hs)
    refine .inr ⟨k, v, ?_, hm.1, hm.2, rfl⟩
    have hle := sorted_place h1 0 (by simp) i _ hs
    simp only [Nat.zero_add] at hle
    rcases Nat.lt_or_ge i k with h | h
    · exact h
    · exfalso
      -- every wiki up to the number would have to be selected
      have hki : k = i := by omega
      subst hki
      have hall : ∀ j, j ≤ k → ∃ y, sel[j]? = some y ∧ y.1 = j := by
        intro j hj
        have hlen : k < sel.length := by
          rcases Nat.lt_or_ge k sel.length with h | h
          · exact h
          · rw [List.getElem?_eq_none h] at hs; cases hs
        refine ⟨sel[j], List.getElem?_eq_getElem (by omega), ?_⟩
        have hlo := sorted_place h1 0 (by simp) j _ (List.getElem?_eq_getElem (by omega))
        -- the elements from `j` on climb at least by one each
        have hd := sorted_place (List.Pairwise.drop (i := j) h1) (sel[j].1) (by
          intro x hx
          rw [List.drop_eq_getElem_cons (by omega)] at hx
          have hp := List.Pairwise.drop (i := j) h1
          rw [List.drop_eq_getElem_cons (by omega)] at hp
          rcases List.mem_cons.1 hx with rfl | hx
          · exact Nat.le_refl _
          · exact Nat.le_of_lt ((List.pairwise_cons.1 hp).1 x hx)) (k - j) (k, v) (by
            rw [List.getElem?_drop, show j + (k - j) = k by omega]; exact hs)
        simp only at hd
        omega
      obtain ⟨⟨y, u⟩, hy, rfl⟩ := hall j hj
      have hu := (h2 y u).1 (List.mem_of_getElem? hy)
      have hlt : y < c.wikis.length := by
        rcases Nat.lt_or_ge y c.wikis.length with h | h
        · exact h
        · rw [List.getElem?_eq_none h] at hw; cases hw
      have : (knownWikis isDir c o)[y]? = c.wikis[y]? := by simp [knownWikis, List.getElem?_append_left hlt]
      rw [this, hw] at hu
      cases hu.1
      exact hn hu.2

/-- Three wikis. -/
def threeCfg : HtmlCfg := { convCfg with wikis := [demoWikiAt b!"u", demoWikiAt b!"v", demoWikiAt b!"w"] }

/-- C92 fails: with `--include 0 --include 2` a link to wiki 1 leads to wiki 2, and a link to wiki 2 is an error. -/
theorem C92_violated (isDir : Path → Bool) (L : LinkLib) (src : Path) (d : LinkData) :
    let o : ConvOpt := ⟨[b!"0", b!"2"].map IndexOrName.ofStr, true, false, false, []⟩
    (convertCfg isDir threeCfg o).wikiByIndex 1 = threeCfg.wikiByIndex 2 ∧
    threeCfg.wikiByIndex 1 ≠ threeCfg.wikiByIndex 2 ∧
    resolveLink L (convertCfg isDir threeCfg o) (demoWikiAt b!"u") src (.indexed 2 d) = .error (.missingIndex 2) := by
  intro o
  have h : (convertCfg isDir threeCfg o).wikis = [demoWikiAt b!"u", demoWikiAt b!"w"] := by
    have : (convertCfg isDir threeCfg o).wikis = keepWikis o.incl threeCfg.wikis := by simp [convertCfg, o]
    rw [this]
    decide +kernel
  refine ⟨?_, by decide +kernel, ?_⟩
  · simp only [HtmlCfg.wikiByIndex, h]; rfl
  · obtain ⟨out, ho⟩ := Option.isSome_iff_exists.1 (C48_no_panic (demoWikiAt b!"u") src b!"html")
    exact (C69_missing_wiki L _ _ src d ho).1 2 (by rw [h]; decide)

example : ∃ c : HtmlCfg, 1 < c.wikis.length ∧ ∀ (j : Nat) w, j ≤ 1 → c.wikis[j]? = some w → Named [b!"u", b!"v"] j w.name := by
  refine ⟨threeCfg, by decide, fun j w hj hw => ?_⟩
  have hno : ∀ s, s = b!"u" ∨ s = b!"v" → ∀ n, ¬ Numeral s n := by
    intro s hs n hn
    have := (parseUsize_iff s n).2 hn
    rcases hs with rfl | rfl
    · rw [show parseUsize b!"u" = none by decide] at this; cases this
    · rw [show parseUsize b!"v" = none by decide] at this; cases this
  match j, hj with
  | 0, _ => cases hw; exact .inr ⟨b!"u", by simp, .inr ⟨rfl, hno _ (.inl rfl)⟩⟩
  | 1, _ => cases hw; exact .inr ⟨b!"v", by simp, .inr ⟨rfl, hno _ (.inr rfl)⟩⟩

example : ∃ w, threeCfg.wikis[1]? = some w ∧ ¬ Named [b!"0", b!"2"] 1 w.name :=
  ⟨demoWikiAt b!"v", rfl, fun h => by
    have := (selects_ofStr [b!"0", b!"2"] 1 (some b!"v")).2 h
    rw [show selects ([b!"0", b!"2"].map IndexOrName.ofStr) 1 (some b!"v") = false by decide] at this
    cases this⟩

end Vw
