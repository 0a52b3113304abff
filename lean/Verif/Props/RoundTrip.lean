import Verif.Lemmas.RoundTrip
import Verif.Lemmas.PlainEq
import Verif.Lemmas.SafeText
import Verif.Lemmas.Always
import Verif.Props.Parse
import Verif.Props.VimwikiOut
import Verif.Spec.Demo

/-!
# Formatting and parsing back (C37, C64–C66)
-/

namespace Vw

/-! ## C37 -/

/-- C37: a page of dividers, code blocks, math blocks and placeholders whose strings can
be written (`LeafOk`) is formatted to a text that, unless the parser panics (C03), is
parsed to a page of the same structure, which is equal (`==`) if equal URIs have the same text. -/
theorem C37_leaf_round_trip (L : OutLib) (cfg : VwCfg) (env : Env) (ue : Uri → Uri → Bool)
    (hI : ValidUtf8 cfg.indentStr) (p : Page) (h : ∀ x ∈ p.elements, LeafOk L env x.inner) :
    ∃ text, p.toVimwiki L cfg = some text ∧ ((∃ r, parsePage env text = .panic r) ∨
      ∃ s pg, parsePage env text = .ok s pg ∧ pg.same ue p = true ∧
        ((∀ u v, ue u v = true → L.uriStr u = L.uriStr v) → pg.eq L ue p = true)) := by
  obtain ⟨text, h1, h2⟩ := leaves_round_trip (ue := ue) hI p h
  refine ⟨text, h1, (C02_every_text_is_a_page env text).imp_right ?_⟩
  rintro ⟨s, pg, h3, -⟩
  exact ⟨s, pg, h3, h2 s pg h3, fun hd => Page.same_eq hd (h2 s pg h3)⟩

/-- C37 without panics: if moreover the text has nothing that a panic needs (see C03). -/
theorem C37_leaf_round_trip_calm (L : OutLib) (cfg : VwCfg) (env : Env) (ue : Uri → Uri → Bool)
    (hs : env.SchemeSound) (hI : ValidUtf8 cfg.indentStr) (p : Page) (h : ∀ x ∈ p.elements, LeafOk L env x.inner)
    (text : Str) (ht : p.toVimwiki L cfg = some text) (hh : Calm env text) :
    ∃ s pg, parsePage env text = .ok s pg ∧ pg.same ue p = true ∧
        ((∀ u v, ue u v = true → L.uriStr u = L.uriStr v) → pg.eq L ue p = true) := by
  obtain ⟨text', h1, h2⟩ := leaves_round_trip (ue := ue) hI p h
  rw [ht] at h1
  cases h1
  obtain ⟨s, pg, h3, -⟩ := C03_no_panic_partial env hs text hh
  exact ⟨s, pg, h3, h2 s pg h3, fun hd => Page.same_eq hd (h2 s pg h3)⟩

/-- A page with one block of each kind. -/
def leafPage : Page :=
  ⟨[⟨.code none [(b!"k", b!"v w"), (b!"a", b!"")] [b!" x", b!"", b!"}} }"], ⟨0, 1, 0⟩⟩,
    ⟨.math [b!"a % b"] (some b!"align"), ⟨0, 1, 0⟩⟩, ⟨.divider, ⟨0, 1, 0⟩⟩,
    ⟨.placeholder (.other b!"foo" b!"bar "), ⟨0, 1, 0⟩⟩, ⟨.placeholder .noHtml, ⟨0, 1, 0⟩⟩]⟩

theorem not_closing {cl l : Str} (hc : ∀ x, cl.head? = some x → ¬ (x = 32 ∨ x = 9))
    (hl : ¬ cl <+: l.dropWhile fun b => b == 32 || b == 9) : ¬ ClosingLine cl l := by
  rintro ⟨u, v, hu, -, rfl⟩
  refine hl ?_
  rw [List.append_assoc, List.dropWhile_append_of_pos fun b hb => by simpa using hu b hb]
  cases cl with
  | nil => exact List.nil_prefix
  | cons c cl =>
    have := hc c rfl
    rw [List.cons_append, List.dropWhile_cons_of_neg (by simpa using this)]
    exact List.prefix_append (c :: cl) v

example : ∀ x ∈ leafPage.elements, LeafOk demoOut demo x.inner := by
  intro x hx
  simp only [leafPage, List.mem_cons, List.not_mem_nil, or_false] at hx
  rcases hx with rfl | rfl | rfl | rfl | rfl
  · refine ⟨⟨by simp, show List.Nodup _ by decide, ?_⟩, ?_⟩
    · intro p hp
      simp only [List.mem_cons, List.not_mem_nil, or_false] at hp
      rcases hp with rfl | rfl
      · simp only [PairOk, NoTerm]; decide
      · simp only [PairOk, NoTerm]; decide
    · intro l hl
      refine ⟨?_, ?_⟩
      · revert l; simp only [RestOfLine]; decide
      · simp only [List.mem_cons, List.not_mem_nil, or_false] at hl
        rcases hl with rfl | rfl | rfl
        · exact not_closing (by decide) (by decide)
        · exact not_closing (by decide) (by decide)
        · exact not_closing (by decide) (by decide)
  · refine ⟨by simp only [NoTerm]; intro e he; cases he; decide, ?_⟩
    intro l hl
    refine ⟨?_, ?_⟩
    · revert l; simp only [RestOfLine]; decide
    · simp only [List.mem_cons, List.not_mem_nil, or_false] at hl
      subst hl
      exact not_closing (by decide) (by decide)
  · trivial
  · refine ⟨⟨by decide, by decide, by decide⟩, by simp only [NoTerm]; decide, ?_⟩
    simp only [ValueOk, RestOfLine, NoTerm]
    decide
  · trivial

/-- A similar page, as text. -/
example : (⟨[⟨.code (some b!"c") [] [b!" x", b!"", b!"}} }"], ⟨0, 1, 0⟩⟩,
      ⟨.math [b!"a % b"] (some b!"align"), ⟨0, 1, 0⟩⟩, ⟨.divider, ⟨0, 1, 0⟩⟩,
      ⟨.placeholder (.other b!"foo" b!"bar "), ⟨0, 1, 0⟩⟩, ⟨.placeholder .noHtml, ⟨0, 1, 0⟩⟩]⟩ : Page).toVimwiki demoOut {} =
    some b!"{{{c\n x\n\n}} }\n}}}\n\n{{$%align%\na % b\n}}$\n\n----\n\n%foo bar \n\n%nohtml\n" := by
  decide +kernel

/-! ## C64 -/

/-- C64 is violated: the cells of `|a|b|` are written with blanks around them, which
become part of their text. -/
theorem C64_violated : ∃ text s pg text' s' pg', parsePage demo text = .ok s pg ∧
    pg.toVimwiki demoOut {} = some text' ∧ parsePage demo text' = .ok s' pg' ∧
    pg'.eq demoOut (fun _ _ => true) pg = false := by
  have h : ((parsePage demo b!"|a|b|\n").test fun _ pg =>
      match pg.toVimwiki demoOut {} with
      | some text' => (parsePage demo text').test fun _ pg' => !pg'.eq demoOut (fun _ _ => true) pg
      | none => false) = true := by decide +kernel
  obtain ⟨s, pg, h1, h2⟩ := Res.of_test h
  split at h2
  next text' h3 =>
    obtain ⟨s', pg', h4, h5⟩ := Res.of_test h2
    exact ⟨_, s, pg, text', s', pg', h1, h3, h4, by simpa using h5⟩
  next => cases h2

/-- C64 for pages whose contents can be written (`TopOk`, `AllBeside`): such a page is formatted to a text that, unless the parser panics (C03), is
parsed to a page of the same structure, which is equal (`==`) if equal URIs have the same text. -/
theorem C64_round_trip_partial (L : OutLib) (cfg : VwCfg) (env : Env) (ue : Uri → Uri → Bool)
    (hs : env.SchemeSound) (hI : AllBlank cfg.indentStr) (hn : cfg.indentStr ≠ []) (p : Page)
    (h : ∀ x ∈ p.elements, TopOk env ue L cfg x.inner) (ha : AllBeside L cfg p.elements) :
    ∃ text, p.toVimwiki L cfg = some text ∧ ((∃ r, parsePage env text = .panic r) ∨
      ∃ s pg, parsePage env text = .ok s pg ∧ pg.same ue p = true ∧
        ((∀ u v, ue u v = true → L.uriStr u = L.uriStr v) → pg.eq L ue p = true)) := by
  obtain ⟨text, h1, h2⟩ := pages_round_trip hs hI hn p h ha
  refine ⟨text, h1, (C02_every_text_is_a_page env text).imp_right ?_⟩
  rintro ⟨s, pg, h3, -⟩
  exact ⟨s, pg, h3, h2 s pg h3, fun hd => Page.same_eq hd (h2 s pg h3)⟩

/-- C64 without panics: if moreover the text has nothing that a panic needs (see C03). -/
theorem C64_round_trip_calm_partial (L : OutLib) (cfg : VwCfg) (env : Env) (ue : Uri → Uri → Bool)
    (hs : env.SchemeSound) (hI : AllBlank cfg.indentStr) (hn : cfg.indentStr ≠ []) (p : Page)
    (h : ∀ x ∈ p.elements, TopOk env ue L cfg x.inner) (ha : AllBeside L cfg p.elements)
    (text : Str) (ht : p.toVimwiki L cfg = some text) (hh : Calm env text) :
    ∃ s pg, parsePage env text = .ok s pg ∧ pg.same ue p = true ∧
        ((∀ u v, ue u v = true → L.uriStr u = L.uriStr v) → pg.eq L ue p = true) := by
  obtain ⟨text', h1, h2⟩ := pages_round_trip hs hI hn p h ha
  rw [ht] at h1
  cases h1
  obtain ⟨s, pg, h3, -⟩ := C03_no_panic_partial env hs text hh
  exact ⟨s, pg, h3, h2 s pg h3, fun hd => Page.same_eq hd (h2 s pg h3)⟩

theorem demo_schemeSound : demo.SchemeSound := by
  intro t u sc h1 h2 hsc
  simp only [demo, demoUri] at h1
  split at h1
  · cases h1
  · split at h1
    next i hi =>
      split at h1
      next hl =>
        cases h1
        cases h2
        obtain ⟨r, hr⟩ : ∃ r, t = t.take i ++ c!":" :: r := by
          unfold memchr at hi
          obtain ⟨hlt, h3, -⟩ := List.findIdx?_eq_some_iff_getElem.1 hi
          refine ⟨t.drop (i + 1), ?_⟩
          have : t[i] = 58 := by simpa using h3
          rw [← this, ← List.drop_eq_getElem_cons hlt, List.take_append_drop]
        have hm : (t.take i).map lowerByte = t.take i := by
          rw [List.map_congr_left (g := id), List.map_id]
          intro b hb
          have := List.all_eq_true.1 hl b hb
          simp [isLower] at this
          unfold lowerByte
          rw [if_neg (by omega)]
          rfl
        refine ⟨r.map lowerByte, ?_⟩
        conv => rhs; rw [hr, List.map_append, hm]
        simp [lowerByte]
      next => cases h1; cases h2
    next => cases h1; cases h2

/-- A text without special characters. -/
abbrev tx (t : Str) : Located Inline := ⟨.text t, ⟨0, 0, 0⟩⟩

/-- The cells of `fullTable`. -/
def fullCells : List (CellPos × Located Cell) :=
  [(⟨0, 0⟩, ⟨.content [tx b!" name "], ⟨0, 0, 0⟩⟩), (⟨0, 1⟩, ⟨.content [tx b!" x "], ⟨0, 0, 0⟩⟩),
    (⟨1, 0⟩, ⟨.align .left, ⟨0, 0, 0⟩⟩), (⟨1, 1⟩, ⟨.align .none, ⟨0, 0, 0⟩⟩),
    (⟨2, 0⟩, ⟨.span .fromLeft, ⟨0, 0, 0⟩⟩), (⟨2, 1⟩, ⟨.content [tx b!" y "], ⟨0, 0, 0⟩⟩)]

/-- A centered table with a divider and a span cell. -/
def fullTable : Table := .new fullCells true

/-- A page with blocks of all kinds. -/
def fullPage : Page :=
  ⟨[⟨.header [tx b!"my plan"] 2 true, ⟨0, 1, 0⟩⟩,
    ⟨.paragraph [[tx b!"see ", ⟨.decorated .bold [tx b!"this"], ⟨0, 0, 0⟩⟩, tx b!" now"],
      [⟨.keyword .todo, ⟨0, 0, 0⟩⟩, tx b!" and ", ⟨.code b!"x = y", ⟨0, 0, 0⟩⟩]], ⟨0, 1, 0⟩⟩,
    ⟨.blockquote [b!"- q one", b!"q \"two\""], ⟨0, 1, 0⟩⟩,
    ⟨.defs [⟨⟨⟨[tx b!"cat"], ⟨0, 0, 0⟩⟩, ⟨[⟨[tx b!"an animal"], ⟨0, 0, 0⟩⟩, ⟨[tx b!"a pet"], ⟨0, 0, 0⟩⟩], ⟨0, 0, 0⟩⟩⟩,
      ⟨0, 0, 0⟩⟩], ⟨0, 1, 0⟩⟩,
    ⟨.list [⟨⟨.hyphen, .none, 0, [⟨.paragraph [[tx b!"buy milk"], [tx b!"and eggs"]], ⟨0, 0, 0⟩⟩,
        ⟨.list [⟨⟨.number, .period, 0, [⟨.blockquote [b!"one"], ⟨0, 0, 0⟩⟩], none⟩, ⟨0, 0, 0⟩⟩,
          ⟨⟨.number, .period, 1, [⟨.paragraph [[tx b!"two"]], ⟨0, 0, 0⟩⟩], none⟩, ⟨0, 0, 0⟩⟩], ⟨0, 0, 0⟩⟩,
        ⟨.code none [] [b!"x"], ⟨0, 0, 0⟩⟩], some .partial2⟩, ⟨0, 0, 0⟩⟩,
      ⟨⟨.hyphen, .none, 1, [⟨.paragraph [[tx b!"sleep"]], ⟨0, 0, 0⟩⟩], none⟩, ⟨0, 0, 0⟩⟩], ⟨0, 1, 0⟩⟩,
    ⟨.table fullTable, ⟨0, 1, 0⟩⟩,
    ⟨.math [b!"a % b"] (some b!"align"), ⟨0, 1, 0⟩⟩, ⟨.divider, ⟨0, 1, 0⟩⟩]⟩

example : fullPage.toVimwiki demoOut {} = some (b!"    == my plan ==\n\nsee *this* now\nTODO and `x = y`\n\n" ++
    b!"> - q one\n> q \"two\"\n\ncat:: an animal\n:: a pet\n\n- [o] buy milk\n    and eggs\n    1. > one\n    2. two\n" ++
    b!"    {{{\n    x\n    }}}\n- sleep\n\n" ++
    b!"    | name | x |\n    |:-----|---|\n    | >    | y |\n\n{{$%align%\na % b\n}}$\n\n----\n") := by
  decide +kernel

theorem contentOk_safe {env : Env} {ue : Uri → Uri → Bool} {L : OutLib} {cfg : VwCfg} {w t : Str} {r : Region}
    (ht : Tight t) (h1 : ∀ b ∈ t, b ∉ specials) : ContentOk env ue L cfg w [⟨.text t, r⟩] := by
  have he : Inline.textAll L cfg [⟨.text t, r⟩] = t := by simp [Inline.textAll, Inline.textOf]
  refine ⟨by simp, by rw [he]; exact ht, ?_⟩
  simp only [InlinesOk, InlineOk, Inline.Joins, Inline.textAll, and_true]
  exact textOk_safe ht.1 h1 (no_scheme_end fun h => h1 _ h (by decide))

theorem fullTable_ok : TableOk demo (fun u v => u == v) demoOut {} 0 fullTable := by
  have cell : ∀ t : Str, t ∈ [b!" name ", b!" x ", b!" y "] →
      CellTextOk demo (fun u v => u == v) demoOut {} 0 [tx t] := by
    intro t ht
    have he : Inline.textAll demoOut {} [tx t] = t := by simp [Inline.textAll, Inline.textOf]
    have : ∀ t ∈ [b!" name ", b!" x ", b!" y "], (∃ q, t = 32 :: q) ∧ (∃ q, t = q ++ [32]) ∧ t ≠ [] ∧
        (∀ b ∈ t, b ∉ specials ∧ b ≠ 124 ∧ b ≠ 10 ∧ b ≠ 62 ∧ b ≠ 92 ∧ b ≠ 58) := by
      intro t ht
      simp only [List.mem_cons, List.not_mem_nil, or_false] at ht
      rcases ht with rfl | rfl | rfl
      · exact ⟨⟨_, rfl⟩, ⟨b!" name", rfl⟩, by decide, by decide⟩
      · exact ⟨⟨_, rfl⟩, ⟨b!" x", rfl⟩, by decide, by decide⟩
      · exact ⟨⟨_, rfl⟩, ⟨b!" y", rfl⟩, by decide, by decide⟩
    obtain ⟨⟨q, h1⟩, ⟨q', h2⟩, h3, h4⟩ := this t ht
    refine ⟨⟨32, q, _, _, by rw [h1], .inl rfl⟩, .inr ⟨q', 32, by rw [he, h2], .inl rfl⟩, ?_, ?_, ?_, ?_, ?_⟩
    · rw [he]; exact fun h => (h4 _ h).2.1 rfl
    · rw [he]; exact fun h => (h4 _ h).2.2.1 rfl
    · rw [he]
      rintro ws r rfl -
      refine ⟨?_, ?_⟩
      · rintro ⟨u, rfl⟩; exact (h4 62 (by simp)).2.2.2.1 rfl
      · rintro ⟨u, rfl⟩; exact (h4 92 (by simp)).2.2.2.2.1 rfl
    · simp only [InlinesOk, InlineOk, Inline.Joins, Inline.textAll, and_true]
      exact textOk_safe h3 (fun b hb => (h4 b hb).1) (no_scheme_end fun h => (h4 _ h).2.2.2.2.2 rfl)
    · simp [Inline.nestAll, Inline.nest]
  have hB : fullTable.Built := ⟨fullCells, true, true, rfl⟩
  have hc : fullTable.cells = [(⟨2, 1⟩, ⟨.content [tx b!" y "], ⟨0, 0, 0⟩⟩), (⟨2, 0⟩, ⟨.span .fromLeft, ⟨0, 0, 0⟩⟩),
      (⟨1, 1⟩, ⟨.align .none, ⟨0, 0, 0⟩⟩), (⟨1, 0⟩, ⟨.align .left, ⟨0, 0, 0⟩⟩),
      (⟨0, 1⟩, ⟨.content [tx b!" x "], ⟨0, 0, 0⟩⟩), (⟨0, 0⟩, ⟨.content [tx b!" name "], ⟨0, 0, 0⟩⟩)] := rfl
  have hr : fullTable.rowCnt = 3 := rfl
  have hk : fullTable.colCnt = 2 := rfl
  refine ⟨hB, ?_, ?_, ?_, ⟨0, _, rfl, by simp⟩, ?_⟩
  · have : ∀ r < 3, ∀ c < 2, (fullTable.getCell r c).isSome = true := by decide
    exact fun r c h1 h2 => this r (by omega) c (by omega)
  · intro r c xs reg h
    rw [getCell_mem hB, hc] at h
    simp only [List.mem_cons, List.not_mem_nil, or_false, Prod.mk.injEq, CellPos.mk.injEq, Located.mk.injEq,
      Cell.content.injEq, reduceCtorEq, false_and, and_false, false_or] at h
    rcases h with ⟨⟨rfl, rfl⟩, rfl, rfl⟩ | ⟨⟨rfl, rfl⟩, rfl, rfl⟩ | ⟨⟨rfl, rfl⟩, rfl, rfl⟩
    · exact ⟨by decide, cell _ (by decide)⟩
    · exact ⟨by decide, cell _ (by decide)⟩
    · exact ⟨by decide, cell _ (by decide)⟩
  · intro c h
    rcases (by omega : c = 0 ∨ c = 1) with rfl | rfl
    · exact ⟨0, _, rfl, by simp⟩
    · exact ⟨0, _, rfl, by simp⟩
  · intro u v e
    have : c!":" ∈ b!"|" ++ barred (fullTable.rowAt demoOut {} 0) := by rw [e]; simp
    exact absurd this (by decide)

theorem fullTable_valid : fullTable.Valid := by
  refine ⟨by unfold DistinctKeys; decide, ?_, ?_, ?_⟩
  · intro e he
    have : e.2.inner.Valid ↔ True := by
      simp only [fullTable, fullCells, Table.new, Table.collect] at he
      simp at he
      rcases he with rfl | rfl | rfl | rfl | rfl | rfl <;> simp [Cell.Valid, Inline.Valids, Inline.Valid]
    exact this.2 trivial
  · exact ⟨by decide, .inr (by decide)⟩
  · exact ⟨by decide, .inr (by decide)⟩

example : ∀ x ∈ fullPage.elements, TopOk demo (fun u v => u == v) demoOut {} x.inner := by
  have text : ∀ {w : Str} {r} (t : Str), t ∈ [b!"my plan", b!"cat", b!"an animal", b!"a pet", b!"buy milk", b!"and eggs", b!"two", b!"sleep"] →
      ContentOk demo (fun u v => u == v) demoOut {} w [⟨.text t, r⟩] ∧ SafeLine t ∧ 10 ∉ t := by
    intro w r t ht
    have : ∀ t ∈ [b!"my plan", b!"cat", b!"an animal", b!"a pet", b!"buy milk", b!"and eggs", b!"two", b!"sleep"],
        (t ≠ [] ∧ (∀ b, t.head? = some b → 33 ≤ b ∧ b < 127) ∧ (∀ b, t.getLast? = some b → 33 ≤ b ∧ b < 127)) ∧
          (∀ b ∈ t, b ∉ specials) ∧ (∀ b, t.head? = some b → b ∉ blockHeads) ∧ (∀ b ∈ t, b ∉ blockBytes) ∧ 10 ∉ t := by decide
    obtain ⟨⟨h1, h2, h3⟩, h4, h5, h6, h7⟩ := this t ht
    exact ⟨contentOk_safe (tight_safe h1 h2 h3) h4, ⟨h5, h6⟩, h7⟩
  have para : ∀ t ∈ [b!"buy milk", b!"and eggs", b!"two", b!"sleep"],
      ContentOk demo (fun u v => u == v) demoOut {} [] [tx t] ∧ PlainLine (Inline.textAll demoOut {} [tx t]) := by
    intro t ht
    have hm : t ∈ [b!"my plan", b!"cat", b!"an animal", b!"a pet", b!"buy milk", b!"and eggs", b!"two", b!"sleep"] := by
      revert t; decide
    have he : Inline.textAll demoOut {} [tx t] = t := by simp [Inline.textAll, Inline.textOf]
    rw [he]
    exact ⟨(text t hm).1, plainLine_safe (text (w := []) (r := ⟨0, 0, 0⟩) t hm).2.1⟩
  intro x hx
  simp only [fullPage, List.mem_cons, List.not_mem_nil, or_false] at hx
  rcases hx with rfl | rfl | rfl | rfl | rfl | rfl | rfl | rfl
  · refine ⟨⟨by decide, by decide, (text _ (by decide)).1, by decide, by decide⟩, by decide⟩
  · refine ⟨⟨by simp, fun l hl => ?_⟩, fun l hl => ?_⟩
    · simp only [List.mem_cons, List.not_mem_nil, or_false] at hl
      rcases hl with rfl | rfl
      · refine ⟨⟨by simp, tight_safe (by decide) (by decide) (by decide), ?_⟩,
          plainLine_safe ⟨by decide, by decide⟩⟩
        simp only [InlinesOk, InlineOk]
        refine ⟨textOk_safe (by decide) (by decide) (no_scheme (by decide) (by decide)), trivial,
          ⟨by simp, bodyOk_safe (by decide) ⟨c!"*", [], rfl, by decide⟩ (by decide) (by decide), ?_, ?_, trivial, trivial⟩, trivial, ?_, trivial, trivial⟩
        · simp [Inline.InDeco]
        · exact textOk_safe (by decide) (by decide) (no_scheme (by decide) (by decide))
        · exact textOk_safe (by decide) (by decide) (no_scheme (by decide) (by decide))
      · refine ⟨⟨by simp, tight_safe (by decide) (by decide) (by decide), ?_⟩,
          plainLine_safe ⟨by decide, by decide⟩⟩
        simp only [InlinesOk, InlineOk]
        refine ⟨trivial, trivial, textOk_safe (by decide) (by decide) (no_scheme (by decide) (by decide)), trivial,
          bodyOk_safe (by decide) ⟨c!"`", [], rfl, by decide⟩ (by decide) (by decide), trivial, trivial⟩
    · revert l; decide
  · refine ⟨by simp, rfl, fun l hl => ?_, fun l hl => ⟨?_, ?_, fun _ => ?_⟩⟩
    · cases hl; exact noTerm_safe (by decide)
    · revert l; decide
    · revert l; decide
    · simp only [List.mem_cons, List.not_mem_nil, or_false] at hl
      rcases hl with rfl | rfl <;> exact tight_safe (by decide) (by decide) (by decide)
  · refine ⟨by simp, fun x hx => ?_⟩
    simp only [List.mem_cons, List.not_mem_nil, or_false] at hx
    subst hx
    refine ⟨(text _ (by decide)).1, term_safe ⟨by decide, by decide⟩ (by decide), by decide, by simp, fun y hy => ?_⟩
    simp only [List.mem_cons, List.not_mem_nil, or_false] at hy
    rcases hy with rfl | rfl
    · exact ⟨(text _ (by decide)).1, by decide, by decide⟩
    · exact ⟨(text _ (by decide)).1, by decide, by decide⟩
  · simp only [TopOk, NestOk, ItemsOk, ContsOk]
    have nestPara : ∀ d, d ≤ 4 → ∀ ls : List Str, ls ≠ [] → (∀ t ∈ ls, t ∈ [b!"buy milk", b!"and eggs", b!"two", b!"sleep"]) →
        ParaOk demo (fun u v => u == v) demoOut {} (ls.map fun t => [tx t]) ∧
          ∀ l ∈ ls.map (fun t => [tx t]), 10 ∉ Inline.textAll demoOut {} l ∧ d + 1 + Inline.nestAll l ≤ 65535 := by
      intro d hd ls hne hls
      refine ⟨⟨by simpa using hne, fun l hl => ?_⟩, fun l hl => ?_⟩
      · obtain ⟨t, ht, rfl⟩ := List.mem_map.1 hl
        exact para t (hls t ht)
      · obtain ⟨t, ht, rfl⟩ := List.mem_map.1 hl
        have : ∀ t ∈ [b!"buy milk", b!"and eggs", b!"two", b!"sleep"], 10 ∉ Inline.textAll demoOut {} [tx t] ∧ Inline.nestAll [tx t] ≤ 0 := by decide
        have := this t (hls t ht)
        exact ⟨this.1, by omega⟩
    have digit : ∀ n : Str, n ∈ [b!"1", b!"2"] → PrefixText .number .period (n ++ b!". ") := by
      intro n hn
      refine .period ?_
      simp only [List.mem_cons, List.not_mem_nil, or_false] at hn
      rcases hn with rfl | rfl <;> simp [NumberWord, RunOf, DigitByte]
    have undone : ∀ (t : Str), t.head? ≠ some c!"[" → TodoOk {} t none := by
      intro t ht s hs
      exact ht (head_of_prefix hs rfl)
    refine ⟨by simp, ⟨rfl, trivial, ⟨.hyphen, .hyphen, fun _ => rfl⟩, rfl, ?_, ⟨_, _, rfl, .inl rfl⟩, ⟨?_, ⟨by simp, ⟨rfl, trivial, ⟨.number, ?_, fun _ => rfl⟩, ?_, ?_, ⟨_, _, rfl, .inr (.inl rfl)⟩, ⟨?_, trivial⟩, ⟨rfl, trivial, ⟨.number, ?_, fun _ => rfl⟩, ?_, ?_, ⟨_, _, rfl, .inl rfl⟩, ⟨?_, trivial⟩, trivial⟩⟩⟩, ?_, trivial⟩,
      ⟨rfl, trivial, ⟨.hyphen, .hyphen, fun _ => rfl⟩, ?_, ?_, ⟨_, _, rfl, .inl rfl⟩, ⟨?_, trivial⟩, trivial⟩⟩⟩
    · simp [Apart, Block.kind]
    · exact nestPara 2 (by decide) [b!"buy milk", b!"and eggs"] (by simp) (by decide)
    · have e : ItemType.toPrefix demoOut.rom 0 Suffix.period ItemType.number ++ b!" " = b!"1" ++ b!". " := by decide +kernel
      rw [e]
      exact digit b!"1" (by decide)
    · exact undone _ (by decide)
    · simp [Apart]
    · refine ⟨by simp, rfl, fun l hl => ?_, fun l hl => ?_⟩
      · cases hl; exact noTerm_safe (by decide)
      · simp only [List.mem_cons, List.not_mem_nil, or_false] at hl
        subst hl
        exact ⟨by decide, by decide, fun _ => tight_safe (by decide) (by decide) (by decide)⟩
    · have e : ItemType.toPrefix demoOut.rom 1 Suffix.period ItemType.number ++ b!" " = b!"2" ++ b!". " := by decide +kernel
      rw [e]
      exact digit b!"2" (by decide)
    · exact undone _ (by decide)
    · simp [Apart]
    · exact nestPara 4 (by decide) [b!"two"] (by simp) (by decide)
    · refine ⟨⟨by simp, show List.Nodup _ by decide, by simp⟩, by simp, ?_, by decide⟩
      intro l hl
      refine ⟨?_, ?_⟩
      · revert l; simp only [RestOfLine]; decide
      · simp only [List.mem_cons, List.not_mem_nil, or_false] at hl
        subst hl
        exact not_closing (by decide) (by decide)
    · exact undone _ (by decide)
    · simp [Apart]
    · exact nestPara 2 (by decide) [b!"sleep"] (by simp) (by decide)
  · exact fullTable_ok
  · refine ⟨by simp only [NoTerm]; intro e he; cases he; decide, ?_⟩
    intro l hl
    refine ⟨?_, ?_⟩
    · revert l; simp only [RestOfLine]; decide
    · simp only [List.mem_cons, List.not_mem_nil, or_false] at hl
      subst hl
      exact not_closing (by decide) (by decide)
  · trivial

example : AllBeside demoOut {} fullPage.elements := by
  simp [fullPage, AllBeside, Beside, Block.kind]

/-! ## C65 -/

/-- C65: whatever the text, the parsed page is well-formed. -/
theorem C65_well_formed (env : Env) (text : Str) {s : Span} {pg : Page} (h : parsePage env text = .ok s pg) : pg.WF :=
  parsePage_wf h

/-- In particular the maps inside a parsed page have distinct keys, as the theorems about
equality (C23, C38) assume. -/
theorem C65_valid (env : Env) (text : Str) {s : Span} {pg : Page} (h : parsePage env text = .ok s pg) : pg.Valid :=
  (parsePage_wf h).valid

example : ∃ s pg, parsePage demo b!"= a =\n- [[wiki3:b|c]] *d http:e f*\n  | > |\n" = .ok s pg ∧ pg.elements.length = 2 :=
  page_test (fun pg => pg.elements.length = 2) (by decide +kernel)

/-! ## C66 -/

/-- C66 is violated: items of a list that begin with different marks are numbered like the
first one, but a hyphen has no suffix, so that the second item becomes text. -/
theorem C66_violated : ∃ text s pg text1 s1 pg1 text2, parsePage demo text = .ok s pg ∧
    pg.toVimwiki demoOut {} = some text1 ∧ parsePage demo text1 = .ok s1 pg1 ∧
    pg1.toVimwiki demoOut {} = some text2 ∧ text2 ≠ text1 := by
  have h : ((parsePage demo b!"1. a\n- b\n").test fun _ pg =>
      match pg.toVimwiki demoOut {} with
      | some text1 => (parsePage demo text1).test fun _ pg1 =>
        match pg1.toVimwiki demoOut {} with
        | some text2 => decide (text2 ≠ text1)
        | none => false
      | none => false) = true := by decide +kernel
  obtain ⟨s, pg, h1, h2⟩ := Res.of_test h
  split at h2
  next text1 h3 =>
    obtain ⟨s1, pg1, h4, h5⟩ := Res.of_test h2
    split at h5
    next text2 h6 => exact ⟨_, s, pg, text1, s1, pg1, text2, h1, h3, h4, h6, of_decide_eq_true h5⟩
    next => cases h5
  next => cases h2

/-- C66 for the pages of C64: formatting the page read back from the formatted text gives
the same text. The text of URIs that are equal is assumed to be the same. -/
theorem C66_stable_partial (L : OutLib) (cfg : VwCfg) (env : Env) (ue : Uri → Uri → Bool)
    (hu : ∀ u v, ue u v = true → L.uriStr u = L.uriStr v ∧ u.fragment = v.fragment)
    (hs : env.SchemeSound) (hI : AllBlank cfg.indentStr) (hn : cfg.indentStr ≠ []) (p : Page) (hv : p.Valid)
    (h : ∀ x ∈ p.elements, TopOk env ue L cfg x.inner) (ha : AllBeside L cfg p.elements) {text : Str}
    (ht : p.toVimwiki L cfg = some text) {s : Span} {pg : Page} (hp : parsePage env text = .ok s pg) :
    pg.toVimwiki L cfg = some text := by
  obtain ⟨text', h1, h2⟩ := pages_round_trip hs hI hn p h ha
  rw [ht] at h1
  cases h1
  rw [← ht]
  exact C38_same_pages L cfg hu (C65_valid env text hp) hv (h2 s pg hp)

example : fullPage.Valid := by
  simp [fullPage, Page.Valid, Block.Valids, Block.Valid, Inline.Valids, Inline.Valid, Block.ValidItems, TermDefs.Valid, DistinctKeys, fullTable_valid]

end Vw
