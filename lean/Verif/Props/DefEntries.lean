import Verif.Lemmas.DefEntries
import Verif.Props.BlockStarts

/-!
# C111: a term has the definitions that stand with it
-/

namespace Vw

set_option maxRecDepth 20000

/-- In a definition list, every line with a term and a definition begins an entry of its own.  The term
is what is before the colons; the definitions are what is after the colons and, in their order, the
lines after it that begin with two colons.  In a list at the top level of the page no such line is left
out; in a list inside an item, none that is part of the list. -/
theorem C111_entry {env : Env} {text : Str} {s' : Span} {pg : Page} (h : parsePage env text = .ok s' pg)
    {y : Located Block} (hy : y ∈ pg.blocks) {xs : List (Located TermDefs)} (hi : y.inner = .defs xs) {q : Nat}
    (hq : LineStart text q) (hf : DefForm (text.drop q)) (h1 : y.region.offset ≤ q)
    (h2 : q < y.region.offset + y.region.len) :
    ∃ e ∈ xs, ∃ b, EntryAt text b q e ∧ y.region.offset + y.region.len ≤ b ∧ (y ∈ pg.elements → b = text.length) := by
  obtain ⟨k, s, s1, hin, hfull, hrun, htop⟩ := page_defs h hy hi
  obtain ⟨hb, g, ho⟩ := ok_of_run ((definitionList_ok hin).and (definitionList_entries hin hfull)) hrun
  obtain ⟨w1, w2⟩ := hb.whole (by simp [hi])
  obtain ⟨e, he, hat⟩ := (ho xs hi q hq (by omega) (by omega)).1 hf
  exact ⟨e, he, s.stop, hat, by rw [w2]; have := g.step.hi; have := g.step.stop; omega, htop⟩

/-- The same for a line with a term and no definition: it begins an entry that has one or more
definitions, which are the lines after it that begin with two colons. -/
theorem C111_bare {env : Env} {text : Str} {s' : Span} {pg : Page} (h : parsePage env text = .ok s' pg)
    {y : Located Block} (hy : y ∈ pg.blocks) {xs : List (Located TermDefs)} (hi : y.inner = .defs xs) {q : Nat}
    (hq : LineStart text q) (hf : BareForm (text.drop q)) (h1 : y.region.offset ≤ q)
    (h2 : q < y.region.offset + y.region.len) :
    ∃ e ∈ xs, ∃ b, BareEntryAt text b q e ∧ y.region.offset + y.region.len ≤ b ∧ (y ∈ pg.elements → b = text.length) := by
  obtain ⟨k, s, s1, hin, hfull, hrun, htop⟩ := page_defs h hy hi
  obtain ⟨hb, g, ho⟩ := ok_of_run ((definitionList_ok hin).and (definitionList_entries hin hfull)) hrun
  obtain ⟨w1, w2⟩ := hb.whole (by simp [hi])
  obtain ⟨e, he, hat⟩ := (ho xs hi q hq (by omega) (by omega)).2 hf
  exact ⟨e, he, s.stop, hat, by rw [w2]; have := g.step.hi; have := g.step.stop; omega, htop⟩

/-- Where the term of the first entry and its definitions are. -/
def firstEntry : List (Located Block) → List (Nat × Nat)
  | ⟨.defs (e :: _), _⟩ :: _ =>
    (e.inner.term.region.offset, e.inner.term.region.len) ::
      e.inner.defs.inner.map fun d => (d.region.offset, d.region.len)
  | _ => []

example : ∃ s pg, parsePage demo b!" a:: b\n:: c\n ::  d\ne:: f\n" = .ok s pg ∧
    firstEntry pg.blocks = [(1, 3), (4, 2), (7, 5), (12, 7)] :=
  page_test (text := b!" a:: b\n:: c\n ::  d\ne:: f\n") (fun pg => firstEntry pg.blocks = [(1, 3), (4, 2), (7, 5), (12, 7)])
    (by decide +kernel)

example : DefForm b!" a:: b\n:: c\n ::  d\ne:: f\n" :=
  ⟨b!" ", b!"a", b!" ", b!"b", b!"\n:: c\n ::  d\ne:: f\n", rfl, by simp [AllBlank], by simp [AllBlank], by simp,
    termText_word (by decide) (by simp), ⟨_, rfl, by decide, by decide, by decide, by decide⟩, ⟨_, rfl, by decide⟩,
    ⟨by decide, .inr (.inl ⟨_, rfl, by decide⟩)⟩⟩

example : ∃ s pg, parsePage demo b!" a:: \n:: c\n ::  d\ne:: f\n" = .ok s pg ∧
    firstEntry pg.blocks = [(1, 3), (6, 5), (11, 7)] :=
  page_test (text := b!" a:: \n:: c\n ::  d\ne:: f\n") (fun pg => firstEntry pg.blocks = [(1, 3), (6, 5), (11, 7)])
    (by decide +kernel)

example : BareForm b!" a:: \n:: c\n ::  d\ne:: f\n" :=
  ⟨b!" ", b!"a", b!" ", b!"\n:: c\n ::  d\ne:: f\n", rfl, by simp [AllBlank], by simp [AllBlank],
    termText_word (by decide) (by simp), ⟨_, rfl, by decide, by decide, by decide, by decide⟩, .inr (.inl ⟨_, rfl⟩)⟩

example : MoreForm b!" ::  d\ne:: f\n" :=
  ⟨b!" ", b!"  ", b!"d", b!"\ne:: f\n", rfl, by simp [AllBlank], by simp [AllBlank], by simp, ⟨_, rfl, by decide⟩,
    ⟨by decide, .inr (.inl ⟨_, rfl, by decide⟩)⟩⟩

end Vw
