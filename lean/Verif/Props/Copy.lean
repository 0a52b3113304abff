import Verif.Lemmas.Copy
import Verif.Props.VimwikiOut
import Verif.Props.RoundTrip

/-!
# C85: copies of pages and elements
-/

namespace Vw

/-- C85: a copy of a page is strictly equal to the page, has the same structure with the same counts of rows
and columns, and the same regions. -/
theorem C85_page {ue : Uri → Uri → Bool} {K : CopyLib} (hK : K.Sound ue) {pg : Page} (h : pg.Valid) :
    (pg.copy K).strictEq ue pg = true ∧ (pg.copy K).same ue pg = true ∧ (pg.copy K).Valid ∧ (pg.copy K).regions = pg.regions := by
  have h1 := copy_blocks hK true pg.elements h
  exact ⟨h1.1, (copy_blocks hK false pg.elements h).1, h1.2, blocks_regions _ _ h1.2 h1.1⟩

/-- C85: so is a copy of a block or an inline element. -/
theorem C85_elements {ue : Uri → Uri → Bool} {K : CopyLib} (hK : K.Sound ue) (st : Bool) :
    (∀ b : Block, b.Valid → Block.eqv st ue (b.copy K) b = true) ∧ (∀ x : Inline, x.Valid → Inline.eqv st ue (x.copy K) x = true) :=
  ⟨fun b h => (copy_block hK st b h).1, fun x h => (copy_inline hK st x h).1⟩

/-- C85: a copy of a page, also of a copy, is equal to the page and is written in the same way, if copies of
URIs have the same text and fragment. -/
theorem C85_written (L : OutLib) (cfg : VwCfg) {K K' : CopyLib} {ue : Uri → Uri → Bool}
    (hu : ∀ u v, ue u v = true → L.uriStr u = L.uriStr v ∧ u.fragment = v.fragment)
    (hK : K.Sound ue) (hK' : K'.Sound ue) {pg : Page} (h : pg.Valid) :
    (pg.copy K).eq L ue pg = true ∧ (pg.copy K).toVimwiki L cfg = pg.toVimwiki L cfg ∧
      ((pg.copy K).copy K').toVimwiki L cfg = pg.toVimwiki L cfg := by
  obtain ⟨_, h2, h3, _⟩ := C85_page hK h
  obtain ⟨_, h5, h6, _⟩ := C85_page hK' h3
  have e := C38_same_pages L cfg hu h3 h h2
  exact ⟨Page.same_eq (fun u v huv => (hu u v huv).1) h2, e, (C38_same_pages L cfg hu h6 h3 h5).trans e⟩

/-- Copies that turn hash maps around. -/
def turnCopy : CopyLib := ⟨id, List.reverse, List.reverse⟩

theorem turnCopy_sound : turnCopy.Sound (fun u v => decide (u = v)) :=
  ⟨fun _ => by simp [turnCopy], fun m => m.reverse_perm, fun m => m.reverse_perm⟩

example : ∃ s pg, parsePage demo b!"|a|b|\n" = .ok s pg ∧ pg.Valid ∧ (match pg.elements, (pg.copy turnCopy).elements with
    | [⟨.table t, _⟩], [⟨.table t', _⟩] => decide (t.cells.map (·.1.col) = [1, 0]) && decide (t'.cells.map (·.1.col) = [0, 1])
    | _, _ => false) = true := by
  obtain ⟨s, pg, h, hp⟩ := page_test (text := b!"|a|b|\n") (fun pg => (match pg.elements, (pg.copy turnCopy).elements with
    | [⟨.table t, _⟩], [⟨.table t', _⟩] => decide (t.cells.map (·.1.col) = [1, 0]) && decide (t'.cells.map (·.1.col) = [0, 1])
    | _, _ => false) = true) (by decide +kernel)
  exact ⟨s, pg, h, C65_valid demo _ h, hp⟩

end Vw
