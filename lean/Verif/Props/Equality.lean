import Verif.Lemmas.PlainEq
import Verif.Spec.Demo

/-!
# Equality of pages (C23)
-/

namespace Vw

set_option maxRecDepth 20000

/-- C23: on pages of which the hash maps have distinct keys and the tables right counts
(which the types guarantee), `strict_eq` is reflexive, symmetric and transitive, and so is `==`,
which does not depend on regions; `strict_eq` holds only if all regions are the same. Moreover
`strict_eq` implies `==` if equal URIs have the same text. The library's
equality of URIs is assumed to be an equivalence. -/
theorem C23_strict_eq_partial (L : OutLib) {ue : Uri → Uri → Bool} (h1 : ∀ u, ue u u = true)
    (h2 : ∀ u v, ue u v = true → ue v u = true)
    (h3 : ∀ u v w, ue u v = true → ue v w = true → ue u w = true) {x y z : Page}
    (hx : x.Valid) (hy : y.Valid) :
    x.strictEq ue x = true ∧ (x.strictEq ue y = true → y.strictEq ue x = true) ∧
    (x.strictEq ue y = true → y.strictEq ue z = true → x.strictEq ue z = true) ∧
    ((∀ u v, ue u v = true → L.uriStr u = L.uriStr v) → x.strictEq ue y = true → x.eq L ue y = true) ∧
    x.eq L ue x = true ∧ (x.eq L ue y = true → y.eq L ue x = true) ∧
    (x.eq L ue y = true → y.eq L ue z = true → x.eq L ue z = true) ∧
    x.erase.eq L ue y.erase = x.eq L ue y ∧ (x.strictEq ue y = true → x.regions = y.regions) := by
  have hu : Laws (fun _ => True) ue := ⟨fun u _ => h1 u, fun u v _ _ => h2 u v, h3⟩
  have hx' := blocks_flat_valid (L := L) _ hx
  have hy' := blocks_flat_valid (L := L) _ hy
  refine ⟨blocks_refl _ hu _ hx, blocks_symm _ hu _ _ hx hy, blocks_trans _ hu _ _ _,
    fun hd h => Page.same_eq hd (blocks_weak _ _ hx hy h), ?_, ?_, ?_, ?_, blocks_regions _ _ hx⟩
  · rw [Page.eq, blocks_flat]
    exact blocks_refl _ hu _ hx'
  · rw [Page.eq, Page.eq, blocks_flat, blocks_flat]
    exact blocks_symm _ hu _ _ hx' hy'
  · rw [Page.eq, Page.eq, Page.eq, blocks_flat, blocks_flat, blocks_flat]
    exact blocks_trans _ hu _ _ _
  · rw [Page.eq, Page.eq, blocks_flat, blocks_flat, Page.erase, Page.erase, blocks_flat_erase, blocks_flat_erase]
    exact blocks_erase _ _

/-- A definition list with one term, which is a link to the URI. -/
def termPage (u : Uri) : Page :=
  ⟨[⟨.defs [⟨⟨⟨[⟨.link (.wiki ⟨u, none, none⟩), ⟨0, 5, 2⟩⟩], ⟨0, 5, 1⟩⟩, ⟨[], ⟨7, 0, 1⟩⟩⟩, ⟨0, 7, 1⟩⟩], ⟨0, 7, 0⟩⟩]⟩

/-- Without that assumption `strict_eq` does not imply `==`: whenever the library takes two URIs with
different text to be equal, links to them as terms are strictly equal, but not equal. -/
theorem C23_strict_not_eq (L : OutLib) {ue : Uri → Uri → Bool} {u v : Uri} (h : ue u v = true)
    (hn : L.uriStr u ≠ L.uriStr v) :
    (termPage u).strictEq ue (termPage v) = true ∧ (termPage u).eq L ue (termPage v) = false := by
  refine ⟨?_, ?_⟩
  · simp [termPage, Page.strictEq, Block.eqvs, Block.eqv, vecEq, locEq, TermDefs.eqv, Inline.eqvs, Inline.eqv,
      Link.eqv, LinkData.eqv, h, optEq, propsEq]
  · simp [termPage, Page.eq, Block.eqs, Block.eq, vecEq, locEq, TermDefs.eq, valueEq, Inline.displayAll,
      Inline.display, Link.display, LinkData.display, hn]

/-- Libraries that write the segments of a path. -/
def segOut : OutLib := ⟨fun u => u.segments.flatten, id, fun _ => [], fun _ => []⟩

/-- A case in which the library does so. -/
example : (fun _ _ => true : Uri → Uri → Bool) ⟨none, none, false, [b!"a"], none, none⟩ ⟨none, none, false, [b!"%61"], none, none⟩ = true ∧
    segOut.uriStr ⟨none, none, false, [b!"a"], none, none⟩ ≠ segOut.uriStr ⟨none, none, false, [b!"%61"], none, none⟩ := by
  decide +kernel

/-- Two pages that are equal but not strictly equal. -/
def pageOf (n : Nat) : Page :=
  ⟨[⟨.code none [(b!"a", b!"b"), (b!"c", b!"d")] [b!"x"], ⟨0, 9, 0⟩⟩,
    ⟨.table { Table.new [(⟨0, 0⟩, ⟨.content [⟨.text b!"t", ⟨n, 1, 2⟩⟩], ⟨10, 1, 1⟩⟩),
      (⟨0, 1⟩, ⟨.span .fromLeft, ⟨11, 1, 1⟩⟩)] false with centered := true }, ⟨10, 4, 0⟩⟩]⟩

example : (pageOf 3).Valid ∧ (pageOf 3).strictEq (fun u v => decide (u = v)) (pageOf 3) = true ∧
    (pageOf 3).strictEq (fun u v => decide (u = v)) (pageOf 4) = false ∧
    (pageOf 3).eq segOut (fun u v => decide (u = v)) (pageOf 4) = true := by
  refine ⟨?_, by decide +kernel, by decide +kernel, by decide +kernel⟩
  refine ⟨show List.Nodup _ by decide, ⟨show List.Nodup _ by decide, ?_, ?_, ?_⟩, trivial⟩
  · intro e he
    rcases List.mem_cons.1 he with rfl | he
    · trivial
    · rcases List.mem_cons.1 he with rfl | he
      · exact ⟨trivial, trivial⟩
      · cases he
  · exact ⟨by decide, .inr ⟨0, by decide, by decide⟩⟩
  · exact ⟨by decide, .inr ⟨1, by decide, by decide⟩⟩

end Vw
