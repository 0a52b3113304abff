import Verif.Lemmas.Hash
import Verif.Props.Equality

/-!
# Equal elements hash alike (C79)
-/

namespace Vw

/-- C79: inline elements that are `==` feed the same data to a hasher, wherever they stand and in
whatever order their properties are stored; so do containers of them and table cells. The keys of
the properties are distinct, as in any hash map, and the library's URIs are assumed to keep the
same law. -/
theorem C79_inline {uh : Uri → List Fed} {ue : Uri → Uri → Bool} (hu : ∀ u v, ue u v = true → uh u = uh v) :
    (∀ x y : Inline, x.Valid → y.Valid → x.eqv false ue y = true → x.feed uh = y.feed uh) ∧
    (∀ xs ys : Inlines, Inline.Valids xs → Inline.Valids ys → Inline.eqvs false ue xs ys = true →
      feedInlines uh xs = feedInlines uh ys) ∧
    (∀ x y : Cell, x.Valid → y.Valid → x.eqv false ue y = true → x.feed uh = y.feed uh) :=
  ⟨inline_feed hu, fun _ _ => container_feed hu, fun _ _ => cell_feed hu⟩

/-- C79, for the blocks that can be hashed. -/
theorem C79_block {uh : Uri → List Fed} {ue : Uri → Uri → Bool} (hu : ∀ u v, ue u v = true → uh u = uh v)
    (L : OutLib) (x y : Block) (hx : x.Valid) (hy : y.Valid) (h : x.eq L ue y = true) : x.feed uh = y.feed uh :=
  block_feed hu hx hy h

/-- C79, for terms, definitions and bundles of definitions, which are compared as displayed. -/
theorem C79_definition (L : OutLib) :
    (∀ x y : Inlines, valueEq L x y = true → feedValue L x = feedValue L y) ∧
    (∀ xs ys : List (Located Inlines), vecEq (locEq false (valueEq L)) xs ys = true →
      feedBundle L xs = feedBundle L ys) := by
  refine ⟨fun x y h => ?_, fun _ _ => bundle_feed⟩
  simp only [valueEq, decide_eq_true_eq] at h
  simp only [feedValue, h]

/-- A link with two properties, stored in either order. -/
def twoProps (m : Map) : Inline :=
  .link (.transclusion ⟨⟨none, none, false, [b!"a"], none, none⟩, some (.text b!"d"), some m⟩)

/-- The hypotheses can be met: the properties of two links may be stored in different orders. -/
example : (twoProps [(b!"k", b!"1"), (b!"j", b!"2")]).Valid ∧ (twoProps [(b!"j", b!"2"), (b!"k", b!"1")]).Valid ∧
    (twoProps [(b!"k", b!"1"), (b!"j", b!"2")]).eqv false (fun u v => decide (u = v))
      (twoProps [(b!"j", b!"2"), (b!"k", b!"1")]) = true ∧
    twoProps [(b!"k", b!"1"), (b!"j", b!"2")] ≠ twoProps [(b!"j", b!"2"), (b!"k", b!"1")] := by
  refine ⟨⟨?_, ?_⟩, ⟨?_, ?_⟩, by decide +kernel, by simp [twoProps]⟩
  · intro d h; cases h; exact True.intro
  · intro m h; cases h; simp [DistinctKeys]
  · intro d h; cases h; exact True.intro
  · intro m h; cases h; simp [DistinctKeys]

/-- Headers at different places. -/
example : (Block.header [⟨.text b!"x", ⟨2, 1, 1⟩⟩] 1 false).eq segOut (fun u v => decide (u = v))
    (Block.header [⟨.text b!"x", ⟨9, 1, 1⟩⟩] 1 false) = true := by decide +kernel

/-- A bold text and the text that it is displayed as are equal definitions. -/
example : valueEq segOut [⟨.decorated .bold [⟨.text b!"x", ⟨1, 1, 2⟩⟩], ⟨0, 3, 1⟩⟩] [⟨.text b!"x", ⟨0, 1, 1⟩⟩] = true := by
  decide +kernel

end Vw
