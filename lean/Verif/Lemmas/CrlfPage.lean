import Verif.Lemmas.CrlfBlocks

/-!
# Pages of a text with other line endings
-/

namespace Vw
open P Scan
open Mv (All Opt Both)
namespace Cr

variable {M : Cr} {env : Env}

theorem somes {α : Type} {R : α → α → Prop} {xs ys : List (Option α)} (h : All (Opt R) xs ys) :
    All R (xs.filterMap id) (ys.filterMap id) := by
  induction h with
  | nil => exact .nil
  | cons h _ ih =>
    cases h with
    | none => exact ih
    | some h => exact .cons h ih

theorem Par.page : M.Par (fun x y : Page => All (M.Loc Blk) x.elements y.elements) (Vw.page env) (Vw.page env) :=
  map (allConsuming (many0 maybeBlock)) fun _ _ h => somes h

theorem rel_start (M : Cr) : M.Rel (Span.ofStr M.text) (Span.ofStr (crlf M.text)) := by
  refine Rel.mk' rfl rfl (crlfPos_zero _).symm ?_ rfl
  show (crlf M.text).length = M.text.length + (M.text.take M.text.length).count 10
  rw [crlf_length, List.take_length]

theorem regions {xs ys : List (Located Block)} (h : All (M.Loc Blk) xs ys) :
    ys.map (·.region) = xs.map (·.region.crlf M.text) := by
  induction h with
  | nil => rfl
  | cons h _ ih => rw [List.map_cons, List.map_cons, ih, h.2]

/-- The outcomes for a text and for the text with other line endings. -/
theorem parsePage_crlf (env : Env) {text : Str} (h : 13 ∉ text) :
    (⟨text, h⟩ : Cr).Two (⟨text, h⟩ : Cr).Rel (fun x y : Page => y.erase = x.erase ∧
      y.elements.map (·.region) = x.elements.map (·.region.crlf text)) (parsePage env text) (parsePage env (crlf text)) :=
  (Par.page (M := ⟨text, h⟩) (env := env) _ _ (rel_start ⟨text, h⟩)).mono fun _ _ h =>
    ⟨congrArg Page.mk (blks h), regions h⟩

end Cr
end Vw
