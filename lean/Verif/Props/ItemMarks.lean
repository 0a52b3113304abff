import Verif.Lemmas.ItemMarks
import Verif.Spec.Demo

/-!
# C112: items have the marks that are written
-/

namespace Vw

set_option maxRecDepth 20000

/-- The kind of suffix that a prefix ends with. -/
def suffixOf (w : Str) : Suffix :=
  match w.reverse with
  | 32 :: 46 :: _ => .period
  | 32 :: 41 :: _ => .paren
  | _ => .none

theorem PrefixText.suffix {ty : ItemType} {su : Suffix} {w : Str} (h : PrefixText ty su w) : su = suffixOf w := by
  cases h <;> simp [suffixOf]

theorem PrefixText.blank {ty : ItemType} {su : Suffix} {w : Str} (h : PrefixText ty su w) :
    ∃ u, w = u ++ [32] ∧ 32 ∉ u := by
  cases h with
  | hyphen => exact ⟨b!"-", rfl, by decide⟩
  | asterisk => exact ⟨b!"*", rfl, by decide⟩
  | pound => exact ⟨b!"#", rfl, by decide⟩
  | @period _ w h =>
    refine ⟨w ++ b!".", by simp, ?_⟩
    intro h32
    have := h.bytes.2 32
    simp at h32
    have := this h32
    omega
  | @paren _ w h =>
    refine ⟨w ++ b!")", by simp, ?_⟩
    intro h32
    have := h.bytes.2 32
    simp at h32
    have := this h32
    omega

/-- Two prefixes of items at the same place are the same. -/
theorem prefix_unique {ty ty' : ItemType} {su su' : Suffix} {w w' t : Str} (h : PrefixText ty su w)
    (h' : PrefixText ty' su' w') (hw : w <+: t) (hw' : w' <+: t) : w = w' ∧ su = su' := by
  have e : w = w' := by
    have key : ∀ {u u' t : Str}, 32 ∉ u → 32 ∉ u' → u ++ [32] <+: t → u' ++ [32] <+: t → u = u' := by
      intro u u' t hu hu' h1 h2
      obtain ⟨a, e1⟩ := h1
      obtain ⟨b, e2⟩ := h2
      rw [← e2, List.append_assoc, List.append_assoc] at e1
      rcases List.append_eq_append_iff.1 e1 with ⟨z, e3, e4⟩ | ⟨z, e3, e4⟩
      · cases z with
        | nil => simpa using e3.symm
        | cons x z =>
          simp at e4
          rw [e3, ← e4.1] at hu'
          exact absurd (by simp) hu'
      · cases z with
        | nil => simpa using e3
        | cons x z =>
          simp at e4
          rw [e3, ← e4.1] at hu
          exact absurd (by simp) hu
    obtain ⟨u, rfl, hu⟩ := h.blank
    obtain ⟨u', rfl, hu'⟩ := h'.blank
    rw [key hu hu' hw hw']
  exact ⟨e, by rw [h.suffix, h'.suffix, e]⟩

/-- Every item of a list, at whatever depth, begins with the prefix of an item.  Whatever the prefix
that stands there, the item has its kind of suffix, and it has the mark for what is to be done that is
written after the prefix, and no mark if none is written there. -/
theorem C112_marks {env : Env} {text : Str} {s' : Span} {pg : Page} (h : parsePage env text = .ok s' pg)
    {y : Located Block} (hy : y ∈ pg.blocks) {items : List (Located ListItem)} (hi : y.inner = .list items)
    {it : Located ListItem} (hit : it ∈ items) :
    (∃ ty su w, PrefixText ty su w ∧ w <+: text.drop it.region.offset) ∧
    ∀ ty su w, PrefixText ty su w → w <+: text.drop it.region.offset →
      it.inner.suffix = su ∧
      ∀ td, it.inner.todo = some td ↔ todoText (some td) <+: text.drop (it.region.offset + w.length) := by
  obtain ⟨k, s, s1, n, h1, h2, h3, h4⟩ := page_lists h hy hi
  obtain ⟨ty, w, hp, hw, ht⟩ := listOf_marked h1 h2 h3 h4 items hi it hit
  refine ⟨⟨ty, _, w, hp, hw⟩, fun ty' su' w' hp' hw' => ?_⟩
  obtain ⟨rfl, e⟩ := prefix_unique hp hp' hw hw'
  exact ⟨e, ht⟩

/-- Marks of all items of the lists. -/
def itemMarks (bs : List (Located Block)) : List (Option Todo) :=
  bs.flatMap fun y => match y.inner with
    | .list items => items.map (·.inner.todo)
    | _ => []

example : ∃ s pg, parsePage demo b!"- [ ] a\n- [X] b\n  1. [.] c\n  2. [x] d\n- [-]e\n" = .ok s pg ∧
    itemMarks pg.blocks = [some .incomplete, some .complete, none, some .partial1, none] :=
  page_test (text := b!"- [ ] a\n- [X] b\n  1. [.] c\n  2. [x] d\n- [-]e\n")
    (fun pg => itemMarks pg.blocks = [some .incomplete, some .complete, none, some .partial1, none]) (by decide +kernel)

end Vw
