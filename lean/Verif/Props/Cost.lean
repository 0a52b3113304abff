import Verif.Lemmas.CostUp
import Verif.Props.Parse

/-!
# C90: how often lists are read

The work done for a text ought to be bounded by a small multiple of its length.
What is counted is how often the reader of lists is entered. It is entered once
more than needed for each list that follows a paragraph within an item, since
the end of that paragraph is found by reading the list and throwing it away
(the note in paragraphs.rs:55-56 says so), and this doubles on each level.
-/

namespace Vw

/-- Counting does not change what is read. -/
theorem C90_counted (env : Env) (text : Str) : (parsePageK env text).1 = parsePage env text := parsePageK_fst env text

/-- C90: a list is read at least once for each list on the page, and twice as
often for each paragraph just before it within an item. -/
theorem C90_lower_bound (env : Env) (text : Str) (s : Span) (pg : Page) (h : parsePage env text = .ok s pg) :
    pg.weight ≤ (parsePageK env text).2 := parsePageLow h

/-- C90 does not hold: on `n` lines, each an item one deeper than the one
before, the reader of lists is entered at least `2 ^ n - 1` times. -/
theorem C90_violated (env : Env) (hs : env.SchemeSound) (n : Nat) (h0 : 0 < n) (hn : n * (n + 7) < 131066) :
    2 * (stairs 0 n).length = n * (n + 7) ∧
      (∃ s pg, parsePage env (stairs 0 n) = .ok s pg ∧ pg.weight + 1 = 2 ^ n) ∧
      2 ^ n ≤ (parsePageK env (stairs 0 n)).2 + 1 := by
  have hl := stairs_length n 0
  simp only [Nat.mul_zero, Nat.zero_add] at hl
  cases n with
  | zero => omega
  | succ n =>
    have hn2 : 2 * n ≤ 65532 := by
      by_cases h : n < 1000
      · omega
      · have : 1001 * 1001 ≤ (n + 1) * (n + 1 + 7) := Nat.mul_le_mul (by omega) (by omega)
        omega
    have hc : Calm env (stairs 0 (n + 1)) := by
      refine Calm.ascii (fun b hb => ?_) (fun hb => ?_) (by omega)
      · have := stairs_bytes _ _ b hb
        simp only [List.mem_cons, List.not_mem_nil, or_false] at this
        omega
      · have := stairs_bytes _ _ _ hb
        revert this
        decide
    obtain ⟨s, pg, hp, -⟩ := C03_no_panic_partial env hs _ hc
    have hw := stairs_page env hs n hn2 s pg hp
    have hb := parsePageLow hp
    exact ⟨hl, ⟨s, pg, hp, hw⟩, by omega⟩

/-- Twenty lines, and as many as fit into 64 KiB. -/
example : (20 * (20 + 7) < 131066) ∧ (358 * (358 + 7) < 131066) ∧
    stairs 0 3 = b!"- a\n - a\n  - a\n" ∧ (parsePageK demo (stairs 0 3)).2 ≥ 7 ∧ (parsePageK demo (stairs 0 4)).2 ≥ 15 := by
  decide +kernel

/-- Siblings count once each, and a list after a paragraph twice. -/
example : (parsePage demo b!"- a\n- b\n\n1. c\n   - d\n").test (fun _ p => p.weight == 4) ∧
    (parsePageK demo b!"- a\n- b\n\n1. c\n   - d\n").2 ≥ 4 := by
  decide +kernel

/-- C90 for texts no line of which begins as a list item does: the reader of
lists is entered at most three times for each byte, and twice at the end. -/
theorem C90_flat_partial (env : Env) (text : Str) (hN : NoItems text) (s : Span) (pg : Page)
    (h : parsePage env text = .ok s pg) : (parsePageK env text).2 ≤ 3 * text.length + 2 := parsePage_flat hN h

/-- A text without blanks has no items. -/
theorem NoItems.of_no_blank {text : Str} (h : 32 ∉ text) : NoItems text := by
  rintro a b rfl - ws ty su w r - hp rfl
  refine h ?_
  have : 32 ∈ w := by cases hp <;> simp
  simp [this]

example : NoItems b!"one\ntwo\n\n=three=\n-\n" ∧
    (parsePage demo b!"one\ntwo\n\n=three=\n-\n").test (fun _ p => p.elements.length == 3) :=
  ⟨.of_no_blank (by decide), by decide +kernel⟩

end Vw
