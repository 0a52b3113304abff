import Verif.Lemmas.CrlfPage
import Verif.Props.Parse

/-!
# C93: the line endings of a text do not matter
-/

namespace Vw
open P Scan

/-! ## C93 -/

/-- C93: a text whose lines end with `\r\n` has the page of the text whose lines end with `\n`, its elements are
at the places the line endings move them to, and it makes the parser panic exactly if the other text does. -/
theorem C93_line_endings {env : Env} {text : Str} (h : 13 ∉ text) :
    (∀ s pg, parsePage env text = .ok s pg → ∃ s' pg', parsePage env (crlf text) = .ok s' pg' ∧
      pg'.erase = pg.erase ∧ pg'.elements.map (·.region) = pg.elements.map (·.region.crlf text)) ∧
    (∀ s' pg', parsePage env (crlf text) = .ok s' pg' → ∃ s pg, parsePage env text = .ok s pg ∧
      pg'.erase = pg.erase ∧ pg'.elements.map (·.region) = pg.elements.map (·.region.crlf text)) ∧
    ∀ r, parsePage env (crlf text) = .panic r ↔ parsePage env text = .panic r := by
  have ht := Cr.parsePage_crlf env h
  have d1 := C01_parse_terminates env text
  have d2 := C01_parse_terminates env (crlf text)
  revert ht d1 d2
  generalize parsePage env (crlf text) = y
  generalize parsePage env text = x
  intro ht d1 d2
  cases ht with
  | @ok s t a b h1 h2 =>
    refine ⟨?_, ?_, fun r => ⟨fun e => (by cases e), fun e => (by cases e)⟩⟩
    · intro s1 pg e; cases e; exact ⟨_, _, rfl, h2⟩
    · intro s1 pg e; cases e; exact ⟨_, _, rfl, h2⟩
  | err => exact ⟨fun _ _ e => (by cases e), fun _ _ e => (by cases e), fun r => ⟨fun e => (by cases e), fun e => (by cases e)⟩⟩
  | panic => exact ⟨fun _ _ e => (by cases e), fun _ _ e => (by cases e), fun r => ⟨fun e => e, fun e => e⟩⟩
  | left => exact (d1 rfl).elim
  | right => exact (d2 rfl).elim

/-- C93: the elements of the text with `\r\n` hold the same bytes of the text, with `\r\n` for line endings. -/
theorem C93_same_bytes {text : Str} {r : Region} (hr : r.offset + r.len ≤ text.length) :
    ((crlf text).drop (r.crlf text).offset).take (r.crlf text).len = crlf ((text.drop r.offset).take r.len) ∧
      (r.crlf text).depth = r.depth := by
  refine ⟨?_, rfl⟩
  have h1 := crlf_drop (text.take (r.offset + r.len)) r.offset
  have h2 := crlf_take text (r.offset + r.len)
  have h3 : crlfPos (text.take (r.offset + r.len)) r.offset = crlfPos text r.offset := by
    unfold crlfPos
    rw [List.take_take, Nat.min_eq_left (by omega)]
  rw [← h2, h3, List.drop_take, List.drop_take, Nat.add_sub_cancel_left] at h1
  exact h1

/-- The hypotheses are met, and the places do move. -/
example : 13 ∉ sample ∧ (∃ s pg, parsePage demo sample = .ok s pg ∧ pg.elements.length = 6) ∧
    ∃ s pg, parsePage demo (crlf sample) = .ok s pg ∧ pg.elements.length = 6 ∧
      (pg.elements.map (·.region.offset)) = [0, 12, 40, 52, 64, 73] := by
  refine ⟨by decide +kernel, ?_, page_test _ (by decide +kernel)⟩
  obtain ⟨s, pg, h, h', _⟩ := sample_ok
  exact ⟨s, pg, h, h'⟩

end Vw
