import Verif.Lemmas.PlainStarts
import Verif.Props.BlockStarts
import Verif.Spec.Demo

/-!
# C105: lines that begin no block are text
-/

namespace Vw

set_option maxRecDepth 20000

/-- Every line that begins no header, divider, placeholder, definition, list item, table, quote and
fenced block is in a paragraph, at whatever depth and however the lines before and after it look,
unless it is inside a code block, a math block or a comment, or it begins with four blanks and is in
a quote. -/
theorem C105_plain {env : Env} {text : Str} {s' : Span} {pg : Page}
    (h : parsePage env text = .ok s' pg) {q : Nat} (hq : LineStart text q) (hf : PlainForm (text.drop q)) :
    InParagraph pg.blocks q ∨ Verbatim pg.blocks pg.inlines q ∨ InQuote text pg.blocks q :=
  plain_found h hq hf

/-- A line that does not begin with blanks and begins no block is in a paragraph or in a code block,
a math block or a comment. -/
theorem C105_plain_flush {env : Env} {text : Str} {s' : Span} {pg : Page}
    (h : parsePage env text = .ok s' pg) {q : Nat} (hq : LineStart text q) (hf : PlainForm (text.drop q))
    {b : Byte} (hb : text[q]? = some b) (hn : ¬ (b = 32 ∨ b = 9)) :
    InParagraph pg.blocks q ∨ Verbatim pg.blocks pg.inlines q := by
  rcases plain_found h hq hf with h | h | ⟨_, _, _, _, _, w, r, e, hw, hl⟩
  · exact .inl h
  · exact .inr h
  · exfalso
    cases w with
    | nil => simp at hl
    | cons c w =>
      have := congrArg (fun l => l[0]?) e
      simp only [List.getElem?_drop, Nat.add_zero, List.cons_append, List.getElem?_cons_zero] at this
      rw [hb] at this
      cases this
      exact hn (hw b (by simp))

/-- Whether a block is a paragraph. -/
def Block.isParagraph : Block → Bool
  | .paragraph _ => true
  | _ => false

/-- A text without two colons has no line with two colons. -/
theorem no_colonLine {text : Str} (h : c!":" ∉ text) : ¬ ColonLine text 0 := by
  rintro ⟨w, r, e, -⟩
  rw [List.drop_zero] at e
  exact h (by rw [e]; simp)

/-- A line of a word is plain. -/
theorem plainForm_word {c : Byte} {w r : Str} (hc : 97 ≤ c ∧ c ≤ 122) (h1 : 32 ∉ c :: w ++ r) (h2 : c!":" ∉ c :: w ++ r)
    {ws : Str} (hw : AllBlank ws) : PlainForm (ws ++ (c :: w ++ r)) := by
  refine ⟨⟨ws, c, w ++ r, rfl, hw, by omega, by omega, by omega, ?_, ?_, ?_, ?_, ?_, ?_⟩, ?_, ?_, ?_⟩
  · show c ≠ 124; omega
  · show c ≠ 62; omega
  · rintro ⟨t, e⟩; have := (List.cons.inj e).1; omega
  · rintro ⟨t, e⟩; have := (List.cons.inj e).1; omega
  · intro e; have : c = 37 := e; omega
  · rintro ty su v hp ⟨t, e⟩
    have : 32 ∈ v := by cases hp <;> simp
    exact h1 (by rw [List.cons_append, ← e]; simp [this])
  · intro n cen mid hf
    obtain ⟨ws1, b1, b2, ws', r', e, hw1, -⟩ := hf.form
    obtain ⟨m, rfl⟩ : ∃ m, n = m + 1 := ⟨n - 1, by have := hf.level; omega⟩
    have := firstByte_of (C := Ctx.ofText demo (ws ++ (c :: w ++ r))) (q := 0) (ws := ws) (x := c) rfl hw (by omega)
    have h' := firstByte_of (C := Ctx.ofText demo (ws ++ (c :: w ++ r))) (q := 0) (ws := ws1) (x := c!"=") e hw1 (by decide)
    have := (this.1.uniq h'.1).2
    omega
  · rintro ⟨n, r', hn, e', -⟩
    obtain ⟨m, rfl⟩ : ∃ m, n = m + 1 := ⟨n - 1, by omega⟩
    cases ws with
    | nil => have := (List.cons.inj e').1; omega
    | cons b ws =>
      have := (List.cons.inj e').1
      have := hw b (by simp)
      omega
  · refine no_colonLine ?_
    intro hm
    rcases List.mem_append.1 hm with hm | hm
    · have := hw _ hm; omega
    · exact h2 hm

/-- A line after a list and a line in an item are in paragraphs. -/
example : ∃ s pg, parsePage demo b!"- a\n\n xyz\n\nuv\n" = .ok s pg ∧
    LineStart b!"- a\n\n xyz\n\nuv\n" 5 ∧ PlainForm (b!"- a\n\n xyz\n\nuv\n".drop 5) ∧
    LineStart b!"- a\n\n xyz\n\nuv\n" 11 ∧ PlainForm (b!"- a\n\n xyz\n\nuv\n".drop 11) ∧
    blockOver Block.isParagraph pg.blocks 5 = true ∧ blockOver Block.isParagraph pg.blocks 11 = true := by
  obtain ⟨s, pg, h, h'⟩ := page_test (text := b!"- a\n\n xyz\n\nuv\n")
    (fun pg => blockOver Block.isParagraph pg.blocks 5 && blockOver Block.isParagraph pg.blocks 11) (by decide +kernel)
  rw [Bool.and_eq_true] at h'
  exact ⟨s, pg, h, .inr rfl, plainForm_word (c := c!"x") (w := b!"yz") (r := b!"\n\nuv\n") (ws := b!" ")
    (by decide) (by decide) (by decide) (by simp [AllBlank]), .inr rfl,
    plainForm_word (c := c!"u") (w := b!"v") (r := b!"\n") (ws := [])
    (by decide) (by decide) (by decide) (by simp [AllBlank]), h'⟩

end Vw
