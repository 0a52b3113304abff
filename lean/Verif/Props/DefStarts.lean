import Verif.Props.DefEntries
import Verif.Props.BlockStarts

/-!
# C103: definitions are found wherever they stand
-/

namespace Vw

set_option maxRecDepth 20000

/-- A line with a colon is no divider. -/
theorem colon_no_divider {text A B : Str} (e : text = A ++ 58 :: B) (hA : 10 ∉ A) : ¬ DividerForm text := by
  rintro ⟨n, r, hn, e', hr⟩
  have h1 : text[A.length]? = some 58 := by rw [e]; simp
  have hlow : ∀ i, i < n → text[i]? = some c!"-" := by
    intro i hi
    rw [e', List.getElem?_append_left (by simpa using hi)]
    simp [hi]
  have hr0 : ∀ i, text[n + i]? = r[i]? := by
    intro i
    rw [e', List.getElem?_append_right (by simp)]
    simp
  have hin : ∀ i, i < A.length → text[i]? = some 10 → False := by
    intro i hi h
    rw [e, List.getElem?_append_left hi] at h
    exact hA (List.mem_of_getElem? h)
  rcases Nat.lt_or_ge A.length n with h | h
  · rw [hlow _ h] at h1; cases h1
  obtain ⟨m, hm⟩ := Nat.exists_eq_add_of_le h
  rw [hm, hr0] at h1
  rcases hr with rfl | ⟨t, rfl⟩ | ⟨t, rfl⟩
  · simp at h1
  · cases m with
    | zero => simp at h1
    | succ m => exact hin n (by omega) (by have := hr0 0; simpa using this)
  · cases m with
    | zero => simp at h1
    | succ m =>
      cases m with
      | zero => simp at h1
      | succ m => exact hin (n + 1) (by omega) (by have := hr0 1; simpa using this)

/-- Every line with a term, two colons, blanks and a definition is in a definition list, however the
lines before and after it look, unless it is inside a code block, a math block or a comment, or it
begins with four blanks and is in a quote.  The line is an entry of the list: its term is what is
before the colons, its first definition is what is after them, and its other definitions are the lines
after it that begin with two colons.  At the top level of the page these are all such lines.  (The full
claim has only the first exception, and no condition on how the term begins.) -/
theorem C103_definition_partial {env : Env} {text : Str} {s' : Span} {pg : Page}
    (h : parsePage env text = .ok s' pg) {q : Nat}
    (hq : LineStart text q) (hf : DefForm (text.drop q)) :
    (∃ y ∈ pg.blocks, y.region.offset ≤ q ∧ q < y.region.offset + y.region.len ∧ ∃ xs, y.inner = .defs xs ∧
      ∃ e ∈ xs, ∃ b, EntryAt text b q e ∧ y.region.offset + y.region.len ≤ b ∧
        (y ∈ pg.elements → b = text.length)) ∨
      Verbatim pg.blocks pg.inlines q ∨ InQuote text pg.blocks q := by
  obtain ⟨ws, t, sp, d, r, e, hw, hsp, -, ht, ⟨c, hc, h1, h2, -⟩, -, -⟩ := id hf
  have hd := colon_no_divider (text := text.drop q) (A := ws ++ t) (B := c!":" :: (sp ++ (d ++ r))) (by rw [e, List.append_assoc]; rfl) (by
    simp only [List.mem_append, not_or]; exact ⟨hw.no10, ht.line⟩)
  have hx : FirstByte (Ctx.ofText env text) q (q + ws.length) c := by
    cases t with
    | nil => cases hc
    | cons c' t =>
      simp at hc
      subst hc
      exact (firstByte_of (C := Ctx.ofText env text) (q := q) (ws := ws) (x := c') e hw (by omega)).1
  rcases block_found (defKind (Ctx.ofText env text)) h ⟨hq, hf⟩ hx
    (fun h => ht.header (h ▸ hc)) h2 hd with
    ⟨y, hy, hb, l1, l2⟩ | h' | ⟨y, hy, l1, l2, hb, -⟩ | h'
  · obtain ⟨xs, hi⟩ := hb
    exact .inl ⟨y, hy, l1, l2, xs, hi, C111_entry h hy hi hq hf l1 l2⟩
  · exact .inr (.inl h')
  · obtain ⟨xs, hi⟩ := hb
    exact .inl ⟨y, hy, l1, l2, xs, hi, C111_entry h hy hi hq hf l1 l2⟩
  · exact .inr (.inr h')

/-- Whether a block is a definition list. -/
def Block.isDefs : Block → Bool
  | .defs _ => true
  | _ => false

/-- A definition with four blanks before it after an indented quote is part of the quote. -/
theorem C103_blanks_violated : ∃ s pg, parsePage demo b!"    qu\n    a:: b\n" = .ok s pg ∧
    LineStart b!"    qu\n    a:: b\n" 7 ∧ DefForm ((b!"    qu\n    a:: b\n" : Str).drop 7) ∧
    blockOver Block.isDefs pg.blocks 7 = false ∧ verbatimAny pg = false := by
  obtain ⟨s, pg, h, h'⟩ := page_test (text := b!"    qu\n    a:: b\n")
    (fun pg => blockOver Block.isDefs pg.blocks 7 = false ∧ verbatimAny pg = false) (by decide +kernel)
  exact ⟨s, pg, h, .inr rfl, ⟨b!"    ", b!"a", b!" ", b!"b", [10], rfl, by simp [AllBlank], by simp [AllBlank], by simp,
    termText_word (by decide) (by simp), ⟨_, rfl, by decide, by decide, by decide, by decide⟩, ⟨_, rfl, by decide⟩,
    ⟨by decide, .inr (.inl ⟨_, rfl, by decide⟩)⟩⟩, h'⟩

/-- A term that begins like a list item is a definition by itself, but an item after an item; the same
goes for rows and quotes. -/
theorem C103_other_violated :
    (∃ s pg, parsePage demo b!"- a :: b\n" = .ok s pg ∧ blockOver Block.isDefs pg.blocks 0 = true) ∧
    (∃ s pg, parsePage demo b!"- x\n- a :: b\n" = .ok s pg ∧ blockOver Block.isDefs pg.blocks 4 = false) ∧
    (∃ s pg, parsePage demo b!"|a :: b|\n" = .ok s pg ∧ blockOver Block.isDefs pg.blocks 0 = true) ∧
    (∃ s pg, parsePage demo b!"|x|\n|a :: b|\n" = .ok s pg ∧ blockOver Block.isDefs pg.blocks 4 = false) ∧
    (∃ s pg, parsePage demo b!"> a :: b\n" = .ok s pg ∧ blockOver Block.isDefs pg.blocks 0 = true) ∧
    ∃ s pg, parsePage demo b!"> x\n> a :: b\n" = .ok s pg ∧ blockOver Block.isDefs pg.blocks 4 = false :=
  ⟨page_test _ (by decide +kernel), page_test _ (by decide +kernel), page_test _ (by decide +kernel),
    page_test _ (by decide +kernel), page_test _ (by decide +kernel), page_test _ (by decide +kernel)⟩

/-- A definition in a list item after a paragraph. -/
example : ∃ s pg, parsePage demo b!"p *a\n- x\n  y\n  te::  d :: e\n" = .ok s pg ∧
    DefForm ((b!"p *a\n- x\n  y\n  te::  d :: e\n" : Str).drop 13) ∧
    LineStart b!"p *a\n- x\n  y\n  te::  d :: e\n" 13 ∧ blockOver Block.isDefs pg.blocks 13 = true := by
  obtain ⟨s, pg, h, h'⟩ := page_test (text := b!"p *a\n- x\n  y\n  te::  d :: e\n")
    (fun pg => blockOver Block.isDefs pg.blocks 13 = true) (by decide +kernel)
  exact ⟨s, pg, h, ⟨b!"  ", b!"te", b!"  ", b!"d :: e", [10], rfl, by simp [AllBlank], by simp [AllBlank], by simp,
    termText_word (by decide) (by simp), ⟨_, rfl, by decide, by decide, by decide, by decide⟩, ⟨_, rfl, by decide⟩,
    ⟨by decide, .inr (.inl ⟨_, rfl, by decide⟩)⟩⟩, .inr rfl, h'⟩

end Vw
