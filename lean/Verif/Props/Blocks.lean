import Verif.Lemmas.Fences
import Verif.Lemmas.Pieces
import Verif.Spec.Demo

/-!
# Properties of block elements (C09-C12)
-/

namespace Vw

set_option maxRecDepth 20000

/-! ## C09 -/

/-- C09: an element of a page is a header of level `n` iff the text at its
beginning is a header line of that level, and then it is exactly that line. -/
theorem C09_header_elements (env : Env) (text : Str) (s' : Span) (pg : Page)
    (h : parsePage env text = .ok s' pg) (x : Located Block) (hx : x ∈ pg.elements)
    (n : Nat) (c : Bool) :
    ((∃ xs, x.inner = .header xs n c) ↔ ∃ mid, HeaderForm (text.drop x.region.offset) n c mid) ∧
    ((∃ xs, x.inner = .header xs n c) → x.region.len = lineLen (text.drop x.region.offset)) :=
  element_header h hx n c

/-- A page with an indented header, and two lines that are not headers. -/
example : ∃ s pg, parsePage demo b!" == a = b ==\t\n== c =\n= =\n" = .ok s pg ∧
    pg.elements.length = 2 ∧
    ∃ x ∈ pg.elements, x.region.offset = 0 ∧ x.region.len = 14 := page_test _ (by decide +kernel)

example : HeaderForm b!" == a = b ==\t\n== c =\n= =\n" 2 true b!"a = b" :=
  ⟨by decide, ⟨b!" ", b!" ", b!" ", b!"\t", b!"\n== c =\n= =\n", by decide, by simp [AllBlank],
    by simp [AllBlank], by simp [AllBlank], by simp [AllBlank], .inr (.inl ⟨_, rfl⟩), by decide,
    by decide, by decide⟩, by decide, by decide, by decide, by decide⟩

/-- C09 for the element parser: on any text, `parse::<Header>` panics or it gives
a header of level `n` iff the text begins with a header line of that level. -/
theorem C09_header_syntax (env : Env) (text : Str) (n : Nat) (c : Bool) :
    (∃ r, header env (Span.ofStr text) = .panic r) ∨
    ((∃ s x xs, header env (Span.ofStr text) = .ok s x ∧ x.inner = .header xs n c) ↔
      ∃ mid, HeaderForm text n c mid) := by
  have hi := Ctx.ofText_in env text
  have hv := View.ofStr text
  by_cases hp : ∃ r, header env (Span.ofStr text) = .panic r
  · exact .inl hp
  refine .inr ⟨?_, ?_⟩
  · rintro ⟨s, x, xs, h, hx⟩
    obtain ⟨n', c', mid, xs', hf, he⟩ := header_inv (C := Ctx.ofText env text) hi hv h
    rw [hx] at he
    cases he
    exact ⟨mid, hf⟩
  · rintro ⟨mid, hf⟩
    rcases header_complete (C := Ctx.ofText env text) hi (AtBol.ofStr text) hv hf with
      h | ⟨s, x, xs, h, hx, -⟩
    · exact absurd h hp
    · exact ⟨s, x, xs, h, hx⟩

example : ((header demo (Span.ofStr b!"=a=")).test fun _ x => match x.inner with
    | .header _ n c => n == 1 && !c
    | _ => false) = true := by decide +kernel

/-! ## C10 -/

/-- C10: an element of a page is a divider iff the text at its beginning is a line
of four or more hyphens, and then it is exactly that line. -/
theorem C10_divider_elements (env : Env) (text : Str) (s' : Span) (pg : Page)
    (h : parsePage env text = .ok s' pg) (x : Located Block) (hx : x ∈ pg.elements) :
    (x.inner = .divider ↔ DividerForm (text.drop x.region.offset)) ∧
    (x.inner = .divider → x.region.len = lineLen (text.drop x.region.offset)) :=
  element_divider h hx

/-- A page with a divider and two lines that are not dividers. -/
example : ∃ s pg, parsePage demo b!"-----\n---\n ----\n" = .ok s pg ∧ pg.elements.length = 2 ∧
    ∃ x ∈ pg.elements, x.region.offset = 0 ∧ x.region.len = 6 := page_test _ (by decide +kernel)

example : DividerForm b!"-----\n---\n ----\n" :=
  ⟨5, b!"\n---\n ----\n", by decide, by decide, .inr (.inl ⟨_, rfl⟩)⟩

/-- C10 for the element parser: on any text, `parse::<Divider>` succeeds iff the
text begins with a line of four or more hyphens. -/
theorem C10_divider_syntax (text : Str) :
    (∃ s x, divider (Span.ofStr text) = .ok s x) ↔ DividerForm text := by
  constructor
  · rintro ⟨s, x, h⟩
    exact (divider_inv (View.ofStr text) h).1
  · intro h
    obtain ⟨n, -, hd⟩ := divider_run (AtBol.ofStr text) (View.ofStr text) h
    exact ⟨_, _, hd⟩

/-! ## C11 -/

/-- C11: the source of a code block of a page, in lists too, is an opening line indented
by `a`, lines none of which closes the block, and a closing line indented by `b`; the block
holds these lines in order, each (if ASCII) without its first `min a b` blanks. -/
theorem C11_code_lines (env : Env) (text : Str) (s' : Span) (pg : Page)
    (h : parsePage env text = .ok s' pg) (x : Located Block) (hx : x ∈ pg.blocks)
    (lang : Option Str) (md : Map) (ls : List Str) (hc : x.inner = .code lang md ls) :
    ∃ raw a b, FencedSource b!"{{{" b!"}}}" (x.region.source text) raw a b ∧
      All2 (fun l l' => (∀ c ∈ l, c < 128) → l' = dedent (min a b) l) raw ls := by
  have hb := (parsePage_block h hx).2.2
  rw [hc] at hb
  cases hb with
  | code _ _ _ h => exact h.2

/-- C11, the opening line: after the mark stand the language and the metadata of the block and
nothing else. Of two entries with the same name the block has the later one. -/
theorem C11_code_head (env : Env) (text : Str) (s' : Span) (pg : Page)
    (h : parsePage env text = .ok s' pg) (x : Located Block) (hx : x ∈ pg.blocks)
    (lang : Option Str) (md : Map) (ls : List Str) (hc : x.inner = .code lang md ls) :
    ∃ hd ps, HeadLine b!"{{{" hd (x.region.source text) ∧ CodeHead lang ps hd ∧
      ∀ k v, (k, v) ∈ md ↔ (ps.reverse.find? fun p => p.1 = k) = some (k, v) := by
  have hb := (parsePage_block h hx).2.2
  rw [hc] at hb
  cases hb with
  | code _ _ _ h =>
    obtain ⟨hd, h1, ps, rfl, h2⟩ := h.1
    exact ⟨hd, ps, h1, h2, Map.mem_collect ps⟩

/-- A code block in an item of a list, with a language and two entries of the same name. -/
example : ∃ s pg, parsePage demo b!"- i\n  {{{c k=\"v\" k=\"w\"\n   a\n  }}}\n" = .ok s pg ∧
    ∃ x ∈ pg.blocks, x.region.offset = 4 ∧ x.region.len = 30 ∧
      x.inner.code?.map (·.1) = some (some b!"c") ∧
      x.inner.code?.map (·.2.1) = some [(b!"k", b!"w")] ∧
      x.inner.code?.map (·.2.2) = some [b!" a"] :=
  page_test _ (by decide +kernel)

/-- C11, the converse: any lines between any two fences are recognised, if none is to
be dedented or all are ASCII. -/
theorem C11_code_recognised (text ws1 ws ws2 ws3 r : Str) (lang : Option Str)
    (ps : List (Str × Str)) (raw : List Str)
    (ht : text = ws1 ++ (b!"{{{" ++ (lang.getD [] ++ (headTail ps ws ++ 10 ::
      (raw.flatMap (· ++ b!"\n") ++ (ws2 ++ (b!"}}}" ++ (ws3 ++ r))))))))
    (hw1 : AllBlank ws1) (hws : AllBlank ws) (hws' : ws = [] ∨ ws.head? = some 32)
    (hl : ∀ l, lang = some l → l ≠ [] ∧ 10 ∉ l ∧ c!"=" ∉ l ∧ 32 ∉ l ∧ l.getLast? ≠ some 13)
    (hp : ∀ p ∈ ps, PairOk p)
    (hraw : ∀ l ∈ raw, 10 ∉ l ∧ l.getLast? ≠ some 13 ∧ ¬ ClosingLine b!"}}}" l)
    (hasc : min ws1.length ws2.length = 0 ∨ ∀ l ∈ raw, ∀ b ∈ l, b < 128)
    (hw2 : AllBlank ws2) (hw3 : AllBlank ws3) (hr : EolHere r) :
    ∃ s' x md, codeBlock (Span.ofStr text) = .ok s' x ∧
      x.inner = .code lang md (raw.map (dedent (min ws1.length ws2.length))) ∧
      ∀ k v, (k, v) ∈ md ↔ (ps.reverse.find? fun p => p.1 = k) = some (k, v) := by
  subst ht
  obtain ⟨x, h1, h2⟩ := code_run (View.ofStr _) hw1 hws hws' hl hp hraw hasc hw2 hw3 hr
  exact ⟨_, x, _, h1, h2, Map.mem_collect ps⟩

/-- A block with language, metadata and different indents; the second line has
fewer blanks than the fences and the third looks almost like a closing fence. -/
example : ∃ s pg, parsePage demo b!"  {{{c k=\"v\"\n    a\n b\n}}} x\n   }}}\n" = .ok s pg ∧
    ∃ x ∈ pg.elements, x.region.len = 35 ∧
      x.inner.code?.map (·.1) = some (some b!"c") ∧
      x.inner.code?.map (·.2.1) = some [(b!"k", b!"v")] ∧
      x.inner.code?.map (·.2.2) = some [b!"  a", b!"b", b!"}}} x"] :=
  page_test _ (by decide +kernel)

example : ∃ s' x md, codeBlock (Span.ofStr b!"  {{{c k=\"v\"\n    a\n b\n   }}}\n") = .ok s' x ∧
    x.inner = .code (some b!"c") md [b!"  a", b!"b"] ∧
    ∀ k v, (k, v) ∈ md ↔ (([(b!"k", b!"v")] : List (Str × Str)).reverse.find? fun p => p.1 = k) =
      some (k, v) :=
  C11_code_recognised _ b!"  " [] b!"   " [] b!"\n" (some b!"c") [(b!"k", b!"v")]
    [b!"    a", b!" b"] rfl (by simp [AllBlank]) (by simp [AllBlank]) (by decide) (by simp)
    (by simp [PairOk]) (by
      intro l hl
      refine ⟨?_, ?_, ?_⟩
      · revert l; decide
      · revert l; decide
      · rintro ⟨u, v, -, -, rfl⟩
        have : ∀ l ∈ [b!"    a", b!" b"], c!"}" ∉ l := by decide
        exact this _ hl (by simp)) (.inr (by decide)) (by simp [AllBlank]) (by simp [AllBlank]) (.inr (.inl ⟨_, rfl⟩))

/-! ## C12 -/

/-- C12: as for code blocks, and the environment is what stands between percent
signs in the opening line. -/
theorem C12_math_lines (env : Env) (text : Str) (s' : Span) (pg : Page)
    (h : parsePage env text = .ok s' pg) (x : Located Block) (hx : x ∈ pg.blocks)
    (ls : List Str) (en : Option Str) (hc : x.inner = .math ls en) :
    ∃ raw a b, FencedSource b!"{{$" b!"}}$" (x.region.source text) raw a b ∧
      All2 (fun l l' => (∀ c ∈ l, c < 128) → l' = dedent (min a b) l) raw ls ∧
      ∃ hd, HeadLine b!"{{$" hd (x.region.source text) ∧ MathHead en hd := by
  have hb := (parsePage_block h hx).2.2
  rw [hc] at hb
  cases hb with
  | math _ _ h =>
    obtain ⟨raw, a, b, h1, h2⟩ := h.2
    exact ⟨raw, a, b, h1, h2, h.1⟩

/-- C12, the converse: any lines between any two fences are recognised, if none is to
be dedented or all are ASCII. -/
theorem C12_math_recognised (text ws1 ws ws2 ws3 r : Str) (en : Option Str) (raw : List Str)
    (ht : text = ws1 ++ (b!"{{$" ++ (envText en ++ (ws ++ 10 ::
      (raw.flatMap (· ++ b!"\n") ++ (ws2 ++ (b!"}}$" ++ (ws3 ++ r))))))))
    (hw1 : AllBlank ws1) (hws : AllBlank ws)
    (he : ∀ e, en = some e → e ≠ [] ∧ 10 ∉ e ∧ c!"%" ∉ e)
    (hraw : ∀ l ∈ raw, 10 ∉ l ∧ l.getLast? ≠ some 13 ∧ ¬ ClosingLine b!"}}$" l)
    (hasc : min ws1.length ws2.length = 0 ∨ ∀ l ∈ raw, ∀ b ∈ l, b < 128)
    (hw2 : AllBlank ws2) (hw3 : AllBlank ws3) (hr : EolHere r) :
    ∃ s' x, mathBlock (Span.ofStr text) = .ok s' x ∧
      x.inner = .math (raw.map (dedent (min ws1.length ws2.length))) en := by
  subst ht
  obtain ⟨x, h1, h2⟩ := math_run (View.ofStr _) hw1 hws he hraw hasc hw2 hw3 hr
  exact ⟨_, x, h1, h2⟩

example : ∃ s pg, parsePage demo b!" {{$%align%\n  a\n}}}\n\n }}$" = .ok s pg ∧
    ∃ x ∈ pg.elements, x.inner.math? = some ([b!" a", b!"}}}", b!""], some b!"align") :=
  page_test _ (by decide +kernel)

example : ∃ s' x, mathBlock (Span.ofStr b!" {{$%e%\n  a\n }}$") = .ok s' x ∧
    x.inner = .math [b!" a"] (some b!"e") :=
  C12_math_recognised _ b!" " [] b!" " [] [] (some b!"e") [b!"  a"] rfl (by simp [AllBlank])
    (by simp [AllBlank]) (by simp) (by
      intro l hl
      refine ⟨?_, ?_, ?_⟩
      · revert l; decide
      · revert l; decide
      · rintro ⟨u, v, -, -, rfl⟩
        have : ∀ l ∈ [b!"  a"], c!"}" ∉ l := by decide
        exact this _ hl (by simp)) (.inr (by decide)) (by simp [AllBlank]) (by simp [AllBlank]) (.inl rfl)

end Vw
