import Verif.Lemmas.FenceStarts
import Verif.Props.BlockStarts

/-!
# C102: blocks of code and of formulas are found wherever they stand
-/

namespace Vw

set_option maxRecDepth 20000

/-- A line whose first byte is a brace is no divider. -/
theorem brace_no_divider {env : Env} {text : Str} {q : Nat} {ws r : Str}
    (e : text.drop q = ws ++ c!"{" :: r) (hw : AllBlank ws) :
    FirstByte (Ctx.ofText env text) q (q + ws.length) c!"{" ∧ ¬ DividerForm (text.drop q) := by
  have h1 := (firstByte_of (C := Ctx.ofText env text) (q := q) (ws := ws) (x := c!"{") e hw (by decide)).1
  refine ⟨h1, ?_⟩
  rintro ⟨n, r', hn, e', -⟩
  obtain ⟨m, rfl⟩ : ∃ m, n = m + 1 := ⟨n - 1, by omega⟩
  have := (firstByte_of (C := Ctx.ofText env text) (q := q) (ws := []) (x := c!"-") e' (by simp [AllBlank]) (by decide)).1
  exact absurd (h1.uniq this).2 (by decide)

theorem Indented.blank {env : Env} {text : Str} {q : Nat} (h : Indented (Ctx.ofText env text) q) :
    text[q]? = some 32 ∨ text[q]? = some 9 := by
  obtain ⟨b, hb, hs⟩ := h
  have hb : text[q]? = some b := hb
  rw [hb]
  unfold isSpace at hs
  simp at hs
  simpa using hs

/-- Lines that are written as a block of code are such a block of the page with that language, these
metadata and these lines, however the lines before and after it look, unless the first of them
is inside another code block, a math block or a comment, or has two colons and belongs to a
definition list, or has four blanks and is in a quote, or is indented and in a list.  (The full
claim has only the first exception.) -/
theorem C102_code_partial {env : Env} {text : Str} {s' : Span} {pg : Page}
    (h : parsePage env text = .ok s' pg) {q : Nat} {lang : Option Str} {ps : List (Str × Str)} {ls : List Str}
    (hq : LineStart text q) (hf : CodeForm (text.drop q) lang ps ls) :
    (∃ y ∈ pg.blocks, y.region.offset = q ∧ CodeIs y.inner lang ps ls) ∨
      Verbatim pg.blocks pg.inlines q ∨
      (∃ y ∈ pg.blocks, y.region.offset ≤ q ∧ q < y.region.offset + y.region.len ∧
        (∃ xs, y.inner = .defs xs) ∧ ColonLine text q) ∨ InQuote text pg.blocks q ∨
      InList text pg.blocks q := by
  obtain ⟨ws, _, _, _, _, _, e, hw, _⟩ := id hf
  obtain ⟨h1, hd⟩ := brace_no_divider (env := env) e hw
  rcases block_found (codeKind (Ctx.ofText env text)) h ⟨hq, _, _, _, hf⟩ h1 (by decide) (by decide) hd with
    ⟨y, hy, ⟨ho, hc⟩ | ⟨l1, l2, hl, hi⟩⟩ | h' | h' | h'
  · exact .inl ⟨y, hy, ho, hc _ _ _ hf⟩
  · exact .inr (.inr (.inr (.inr ⟨y, hy, l1, l2, hl, hi.blank⟩)))
  · exact .inr (.inl h')
  · exact .inr (.inr (.inl h'))
  · exact .inr (.inr (.inr (.inl h')))

/-- As for code, lines that are written as a block of formulas are such a block of the page with
that environment and these lines.  (The full claim has only the first exception.) -/
theorem C102_math_partial {env : Env} {text : Str} {s' : Span} {pg : Page}
    (h : parsePage env text = .ok s' pg) {q : Nat} {en : Option Str} {ls : List Str}
    (hq : LineStart text q) (hf : MathForm (text.drop q) en ls) :
    (∃ y ∈ pg.blocks, y.region.offset = q ∧ y.inner = .math ls en) ∨
      Verbatim pg.blocks pg.inlines q ∨
      (∃ y ∈ pg.blocks, y.region.offset ≤ q ∧ q < y.region.offset + y.region.len ∧
        (∃ xs, y.inner = .defs xs) ∧ ColonLine text q) ∨ InQuote text pg.blocks q ∨
      InList text pg.blocks q := by
  obtain ⟨ws, _, _, _, _, _, e, hw, _⟩ := id hf
  obtain ⟨h1, hd⟩ := brace_no_divider (env := env) e hw
  rcases block_found (mathKind (Ctx.ofText env text)) h ⟨hq, _, _, hf⟩ h1 (by decide) (by decide) hd with
    ⟨y, hy, ⟨ho, hc⟩ | ⟨l1, l2, hl, hi⟩⟩ | h' | h' | h'
  · exact .inl ⟨y, hy, ho, hc _ _ hf⟩
  · exact .inr (.inr (.inr (.inr ⟨y, hy, l1, l2, hl, hi.blank⟩)))
  · exact .inr (.inl h')
  · exact .inr (.inr (.inl h'))
  · exact .inr (.inr (.inr (.inl h')))

/-- A block of code whose metadata have two colons is read as a definition. -/
theorem C102_colons_violated : ∃ s pg, parsePage demo b!"{{{c k=\"a :: b\"\nx\n}}}\n" = .ok s pg ∧
    LineStart b!"{{{c k=\"a :: b\"\nx\n}}}\n" 0 ∧
    CodeForm b!"{{{c k=\"a :: b\"\nx\n}}}\n" (some b!"c") [(b!"k", b!"a :: b")] [b!"x"] ∧
    verbatimAny pg = false := by
  obtain ⟨s, pg, h, h'⟩ := page_test (text := b!"{{{c k=\"a :: b\"\nx\n}}}\n")
    (fun pg => verbatimAny pg = false) (by decide +kernel)
  refine ⟨s, pg, h, .inl rfl, ⟨[], [], [], [], [10], [b!"x"], rfl, by simp [AllBlank], by simp [AllBlank], .inl rfl,
    by simp, by simp [PairOk], ?_, .inl rfl, by simp [AllBlank], by simp [AllBlank], .inr (.inl ⟨_, rfl⟩), rfl⟩, h'⟩
  intro l hl
  obtain rfl := List.mem_singleton.1 hl
  refine ⟨by decide, by decide, ?_⟩
  rintro ⟨u, v, -, -, e⟩
  have : c!"}" ∈ b!"x" := by rw [e]; simp
  revert this; decide

/-- A block of code with four blanks before it after an indented quote is part of the quote. -/
theorem C102_blanks_violated : ∃ s pg, parsePage demo b!"    qu\n    {{{\n}}}\n" = .ok s pg ∧
    LineStart b!"    qu\n    {{{\n}}}\n" 7 ∧ CodeForm ((b!"    qu\n    {{{\n}}}\n" : Str).drop 7) none [] [] ∧
    verbatimAny pg = false := by
  obtain ⟨s, pg, h, h'⟩ := page_test (text := b!"    qu\n    {{{\n}}}\n")
    (fun pg => verbatimAny pg = false) (by decide +kernel)
  exact ⟨s, pg, h, .inr rfl, ⟨b!"    ", [], [], [], [10], [], rfl, by simp [AllBlank], by simp [AllBlank], .inl rfl,
    by simp, by simp, by simp, .inl rfl, by simp [AllBlank], by simp [AllBlank], .inr (.inl ⟨_, rfl⟩), rfl⟩, h'⟩

/-- A block of code in a list item of which a line is not indented is no code: the item ends before
that line. -/
theorem C102_list_violated : ∃ s pg, parsePage demo b!"- a\n  {{{\nx\n  }}}\n" = .ok s pg ∧
    LineStart b!"- a\n  {{{\nx\n  }}}\n" 4 ∧
    CodeForm ((b!"- a\n  {{{\nx\n  }}}\n" : Str).drop 4) none [] [b!"x"] ∧ verbatimAny pg = false := by
  obtain ⟨s, pg, h, h'⟩ := page_test (text := b!"- a\n  {{{\nx\n  }}}\n")
    (fun pg => verbatimAny pg = false) (by decide +kernel)
  refine ⟨s, pg, h, .inr rfl, ⟨b!"  ", [], b!"  ", [], [10], [b!"x"], rfl, by simp [AllBlank], by simp [AllBlank], .inl rfl,
    by simp, by simp, ?_, .inr (by decide), by simp [AllBlank], by simp [AllBlank], .inr (.inl ⟨_, rfl⟩), rfl⟩, h'⟩
  intro l hl
  obtain rfl := List.mem_singleton.1 hl
  refine ⟨by decide, by decide, ?_⟩
  rintro ⟨u, v, -, -, e⟩
  have : c!"}" ∈ b!"x" := by rw [e]; simp
  revert this; decide

/-- Whether there is code in that language with those lines at `q`. -/
def codeAt (bs : List (Located Block)) (q : Nat) (lang : Option Str) (ls : List Str) : Bool :=
  bs.any fun y => match y.inner with
    | .code l _ ls' => y.region.offset == q && l == lang && ls' == ls
    | _ => false

/-- Code after a paragraph, a list and a table; its line looks like a header. -/
example : ∃ s pg, parsePage demo b!"p *a\n- x\n  y\n|a|\n{{{c\n= h =\n}}}\np\n" = .ok s pg ∧
    LineStart b!"p *a\n- x\n  y\n|a|\n{{{c\n= h =\n}}}\np\n" 17 ∧
    CodeForm ((b!"p *a\n- x\n  y\n|a|\n{{{c\n= h =\n}}}\np\n" : Str).drop 17) (some b!"c") [] [b!"= h ="] ∧
    codeAt pg.blocks 17 (some b!"c") [b!"= h ="] = true := by
  obtain ⟨s, pg, h, h'⟩ := page_test (text := b!"p *a\n- x\n  y\n|a|\n{{{c\n= h =\n}}}\np\n")
    (fun pg => codeAt pg.blocks 17 (some b!"c") [b!"= h ="] = true) (by decide +kernel)
  refine ⟨s, pg, h, .inr rfl, ⟨[], [], [], [], b!"\np\n", [b!"= h ="], rfl, by simp [AllBlank], by simp [AllBlank], .inl rfl,
    by simp, by simp, ?_, .inl rfl, by simp [AllBlank], by simp [AllBlank], .inr (.inl ⟨_, rfl⟩), rfl⟩, h'⟩
  intro l hl
  obtain rfl := List.mem_singleton.1 hl
  refine ⟨by decide, by decide, ?_⟩
  rintro ⟨u, v, -, -, e⟩
  have : c!"}" ∈ b!"= h =" := by rw [e]; simp
  revert this; decide

/-- Whether there are formulas in that environment with those lines at `q`. -/
def mathAt (bs : List (Located Block)) (q : Nat) (en : Option Str) (ls : List Str) : Bool :=
  bs.any fun y => match y.inner with
    | .math ls' e => y.region.offset == q && e == en && ls' == ls
    | _ => false

/-- Formulas after a paragraph and a list. -/
example : ∃ s pg, parsePage demo b!"- x\n  y\np\n  {{$%e%\n  - a\n }}$\n" = .ok s pg ∧
    LineStart b!"- x\n  y\np\n  {{$%e%\n  - a\n }}$\n" 10 ∧
    MathForm ((b!"- x\n  y\np\n  {{$%e%\n  - a\n }}$\n" : Str).drop 10) (some b!"e") [b!" - a"] ∧
    mathAt pg.blocks 10 (some b!"e") [b!" - a"] = true := by
  obtain ⟨s, pg, h, h'⟩ := page_test (text := b!"- x\n  y\np\n  {{$%e%\n  - a\n }}$\n")
    (fun pg => mathAt pg.blocks 10 (some b!"e") [b!" - a"] = true) (by decide +kernel)
  refine ⟨s, pg, h, .inr rfl, ⟨b!"  ", [], b!" ", [], [10], [b!"  - a"], rfl, by simp [AllBlank], by simp [AllBlank],
    by simp, ?_, .inr (by decide), by simp [AllBlank], by simp [AllBlank], .inr (.inl ⟨_, rfl⟩), rfl⟩, h'⟩
  intro l hl
  obtain rfl := List.mem_singleton.1 hl
  refine ⟨by decide, by decide, ?_⟩
  rintro ⟨u, v, -, -, e⟩
  have : c!"}" ∈ b!"  - a" := by rw [e]; simp
  revert this; decide

end Vw
