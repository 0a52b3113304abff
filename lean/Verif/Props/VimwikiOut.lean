import Verif.Lemmas.VwEqual
import Verif.Spec.Demo

/-!
# Vimwiki output: the formatter and tables (C33-C36, C38, C39, C58)
-/

namespace Vw

open Table

set_option maxRecDepth 20000

/-! ## C33 -/

/-- C33: after an element or a page was formatted without a panic, the indentation level
is what it was, and whitespace is not skipped unless it was skipped before. -/
theorem C33_state (L : OutLib) (cfg : VwCfg) (f g : Fm) :
    (∀ b : Block, b.fmt L cfg f = some g →
      g.indent = f.indent ∧ (f.skip = false → g.skip = false)) ∧
    (∀ p : Page, p.fmt L cfg f = some g →
      g.indent = f.indent ∧ (f.skip = false → g.skip = false)) := by
  have key : Keeps [] f g → g.indent = f.indent ∧ (f.skip = false → g.skip = false) := by
    rintro ⟨h1, h2, -⟩
    refine ⟨h1, fun hf => ?_⟩
    cases hg : g.skip with
    | false => rfl
    | true => rw [h2 hg] at hf; cases hf
  exact ⟨fun b h => key (keeps_block Trimmed.nil L cfg b h),
    fun p h => key (keeps_page Trimmed.nil L cfg p.elements h)⟩

/-- Library functions for the examples. -/
def demoOut : OutLib := ⟨fun _ => [], id, fun _ => b!"2021-01-02", fun _ => b!"i"⟩

/-- A list with a list and a table in it. -/
def nestedList : Block :=
  .list [⟨⟨.hyphen, .none, 0, [⟨.paragraph [[⟨.text b!"a", ⟨0, 1, 0⟩⟩]], ⟨0, 1, 0⟩⟩,
    ⟨.list [⟨⟨.asterisk, .none, 0, [⟨.paragraph [[⟨.text b!" b ", ⟨0, 1, 0⟩⟩]], ⟨0, 1, 0⟩⟩],
      some .complete⟩, ⟨0, 1, 0⟩⟩], ⟨0, 1, 0⟩⟩], none⟩, ⟨0, 1, 0⟩⟩]

example : (nestedList.fmt demoOut {} ⟨b!"x\n", 2, false⟩).map (fun g => (g.content, g.indent, g.skip)) =
    some (b!"x\n        - a\n            * [X] b\n", 2, false) := by decide +kernel

/-! ## C34 -/

/-- C34 for elements without blank lines or blank terms: formatting only appends. -/
theorem C34_prefix_partial (L : OutLib) (cfg : VwCfg) (hI : ValidUtf8 cfg.indentStr) (b : Block)
    (hs : b.Solid L cfg) {c : Str} (hc : ValidUtf8 c) {i : Nat} {g : Fm}
    (h : b.fmt L cfg ⟨c, i, false⟩ = some g) : c <+: g.content := by
  obtain ⟨T, -, hT⟩ := puts_block L cfg hI b hs
  rw [hT i c hc.whole] at h
  cases ht : T i (Fm.bol c) with
  | none => rw [ht] at h; cases h
  | some t => rw [ht] at h; cases h; exact List.prefix_append _ _

/-- C34, what holds for every element and page: all that was written before stays
written, up to whitespace at its end. -/
theorem C34_trimmed_kept (L : OutLib) (cfg : VwCfg) {f g : Fm} (hc : ValidUtf8 f.content) :
    (∀ b : Block, b.fmt L cfg f = some g → trimEnd f.content <+: g.content) ∧
    (∀ p : Page, p.fmt L cfg f = some g → trimEnd f.content <+: g.content) := by
  have ht := trimEnd_idem f.content hc
  have hd : Trimmed (trimEnd f.content) := ⟨ht.2.whole, ht.1⟩
  have hp : trimEnd f.content <+: f.content := by
    obtain ⟨w, -, hw⟩ := trimEnd_spec f.content
    exact ⟨w, hw.symm⟩
  exact ⟨fun b h => (keeps_block hd L cfg b h).2.2 hp,
    fun p h => (keeps_page hd L cfg p.elements h).2.2 hp⟩

/-- C34 does not hold for all elements: a paragraph with a blank line removes the empty
line written before it. -/
theorem C34_violated : ∃ (b : Block) (f g : Fm), ValidUtf8 f.content ∧
    b.fmt demoOut {} f = some g ∧ ¬ f.content <+: g.content :=
  ⟨.paragraph [[⟨.text b!" ", ⟨0, 1, 0⟩⟩]], ⟨b!"a\n\n", 0, false⟩, ⟨b!"a\n", 0, false⟩,
    ValidUtf8.ascii (by decide), by decide +kernel, by decide⟩

example : ValidUtf8 b!"x\n" ∧ ValidUtf8 (({} : VwCfg).indentStr) :=
  ⟨.ascii (by decide), .ascii (by decide)⟩

theorem notBlank_of {s : Str} (h : ∃ b ∈ s, 32 < b ∧ b < 128) : NotBlank s := Vis.not_ws h

example : nestedList.Solid demoOut {} := by
  simp only [nestedList, Block.Solid, Block.SolidItems, Block.SolidContents, List.mem_singleton,
    forall_eq, and_true, true_implies]
  exact ⟨notBlank_of (by decide), notBlank_of (by decide)⟩

/-! ## C35 -/

/-- C35: a formatted table has one line for each row; the cells of a column have the same
number of bytes on all lines, so the bars are aligned. -/
theorem C35_aligned (L : OutLib) (cfg : VwCfg) (t : Table) {c : Str} {i : Nat} {g : Fm}
    (h : t.fmt L cfg ⟨c, i, false⟩ = some g) :
    ∃ (rows : List (List Str)) (widths : List Nat), rows.length = t.rowCnt ∧
      widths.length = t.colCnt ∧ (∀ cs ∈ rows, cs.map List.length = widths) ∧
      g.content = c ++ rowLines cfg t.centered i (Fm.bol c) rows := by
  rw [table_eq, Option.map_eq_some_iff] at h
  obtain ⟨rows, hr, rfl⟩ := h
  obtain ⟨h1, h2⟩ := rowsText_spec hr
  refine ⟨rows, (List.range t.colCnt).map (columnWidth t (fixedOf L cfg t)), by simp [h1],
    by simp, ?_, rfl⟩
  intro cs hcs
  obtain ⟨j, hj, hcs⟩ := List.getElem_of_mem hcs
  obtain ⟨cs', h3, h4⟩ := h2 j j (by simp at h1; rw [List.getElem?_range]; omega)
  rw [List.getElem?_eq_getElem hj, hcs] at h3
  cases h3
  exact (cellsText_spec h4).1

/-! ## C36 -/

/-- Every alignment cell has a reached cell with text in its column and no gap above it. -/
def Table.Supported (t : Table) : Prop :=
  ∀ r c a reg, t.getCell r c = some ⟨.align a, reg⟩ →
    (∃ q x, t.Reached q x ∧ q.col = c ∧ isAlign x.inner = false) ∧
    ∀ r', r' < r → (t.getCell r' c).isSome

theorem width_ge {L : OutLib} {cfg : VwCfg} {t : Table} (ht : t.Built) (hs : t.Supported)
    {r c : Nat} {a : Align} {reg : Region} (h : t.getCell r c = some ⟨.align a, reg⟩) :
    alignNeed (.align a) ≤ columnWidth t (fixedOf L cfg t) c := by
  obtain ⟨⟨q, x, h1, h2, h3⟩, h4⟩ := hs r c a reg h
  have hu : ∃ u, cellStr L cfg x.inner = some u := by
    cases hx : x.inner with
    | content _ => exact ⟨_, rfl⟩
    | span s => cases s <;> exact ⟨_, rfl⟩
    | align a => rw [hx] at h3; simp [isAlign] at h3
  obtain ⟨u, hu⟩ := hu
  have := (columnWidth_some (t := t) ((mem_fixed ht).2 ⟨x, u, h1, hu, rfl⟩) h2).1
  exact Nat.le_trans (minAlign_ge ht h h4) this

/-- C36, the part that holds: a table of which each column with an alignment cell also has
a cell with text that the iteration over all cells reaches, and no gap above the
alignment cell, is formatted without a panic. -/
theorem C36_no_panic_partial (L : OutLib) (cfg : VwCfg) (t : Table) (ht : t.Built)
    (hs : t.Supported) (c : Str) (i : Nat) : (t.fmt L cfg ⟨c, i, false⟩).isSome := by
  rw [table_eq, Option.isSome_map]
  cases hr : rowsText t (fixedOf L cfg t) (List.range t.rowCnt) with
  | some _ => rfl
  | none =>
    obtain ⟨r, -, k, -, hb⟩ := rowsText_none.1 hr
    obtain ⟨-, a, reg, h1, h2⟩ := bodyText_none.1 hb
    have := width_ge (L := L) (cfg := cfg) ht hs h1
    rcases h2 with ⟨rfl | rfl, h2⟩ | ⟨rfl, h2⟩ <;> simp only [alignNeed] at this <;> omega

/-- C36, the other direction: a column with `:--`, `--:` or `:-:` of which no cell with
text is reached makes the formatter panic. -/
theorem C36_no_text_panics (L : OutLib) (cfg : VwCfg) (t : Table) (ht : t.Built) {r c : Nat}
    {a : Align} {reg : Region} (h : t.getCell r c = some ⟨.align a, reg⟩) (ha : a ≠ .none)
    (hn : ∀ q x, t.Reached q x → q.col = c → isAlign x.inner = true) (o : Str) (i : Nat) :
    t.fmt L cfg ⟨o, i, false⟩ = none := by
  rw [table_eq, Option.map_eq_none_iff, rowsText_none]
  have hb := ht.bound h
  refine ⟨r, by simpa using hb.1, c, hb.2, ?_⟩
  rw [bodyText_none]
  refine ⟨lookup_align ht h, a, reg, h, ?_⟩
  rw [columnWidth_none]
  · cases a <;> simp at ha ⊢
  · rintro ⟨q, s⟩ he hc
    obtain ⟨x, u, h1, h2, -⟩ := (mem_fixed ht).1 he
    have h3 := hn q x h1 hc
    cases hx : x.inner with
    | content _ => rw [hx] at h3; simp [isAlign] at h3
    | span _ => rw [hx] at h3; simp [isAlign] at h3
    | align _ => rw [hx] at h2; simp [cellStr] at h2

/-- In a table without gaps every cell is reached. -/
theorem Table.Full.reached {t : Table} (hf : t.Full) {r c : Nat} {x : Located Cell}
    (h : t.getCell r c = some x) : t.Reached ⟨r, c⟩ x :=
  ⟨h, fun q _ h1 h2 => hf q.row q.col h1 h2⟩

/-- C36 for tables without gaps, exactly: the formatter panics if and only if some column
has an alignment cell other than `--` and no cell with text. -/
theorem C36_full_iff (L : OutLib) (cfg : VwCfg) (t : Table) (ht : t.Built) (hf : t.Full)
    (o : Str) (i : Nat) : t.fmt L cfg ⟨o, i, false⟩ = none ↔
      ∃ r c a reg, t.getCell r c = some ⟨.align a, reg⟩ ∧ a ≠ .none ∧
        ∀ r' x, t.getCell r' c = some x → isAlign x.inner = true := by
  constructor
  · intro h
    rw [table_eq, Option.map_eq_none_iff, rowsText_none] at h
    obtain ⟨r, -, k, -, hb⟩ := h
    obtain ⟨-, a, reg, h1, h2⟩ := bodyText_none.1 hb
    refine ⟨r, k, a, reg, h1, ?_, ?_⟩
    · rintro rfl; simp at h2
    · intro r' x hx
      cases hx' : isAlign x.inner with
      | true => rfl
      | false =>
        have hu : ∃ u, cellStr L cfg x.inner = some u := by
          cases hy : x.inner with
          | content _ => exact ⟨_, rfl⟩
          | span s => cases s <;> exact ⟨_, rfl⟩
          | align a => rw [hy] at hx'; simp [isAlign] at hx'
        obtain ⟨u, hu⟩ := hu
        have h3 := (columnWidth_some (t := t) ((mem_fixed (cfg := cfg) ht).2
          ⟨x, u, hf.reached hx, hu, rfl⟩) rfl).1
        have h4 := minAlign_ge ht h1 fun r'' hr => hf r'' k
          (by have := (ht.bound h1).1; omega) (ht.bound h1).2
        dsimp only at h3
        rcases h2 with ⟨rfl | rfl, h2⟩ | ⟨rfl, h2⟩ <;> simp only [alignNeed] at h4 <;> omega
  · rintro ⟨r, c, a, reg, h1, h2, h3⟩
    exact C36_no_text_panics L cfg t ht h1 h2
      (fun q x hq hc => h3 q.row x (by rw [← hc]; exact hq.1)) o i

/-- A content cell. -/
def textCell (s : Str) : Located Cell := ⟨.content [⟨.text s, ⟨0, 1, 2⟩⟩], ⟨0, 1, 1⟩⟩

/-- How many colons a cell of an alignment has. -/
def Align.colons : Align → Nat
  | .none => 0
  | .left => 1
  | .right => 1
  | .center => 2

/-- C36 for all tables, exactly: the formatter panics if and only if there is an alignment cell with
colons for which the column has no room, because all its cells with text that are reached are
narrower than the colons, and, if there are any, so is the room for the alignment cells above the
first gap of the column. -/
theorem C36_iff (L : OutLib) (cfg : VwCfg) (t : Table) (ht : t.Built) (o : Str) (i : Nat) :
    t.fmt L cfg ⟨o, i, false⟩ = none ↔
      ∃ r c a reg, t.getCell r c = some ⟨.align a, reg⟩ ∧ a ≠ .none ∧
        ∀ q x u, t.Reached q x → q.col = c → cellStr L cfg x.inner = some u →
          (padCell cfg u).length < a.colons ∧
          ∀ r' y, t.getCell r' c = some y → (∀ r'', r'' < r' → (t.getCell r'' c).isSome) →
            alignNeed y.inner < a.colons := by
  have width : ∀ {c n}, 0 < n → (columnWidth t (fixedOf L cfg t) c < n ↔
      ∀ q x u, t.Reached q x → q.col = c → cellStr L cfg x.inner = some u → (padCell cfg u).length < n ∧
          ∀ r' y, t.getCell r' c = some y → (∀ r'', r'' < r' → (t.getCell r'' c).isSome) →
            alignNeed y.inner < n) := by
    intro c n hn
    rw [columnWidth_lt hn, minAlign_lt ht hn]
    constructor
    · intro h q x u h1 h2 h3
      exact h (q, padCell cfg u) ((mem_fixed ht).2 ⟨x, u, h1, h3, rfl⟩) h2
    · rintro h ⟨q, s⟩ he hc
      obtain ⟨x, u, h1, h2, rfl⟩ := (mem_fixed ht).1 he
      exact h q x u h1 hc h2
  rw [table_eq, Option.map_eq_none_iff, rowsText_none]
  constructor
  · rintro ⟨r, -, k, -, hb⟩
    obtain ⟨-, a, reg, h1, h2⟩ := bodyText_none.1 hb
    refine ⟨r, k, a, reg, h1, ?_, ?_⟩
    · rintro rfl; simp at h2
    · rcases h2 with ⟨rfl | rfl, h2⟩ | ⟨rfl, h2⟩
      · exact (width (by decide)).1 h2
      · exact (width (by decide)).1 h2
      · exact (width (by decide)).1 h2
  · rintro ⟨r, c, a, reg, h1, h2, h3⟩
    have hb := ht.bound h1
    refine ⟨r, by simpa using hb.1, c, hb.2, ?_⟩
    rw [bodyText_none]
    refine ⟨lookup_align ht h1, a, reg, h1, ?_⟩
    cases a with
    | none => exact absurd rfl h2
    | left => exact .inl ⟨.inl rfl, (width (by decide)).2 h3⟩
    | right => exact .inl ⟨.inr rfl, (width (by decide)).2 h3⟩
    | center => exact .inr ⟨rfl, (width (by decide)).2 h3⟩

/-- A table with a gap above the alignment cell `:-:` of its second column. -/
def gapTable (s : Str) : Table :=
  Table.new [(⟨0, 0⟩, textCell b!"a"), (⟨0, 1⟩, textCell s), (⟨1, 0⟩, textCell b!"b"),
    (⟨2, 0⟩, textCell b!"c"), (⟨2, 1⟩, ⟨.align .center, ⟨0, 1, 1⟩⟩)] false

/-- Without padding it is written if there is text of two bytes above the gap, and not if it is
shorter. -/
example : ((gapTable b!"xy").fmt demoOut { tableNoPadding := true } ⟨[], 0, false⟩).isSome ∧
    (gapTable b!"x").fmt demoOut { tableNoPadding := true } ⟨[], 0, false⟩ = none ∧
    ((gapTable b!"x").fmt demoOut {} ⟨[], 0, false⟩).isSome := by decide +kernel

/-! ## C58 -/

/-- How a cell of the table may be written: text with spaces around it, or hyphens with
the colons of the alignment. -/
def CellWritten (L : OutLib) (cfg : VwCfg) (w : Str) : Cell → Prop
  | .content x => ∃ a b, w = a ++ (Inline.textAll L cfg x ++ b) ∧ Spaces a ∧ Spaces b
  | .span .fromLeft => ∃ a b, w = a ++ (b!">" ++ b) ∧ Spaces a ∧ Spaces b
  | .span .fromAbove => ∃ a b, w = a ++ (b!"\\/" ++ b) ∧ Spaces a ∧ Spaces b
  | .align .none => HyphenForm w false false
  | .align .left => HyphenForm w true false
  | .align .center => HyphenForm w true true
  | .align .right => HyphenForm w false true

theorem hyphenForm_of {n : Nat} {a : Align} {s : Str} (h : dividerText n (some (.align a)) = some s)
    (hn : alignNeed (.align a) ≤ n) (L : OutLib) (cfg : VwCfg) : CellWritten L cfg s (.align a) := by
  cases a <;> simp only [alignNeed] at hn <;> simp only [dividerText] at h
  · cases h; exact ⟨n, by omega, by simp [colonIf, rep]⟩
  · rw [if_neg (by omega)] at h; cases h; exact ⟨n - 1, by omega, by simp [colonIf, rep]⟩
  · rw [if_neg (by omega)] at h; cases h; exact ⟨n - 2, by omega, by simp [colonIf, rep]⟩
  · rw [if_neg (by omega)] at h; cases h; exact ⟨n - 1, by omega, by simp [colonIf, rep]⟩

/-- C58 for the cells before the first gap: in a table as in `C36_no_panic_partial`, every
cell that is reached is in the output, at its row and column, with its text, and every
alignment cell is there as hyphens with its colons. -/
theorem C58_cells_kept_partial (L : OutLib) (cfg : VwCfg) (t : Table) (ht : t.Built)
    (hs : t.Supported) {o : Str} {i : Nat} {g : Fm} (h : t.fmt L cfg ⟨o, i, false⟩ = some g) :
    ∃ rows : List (List Str), g.content = o ++ rowLines cfg t.centered i (Fm.bol o) rows ∧
      rows.length = t.rowCnt ∧ (∀ cs ∈ rows, cs.length = t.colCnt) ∧
      ∀ r c x, t.getCell r c = some x → t.Reached ⟨r, c⟩ x ∨ isAlign x.inner = true →
        ∃ cs w, rows[r]? = some cs ∧ cs[c]? = some w ∧ CellWritten L cfg w x.inner := by
  rw [table_eq, Option.map_eq_some_iff] at h
  obtain ⟨rows, hr, rfl⟩ := h
  obtain ⟨h1, h2⟩ := rowsText_spec hr
  refine ⟨rows, rfl, by simpa using h1, ?_, ?_⟩
  · intro cs hcs
    obtain ⟨j, hj, hcs⟩ := List.getElem_of_mem hcs
    obtain ⟨cs', h3, h4⟩ := h2 j j (by simp at h1; rw [List.getElem?_range]; omega)
    rw [List.getElem?_eq_getElem hj, hcs] at h3
    cases h3
    have := congrArg List.length (cellsText_spec h4).1
    simpa using this
  · intro r c x hx hor
    obtain ⟨b1, b2⟩ := ht.bound hx
    obtain ⟨cs, h3, h4⟩ := h2 r r (List.getElem?_range b1)
    obtain ⟨w, h5, h6⟩ := (cellsText_spec h4).2 c c (List.getElem?_range b2)
    refine ⟨cs, w, h3, h5, ?_⟩
    obtain ⟨x, reg⟩ := x
    have text : ∀ u, cellStr L cfg x = some u → t.Reached ⟨r, c⟩ ⟨x, reg⟩ →
        ∃ a b, w = a ++ (u ++ b) ∧ Spaces a ∧ Spaces b := by
      intro u hu hre
      rw [bodyText, lookup_reached ht hre hu] at h6
      cases h6
      obtain ⟨a, b, e, s1, s2⟩ := padCell_spec cfg u
      exact ⟨a, b ++ rep c!" " (columnWidth t (fixedOf L cfg t) c - (padCell cfg u).length),
        by rw [e]; simp, s1, s2.append (rep_spaces _)⟩
    cases x with
    | content x => exact text _ rfl (by simpa [isAlign] using hor)
    | span s =>
      have := hor.resolve_right (by simp [isAlign])
      cases s
      · exact text _ rfl this
      · exact text _ rfl this
    | align a =>
      rw [bodyText, lookup_align ht hx, hx] at h6
      exact hyphenForm_of h6 (width_ge ht hs hx) L cfg

/-- C58, what is lost: in any table that is written, a place of the table without a cell and a cell
with text or a span that is behind a gap is written as spaces. With `C58_cells_kept_partial` this
says for every cell with text whether it is kept. -/
theorem C58_lost (L : OutLib) (cfg : VwCfg) (t : Table) (ht : t.Built) {o : Str} {i : Nat} {g : Fm}
    (h : t.fmt L cfg ⟨o, i, false⟩ = some g) :
    ∃ rows : List (List Str), g.content = o ++ rowLines cfg t.centered i (Fm.bol o) rows ∧
      rows.length = t.rowCnt ∧ (∀ cs ∈ rows, cs.length = t.colCnt) ∧
      ∀ r c, r < t.rowCnt → c < t.colCnt →
        ∃ cs w, rows[r]? = some cs ∧ cs[c]? = some w ∧
          (∀ x, t.Reached ⟨r, c⟩ x → isAlign x.inner = false → CellWritten L cfg w x.inner) ∧
          ((∀ x, t.getCell r c = some x → ¬ t.Reached ⟨r, c⟩ x ∧ isAlign x.inner = false) → Spaces w) := by
  rw [table_eq, Option.map_eq_some_iff] at h
  obtain ⟨rows, hr, rfl⟩ := h
  obtain ⟨h1, h2⟩ := rowsText_spec hr
  refine ⟨rows, rfl, by simpa using h1, ?_, ?_⟩
  · intro cs hcs
    obtain ⟨j, hj, hcs⟩ := List.getElem_of_mem hcs
    obtain ⟨cs', h3, h4⟩ := h2 j j (by simp at h1; rw [List.getElem?_range]; omega)
    rw [List.getElem?_eq_getElem hj, hcs] at h3
    cases h3
    have := congrArg List.length (cellsText_spec h4).1
    simpa using this
  · intro r c b1 b2
    obtain ⟨cs, h3, h4⟩ := h2 r r (List.getElem?_range b1)
    obtain ⟨w, h5, h6⟩ := (cellsText_spec h4).2 c c (List.getElem?_range b2)
    refine ⟨cs, w, h3, h5, ?_, ?_⟩
    · intro x hre hal
      have text : ∀ u, cellStr L cfg x.inner = some u → ∃ a b, w = a ++ (u ++ b) ∧ Spaces a ∧ Spaces b := by
        intro u hu
        rw [bodyText, lookup_reached ht hre hu] at h6
        cases h6
        obtain ⟨a, b, e, s1, s2⟩ := padCell_spec cfg u
        exact ⟨a, b ++ rep c!" " (columnWidth t (fixedOf L cfg t) c - (padCell cfg u).length),
          by rw [e]; simp, s1, s2.append (rep_spaces _)⟩
      obtain ⟨x, reg⟩ := x
      cases x with
      | content x => exact text _ rfl
      | span s => cases s <;> exact text _ rfl
      | align a => simp [isAlign] at hal
    · intro hno
      have hl : lookupFixed (fixedOf L cfg t) ⟨r, c⟩ = none := by
        cases hl : lookupFixed (fixedOf L cfg t) ⟨r, c⟩ with
        | none => rfl
        | some s =>
          obtain ⟨x, u, h1, h2, -⟩ := (mem_fixed ht).1 (lookupFixed_mem hl)
          exact absurd h1 (hno x h1.1).1
      rw [bodyText, hl] at h6
      have sp : ∀ {s}, some (rep c!" " (columnWidth t (fixedOf L cfg t) c)) = some s → Spaces s := by
        intro s e; cases e; exact rep_spaces _
      cases hg : t.getCell r c with
      | none => rw [hg] at h6; exact sp h6
      | some x =>
        rw [hg] at h6
        have := (hno x hg).2
        obtain ⟨x, reg⟩ := x
        cases x with
        | content x => exact sp h6
        | span s => exact sp h6
        | align a => simp [isAlign] at this

/-! ### Witnesses for tables -/

def alignedCells : List (CellPos × Located Cell) :=
  [(⟨0, 0⟩, textCell b!"abc"), (⟨0, 1⟩, textCell b!"b"), (⟨1, 0⟩, ⟨.align .left, ⟨0, 1, 1⟩⟩),
    (⟨1, 1⟩, ⟨.align .center, ⟨0, 1, 1⟩⟩), (⟨2, 0⟩, textCell b!"d"),
    (⟨2, 1⟩, ⟨.span .fromLeft, ⟨0, 1, 1⟩⟩)]

/-- A table with header, alignment and a span. -/
def aligned : Table := Table.new alignedCells false

theorem aligned_built : aligned.Built := ⟨alignedCells, false, false, rfl⟩

theorem aligned_full : aligned.Full := by
  intro r c hr hc
  have : ∀ r < 3, ∀ c < 2, (aligned.getCell r c).isSome := by decide +kernel
  exact this r hr c hc

example : aligned.Supported := by
  intro r c a reg h
  refine ⟨?_, ?_⟩
  · have hb := aligned_built.bound h
    have hc : c < 2 := hb.2
    have key : ∀ c < 2, ∃ x, aligned.getCell 0 c = some x ∧ isAlign x.inner = false := by
      intro c hc
      match c, hc with
      | 0, _ => exact ⟨_, rfl, rfl⟩
      | 1, _ => exact ⟨_, rfl, rfl⟩
    obtain ⟨x, h1, h2⟩ := key c hc
    exact ⟨⟨0, c⟩, x, aligned_full.reached h1, rfl, h2⟩
  · intro r' hr
    exact aligned_full r' c (by have := (aligned_built.bound h).1; omega) (aligned_built.bound h).2

example : ((Block.table aligned).toVimwiki demoOut {}) =
    some b!"| abc | b |\n|:----|:-:|\n| d   | > |\n" := by decide +kernel

/-- C36 does not hold for all tables: the text `|a|` over `|--|:--|` is parsed as a
table that the formatter cannot write. -/
theorem C36_violated : ∃ s pg, parsePage demo b!"|a|\n|--|:--|" = .ok s pg ∧
    (pg.elements.length = 1 ∧ pg.toVimwiki demoOut {} = none) :=
  page_test _ (by decide +kernel)

/-- C58 does not hold for all tables: after a row that is too short, the cells of the
following rows are written as blanks. -/
theorem C58_violated : ∃ s pg, parsePage demo b!"|a|b|\n|c|\n|d|e|\n" = .ok s pg ∧
    pg.toVimwiki demoOut {} = some b!"| a | b |\n| c |   |\n|   |   |\n" :=
  page_test _ (by decide +kernel)

/-! ## C38 -/

/-- C38: the text of a code block does not depend on the order in which the hash map of
the metadata is iterated. -/
theorem C38_metadata_order (cfg : VwCfg) (lang : Option Str) (ls : List Str) {m m' : Map}
    (hd : DistinctKeys m) (hp : m.Perm m') : codeFmt cfg lang m ls = codeFmt cfg lang m' ls := by
  funext f
  simp only [codeFmt, sortedMap_perm hd hp]

/-- C38 for whole pages: pages that differ only in the order of their maps and in regions have the
same vimwiki text. The text of URIs that are equal is assumed to be the same. -/
theorem C38_same_pages (L : OutLib) (cfg : VwCfg) {ue : Uri → Uri → Bool}
    (hu : ∀ u v, ue u v = true → L.uriStr u = L.uriStr v ∧ u.fragment = v.fragment) {x y : Page}
    (hx : x.Valid) (hy : y.Valid) (h : x.same ue y = true) : x.toVimwiki L cfg = y.toVimwiki L cfg := by
  unfold Page.toVimwiki Page.fmt
  rw [page_same hu _ _ hx hy h]

/-- Pages that are equal (`==`) need not have the same vimwiki text: terms are compared as they are
displayed, so the pages of `*a*:: b` and of `a:: b` are equal. -/
theorem C38_equal_pages_violated : ∃ t t' s s' x y, parsePage demo t = .ok s x ∧ parsePage demo t' = .ok s' y ∧
    x.eq demoOut (fun u v => decide (u = v)) y = true ∧ x.toVimwiki demoOut {} ≠ y.toVimwiki demoOut {} := by
  have h : ((parsePage demo b!"*a*:: b\n").test fun _ x => (parsePage demo b!"a:: b\n").test fun _ y =>
      x.eq demoOut (fun u v => decide (u = v)) y && decide (x.toVimwiki demoOut {} ≠ y.toVimwiki demoOut {})) = true := by
    decide +kernel
  obtain ⟨s, x, h1, h2⟩ := Res.of_test h
  obtain ⟨s', y, h3, h4⟩ := Res.of_test h2
  simp only [Bool.and_eq_true, decide_eq_true_eq] at h4
  exact ⟨_, _, s, s', x, y, h1, h3, h4.1, h4.2⟩

example : DistinctKeys [(b!"k", b!"1"), (b!"a", b!"2")] ∧
    [(b!"k", b!"1"), (b!"a", b!"2")].Perm [(b!"a", b!"2"), (b!"k", b!"1")] ∧
    sortedMap [(b!"k", b!"1"), (b!"a", b!"2")] = [(b!"a", b!"2"), (b!"k", b!"1")] := by
  refine ⟨show List.Nodup _ by decide, List.Perm.swap .., ?_⟩
  simp [sortedMap, List.mergeSort, keyLe, List.MergeSort.Internal.splitInTwo, List.merge]
  decide

/-! ## C39 -/

/-- C39: the text of a page is that of its elements, each formatted on its own, with an
empty line between them if elements are separated and nothing otherwise. Trimming must
not reach text before the element (C34), and without separation the element
texts must end with a line break, which all elements but lists do. -/
theorem C39_concat (L : OutLib) (cfg : VwCfg) (hI : ValidUtf8 cfg.indentStr) (p : Page)
    (hs : ∀ x ∈ p.elements, x.inner.Solid L cfg)
    (hc : cfg.separate = true ∨ ∀ x ∈ p.elements, ∀ t, x.inner.toVimwiki L cfg = some t →
      t = [] ∨ t.getLast? = some 10) :
    p.toVimwiki L cfg = (elementTexts L cfg p.elements).map
      (joined (if cfg.separate then b!"\n" else [])) :=
  page_concat L cfg hI p.elements hs hc Whole.nil rfl

/-- C39: elements other than lists write nothing or a text that ends with a line break. -/
theorem C39_line_break (L : OutLib) (cfg : VwCfg) (b : Block) (hb : ∀ xs, b ≠ .list xs) {t : Str}
    (h : b.toVimwiki L cfg = some t) : t = [] ∨ t.getLast? = some 10 :=
  closed_of_not_list L cfg b hb h

/-- A page of three elements. -/
def threeElements : Page :=
  ⟨[⟨.header [⟨.text b!"h", ⟨0, 1, 0⟩⟩] 1 false, ⟨0, 1, 0⟩⟩, ⟨nestedList, ⟨0, 1, 0⟩⟩,
    ⟨.paragraph [[⟨.text b!"p", ⟨0, 1, 0⟩⟩]], ⟨0, 1, 0⟩⟩]⟩

example : ∀ x ∈ threeElements.elements, x.inner.Solid demoOut {} := by
  intro x hx
  simp only [threeElements, List.mem_cons, List.not_mem_nil, or_false] at hx
  rcases hx with rfl | rfl | rfl
  · exact fun _ => .inl (by decide)
  · simp only [nestedList, Block.Solid, Block.SolidItems, Block.SolidContents, List.mem_singleton,
      forall_eq, and_true, true_implies]
    exact ⟨notBlank_of (by decide), notBlank_of (by decide)⟩
  · simp only [Block.Solid, List.mem_singleton, forall_eq]
    exact fun _ => notBlank_of (by decide)

example : threeElements.toVimwiki demoOut {} =
    some b!"= h =\n\n- a\n    * [X] b\n\np\n" := by decide +kernel

end Vw
