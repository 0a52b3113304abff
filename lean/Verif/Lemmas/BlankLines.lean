import Verif.Spec.BlankLines
import Verif.Lemmas.ItemWhole

/-!
# Blank lines are not in blocks other than quotes and fenced blocks
-/

namespace Vw
open P Scan

variable {C : Ctx} {k : Nat} {s s' : Span}

/-- The block is a quote with the position in it. -/
def Quoted (q : Nat) (y : Located Block) : Prop :=
  y.region.offset ≤ q ∧ q < y.region.offset + y.region.len ∧ ∃ ls, y.inner = .blockquote ls

theorem BlankAt.first {q j : Nat} {x : Byte} (h : BlankAt C.inner q) (hf : FirstByte C q j x) : x = 10 ∨ x = 13 := by
  obtain ⟨-, i, l1, hb, he⟩ := h
  obtain ⟨f1, f2, f3, f4⟩ := hf
  have hi : ∀ y, C.inner[i]? = some y → isSpace y = false → y = x := by
    intro y hy hs
    exact (FirstByte.uniq (C := C) ⟨l1, fun l z a b hz => isSpace_iff.2 (hb z (mem_sub.2 ⟨l, a, b, hz⟩)), hy, hs⟩
      ⟨f1, f2, f3, f4⟩).2
  rcases he with he | ⟨he, -⟩ | ⟨he, -⟩
  · exact .inl (hi _ he (by decide)).symm
  · exact .inr (hi _ he (by decide)).symm
  · exfalso
    have hlt : j < C.inner.length := by
      rcases Nat.lt_or_ge j C.inner.length with h | h
      · exact h
      · rw [List.getElem?_eq_none h] at f3; cases f3
    have := isSpace_iff.2 (hb x (mem_sub.2 ⟨j, f1, by omega, f3⟩))
    rw [this] at f4
    cases f4

theorem BlankAt.noColon {q : Nat} (h : BlankAt C.inner q) : ¬ ColonLine C.inner q := by
  rintro ⟨w, r, e, hw⟩
  obtain ⟨-, i, l1, hb, he⟩ := h
  have get : ∀ n, C.inner[q + n]? = (w ++ (b!"::" ++ r))[n]? := fun n => by rw [← e, List.getElem?_drop]
  have hc : C.inner[q + w.length]? = some 58 := by
    rw [get, List.getElem?_append_right (Nat.le_refl _), Nat.sub_self]; rfl
  have hlt : q + w.length < C.inner.length := by
    rcases Nat.lt_or_ge (q + w.length) C.inner.length with h | h
    · exact h
    · rw [List.getElem?_eq_none h] at hc; cases hc
  have hge : i ≤ q + w.length := by
    rcases Nat.lt_or_ge (q + w.length) i with h | h
    · have := hb 58 (mem_sub.2 ⟨_, by omega, h, hc⟩)
      omega
    · exact h
  have nl : ∀ p, q ≤ p → p < q + w.length → C.inner[p]? ≠ some 10 := by
    intro p p1 p2 hp
    rw [show p = q + (p - q) by omega, get, List.getElem?_append_left (by omega)] at hp
    exact hw (List.mem_of_getElem? hp)
  rcases he with he | ⟨he, he'⟩ | ⟨he, -⟩
  · rcases Nat.eq_or_lt_of_le hge with h | h
    · rw [h, hc] at he; cases he
    · exact nl i l1 h he
  · rcases Nat.eq_or_lt_of_le hge with h | h
    · rw [h, hc] at he; cases he
    rcases Nat.eq_or_lt_of_le h with h | h
    · rw [show i + 1 = q + w.length from h, hc] at he'; cases he'
    · exact nl (i + 1) (by omega) h he'
  · omega

/-- A blank line is read as such. -/
theorem BlankAt.read (h : C.In k s) (hs : Full C s) (hlt : s.start < s.stop) (hb : BlankAt C.inner s.start) :
    blankLine s ≠ .err := by
  intro he
  obtain ⟨s1, o, h1⟩ := space0_total s
  obtain ⟨hsp, tk⟩ := ok_of_run (space0_good h) h1
  obtain ⟨hl, hne⟩ := blankLine_err h hb.1 hlt he h1
  have st := hsp.good.step
  have hle := st.le
  have hstop := st.stop
  have hhi := h.wf.hi
  obtain ⟨b, hbyte⟩ := Wf_get h.wf (i := s1.start) (by omega)
  have hf : FirstByte C s.start s1.start b := ⟨hle, fun i x a b hx => tk.all i x a b hx, hbyte, tk.stop b (by omega) hbyte⟩
  obtain ⟨-, i, l1, hbl, hi⟩ := hb
  have same : ∀ y, C.inner[i]? = some y → isSpace y = false → i = s1.start := by
    intro y hy hs
    exact (FirstByte.uniq (C := C) ⟨l1, fun l z a b hz => isSpace_iff.2 (hbl z (mem_sub.2 ⟨l, a, b, hz⟩)), hy, hs⟩ hf).1
  rcases hi with hi | ⟨hi, hi'⟩ | ⟨hi, -⟩
  · have := same _ hi (by decide)
    subst this
    exact hne (.inl ⟨hl, hi⟩)
  · have := same _ hi (by decide)
    subst this
    refine hne (.inr ⟨?_, hi, hi'⟩)
    rcases Nat.lt_or_ge (s1.start + 1) s1.stop with h | h
    · exact h
    exfalso
    have e : s.stop = s1.start + 1 := by omega
    rcases hs with hs | hs
    · rw [List.getElem?_eq_none (by omega)] at hi'; cases hi'
    · rw [e, Nat.add_sub_cancel, hi] at hs; cases hs
  · have := isSpace_iff.2 (hbl b (mem_sub.2 ⟨s1.start, hle, by omega, hbyte⟩))
    have hf' := hf.2.2.2
    rw [this] at hf'
    cases hf'

theorem BlankAt.para (h : C.In k s) (hs : Full C s) (hlt : s.start < s.stop) (hb : BlankAt C.inner s.start)
    {list : P (Located Block)} : ∀ s' u, continueParagraphOf C.env list s ≠ .ok s' u := by
  intro s' u r0
  obtain ⟨_, _, a0, r1⟩ := bind_inv r0
  obtain ⟨rfl, -⟩ := not_inv a0
  obtain ⟨_, _, a1, r2⟩ := bind_inv r1
  obtain ⟨rfl, -⟩ := not_inv a1
  obtain ⟨_, _, a2, r3⟩ := bind_inv r2
  obtain ⟨rfl, -⟩ := not_inv a2
  obtain ⟨_, _, a3, r4⟩ := bind_inv r3
  obtain ⟨rfl, -⟩ := not_inv a3
  obtain ⟨_, _, a4, r5⟩ := bind_inv r4
  obtain ⟨rfl, -⟩ := not_inv a4
  obtain ⟨_, _, a5, r6⟩ := bind_inv r5
  obtain ⟨rfl, -⟩ := not_inv a5
  obtain ⟨_, _, a6, -⟩ := bind_inv r6
  exact BlankAt.read h hs hlt hb (not_inv a6).2

theorem blank_base : LineBase C (BlankAt C.inner) Quoted := by
  refine ⟨fun q h => h.1, ?_⟩
  rintro q it hq ⟨h1, h2, ty, su, w, hw, hat⟩
  exfalso
  obtain ⟨c, r, rfl, -, -, -, hc⟩ := hw.first
  have hg : C.inner[it.region.offset]? = some c := by
    have := hat.getElem? 0 (by simp)
    simpa using this
  rcases hq.first ⟨h1, h2, hg, isSpace_false.2 (by omega)⟩ with e | e <;> omega

theorem blank_defs (h : C.In (k + 2) s) : C.Ok (definitionList C.env s) (Shown C (BlankAt C.inner) Quoted s) := by
  refine (definitionList_lines h).mono ?_
  rintro s' x ⟨-, ho⟩ q hq h1 h2
  exact absurd (ho q hq.1 h1 h2) hq.noColon

theorem BlockRes.blank_table (h : C.In k s) {x : Located Block} (hb : BlockRes C s s' x) {t : Table}
    (hx : x.inner = .table t) : Shown C (BlankAt C.inner) Quoted s s' x := by
  intro q hq h1 h2
  obtain ⟨e1, e2⟩ := hb.whole (by simp [hx])
  have hbl := hb.block
  rw [hx, ← e1, e2] at hbl
  have := hb.good.step.hi
  have := h.wf.hi
  cases hbl with
  | table _ _ hr =>
    obtain ⟨j, hj⟩ := (hr.first (by omega)).2 q hq.1 (by omega) h2
    rcases hq.first hj with e | e <;> cases e

theorem blank_code (h : C.In k s) : C.Ok (codeBlock s) (Shown C (BlankAt C.inner) Quoted s) := by
  refine (codeBlock_full h).mono ?_
  rintro s' x ⟨hb, l, m, ls, raw, a, b, n, n', hx, -, -, -, -, -, hf⟩ q hq h1 h2
  obtain ⟨e1, e2⟩ := hb.whole (by simp [hx])
  rcases Nat.lt_or_ge s.start q with hlt | hlt
  · exact .inl (.inl (.inl ⟨x, mem_self x, ⟨by omega, by omega⟩, .inl ⟨l, m, ls, hx⟩⟩))
  · obtain rfl : q = s.start := by omega
    obtain ⟨e, he⟩ := hf.open_
    rcases hq.first he.brace with e | e <;> cases e

theorem blank_math (h : C.In k s) : C.Ok (mathBlock s) (Shown C (BlankAt C.inner) Quoted s) := by
  refine (mathBlock_full h).mono ?_
  rintro s' x ⟨hb, ls, en, raw, a, b, n, n', hx, -, -, -, -, -, hf⟩ q hq h1 h2
  obtain ⟨e1, e2⟩ := hb.whole (by simp [hx])
  rcases Nat.lt_or_ge s.start q with hlt | hlt
  · exact .inl (.inl (.inl ⟨x, mem_self x, ⟨by omega, by omega⟩, .inr ⟨ls, en, hx⟩⟩))
  · obtain rfl : q = s.start := by omega
    obtain ⟨e, he⟩ := hf.open_
    rcases hq.first he.brace with e | e <;> cases e

theorem BlockRes.blank_quote {x : Located Block} (hb : BlockRes C s s' x) {ls : List Str}
    (hx : x.inner = .blockquote ls) : Shown C (BlankAt C.inner) Quoted s s' x := by
  intro q hq h1 h2
  obtain ⟨e1, e2⟩ := hb.whole (by simp [hx])
  exact .inr ⟨x, mem_self x, by omega, by omega, ls, hx⟩

theorem blank_para (h : C.In (k + 2) s) (hs : Full C s) {list : P (Located Block)}
    (hl : ∀ t, C.In (k + 2) t → t.stop - t.start ≤ s.stop - s.start → C.Ok (list t) (BlockRes C t)) :
    C.Ok (paragraphOf C.env list s) (Shown C (BlankAt C.inner) Quoted s) := by
  refine paragraphOf_comments blank_base h hl ?_
  intro t ht hst hlt hb
  have hft : Full C t := by unfold Full; rw [hst.stop]; exact hs
  exact hb.para ht hft hlt

theorem blank_nested (n : Nat) : NestedShown C (BlankAt C.inner) Quoted (nestedF C.env n) n := by
  induction n with
  | zero => intro k t _ _ hn; omega
  | succ n ih =>
    intro k t ht hs hn
    refine Ctx.Ok.alts ?_
    intro p hp
    simp only [List.mem_cons, List.not_mem_nil, or_false] at hp
    rcases hp with rfl | rfl | rfl | rfl | rfl | rfl | rfl
    · exact blank_defs ht
    · exact listOf_shown blank_base ht hs (nestedF_ok n) ih (by omega)
    · refine ((nestedTable_ok ht).self).mono ?_
      rintro s' x ⟨hb, hr⟩
      obtain ⟨a, -, hx⟩ := map_inv hr
      exact hb.blank_table ht (congrArg Located.inner hx)
    · exact blank_code ht
    · exact blank_math ht
    · refine ((arrowBlockquote_ok ht).self).mono ?_
      rintro s' x ⟨hb, hr⟩
      obtain ⟨ls, hx⟩ := arrow_shape hr
      exact hb.blank_quote hx
    · exact blank_para ht hs fun u hu hut => listOf_ok hu (nestedF_ok n) (by omega)

theorem BlankAt.hid {q : Nat} {x : Located Block} (hq : BlankAt C.inner q) (h : Hid C Quoted q x) :
    Verbatim (Block.allBlocks [x]) (Block.allInlines [x]) q ∨ QuotedAt (Block.allBlocks [x]) q := by
  rcases h with (h | ⟨y, -, -, -, -, h⟩ | ⟨y, hy, hi, hl, -⟩) | ⟨y, hy, a, b, c⟩
  · exact .inl h
  · exact absurd h hq.noColon
  · exact .inr ⟨y, hy, Nat.le_of_lt hi.1, hi.2, hl⟩
  · exact .inr ⟨y, hy, a, b, c⟩

/-- A blank line in an element is inside of a fenced block, a comment or a quote in it. -/
theorem element_blank {env : Env} {text : Str} {s' : Span} {pg : Page} (h : parsePage env text = .ok s' pg)
    {x : Located Block} (hx : x ∈ pg.elements) {q : Nat} (hq : BlankAt text q) (h1 : x.region.offset ≤ q)
    (h2 : q < x.region.offset + x.region.len) :
    Verbatim (Block.allBlocks [x]) (Block.allInlines [x]) q ∨ QuotedAt (Block.allBlocks [x]) q := by
  obtain ⟨s1, s2, e⟩ := element_run h hx
  have hb := ok_of_run (topLevel_ok e.inn) e.run
  have hst := e.start
  have hs := e.full
  have hlt : s1.start < s1.stop := by have := hb.lt; have := hb.good.step.hi; omega
  have hq' : BlankAt (Ctx.ofText env text).inner q := hq
  rcases Nat.eq_or_lt_of_le h1 with h0 | h1
  · refine absurd e.notBlank (BlankAt.read e.inn hs hlt ?_)
    rw [hst, h0]
    exact hq'
  have fin := hq'.hid (x := x)
  have hnl : text[q - 1]? = some 10 := by
    rcases hq.1 with h | h
    · omega
    · exact h
  have line : x.region.len = lineLen (text.drop x.region.offset) → False := by
    intro hl
    have := lineLen_noNl (t := text.drop x.region.offset) (i := q - 1 - x.region.offset) (by omega)
    rw [List.getElem?_drop, show x.region.offset + (q - 1 - x.region.offset) = q - 1 by omega] at this
    exact this hnl
  have hk := topLevel_kind e.run
  have whole : (∀ p, x.inner ≠ .placeholder p) → q < s2.start := by
    intro hp
    obtain ⟨e1, e2⟩ := hb.whole hp
    omega
  cases hxi : x.inner with
  | header xs n c => exact (line ((element_header h hx n c).2 ⟨xs, hxi⟩)).elim
  | divider => exact (line ((element_divider h hx).2 hxi)).elim
  | placeholder p =>
    rw [hxi] at hk
    have := ok_of_run (placeholder_line e.inn) hk (q - 1) (by omega) (by omega)
    exact absurd hnl this
  | defs xs =>
    rw [hxi] at hk
    exact fin (ok_of_run (blank_defs e.inn) hk q hq' (by omega) (whole (by simp [hxi])))
  | list xs =>
    rw [hxi] at hk
    exact fin (ok_of_run (listOf_shown blank_base e.inn hs (nestedF_ok _) (blank_nested _)
      (by rw [remainingLen_eq]; omega)) hk q hq' (by omega) (whole (by simp [hxi])))
  | table xs => exact fin (hb.blank_table e.inn hxi q hq' (by omega) (whole (by simp [hxi])))
  | code l m ls =>
    rw [hxi] at hk
    exact fin (ok_of_run (blank_code e.inn) hk q hq' (by omega) (whole (by simp [hxi])))
  | math ls en =>
    rw [hxi] at hk
    exact fin (ok_of_run (blank_math e.inn) hk q hq' (by omega) (whole (by simp [hxi])))
  | paragraph rows =>
    rw [hxi] at hk
    exact fin (ok_of_run (blank_para e.inn hs fun t ht _ => list_ok ht) hk q hq' (by omega) (whole (by simp [hxi])))
  | blockquote ls => exact fin (hb.blank_quote hxi q hq' (by omega) (whole (by simp [hxi])))

/-- A blank line in a block is inside of a fenced block, a comment or a quote in it. -/
theorem block_blank {env : Env} {text : Str} {s' : Span} {pg : Page} (h : parsePage env text = .ok s' pg)
    {y : Located Block} (hy : y ∈ pg.blocks) {q : Nat} (hq : BlankAt text q) (h1 : y.region.offset ≤ q)
    (h2 : q < y.region.offset + y.region.len) :
    Verbatim (Block.allBlocks [y]) (Block.allInlines [y]) q ∨ QuotedAt (Block.allBlocks [y]) q := by
  obtain ⟨x, hx, hyx⟩ := mem_element hy
  cases hxi : x.inner with
  | list xs =>
    obtain ⟨s1, s2, e⟩ := element_run h hx
    have hk := topLevel_kind e.run
    rw [hxi] at hk
    have hq' : BlankAt (Ctx.ofText env text).inner q := hq
    have fin : ∀ {t t' : Span}, BlockRes (Ctx.ofText env text) t t' y →
        Shown (Ctx.ofText env text) (BlankAt text) Quoted t t' y → Hid (Ctx.ofText env text) Quoted q y := by
      intro t t' hb hs
      have ho : y.region.offset = t.start := by rw [hb.region]
      refine hs q hq (by omega) ?_
      rcases hb.gap with e | ⟨e, -, -⟩ <;> omega
    refine hq'.hid ?_
    rcases (ok_of_run (listOf_same e.inn e.full (nestedF_same _) (by rw [remainingLen_eq]; omega)
      (.inl e.stop_eq)) hk y hyx).2.2 with ⟨k, t, t', n, i1, i2, ⟨i3, i4⟩ | ⟨-, i3, i4⟩⟩
    · exact fin (ok_of_run (listOf_ok i1 (nestedF_ok n) i3) i4)
        (ok_of_run (listOf_shown blank_base i1 i2 (nestedF_ok n) (blank_nested n) i3) i4)
    · exact fin (ok_of_run (nestedF_ok n k t i1 i3) i4) (ok_of_run (blank_nested n k t i1 i2 i3) i4)
  | _ =>
    rw [allBlocks_flat (by simp [hxi])] at hyx
    obtain rfl := List.mem_singleton.1 hyx
    exact element_blank h hx hq h1 h2

end Vw
