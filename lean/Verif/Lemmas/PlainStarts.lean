import Verif.Lemmas.FenceStarts
import Verif.Spec.PlainStarts

/-!
# Lines of paragraphs are found
-/

namespace Vw
open P Scan

variable {C : Ctx}

theorem at_prefix {q : Nat} {ws v w : Str} (e : C.inner.drop q = ws ++ v) (h : At C.inner (q + ws.length) w) :
    w <+: v := by
  unfold At at h
  rw [← List.drop_drop, e, List.drop_left] at h
  exact List.prefix_iff_eq_take.2 h.symm

theorem plain_fence {q n : Nat} {ws r w : Str} {x : Byte} (e : C.inner.drop q = ws ++ x :: r)
    (hw : AllBlank ws) (hx : ¬ (x = 32 ∨ x = 9)) (hb : Blanks C q (q + n)) (hat : At C.inner (q + n) (c!"{" :: w)) :
    c!"{" :: w <+: x :: r := by
  have h0 := hat.getElem? 0 (by simp)
  simp only [Nat.add_zero, List.getElem?_cons_zero] at h0
  have hj := (firstByte_of (C := C) (q := q) (ws := ws) (x := x) e hw hx).1
  have hn := (FirstByte.uniq ⟨by omega, hb, h0, by decide⟩ hj).1
  rw [hn] at hat
  exact at_prefix e hat

/-- A block is a paragraph over `q`. -/
def ParaOver (q : Nat) (y : Located Block) : Prop :=
  y.region.offset ≤ q ∧ q < y.region.offset + y.region.len ∧ ∃ rows, y.inner = .paragraph rows

/-- Lines that begin no block but a paragraph. -/
theorem plainKind (C : Ctx) : LineKind C (fun q => Bol C q ∧ PlainForm (C.inner.drop q)) ParaOver := by
  refine ⟨fun q h => h.1, ?_, ?_, ?_, ?_, ?_, .inr ?_⟩
  · rintro q ⟨-, hf⟩
    obtain ⟨ws, x, r, e, hw, hx, h10, h13, -⟩ := hf.first
    exact ⟨_, x, (firstByte_of (C := C) (q := q) (ws := ws) (x := x) e hw hx).1, h10, h13⟩
  · rintro k s s' y h - - ⟨-, hf⟩ hr -
    exfalso
    obtain ⟨ws, x, r, e, hw, hx, -, -, -, -, f1, f2, -⟩ := hf.first
    rcases hr with hr | hr
    · obtain ⟨hb, l, m, ls, raw, a, b, n, n', hx', -, -, -, -, -, hfe⟩ := ok_of_run (codeBlock_full h) hr
      obtain ⟨e', he⟩ := hfe.open_
      exact f1 (plain_fence e hw hx he.blanks he.mark.2)
    · obtain ⟨hb, ls, en, raw, a, b, n, n', hx', -, -, -, -, -, hfe⟩ := ok_of_run (mathBlock_full h) hr
      obtain ⟨e', he⟩ := hfe.open_
      exact f2 (plain_fence e hw hx he.blanks he.mark.2)
  · rintro q j ⟨-, hf⟩ hj
    obtain ⟨ws, x, r, e, hw, hx, -, -, hb, -⟩ := hf.first
    exact absurd (hj.uniq (firstByte_of (C := C) (q := q) (ws := ws) (x := x) e hw hx).1).2.symm hb
  · rintro q j ⟨-, hf⟩ hj
    obtain ⟨ws, x, r, e, hw, hx, -, -, -, hb, -⟩ := hf.first
    exact absurd (hj.uniq (firstByte_of (C := C) (q := q) (ws := ws) (x := x) e hw hx).1).2.symm hb
  · rintro q it ⟨-, hf⟩ ⟨hqj, hbl, ty, su, w, hp, ha⟩
    exfalso
    obtain ⟨ws, x, r, e, hw, hx, -, -, -, -, -, -, -, hno⟩ := hf.first
    refine hno ty su w hp ?_
    obtain ⟨hne, hhd⟩ := hp.head
    cases w with
    | nil => exact absurd rfl hne
    | cons z w' =>
      have h0 := ha.getElem? 0 (by simp)
      simp only [Nat.add_zero, List.getElem?_cons_zero] at h0
      have hj := (firstByte_of (C := C) (q := q) (ws := ws) (x := x) e hw hx).1
      have hn := (FirstByte.uniq ⟨hqj, hbl, h0, isSpace_false.2 (hhd z rfl)⟩ hj).1
      rw [hn] at ha
      exact at_prefix e ha
  · rintro q y rows - hy h1 h2
    exact ⟨h1, h2, rows, hy⟩

theorem colonLine_drop {text : Str} {q : Nat} (h : ColonLine text q) : ColonLine (text.drop q) 0 := by
  obtain ⟨w, r, e, hw⟩ := h
  exact ⟨w, r, by rw [List.drop_zero, e], hw⟩

theorem plain_no_placeholder {env : Env} {text : Str} {s' : Span} {pg : Page} (h : parsePage env text = .ok s' pg)
    {z : Located Block} (hz : z ∈ pg.elements) (hf : PlainForm (text.drop z.region.offset)) {p : Placeholder}
    (hxi : z.inner = .placeholder p) : False := by
  obtain ⟨s1, s2, e⟩ := element_run h hz
  have hk := topLevel_kind e.run
  rw [hxi] at hk
  obtain ⟨hh, hn⟩ := placeholder_inv e.view hk
  obtain ⟨ws, x, r, e, hw, hx, -, -, -, -, -, -, hp, -⟩ := hf.first
  rw [e] at hh hn
  cases ws with
  | cons y ws =>
    have := hw y (by simp)
    simp at hh
    subst hh
    exact absurd this (by decide)
  | nil =>
    simp only [List.nil_append, List.head?_cons, Option.some.injEq] at hh
    cases r with
    | nil => exact absurd (hp hh rfl) (by simp)
    | cons y r =>
      have := hp hh rfl
      simp at this
      subst this hh
      exact hn ⟨r, rfl⟩

/-- A plain line is in a paragraph or it is hidden. -/
theorem plain_found {env : Env} {text : Str} {s' : Span} {pg : Page}
    (h : parsePage env text = .ok s' pg) {q : Nat} (hq : LineStart text q) (hf : PlainForm (text.drop q)) :
    InParagraph pg.blocks q ∨ Verbatim pg.blocks pg.inlines q ∨ InQuote text pg.blocks q := by
  have hK := plainKind (Ctx.ofText env text)
  have hc : ¬ ColonLine text q := fun h => hf.colons (colonLine_drop h)
  have fin : Hd (Ctx.ofText env text) ParaOver pg.blocks pg.inlines q →
      InParagraph pg.blocks q ∨ Verbatim pg.blocks pg.inlines q ∨ InQuote text pg.blocks q := by
    rintro ((hh | ⟨_, _, _, _, _, hh⟩ | ⟨y, hy, hi, hb, hdl⟩) | ⟨y, hy, hh⟩)
    · exact .inr (.inl hh)
    · exact absurd hh hc
    · exact .inr (.inr ⟨y, hy, Nat.le_of_lt hi.1, hi.2, hb, hdl⟩)
    · exact .inl ⟨y, hy, hh⟩
  have hk : Bol (Ctx.ofText env text) q ∧ PlainForm ((Ctx.ofText env text).inner.drop q) := ⟨hq, hf⟩
  obtain ⟨z, hz, l1, l2⟩ := (parsePage_tiled h).has (C := Ctx.ofText env text) hK hk (Nat.zero_le _)
  rcases Nat.eq_or_lt_of_le l1 with l1 | l1
  · subst l1
    rcases element_first hK h hz hk (by omega) with ⟨xs, n, c, hxi⟩ | hxi | ⟨p', hxi⟩ | ⟨hb, hdl⟩ | h'
    · obtain ⟨mid, hf'⟩ := (element_header h hz n c).1.1 ⟨xs, hxi⟩
      exact absurd hf' (hf.header n c mid)
    · exact absurd ((element_divider h hz).1.1 hxi) hf.divider
    · exact (plain_no_placeholder h hz hf hxi).elim
    · exact .inr (.inr ⟨z, (mem_allBlocks hz).1 _ (mem_self z), Nat.le_refl _, l2, hb, hdl⟩)
    · exact fin h'
  · exact fin (element_hidden hK h hz hk l1 l2)

end Vw
