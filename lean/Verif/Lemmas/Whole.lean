import Verif.Lemmas.PlainStarts

/-!
# Blocks take in all their lines
-/

namespace Vw
open P Scan

variable {C : Ctx} {k : Nat} {s s' : Span}

theorem many0_stops {α} {p : P α} {xs : List α} (h : many0 p s = .ok s' xs) : p s' = .err := by
  unfold many0 at h
  generalize s.remainingLen + 1 = n at h
  induction n generalizing s xs with
  | zero => cases h
  | succ n ih =>
    rcases many0Loop_inv h with ⟨h1, rfl, -⟩ | ⟨m, s1, x, ys, e, -, -, h1⟩
    · exact h1
    · cases e
      exact ih h1

theorem many1_stops {α} {p : P α} {xs : List α} (h : many1 p s = .ok s' xs) : p s' = .err := by
  obtain ⟨s1, a, -, h⟩ := bind_inv h
  obtain ⟨s2, as, h2, h⟩ := bind_inv h
  cases h
  exact many0_stops h2

theorem many1_first {α} {p : P α} {xs : List α} (h : many1 p s = .ok s' xs) : p s ≠ .err := by
  obtain ⟨s1, a, h, -⟩ := bind_inv h
  rw [h]
  simp

/-- Elements without anything between them are read one after the other. -/
theorem next_run {env : Env} {text : Str} {s' : Span} {pg : Page} (h : parsePage env text = .ok s' pg)
    {x y : Located Block} (hx : x ∈ pg.elements) (hy : y ∈ pg.elements) (hp : ∀ p, x.inner ≠ .placeholder p)
    (ha : y.region.offset = x.region.offset + x.region.len) :
    ∃ s1 s2 s3, ElementRun env text x s1 s2 ∧ ElementRun env text y s2 s3 := by
  obtain ⟨s1, s2, e1⟩ := element_run h hx
  obtain ⟨t2, t3, e2⟩ := element_run h hy
  have hb := ok_of_run (topLevel_ok e1.inn) e1.run
  obtain ⟨w1, w2⟩ := hb.whole hp
  have st := hb.good.step
  have : s2 = t2 := by
    have a1 : s2.inner = t2.inner := by rw [st.inner, e1.inn.wf.inner, e2.inn.wf.inner]
    have a2 : s2.stop = t2.stop := by rw [st.stop, e1.stop_eq, e2.stop_eq]
    have a3 : s2.depth = t2.depth := by rw [st.depth, e1.depth, e2.depth]
    have a4 : s2.start = t2.start := by rw [e2.start]; omega
    cases s2; cases t2
    simp_all
  subst this
  exact ⟨s1, s2, t3, e1, e2⟩

theorem ElementRun.bolAt {env : Env} {text : Str} {x : Located Block} (h : ElementRun env text x s s') :
    Bol (Ctx.ofText env text) s.start := by
  rcases h.bol with hb | hb
  · exact .inl hb
  · by_cases h0 : s.start = 0
    · exact .inl h0
    · refine .inr ?_
      have h1 := h.inn.wf.le
      have h2 := h.inn.wf.hi
      have hl : (s.inner.take s.start).length = s.start := by
        rw [List.length_take, h.inn.wf.inner]; omega
      unfold Span.asConsumed at hb
      rw [List.getLast?_eq_getElem?, hl, List.getElem?_take_of_lt (by omega), h.inn.wf.inner] at hb
      exact hb

theorem paragraph_whole {env : Env} {x y : Located Block} {s1 s2 s3 : Span} (h1 : paragraph env s1 = .ok s2 x)
    (h2 : paragraph env s2 = .ok s3 y) : False := by
  obtain ⟨a, h1, -⟩ := map_inv (located_inv h1).1
  obtain ⟨b, h2, -⟩ := map_inv (located_inv h2).1
  exact many1_first h2 (many1_stops h1)

theorem defs_whole {env : Env} {x y : Located Block} {s1 s2 s3 : Span} (h1 : definitionList env s1 = .ok s2 x)
    (h2 : definitionList env s2 = .ok s3 y) : False := by
  obtain ⟨a, h1, -⟩ := map_inv (located_inv h1).1
  obtain ⟨b, h2, -⟩ := map_inv (located_inv h2).1
  exact many1_first h2 (many1_stops h1)

theorem table_whole {env : Env} {x y : Located Block} {s1 s2 s3 : Span} (h1 : table env s1 = .ok s2 x)
    (h2 : table env s2 = .ok s3 y) : False := by
  obtain ⟨a, h1, -⟩ := map_inv h1
  obtain ⟨b, h2, -⟩ := map_inv h2
  obtain ⟨h1, -⟩ := verify_inv (located_inv h1).1
  obtain ⟨h2, -⟩ := verify_inv (located_inv h2).1
  obtain ⟨_, _, -, h1⟩ := bind_inv h1
  obtain ⟨_, _, -, h1⟩ := bind_inv h1
  obtain ⟨w, l, hm0, hp⟩ := bind_inv h1
  obtain ⟨ew, -⟩ := Res.ok.inj hp
  rw [ew] at hm0
  have := many0_stops hm0
  obtain ⟨t, o, h2, h3⟩ := bind_inv h2
  obtain ⟨_, r, h3, -⟩ := bind_inv h3
  unfold preceded at this
  rw [bind_ok h2, h3] at this
  cases this

theorem indented_whole {x y : Located Block} {s1 s2 s3 : Span} (h1 : indentedBlockquote s1 = .ok s2 x)
    (h2 : indentedBlockquote s2 = .ok s3 y) : False := by
  obtain ⟨a, h1, -⟩ := map_inv (located_inv h1).1
  obtain ⟨b, h2, -⟩ := map_inv (located_inv h2).1
  exact many1_first h2 (many1_stops h1)

theorem arrow_whole {x y : Located Block} {s1 s2 s3 : Span} (h1 : arrowBlockquote s1 = .ok s2 x)
    (h2 : arrowBlockquote s2 = .ok s3 y) (hb : blankLine s2 = .err) : False := by
  obtain ⟨a, h1, -⟩ := map_inv (located_inv h1).1
  obtain ⟨b, h2, -⟩ := map_inv (located_inv h2).1
  obtain ⟨_, _, -, h1⟩ := bind_inv h1
  obtain ⟨w, l, hm0, hp⟩ := bind_inv h1
  obtain ⟨ew, -⟩ := Res.ok.inj hp
  rw [ew] at hm0
  obtain ⟨_, _, h2, -⟩ := bind_inv h2
  have h3 := many0_stops hm0
  obtain ⟨_, l, h2, -⟩ := bind_inv h2
  have hm : many0 (P.value ([] : Str) blankLine) s2 = .ok s2 [] := by
    unfold many0 many0Loop P.value P.map
    rw [hb]
  unfold P.pair at h3
  rw [bind_ok hm, bind_ok h2] at h3
  cases h3

theorem arrow_first {x : Located Block} {t : Str} (hv : View s t) (h : arrowBlockquote s = .ok s' x) :
    ∃ ws r, t = ws ++ (b!"> " ++ r) ∧ AllBlank ws := by
  obtain ⟨a, h, -⟩ := map_inv (located_inv h).1
  obtain ⟨_, _, h, -⟩ := bind_inv h
  obtain ⟨_, _, h, -⟩ := bind_inv h
  obtain ⟨s1, o, h1, h⟩ := bind_inv h
  obtain ⟨w, r, rfl, hw, -, rfl, -⟩ := space0_inv hv h1
  obtain ⟨_, _, h, -⟩ := bind_inv h
  obtain ⟨r', rfl, -⟩ := tag_inv hv.adv h
  exact ⟨w, r', rfl, hw⟩

theorem indent_run {m : Nat} (h : C.In k s) (hs : Full C s) (hlt : s.start < s.stop)
    (hf : ItemForm (C.inner.drop s.start) m) : ∃ s1 o, space0 s = .ok s1 o ∧ o.remainingLen = m := by
  obtain ⟨ws, ty, su, w, v, r, e, hw, hn, hp, hl, hc⟩ := hf
  have hw10 : 10 ∉ w := hp.no10
  have hwh := hp.head
  obtain ⟨r', hv, -⟩ := In.line h hs hlt (L := ws ++ (w ++ v)) (r := r) (by
    rw [e]; simp) (by
    have := hw.no10; have := hl.1
    simp [*]) hl.eolHere
  have hv1 : View s (ws ++ (w ++ v ++ r')) := by simpa using hv
  refine ⟨_, _, space0_run hv1 (AllBlank.iff.1 hw) ?_, ?_⟩
  · intro x hx
    rw [isSpace_false]
    refine hwh.2 x ?_
    cases w with
    | nil => exact absurd rfl hwh.1
    | cons y w => exact hx
  · rw [remainingLen_eq]
    show s.start + ws.length - s.start = m
    omega

theorem list_whole {env : Env} {x : Located Block} {s1 s2 : Span} {m : Nat} (h1 : list env s1 = .ok s2 x)
    (hC : C.env = env) (hi : C.In (k + 2) s1) (hf1 : Full C s1) (hlt1 : s1.start < s1.stop)
    (hlt2 : s2.start < s2.stop) (hb : Bol C s2.start)
    (i1 : ItemForm (C.inner.drop s1.start) m) (i2 : ItemForm (C.inner.drop s2.start) m) : False := by
  subst hC
  have hgood := (ok_of_run (list_ok hi) h1).good
  have hi2 := hi.good hgood
  have st := hgood.step
  have hf2 : Full C s2 := by unfold Full; rw [st.stop]; exact hf1
  unfold list at h1
  obtain ⟨t, ⟨ind, it⟩, hd, h1⟩ := bind_inv (located_inv h1).1
  obtain ⟨w, l, hm0, hp⟩ := bind_inv h1
  obtain ⟨ew, -⟩ := Res.ok.inj hp
  rw [ew] at hm0
  have hstop := many0_stops hm0
  obtain ⟨t', hd, -⟩ := deeper_inv hd
  have hi' : C.In (k + 1) (s1.withDepth (s1.depth + 1)) := withDepth_in hi
  obtain ⟨u, _, hb0, hd⟩ := bind_inv hd
  have eb := (ok_of_run (beginningOfLine_good hi') hb0).1
  subst eb
  obtain ⟨u1, lv, hd1, hd⟩ := bind_inv hd
  obtain ⟨o, hsp, rfl⟩ := map_inv hd1
  obtain ⟨v1, o1, hsp1, hlen⟩ := indent_run (s := s1.withDepth (s1.depth + 1)) hi' hf1 hlt1 i1
  rw [hsp1] at hsp
  cases hsp
  have hind : ind = m := by
    simp only at hd
    split at hd
    · split at hd
      · split at hd
        · cases hd
        · cases hd; exact hlen
      all_goals cases hd
    all_goals cases hd
  obtain ⟨v2, o2, hsp2, hlen2⟩ := indent_run hi2 hf2 hlt2 i2
  have hver : verify indentationPeek (fun level => decide (level = ind)) s2 = .ok s2 m := by
    unfold verify indentationPeek
    rw [map_ok (peek_ok hsp2), hlen2]
    simp [hind]
  unfold preceded at hstop
  rw [bind_ok hver] at hstop
  have hle := st.le
  have hst := st.stop
  refine listItem_ne (n := s1.remainingLen) (s := s2.withDepth (s2.depth + 1)) (withDepth_in hi2) hf2 hlt2 hb i2 ?_
    (deeper_err (map_err hstop))
  show s2.stop - s2.start < _
  rw [remainingLen_eq]
  omega

theorem allBlocks_flat {z : Located Block} (h : ∀ items, z.inner ≠ .list items) : Block.allBlocks [z] = [z] := by
  cases z with
  | mk b r =>
    cases b <;> first | exact absurd rfl (h _) | simp [Block.allBlocks, Block.inside]

/-- A line at the margin that begins no block is in a paragraph of the page itself. -/
theorem plain_top {env : Env} {text : Str} {s' : Span} {pg : Page} (h : parsePage env text = .ok s' pg) {q : Nat}
    (hq : LineStart text q) (hf : PlainForm (text.drop q)) (hn : ∀ b, text[q]? = some b → ¬ (b = 32 ∨ b = 9))
    (hv : ¬ Verbatim pg.blocks pg.inlines q) : ∃ z ∈ pg.elements, ParaOver q z := by
  have hK := plainKind (Ctx.ofText env text)
  have hc : ¬ ColonLine text q := fun h => hf.colons (colonLine_drop h)
  have hdeep : ¬ DeepLine text q := by
    rintro ⟨w, r, e, hw, hl⟩
    cases w with
    | nil => simp at hl
    | cons c w =>
      have := congrArg (fun l => l[0]?) e
      simp only [List.getElem?_drop, Nat.add_zero, List.cons_append, List.getElem?_cons_zero] at this
      exact hn c this (hw c (by simp))
  have hk : Bol (Ctx.ofText env text) q ∧ PlainForm ((Ctx.ofText env text).inner.drop q) := ⟨hq, hf⟩
  obtain ⟨z, hz, l1, l2⟩ := (parsePage_tiled h).has (C := Ctx.ofText env text) hK hk (Nat.zero_le _)
  obtain ⟨m1, m2⟩ := mem_allBlocks hz
  refine ⟨z, hz, ?_⟩
  have hlist : ∀ items, z.inner ≠ .list items := by
    intro items hzi
    obtain ⟨s1, s2, e⟩ := element_run h hz
    have hb := ok_of_run (topLevel_ok e.inn) e.run
    have hk' := topLevel_kind e.run
    rw [hzi] at hk'
    obtain ⟨items', -, hon⟩ := ok_of_run (listOf_deep e.inn (nestedF_ok _) (by rw [remainingLen_eq]; omega)) hk'
    obtain ⟨w1, w2⟩ := hb.whole (by simp [hzi])
    rcases hon q hq (by omega) (by omega) with ⟨b, hb1, hb2⟩ | ⟨it, hi, -⟩
    · exact hn b hb1 (isSpace_iff.1 hb2)
    · exact absurd (hK.item q it hk hi ⟨.list [it], ⟨0, 0, 0⟩⟩ [it] rfl ⟨it, by simp, rfl⟩).2.1 (by simp)
  have fin : Hid (Ctx.ofText env text) ParaOver q z → ParaOver q z := by
    rintro ((hh | ⟨_, _, _, _, _, hh⟩ | ⟨y, hy, hi, hb, hdl⟩) | ⟨y, hy, hh⟩)
    · refine absurd ?_ hv
      rcases hh with ⟨y, hy, hh⟩ | ⟨y, hy, hh⟩
      · exact .inl ⟨y, m1 y hy, hh⟩
      · exact .inr ⟨y, m2 y hy, hh⟩
    · exact absurd hh hc
    · exact absurd hdl hdeep
    · rw [allBlocks_flat hlist] at hy
      rw [List.mem_singleton.1 hy] at hh
      exact hh
  rcases Nat.eq_or_lt_of_le l1 with l1 | l1
  · subst l1
    rcases element_first_hid hK h hz hk (by omega) with ⟨xs, n, c, hxi⟩ | hxi | ⟨p', hxi⟩ | ⟨hb, hdl⟩ | h'
    · obtain ⟨mid, hf'⟩ := (element_header h hz n c).1.1 ⟨xs, hxi⟩
      exact absurd hf' (hf.header n c mid)
    · exact absurd ((element_divider h hz).1.1 hxi) hf.divider
    · exact (plain_no_placeholder h hz hf hxi).elim
    · exact absurd hdl hdeep
    · exact fin h'
  · exact fin (element_hid hK h hz hk l1 l2)

theorem Tiled.ge {text : Str} {a : Nat} {xs : List (Located Block)} (h : Tiled text a xs) :
    ∀ x ∈ xs, a ≤ x.region.offset ∧ x.region.offset + x.region.len ≤ text.length := by
  induction h with
  | nil => simp
  | cons h1 h2 h3 h4 h5 h6 ih =>
    intro x hx
    rcases List.mem_cons.1 hx with rfl | hx
    · omega
    · have := ih x hx
      omega

theorem Tiled.disjoint {text : Str} {a : Nat} {xs : List (Located Block)} (h : Tiled text a xs) :
    ∀ x ∈ xs, ∀ y ∈ xs, x = y ∨ x.region.offset + x.region.len ≤ y.region.offset ∨
      y.region.offset + y.region.len ≤ x.region.offset := by
  induction h with
  | nil => simp
  | cons h1 h2 h3 h4 h5 h6 ih =>
    intro x hx y hy
    rcases List.mem_cons.1 hx with ex | hx'
    · rcases List.mem_cons.1 hy with ey | hy'
      · exact .inl (ex.trans ey.symm)
      · have := h6.ge y hy'
        subst ex
        omega
    · rcases List.mem_cons.1 hy with ey | hy'
      · have := h6.ge x hx'
        subst ey
        omega
      · exact ih x hx' y hy'

/-- Lines at the margin that follow each other and begin no block are in one paragraph. -/
theorem plain_same {env : Env} {text : Str} {s' : Span} {pg : Page} (h : parsePage env text = .ok s' pg) {q q' : Nat}
    (hq : LineStart text q) (hf : PlainForm (text.drop q)) (hn : ∀ b, text[q]? = some b → ¬ (b = 32 ∨ b = 9))
    (hv : ¬ Verbatim pg.blocks pg.inlines q) (he : q' = q + lineLen (text.drop q))
    (hq' : LineStart text q') (hf' : PlainForm (text.drop q'))
    (hn' : ∀ b, text[q']? = some b → ¬ (b = 32 ∨ b = 9))
    (hv' : ¬ Verbatim pg.blocks pg.inlines q') : ∃ z ∈ pg.elements, ParaOver q z ∧ ParaOver q' z := by
  obtain ⟨z, hz, o1, o2, rows, hr⟩ := plain_top h hq hf hn hv
  obtain ⟨y, hy, p1, p2, rows', hr'⟩ := plain_top h hq' hf' hn' hv'
  rcases Nat.lt_or_ge q' (z.region.offset + z.region.len) with hlt | hge
  · exact ⟨z, hz, ⟨o1, o2, rows, hr⟩, by omega, hlt, rows, hr⟩
  exfalso
  have ht := parsePage_tiled h
  have l1 := ht.ge y hy
  obtain ⟨s1, s2, e⟩ := element_run h hz
  have hb := ok_of_run (topLevel_ok e.inn) e.run
  obtain ⟨w1, w2⟩ := hb.whole (by simp [hr])
  have hend : z.region.offset + z.region.len = q' := by
    rcases hb.ends with h1 | h1
    · have : s1.stop = text.length := e.stop_eq
      omega
    · rcases Nat.eq_or_lt_of_le hge with h2 | h2
      · exact h2
      exfalso
      refine lineLen_noNl (t := text.drop q) (i := s2.start - 1 - q) (by omega) ?_
      rw [List.getElem?_drop, show q + (s2.start - 1 - q) = s2.start - 1 by omega]
      exact h1
  have hoff : y.region.offset = z.region.offset + z.region.len := by
    rcases ht.disjoint z hz y hy with h1 | h1 | h1
    · rw [← h1] at p2; omega
    · omega
    · omega
  obtain ⟨s1, s2, s3, e1, e2⟩ := next_run h hz hy (by simp [hr]) hoff
  have k1 := topLevel_kind e1.run
  have k2 := topLevel_kind e2.run
  rw [hr] at k1
  rw [hr'] at k2
  exact paragraph_whole k1 k2

end Vw
