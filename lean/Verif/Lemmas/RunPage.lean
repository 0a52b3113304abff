import Verif.Lemmas.RunBlocks
import Verif.Lemmas.Tree

/-!
# Where the elements of a page come from
-/

namespace Vw
open P Scan

variable {s s' : Span} {r w t : Str} {C : Ctx} {k : Nat}

/-- The run of the block parsers that gave the element `x` of a page. -/
structure ElementRun (env : Env) (text : Str) (x : Located Block) (s s' : Span) : Prop where
  run : topLevel env s = .ok s' x
  notBlank : blankLine s = .err
  start : s.start = x.region.offset
  view : View s (text.drop x.region.offset)
  bol : AtBol s
  inn : (Ctx.ofText env text).In 2 s
  depth : s.depth = 0

theorem Ctx.In.view (h : C.In k s) (he : s.stop = C.inner.length) : View s (C.inner.drop s.start) := by
  refine ⟨?_, h.wf.le, by rw [h.wf.inner]; exact h.wf.hi⟩
  unfold Span.asRemaining
  rw [h.wf.inner, he, List.take_length]

theorem Bol.atBol (h : C.In k s) (hb : Bol C s.start) : AtBol s := by
  rcases hb with hb | hb
  · exact .inl hb
  · by_cases h0 : s.start = 0
    · exact .inl h0
    · refine .inr ?_
      have h1 := h.wf.le
      have h2 := h.wf.hi
      have hl : (s.inner.take s.start).length = s.start := by
        rw [List.length_take, h.wf.inner]; omega
      unfold Span.asConsumed
      rw [List.getLast?_eq_getElem?, hl, List.getElem?_take_of_lt (by omega), h.wf.inner]
      exact hb

theorem PageAt.run {es : List (Option (Located Block))} (h : PageAt C s es s')
    (he : s.stop = C.inner.length) : ∀ x, some x ∈ es → ∃ s1 s2, topLevel C.env s1 = .ok s2 x ∧
      blankLine s1 = .err ∧ s1.start = x.region.offset ∧ AtBol s1 ∧ C.In 2 s1 ∧
      s1.stop = C.inner.length ∧ s1.depth = s.depth := by
  induction h with
  | nil => simp
  | blank h1 _ ih =>
    intro x hx
    rw [← h1.good.step.depth]
    refine ih (by rw [h1.good.step.stop]; exact he) x (by simpa using hx)
  | block hb hi h1 hr hbl _ ih =>
    intro x hx
    rcases List.mem_cons.1 hx with hx | hx
    · cases hx
      refine ⟨_, _, hr, hbl, ?_, Bol.atBol hi hb, hi, he, rfl⟩
      rw [h1.region]
    · rw [← h1.good.step.depth]
      exact ih (by rw [h1.good.step.stop]; exact he) x hx

theorem element_run {env : Env} {text : Str} {pg : Page} (h : parsePage env text = .ok s' pg)
    {x : Located Block} (hx : x ∈ pg.elements) : ∃ s1 s2, ElementRun env text x s1 s2 := by
  obtain ⟨h1, es, h2, h3⟩ := ok_of_run (parsePage_ok env text) h
  rw [h2] at hx
  obtain ⟨y, hy, hyx⟩ := List.mem_filterMap.1 hx
  cases hyx
  obtain ⟨s1, s2, r1, r2, r3, r4, r5, r6, r7⟩ := h3.run rfl x hy
  exact ⟨s1, s2, r1, r2, r3, by rw [← r3]; exact r5.view r6, r4, r5, r7⟩

/-! ## The kinds of block -/

theorem header_shape {env : Env} {x : Located Block} (h : header env s = .ok s' x) :
    ∃ xs n c, x.inner = .header xs n c := by
  obtain ⟨h, -⟩ := located_inv h
  obtain ⟨_, _, -, h⟩ := bind_inv h
  obtain ⟨_, c, -, h⟩ := bind_inv h
  obtain ⟨_, n, -, h⟩ := bind_inv h
  obtain ⟨_, xs, -, h⟩ := bind_inv h
  obtain ⟨_, _, -, h⟩ := bind_inv h
  exact ⟨xs, n, c, (Res.ok.inj h).2.symm⟩

theorem defs_shape {env : Env} {x : Located Block} (h : definitionList env s = .ok s' x) :
    ∃ xs, x.inner = .defs xs := by
  obtain ⟨h, -⟩ := located_inv h
  obtain ⟨a, -, h⟩ := map_inv h
  exact ⟨_, h⟩

theorem list_shape {env : Env} {x : Located Block} (h : list env s = .ok s' x) :
    ∃ xs, x.inner = .list xs := by
  obtain ⟨h, -⟩ := located_inv h
  obtain ⟨_, a, -, h⟩ := bind_inv h
  obtain ⟨_, b, -, h⟩ := bind_inv h
  exact ⟨_, (Res.ok.inj h).2.symm⟩

theorem table_shape {env : Env} {x : Located Block} (h : table env s = .ok s' x) :
    ∃ t, x.inner = .table t := by
  obtain ⟨a, -, h⟩ := map_inv h
  exact ⟨_, congrArg Located.inner h⟩

theorem code_shape {x : Located Block} (h : codeBlock s = .ok s' x) :
    ∃ l m ls, x.inner = .code l m ls := by
  obtain ⟨h, -⟩ := located_inv h
  obtain ⟨_, a, -, h⟩ := bind_inv h
  obtain ⟨_, b, -, h⟩ := bind_inv h
  obtain ⟨_, c, -, h⟩ := bind_inv h
  obtain ⟨_, d, -, h⟩ := bind_inv h
  exact ⟨_, _, _, (Res.ok.inj h).2.symm⟩

theorem math_shape {x : Located Block} (h : mathBlock s = .ok s' x) :
    ∃ ls e, x.inner = .math ls e := by
  obtain ⟨h, -⟩ := located_inv h
  obtain ⟨_, a, -, h⟩ := bind_inv h
  obtain ⟨_, b, -, h⟩ := bind_inv h
  obtain ⟨_, c, -, h⟩ := bind_inv h
  obtain ⟨_, d, -, h⟩ := bind_inv h
  exact ⟨_, _, (Res.ok.inj h).2.symm⟩

theorem quote_shape {x : Located Block} (h : blockquote s = .ok s' x) :
    ∃ ls, x.inner = .blockquote ls := by
  rcases alt_inv h with h | ⟨-, h⟩
  · obtain ⟨h, -⟩ := located_inv h
    obtain ⟨a, -, h⟩ := map_inv h
    exact ⟨_, h⟩
  · obtain ⟨h, -⟩ := located_inv h
    obtain ⟨a, -, h⟩ := map_inv h
    exact ⟨_, h⟩

theorem divider_shape {x : Located Block} (h : divider s = .ok s' x) : x.inner = .divider := by
  obtain ⟨h, -⟩ := located_inv h
  obtain ⟨_, _, -, h⟩ := bind_inv h
  obtain ⟨_, _, -, h⟩ := bind_inv h
  obtain ⟨_, _, -, h⟩ := bind_inv h
  exact (Res.ok.inj h).2.symm

theorem placeholder_shape {env : Env} {x : Located Block} (h : placeholder env s = .ok s' x) :
    ∃ p, x.inner = .placeholder p := by
  obtain ⟨_, _, -, h⟩ := bind_inv h
  obtain ⟨_, y, hy, h⟩ := bind_inv h
  obtain ⟨_, _, -, h⟩ := bind_inv h
  obtain ⟨hy, -⟩ := located_inv hy
  obtain ⟨p, -, hp⟩ := map_inv hy
  have : y = x := (Res.ok.inj h).2
  subst this
  exact ⟨p, hp⟩

theorem paragraph_shape {env : Env} {x : Located Block} (h : paragraph env s = .ok s' x) :
    ∃ ls, x.inner = .paragraph ls := by
  obtain ⟨h, -⟩ := located_inv h
  obtain ⟨a, -, h⟩ := map_inv h
  exact ⟨_, h⟩

/-- Which parser gave a block, by its kind; the parsers tried before it failed. -/
theorem topLevel_inv {env : Env} {x : Located Block} (h : topLevel env s = .ok s' x) :
    header env s = .ok s' x ∨ (header env s = .err ∧
    (definitionList env s = .ok s' x ∨ (definitionList env s = .err ∧
    (list env s = .ok s' x ∨ (list env s = .err ∧
    (table env s = .ok s' x ∨ (table env s = .err ∧
    (codeBlock s = .ok s' x ∨ (codeBlock s = .err ∧
    (mathBlock s = .ok s' x ∨ (mathBlock s = .err ∧
    (blockquote s = .ok s' x ∨ (blockquote s = .err ∧
    (divider s = .ok s' x ∨ (divider s = .err ∧
    (placeholder env s = .ok s' x ∨ (placeholder env s = .err ∧
      paragraph env s = .ok s' x))))))))))))))))) := by
  unfold topLevel at h
  refine (alts_cons_inv h).imp_right fun ⟨h0, h⟩ => ⟨h0, ?_⟩
  refine (alts_cons_inv h).imp_right fun ⟨h0, h⟩ => ⟨h0, ?_⟩
  refine (alts_cons_inv h).imp_right fun ⟨h0, h⟩ => ⟨h0, ?_⟩
  refine (alts_cons_inv h).imp_right fun ⟨h0, h⟩ => ⟨h0, ?_⟩
  refine (alts_cons_inv h).imp_right fun ⟨h0, h⟩ => ⟨h0, ?_⟩
  refine (alts_cons_inv h).imp_right fun ⟨h0, h⟩ => ⟨h0, ?_⟩
  refine (alts_cons_inv h).imp_right fun ⟨h0, h⟩ => ⟨h0, ?_⟩
  refine (alts_cons_inv h).imp_right fun ⟨h0, h⟩ => ⟨h0, ?_⟩
  refine (alts_cons_inv h).imp_right fun ⟨h0, h⟩ => ⟨h0, ?_⟩
  exact h

/-- The kind of a block determines the parser it came from. -/
theorem topLevel_kind {env : Env} {x : Located Block} (h : topLevel env s = .ok s' x) :
    match x.inner with
    | .header _ _ _ => header env s = .ok s' x
    | .defs _ => definitionList env s = .ok s' x
    | .list _ => list env s = .ok s' x
    | .table _ => table env s = .ok s' x
    | .code _ _ _ => codeBlock s = .ok s' x
    | .math _ _ => mathBlock s = .ok s' x
    | .blockquote _ => blockquote s = .ok s' x
    | .divider => divider s = .ok s' x
    | .placeholder _ => placeholder env s = .ok s' x
    | .paragraph _ => paragraph env s = .ok s' x := by
  rcases topLevel_inv h with h | ⟨-, h | ⟨-, h | ⟨-, h | ⟨-, h | ⟨-, h | ⟨-, h | ⟨-, h | ⟨-, h | ⟨-, h⟩⟩⟩⟩⟩⟩⟩⟩⟩
  · obtain ⟨_, _, _, e⟩ := header_shape h; rw [e]; exact h
  · obtain ⟨_, e⟩ := defs_shape h; rw [e]; exact h
  · obtain ⟨_, e⟩ := list_shape h; rw [e]; exact h
  · obtain ⟨_, e⟩ := table_shape h; rw [e]; exact h
  · obtain ⟨_, _, _, e⟩ := code_shape h; rw [e]; exact h
  · obtain ⟨_, _, e⟩ := math_shape h; rw [e]; exact h
  · obtain ⟨_, e⟩ := quote_shape h; rw [e]; exact h
  · have e := divider_shape h; rw [e]; exact h
  · obtain ⟨_, e⟩ := placeholder_shape h; rw [e]; exact h
  · obtain ⟨_, e⟩ := paragraph_shape h; rw [e]; exact h

/-! ## How the text of a block begins -/

/-- The text begins, after blanks, with `p`. -/
def Begins (t p : Str) : Prop := ∃ ws r, t = ws ++ (p ++ r) ∧ AllBlank ws

theorem tag_inv {p : Str} {o : Span} (h : View s t) (ht : tag p s = .ok s' o) :
    ∃ r, t = p ++ r ∧ s' = adv s p.length ∧ o = cut s p.length := by
  by_cases hp : p <+: t
  · obtain ⟨r, rfl⟩ := hp
    rw [tag_run h] at ht
    cases ht
    exact ⟨r, rfl, rfl, rfl⟩
  · rw [tag_run_err h hp] at ht
    cases ht

theorem space0_inv {o : Span} (h : View s t) (ht : space0 s = .ok s' o) :
    ∃ w r, t = w ++ r ∧ AllBlank w ∧ (∀ x, r.head? = some x → ¬ (x = 32 ∨ x = 9)) ∧
      s' = adv s w.length ∧ o = cut s w.length := by
  obtain ⟨w, r, rfl, hw, hr⟩ := while_exists isSpace t
  rw [space0_run h hw hr] at ht
  cases ht
  exact ⟨w, r, rfl, AllBlank.iff.2 hw, fun x hx => isSpace_false.1 (hr x hx), rfl, rfl⟩

theorem char_inv {c x : Byte} (h : View s t) (ht : char c s = .ok s' x) :
    ∃ r, t = c :: r ∧ s' = adv s 1 ∧ x = c := by
  unfold char at ht
  cases t with
  | nil => rw [satisfy_run_err h (by simp)] at ht; cases ht
  | cons y r =>
    by_cases hy : y = c
    · subst hy
      rw [satisfy_run h (by simp)] at ht
      cases ht
      exact ⟨r, rfl, rfl, rfl⟩
    · rw [satisfy_run_err h (by simpa using hy)] at ht; cases ht

theorem takeLineUntil_view {pat : Str} (hp : PatOk pat) (h : View s t) :
    ∃ w r, t = w ++ r ∧ takeLineUntil pat s = .ok (adv s w.length) (cut s w.length) ∧
      ScanRes [pat] (w ++ r) w.length := by
  have := takeLineUntilLoop_res pat t hp.1 hp.2.1 0 (memchrIter (fun b => b == 10 || b == pat.headD 0) t)
    (by omega) (memchrIter_pos _ _) (by intro i hi; omega)
  unfold takeLineUntil
  simp only [h.rem]
  generalize takeLineUntilLoop pat t _ = n at this ⊢
  have hl : (t.take n).length = n := by rw [List.length_take]; have := this.le; omega
  have ht : t = t.take n ++ t.drop n := by simp
  refine ⟨t.take n, t.drop n, ht, ?_, ?_⟩
  · have := takeSplit_run (ht ▸ h)
    rw [hl] at this ⊢
    exact this
  · rw [hl, ← ht]; exact this

theorem takeLineUntil1_inv {pat : Str} {o : Span} (hp : PatOk pat) (h : View s t)
    (ht : takeLineUntil1 pat s = .ok s' o) :
    ∃ w r, t = w ++ r ∧ w ≠ [] ∧ s' = adv s w.length ∧ o = cut s w.length ∧
      ScanRes [pat] (w ++ r) w.length := by
  obtain ⟨ht, hne⟩ := verify_inv ht
  obtain ⟨w, r, rfl, hr, hs⟩ := takeLineUntil_view hp h
  rw [hr] at ht
  cases ht
  rw [(View.cut h).isEmpty] at hne
  exact ⟨w, r, rfl, by rintro rfl; simp at hne, rfl, rfl, hs⟩

theorem ScanRes.noNl {pats : List Str} (h : ScanRes pats (w ++ r) w.length) : 10 ∉ w := by
  intro hm
  obtain ⟨i, hi, he⟩ := List.mem_iff_getElem.1 hm
  refine (h.clear i hi).1 ?_
  rw [List.getElem?_append_left hi, List.getElem?_eq_getElem hi, he]

theorem termLine_begins {env : Env} {x : Located Inlines × Option (Located Inlines)} (h : View s t)
    (ht : termLine env s = .ok s' x) : ∃ w r, t = w ++ (b!"::" ++ r) ∧ 10 ∉ w := by
  unfold termLine at ht
  obtain ⟨s1, o, h1, ht⟩ := bind_inv ht
  obtain ⟨ws, r, rfl, hws, -, rfl, -⟩ := space0_inv h h1
  have v1 := View.adv h
  obtain ⟨s2, o2, h2, -⟩ := bind_inv ht
  obtain ⟨h2, -⟩ := located_inv h2
  obtain ⟨s3, o3, h3, h4⟩ := bind_inv h2
  obtain ⟨o4, _, h5, -⟩ := mapParser_inv h3
  obtain ⟨h5, -⟩ := verify_inv h5
  obtain ⟨w, r', rfl, hne, rfl, rfl, hs⟩ := takeLineUntil1_inv ⟨by decide, by decide, _, _, rfl, by decide⟩ v1 h5
  obtain ⟨s6, o6, h6, -⟩ := bind_inv h4
  obtain ⟨r'', rfl, -, -⟩ := tag_inv (View.adv v1) h6
  refine ⟨ws ++ w, r'', by simp, ?_⟩
  have h1 := mem_blank_ne (c := 10) hws (by decide)
  have h2 := hs.noNl
  simp [h1, h2]

theorem defs_begins {env : Env} {x : Located Block} (h : View s t)
    (ht : definitionList env s = .ok s' x) : ∃ w r, t = w ++ (b!"::" ++ r) ∧ 10 ∉ w := by
  obtain ⟨ht, -⟩ := located_inv ht
  obtain ⟨_, ht, -⟩ := map_inv ht
  obtain ⟨s1, a, h1, -⟩ := bind_inv ht
  obtain ⟨s2, h1, -⟩ := deeper_inv h1
  obtain ⟨s3, b, h3, -⟩ := bind_inv h1
  exact termLine_begins (h.withDepth _) h3

theorem table_begins {env : Env} {x : Located Block} (h : View s t)
    (ht : table env s = .ok s' x) : Begins t b!"|" := by
  obtain ⟨_, ht, -⟩ := map_inv ht
  obtain ⟨ht, -⟩ := located_inv ht
  obtain ⟨ht, -⟩ := verify_inv ht
  obtain ⟨s1, a, h1, ht⟩ := bind_inv ht
  obtain ⟨ws, r, rfl, hws, -, rfl, -⟩ := space0_inv h h1
  obtain ⟨s2, b, h2, -⟩ := bind_inv ht
  obtain ⟨s3, c, h3, -⟩ := bind_inv h2
  obtain ⟨s4, d, h4, -⟩ := bind_inv h3
  obtain ⟨r', rfl, -, -⟩ := char_inv (View.adv h) h4
  exact ⟨ws, r', rfl, hws⟩

theorem indentSize_inv {n : Nat} (h : View s t) (ht : indentSize s = .ok s' n) :
    ∃ w r, t = w ++ r ∧ AllBlank w ∧ (∀ x, r.head? = some x → ¬ (x = 32 ∨ x = 9)) ∧
      s' = adv s w.length ∧ n = w.length := by
  obtain ⟨o, _, h1, h2⟩ := mapParser_inv ht
  obtain ⟨w, r, rfl, hw, hr, rfl, rfl⟩ := space0_inv h h1
  have h2 := (Res.ok.inj h2).2
  rw [(View.cut h).remLen] at h2
  exact ⟨w, r, rfl, hw, hr, rfl, h2.symm⟩

theorem code_begins {x : Located Block} (h : View s t)
    (ht : codeBlock s = .ok s' x) : Begins t b!"{{{" := by
  obtain ⟨ht, -⟩ := located_inv ht
  obtain ⟨s1, a, h1, -⟩ := bind_inv ht
  obtain ⟨s2, b, h2, h1⟩ := bind_inv h1
  obtain ⟨w, r, rfl, hw, -, rfl, -⟩ := indentSize_inv h h2
  obtain ⟨s3, c, h3, -⟩ := bind_inv h1
  obtain ⟨r', rfl, -, -⟩ := tag_inv (View.adv h) h3
  exact ⟨w, r', rfl, hw⟩

theorem math_begins {x : Located Block} (h : View s t)
    (ht : mathBlock s = .ok s' x) : Begins t b!"{{$" := by
  obtain ⟨ht, -⟩ := located_inv ht
  obtain ⟨s1, a, h1, -⟩ := bind_inv ht
  obtain ⟨s2, b, h2, h1⟩ := bind_inv h1
  obtain ⟨w, r, rfl, hw, -, rfl, -⟩ := indentSize_inv h h2
  obtain ⟨s3, c, h3, -⟩ := bind_inv h1
  obtain ⟨r', rfl, -, -⟩ := tag_inv (View.adv h) h3
  exact ⟨w, r', rfl, hw⟩

theorem quote_begins {x : Located Block} (h : View s t) (ht : blockquote s = .ok s' x) :
    Begins t b!"> " ∨ ∃ w r, t = w ++ r ∧ AllBlank w ∧ 4 ≤ w.length := by
  rcases alt_inv ht with ht | ⟨-, ht⟩
  · obtain ⟨ht, -⟩ := located_inv ht
    obtain ⟨_, ht, -⟩ := map_inv ht
    obtain ⟨s1, a, h1, -⟩ := bind_inv ht
    obtain ⟨s2, o, h2, -⟩ := bind_inv h1
    obtain ⟨h2, hl⟩ := verify_inv h2
    obtain ⟨w, r, rfl, hw, -, rfl, rfl⟩ := space0_inv h h2
    rw [(View.cut h).remLen] at hl
    exact .inr ⟨w, r, rfl, hw, by simpa using hl⟩
  · obtain ⟨ht, -⟩ := located_inv ht
    obtain ⟨_, ht, -⟩ := map_inv ht
    obtain ⟨s1, a, h1, -⟩ := bind_inv ht
    obtain ⟨s2, b, h2, -⟩ := bind_inv h1
    obtain ⟨s3, c, h3, h2⟩ := bind_inv h2
    obtain ⟨w, r, rfl, hw, -, rfl, -⟩ := space0_inv h h3
    obtain ⟨s4, d, h4, -⟩ := bind_inv h2
    obtain ⟨r', rfl, -, -⟩ := tag_inv (View.adv h) h4
    exact .inl ⟨w, r', rfl, hw⟩

/-- How a list item begins. -/
def ItemBegins (t : Str) : Prop :=
  Begins t b!"- " ∨ Begins t b!"* " ∨ Begins t b!"# " ∨
    ∃ c, (isDigit c = true ∨ isLower c = true ∨ isUpper c = true) ∧ Begins t [c]

theorem roman_lower : ∀ c ∈ b!"ivxlcdm", isLower c = true := by decide

theorem roman_upper : ∀ c ∈ b!"IVXLEDM", isUpper c = true := by decide

theorem prefix_begins {x : ItemType × Suffix} (h : View s t) (ht : listItemPrefix s = .ok s' x) :
    (∃ r, t = b!"- " ++ r) ∨ (∃ r, t = b!"* " ++ r) ∨ (∃ r, t = b!"# " ++ r) ∨
    ∃ c r, (isDigit c = true ∨ isLower c = true ∨ isUpper c = true) ∧ t = c :: r := by
  have first : ∀ {f : Byte → Bool} {s' o : Span}, takeWhile1 f s = .ok s' o →
      ∃ c r, f c = true ∧ t = c :: r := by
    intro f s' o ho
    unfold takeWhile1 at ho
    rw [h.rem] at ho
    split at ho
    · cases ho
    · rename_i hn
      cases t with
      | nil => simp at hn
      | cons c r =>
        refine ⟨c, r, ?_, rfl⟩
        cases hc : f c with
        | true => rfl
        | false => simp [hc] at hn
  unfold listItemPrefix at ht
  rcases alts_cons_inv ht with h1 | ⟨-, ht⟩
  · obtain ⟨_, h1, -⟩ := value_inv h1
    obtain ⟨r, rfl, -⟩ := tag_inv h h1
    exact .inl ⟨r, rfl⟩
  rcases alts_cons_inv ht with h1 | ⟨-, ht⟩
  · obtain ⟨_, h1, -⟩ := value_inv h1
    obtain ⟨r, rfl, -⟩ := tag_inv h h1
    exact .inr (.inl ⟨r, rfl⟩)
  rcases alts_cons_inv ht with h1 | ⟨-, ht⟩
  · refine .inr (.inr (.inr ?_))
    obtain ⟨s1, a, h1, -⟩ := bind_inv h1
    unfold orderedType at h1
    have one : ∀ {cs : Str} {s' : Span} {o : List Byte}, many1 (oneOf cs) s = .ok s' o →
        ∃ c r, c ∈ cs ∧ t = c :: r := by
      intro cs s' o ho
      obtain ⟨s1, a, h1, -⟩ := bind_inv ho
      unfold oneOf satisfy at h1
      rw [h.rem] at h1
      cases t with
      | nil => cases h1
      | cons c r =>
        simp only at h1
        split at h1
        · rename_i hc
          exact ⟨c, r, by simpa using hc, rfl⟩
        · cases h1
    rcases alts_cons_inv h1 with h1 | ⟨-, h1⟩
    · obtain ⟨_, h1, -⟩ := value_inv h1
      obtain ⟨c, r, hc, rfl⟩ := first h1
      exact ⟨c, r, .inl hc, rfl⟩
    rcases alts_cons_inv h1 with h1 | ⟨-, h1⟩
    · obtain ⟨_, h1, -⟩ := value_inv h1
      obtain ⟨c, r, hc, rfl⟩ := one h1
      refine ⟨c, r, .inr (.inl ?_), rfl⟩
      exact roman_lower c hc
    rcases alts_cons_inv h1 with h1 | ⟨-, h1⟩
    · obtain ⟨_, h1, -⟩ := value_inv h1
      obtain ⟨c, r, hc, rfl⟩ := one h1
      refine ⟨c, r, .inr (.inr ?_), rfl⟩
      exact roman_upper c hc
    rcases alts_cons_inv h1 with h1 | ⟨-, h1⟩
    · obtain ⟨_, h1, -⟩ := value_inv h1
      obtain ⟨c, r, hc, rfl⟩ := first h1
      exact ⟨c, r, .inr (.inl hc), rfl⟩
    · obtain ⟨_, h1, -⟩ := value_inv h1
      obtain ⟨c, r, hc, rfl⟩ := first h1
      exact ⟨c, r, .inr (.inr hc), rfl⟩
  · obtain ⟨s1, a, h1, ht⟩ := bind_inv ht
    obtain ⟨_, h1, -⟩ := value_inv h1
    obtain ⟨r, rfl, rfl, -⟩ := tag_inv h h1
    obtain ⟨s2, b, h2, -⟩ := bind_inv ht
    obtain ⟨_, h2, -⟩ := value_inv h2
    obtain ⟨r', rfl, -⟩ := tag_inv (View.adv h) h2
    exact .inr (.inr (.inl ⟨r', rfl⟩))

theorem list_begins {env : Env} {x : Located Block} (hi : C.In (k + 1) s) (h : View s t)
    (ht : list env s = .ok s' x) : ItemBegins t := by
  obtain ⟨ht, -⟩ := located_inv ht
  obtain ⟨s1, a, h1, -⟩ := bind_inv ht
  obtain ⟨s2, h1, -⟩ := deeper_inv h1
  have h := h.withDepth (s.depth + 1)
  have hi := withDepth_in hi
  generalize s.withDepth (s.depth + 1) = s at h h1 hi
  obtain ⟨s3, b, h3, h1a⟩ := bind_inv h1
  have hs : s3 = s := by
    unfold beginningOfLine at h3
    split at h3
    · exact (Res.ok.inj h3).1.symm
    · cases h3
  subst hs
  clear h1
  obtain ⟨s4, ind, h4, h1⟩ := bind_inv h1a
  obtain ⟨o, h5, -⟩ := map_inv h4
  obtain ⟨ws, r, rfl, hws, -, rfl, -⟩ := space0_inv h h5
  have v1 := View.adv h
  have i1 := View.in_adv hi h (View.B_after hi h fun x hx => by
    rcases hws x (List.mem_of_getLast? hx) with rfl | rfl <;> decide)
  generalize adv s3 ws.length = s4 at v1 h1 i1
  cases hl : itemLines ind s4 with
  | ok s5 rem =>
    rw [hl] at h1
    simp only at h1
    obtain ⟨n, hn, hrem⟩ : ∃ n, n ≤ r.length ∧ rem = cut s4 n := by
      obtain ⟨g, -, ho⟩ := ok_of_run (itemLines_ok i1 ind) hl
      have h1 := g.step.le
      have h2 := g.step.hi
      have h3 := v1.len
      refine ⟨s5.start - s4.start, by omega, ?_⟩
      rw [ho, cut]
      congr 1
      omega
    subst hrem
    have v2 : View (cut s4 n) (r.take n) := by
      have : View s4 (r.take n ++ r.drop n) := by simpa using v1
      have := View.cut this
      rwa [List.length_take, Nat.min_eq_left hn] at this
    split at h1
    · rename_i rem' item hitem
      obtain ⟨hi, -⟩ := located_inv hitem
      obtain ⟨_, hi, -⟩ := map_inv hi
      obtain ⟨s6, c, hi, -⟩ := bind_inv hi
      have hr : r = r.take n ++ r.drop n := by simp
      rcases prefix_begins v2 hi with ⟨q, e⟩ | ⟨q, e⟩ | ⟨q, e⟩ | ⟨c, q, hc, e⟩
      · exact .inl ⟨ws, q ++ r.drop n, by rw [← List.append_assoc b!"- ", ← e, ← hr], hws⟩
      · exact .inr (.inl ⟨ws, q ++ r.drop n, by rw [← List.append_assoc b!"* ", ← e, ← hr], hws⟩)
      · exact .inr (.inr (.inl ⟨ws, q ++ r.drop n, by rw [← List.append_assoc b!"# ", ← e, ← hr], hws⟩))
      · refine .inr (.inr (.inr ⟨c, hc, ws, q ++ r.drop n, ?_, hws⟩))
        have : [c] ++ (q ++ r.drop n) = (c :: q) ++ r.drop n := by simp
        rw [this, ← e, ← hr]
    all_goals cases h1
  | _ => rw [hl] at h1; cases h1

/-! ## Which element a line gives -/

theorem Begins.head {p : Str} {c : Byte} (h : Begins t p) (ht : t.head? = some c)
    (hc : ¬ (c = 32 ∨ c = 9)) (hp : p ≠ []) : p.head? = some c := by
  obtain ⟨ws, r, rfl, hws⟩ := h
  cases ws with
  | nil => cases p with
    | nil => exact absurd rfl hp
    | cons x p => simpa using ht
  | cons y ws =>
    cases ht
    exact absurd (hws c (by simp)) hc

theorem HeaderForm.begins {n : Nat} {c : Bool} {mid : Str} (h : HeaderForm t n c mid) :
    Begins t b!"=" := by
  obtain ⟨ws, b1, b2, ws', r, rfl, hws, -⟩ := h.form
  obtain ⟨m, rfl⟩ : ∃ m, n = m + 1 := ⟨n - 1, by have := h.level; omega⟩
  exact ⟨ws, List.replicate m c!"=" ++ (b1 ++ mid ++ b2 ++ List.replicate (m + 1) c!"=" ++ ws' ++ r),
    by simp [List.replicate_succ], hws⟩

theorem header_complete {n : Nat} {c : Bool} {mid : Str} (hi : C.In (k + 1) s) (hb : AtBol s)
    (h : View s t) (hf : HeaderForm t n c mid) :
    (∃ r, header C.env s = .panic r) ∨
      ∃ s' x xs, header C.env s = .ok s' x ∧ x.inner = .header xs n c ∧ x.region.len = lineLen t := by
  obtain ⟨A, B, rfl, hA, hB, hv, hr⟩ := header_run C.env hb h hf
  have hok := header_ok hi
  cases hc : inlineContainer C.env (cut (adv s A.length) mid.length) with
  | ok s1 x =>
    rw [hc] at hr
    obtain ⟨N, hN, hr⟩ := hr
    exact .inr ⟨_, _, _, hr, rfl, hN⟩
  | panic r => rw [hc] at hr; exact .inl ⟨r, hr⟩
  | diverge => rw [hc] at hr; simp only at hr; rw [hr] at hok; exact hok.elim
  | err =>
    exfalso
    have i1 := View.in_adv hi h (View.B_after hi h fun x hx => hA x (List.mem_of_getLast? hx))
    have v1 := View.adv h
    have i2 := View.in_cut i1 v1 (View.B_before i1 v1 hB)
    rcases inlineContainer_err i2 hc with he | he
    · have := hv.len
      have : mid.length = 0 := by omega
      exact hf.ne (List.length_eq_zero_iff.1 this)
    · refine hf.noNl ?_
      have hget : ∀ j : Nat, (cut (adv s A.length) mid.length).start + j <
          (cut (adv s A.length) mid.length).stop →
          C.inner[(cut (adv s A.length) mid.length).start + j]? = some 10 → 10 ∈ mid := by
        intro j h1 h2
        have := i2.wf.rem_some.2 ⟨h1, h2⟩
        rw [hv.rem] at this
        exact List.mem_of_getElem? this
      rcases he with ⟨h1, h2⟩ | ⟨h1, -, h2⟩
      · exact hget 0 h1 h2
      · exact hget 1 h1 h2

theorem element_header {env : Env} {text : Str} {pg : Page} (h : parsePage env text = .ok s' pg)
    {x : Located Block} (hx : x ∈ pg.elements) (n : Nat) (c : Bool) :
    ((∃ xs, x.inner = .header xs n c) ↔ ∃ mid, HeaderForm (text.drop x.region.offset) n c mid) ∧
    ((∃ xs, x.inner = .header xs n c) → x.region.len = lineLen (text.drop x.region.offset)) := by
  obtain ⟨s1, s2, e⟩ := element_run h hx
  have fwd : (∃ xs, x.inner = .header xs n c) →
      ∃ mid, HeaderForm (text.drop x.region.offset) n c mid := by
    rintro ⟨xs, hxs⟩
    have hk := topLevel_kind e.run
    rw [hxs] at hk
    obtain ⟨n', c', mid, xs', hf, he⟩ := header_inv (C := Ctx.ofText env text) e.inn e.view hk
    rw [hxs] at he
    cases he
    exact ⟨mid, hf⟩
  have bwd : (∃ mid, HeaderForm (text.drop x.region.offset) n c mid) →
      (∃ xs, x.inner = .header xs n c) ∧ x.region.len = lineLen (text.drop x.region.offset) := by
    rintro ⟨mid, hf⟩
    rcases topLevel_inv e.run with hr | ⟨hr, -⟩
    all_goals
      rcases header_complete (C := Ctx.ofText env text) e.inn e.bol e.view hf with
        ⟨r, hp⟩ | ⟨_, y, xs, hp, hy, hl⟩
      all_goals
        have hp : header env s1 = _ := hp
        rw [hr] at hp
        cases hp
    exact ⟨⟨xs, hy⟩, hl⟩
  exact ⟨⟨fwd, fun h => (bwd h).1⟩, fun h => (bwd (fwd h)).2⟩

theorem element_divider {env : Env} {text : Str} {pg : Page} (h : parsePage env text = .ok s' pg)
    {x : Located Block} (hx : x ∈ pg.elements) :
    (x.inner = .divider ↔ DividerForm (text.drop x.region.offset)) ∧
    (x.inner = .divider → x.region.len = lineLen (text.drop x.region.offset)) := by
  obtain ⟨s1, s2, e⟩ := element_run h hx
  have fwd : x.inner = .divider → DividerForm (text.drop x.region.offset) := by
    intro hd
    have hk := topLevel_kind e.run
    rw [hd] at hk
    exact (divider_inv e.view hk).1
  refine ⟨⟨fwd, ?_⟩, ?_⟩
  rotate_left
  · intro hd
    have hk := topLevel_kind e.run
    rw [hd] at hk
    obtain ⟨N, hN, hrun⟩ := divider_run e.bol e.view (fwd hd)
    have hk : divider s1 = _ := hk
    rw [hrun] at hk
    cases hk
    exact hN
  · intro hd
    have hv := e.view
    obtain ⟨N, -, hrun⟩ := divider_run e.bol e.view hd
    generalize text.drop x.region.offset = t at hv hd
    have hd' := hd
    obtain ⟨n, r, hn, rfl, hr⟩ := hd
    have hhead : (List.replicate n c!"-" ++ r).head? = some c!"-" := by
      obtain ⟨m, rfl⟩ : ∃ m, n = m + 1 := ⟨n - 1, by omega⟩
      simp [List.replicate_succ]
    have no : ∀ p : Str, p ≠ [] → p.head? ≠ some c!"-" → ¬ Begins (List.replicate n c!"-" ++ r) p :=
      fun p h1 h2 hb => h2 (hb.head hhead (by decide) h1)
    have second : ∀ q, List.replicate n c!"-" ++ r ≠ b!"- " ++ q := by
      intro q hq
      obtain ⟨m, rfl⟩ : ∃ m, n = m + 2 := ⟨n - 2, by omega⟩
      simp [List.replicate_succ] at hq
    rcases topLevel_inv e.run with hk | ⟨-, hk | ⟨-, hk | ⟨-, hk | ⟨-, hk | ⟨-, hk | ⟨-, hk | ⟨-, hk | ⟨hk, -⟩⟩⟩⟩⟩⟩⟩⟩
    · obtain ⟨_, _, _, _, hf, -⟩ := header_inv (C := Ctx.ofText env text) e.inn hv hk
      exact absurd hf.begins (no _ (by decide) (by decide))
    · exfalso
      obtain ⟨w, q, he, hw⟩ := defs_begins hv hk
      rcases List.append_eq_append_iff.1 he with ⟨as, rfl, rfl⟩ | ⟨bs, h1, h2⟩
      · rcases hr with hr | ⟨u, hr⟩ | ⟨u, hr⟩
        · simp at hr
        · cases as with
          | nil => simp at hr
          | cons a as => simp at hr; apply hw; simp [hr.1]
        · match as, hr, hw with
          | [], hr, hw => simp at hr
          | [a], hr, hw => simp at hr
          | a :: b :: as, hr, hw => simp at hr; apply hw; simp [hr.2.1]
      · cases bs with
        | nil => 
          rcases hr with rfl | ⟨u, rfl⟩ | ⟨u, rfl⟩ <;> simp at h2
        | cons b bs =>
          have : b ∈ List.replicate n c!"-" := by rw [h1]; simp
          rw [List.eq_of_mem_replicate this] at h2
          simp at h2
    · exfalso
      rcases list_begins (C := Ctx.ofText env text) e.inn hv hk with hb | hb | hb | ⟨c, hc, hb⟩
      · obtain ⟨ws, q, he, hws⟩ := hb
        cases ws with
        | nil => exact second q he
        | cons y ws =>
          rw [he] at hhead
          cases hhead
          exact absurd (hws _ (List.mem_cons_self)) (by decide)
      · exact no _ (by decide) (by decide) hb
      · exact no _ (by decide) (by decide) hb
      · refine no _ (by simp) ?_ hb
        intro h
        simp at h
        subst h
        simp [isDigit, isLower, isUpper] at hc
    · exact absurd (table_begins hv hk) (no _ (by decide) (by decide))
    · exact absurd (code_begins hv hk) (no _ (by decide) (by decide))
    · exact absurd (math_begins hv hk) (no _ (by decide) (by decide))
    · exfalso
      rcases quote_begins hv hk with hb | ⟨w, q, he, hw, hl⟩
      · exact no _ (by decide) (by decide) hb
      · cases w with
        | nil => simp at hl
        | cons y w =>
          rw [he] at hhead
          cases hhead
          exact absurd (hw _ (List.mem_cons_self)) (by decide)
    · exact divider_shape hk
    · rw [hk] at hrun; cases hrun

end Vw
