import Verif.Lemmas.LineStarts
import Verif.Lemmas.Placeholder

/-!
# Header, divider and placeholder lines are found
-/

namespace Vw
open P Scan

variable {C : Ctx} {k : Nat}

/-! ## Placeholders are one line -/

theorem placeholder_line {s : Span} (h : C.In k s) : C.Ok (placeholder C.env s) (fun _ x =>
    NoNl C x.region.offset (x.region.offset + x.region.len)) := by
  refine bol_rule h fun _ => ?_
  have tagged : ∀ {t : Str} {mk : Str → Placeholder}, t ≠ [] → (∀ b ∈ t, b < 128) → 10 ∉ t →
      C.Ok ((P.bind (tag t) fun _ => P.bind space1 fun _ => P.map placeholderText mk) s)
        (fun s' _ => C.Good s s' ∧ NoNl C s.start s'.start) := by
    intro t mk ht hta hnl
    refine Ctx.Ok.bind' (tag_good h _ ht hta) ?_
    rintro s1 _ ⟨hsp1, hs1, hat⟩
    have h1 := h.good hsp1.good
    refine Ctx.Ok.bind' (space1_good h1) ?_
    rintro s2 _ ⟨hsp2, tk2, _⟩
    have h2 := h1.good hsp2.good
    refine Ctx.Ok.map ((placeholderText_ok h2).mono ?_)
    rintro s3 v ⟨g3, _, hn⟩
    exact ⟨(hsp1.good.trans hsp2.good).trans g3,
      ((noNl_tag hat hnl hs1).trans (tk2.noNl (by decide))).trans hn.1⟩
  refine Ctx.Ok.bind' (Q1 := fun s' (x : Located Block) => C.Good s s' ∧
      NoNl C x.region.offset (x.region.offset + x.region.len))
    (Ctx.Ok.located (Ctx.Ok.map (Ctx.Ok.mono
      (Q := fun s' _ => C.Good s s' ∧ NoNl C s.start s'.start) ?_ ?_))) ?_
  · refine Ctx.Ok.alts_cons ?_ (Ctx.Ok.alts_cons ?_ (Ctx.Ok.alts_cons ?_ (Ctx.Ok.alts_cons ?_
      (Ctx.Ok.alts_cons ?_ Ctx.Ok.alts_nil))))
    · exact tagged (by decide) (by decide) (by decide)
    · refine Ctx.Ok.bind' (tag_good h _) ?_
      rintro s1 _ ⟨hsp1, hs1, hat⟩
      have h1 := h.good hsp1.good
      refine Ctx.Ok.bind' (space0_good h1) ?_
      rintro s2 _ ⟨hsp2, tk2⟩
      exact Ctx.Ok.pure ⟨hsp1.good.trans hsp2.good,
        (noNl_tag hat (by decide) hs1).trans (tk2.noNl (by decide))⟩
    · exact tagged (by decide) (by decide) (by decide)
    · refine Ctx.Ok.bind' (tag_good h _) ?_
      rintro s1 _ ⟨hsp1, hs1, hat⟩
      have h1 := h.good hsp1.good
      refine Ctx.Ok.bind' (space1_good h1) ?_
      rintro s2 _ ⟨hsp2, tk2, _⟩
      have h2 := h1.good hsp2.good
      refine Ctx.Ok.map (Ctx.Ok.mapOpt ((takeUntilEol_good h2).mono ?_))
      rintro s3 o ⟨hsp3, hc, _⟩ d _
      exact ⟨(hsp1.good.trans hsp2.good).trans hsp3.good,
        ((noNl_tag hat (by decide) hs1).trans (tk2.noNl (by decide))).trans hc.noNl'⟩
    · unfold placeholderOther
      have hnot : ∀ {β} {t : Str} {f : Unit → P β} {Q : Span → β → Prop}, t ≠ [] →
          (∀ b ∈ t, b < 128) → C.Ok (f () s) Q → C.Ok (P.bind (P.not (tag t)) f s) Q := by
        intro β t f Q h1 h2 hf
        exact Ctx.Ok.bind (Ctx.Ok.not ((tag_good h t h1 h2).mono fun _ _ _ => trivial) fun _ => hf)
      refine hnot (by decide) (by decide) (hnot (by decide) (by decide)
        (hnot (by decide) (by decide) (hnot (by decide) (by decide) ?_)))
      refine Ctx.Ok.bind' (tag_good h _) ?_
      rintro s1 _ ⟨hsp1, hs1, hat⟩
      have h1 := h.good hsp1.good
      refine Ctx.Ok.bind' (Q1 := fun s2 n => C.Good s1 s2 ∧ NoNl C s1.start s2.start)
        (strOf_rule ((takeLineUntil31_good h1 _ _ _ (patOk_1 _ (by decide))
        (patOk_1 _ (by decide)) (patOk_1 _ (by decide))).mono ?_)) ?_
      · rintro s2 o ⟨hsp2, hc⟩
        exact ⟨hsp2.good, hc.1.1.noNl'⟩
      rintro s2 n ⟨g2, hn⟩
      have h2 := h1.good g2
      refine Ctx.Ok.bind' (space1_good h2) ?_
      rintro s3 _ ⟨hsp3, tk3, _⟩
      have h3 := h2.good hsp3.good
      refine Ctx.Ok.map ((placeholderText_ok h3).mono ?_)
      rintro s4 v ⟨g4, _, hn4⟩
      exact ⟨((hsp1.good.trans g2).trans hsp3.good).trans g4,
        (((noNl_tag hat (by decide) hs1).trans hn).trans (tk3.noNl (by decide))).trans hn4.1⟩
  · rintro s' p ⟨g, hn⟩
    refine ⟨g.step, g, ?_⟩
    have := g.step.le
    simp only
    rw [show s.start + (s'.start - s.start) = s'.start by omega]
    exact hn
  rintro s1 x ⟨g, hn⟩
  exact Ctx.Ok.bind' (endOfLine_full (h.good g)) fun _ _ _ => Ctx.Ok.pure hn

/-! ## Lines in a page -/

theorem lineLen_noNl {t : Str} {i : Nat} (h : i + 1 < lineLen t) : t[i]? ≠ some 10 := by
  induction t generalizing i with
  | nil => simp [lineLen] at h
  | cons b t ih =>
    unfold lineLen at h
    split at h
    · omega
    · cases i with
      | zero => simpa
      | succ i => simpa using ih (by omega)

theorem mem_allBlocks {x : Located Block} {xs : List (Located Block)} (hx : x ∈ xs) :
    (∀ y ∈ Block.allBlocks [x], y ∈ Block.allBlocks xs) ∧
      ∀ y ∈ Block.allInlines [x], y ∈ Block.allInlines xs := by
  induction xs with
  | nil => cases hx
  | cons z zs ih =>
    rw [allBlocks_cons z zs, allInlines_cons z zs]
    rcases List.mem_cons.1 hx with rfl | hx
    · exact ⟨fun y hy => List.mem_append_left _ hy, fun y hy => List.mem_append_left _ hy⟩
    · exact ⟨fun y hy => List.mem_append_right _ ((ih hx).1 y hy),
        fun y hy => List.mem_append_right _ ((ih hx).2 y hy)⟩

theorem BlankLines.last {w : Str} (h : BlankLines w) : w = [] ∨ w.getLast? = some 10 := by
  induction h with
  | nil => exact .inl rfl
  | cons _ he _ ih =>
    refine .inr ?_
    rcases ih with rfl | ih
    · rcases he with rfl | rfl <;> simp
    · rw [List.getLast?_append, ih]; rfl

theorem BlankLines.bytes {w : Str} (h : BlankLines w) : ∀ x ∈ w, x = 32 ∨ x = 9 ∨ x = 10 ∨ x = 13 := by
  induction h with
  | nil => simp
  | cons hb he _ ih =>
    intro x hx
    simp only [List.mem_append] at hx
    rcases hx with (hx | hx) | hx
    · rcases hb x hx with h | h <;> simp [h]
    · rcases he with rfl | rfl <;> simp at hx
      · simp [hx]
      · rcases hx with h | h <;> simp [h]
    · exact ih x hx

theorem sub_getLast {text : Str} {a b : Nat} {x : Byte} (h : (sub text a b).getLast? = some x)
    (hab : a < b) (hb : b ≤ text.length) : text[b - 1]? = some x := by
  rw [List.getLast?_eq_getElem?, sub_length _ _ _ hb, sub_getElem?, if_pos (by omega)] at h
  rw [← h]; congr 1; omega

/-- A line of the kind is in the region of an element. -/
theorem Tiled.has {K : Nat → Prop} {E : Nat → Located Block → Prop}
    (hK : LineKind C K E) {a q : Nat} {xs : List (Located Block)}
    (h : Tiled C.inner a xs) (hq : K q) (haq : a ≤ q) :
    ∃ x ∈ xs, x.region.offset ≤ q ∧ q < x.region.offset + x.region.len := by
  obtain ⟨j, b, hf, n10, n13⟩ := hK.mark q hq
  obtain ⟨hqj, hbl, hb, hsp⟩ := hf
  have hjl : j < C.inner.length := by
    rcases Nat.lt_or_ge j C.inner.length with h | h
    · exact h
    · rw [List.getElem?_eq_none h] at hb; cases hb
  have nsp : b ≠ 32 ∧ b ≠ 9 := by
    have := isSpace_false.1 hsp
    exact ⟨fun e => this (.inl e), fun e => this (.inr e)⟩
  induction h with
  | nil h1 h2 =>
    exfalso
    obtain ⟨ls, bs, hls, hbs, e⟩ := h2
    have hm : b ∈ ls ++ bs := by rw [← e]; exact mem_sub.2 ⟨j, by omega, hjl, hb⟩
    rcases List.mem_append.1 hm with hm | hm
    · have := hls.bytes b hm; omega
    · have := hbs b hm; omega
  | @cons a x n xs h1 h2 h3 h4 h5 h6 ih =>
    rcases Nat.lt_or_ge q x.region.offset with hlt | hge
    · exfalso
      clear ih
      rcases Nat.lt_or_ge j x.region.offset with hj | hj
      · have := h2.bytes b (mem_sub.2 ⟨j, by omega, hj, hb⟩); omega
      · rcases h2.last with h | h
        · have := sub_length C.inner a x.region.offset (by omega)
          rw [h] at this; simp at this; omega
        · have := sub_getLast h (by omega) (by omega)
          exact absurd (hbl (x.region.offset - 1) 10 (by omega) (by omega) this) (by decide)
    rcases Nat.lt_or_ge q (x.region.offset + x.region.len) with hlt | hge2
    · exact ⟨x, by simp, hge, hlt⟩
    rcases Nat.lt_or_ge q (x.region.offset + x.region.len + n) with hlt | hge3
    · exfalso
      clear ih
      have hqb : ∃ y, C.inner[q]? = some y ∧ (y = 10 ∨ y = 13) := by
        have hm : C.inner[q]? = some (C.inner[q]'(by omega)) := List.getElem?_eq_getElem _
        refine ⟨_, hm, ?_⟩
        have hmem := mem_sub.2 ⟨q, hge2, hlt, hm⟩
        rcases h5 with h5 | ⟨-, h5 | h5⟩
        · omega
        · rw [h5] at hmem; simp at hmem; exact .inl hmem
        · rw [h5] at hmem; simp at hmem; exact hmem.symm
      obtain ⟨y, hy, hy'⟩ := hqb
      have : q = j := by
        rcases Nat.lt_or_ge q j with h | h
        · have := hbl q y (Nat.le_refl _) h hy
          rcases hy' with rfl | rfl <;> exact absurd this (by decide)
        · omega
      rw [← this, hy] at hb
      cases hb
      omega
    · obtain ⟨z, hz, h⟩ := ih hge3
      exact ⟨z, by simp [hz], h⟩

theorem ElementRun.stop_eq {env : Env} {text : Str} {x : Located Block} {s s' : Span}
    (h : ElementRun env text x s s') : s.stop = (Ctx.ofText env text).inner.length := by
  have h1 := congrArg List.length h.view.rem
  have h2 := h.inn.wf.inner
  have h3 := h.inn.wf.hi
  have h4 := h.inn.wf.le
  have h5 := h.start
  unfold Span.asRemaining at h1
  rw [h2] at h1
  have h6 : (Ctx.ofText env text).inner = text := rfl
  rw [h6] at h1 h3
  rw [h6]
  simp at h1
  omega

theorem ElementRun.full {env : Env} {text : Str} {x : Located Block} {s s' : Span}
    (h : ElementRun env text x s s') : Full (Ctx.ofText env text) s := .inl h.stop_eq

/-- A line of the kind inside an element is hidden in it or shown by it. -/
theorem element_hid {env : Env} {text : Str} {K : Nat → Prop}
    {E : Nat → Located Block → Prop} (hK : LineKind (Ctx.ofText env text) K E) {s' : Span} {pg : Page}
    (h : parsePage env text = .ok s' pg) {x : Located Block} (hx : x ∈ pg.elements) {q : Nat}
    (hq : K q) (h1 : x.region.offset < q) (h2 : q < x.region.offset + x.region.len) :
    Hid (Ctx.ofText env text) E q x := by
  obtain ⟨s1, s2, e⟩ := element_run h hx
  have hb := ok_of_run (topLevel_ok e.inn) e.run
  have hs := e.full
  have hst := e.start
  have hnl : text[q - 1]? = some 10 := by
    rcases hK.bol q hq with h | h
    · omega
    · exact h
  have line : x.region.len = lineLen (text.drop x.region.offset) → False := by
    intro hl
    have := lineLen_noNl (t := text.drop x.region.offset) (i := q - 1 - x.region.offset) (by omega)
    rw [List.getElem?_drop, show x.region.offset + (q - 1 - x.region.offset) = q - 1 by omega] at this
    exact this hnl
  have hk := topLevel_kind e.run
  have whole : (∀ p, x.inner ≠ .placeholder p) → q < s2.start := by
    intro hp
    obtain ⟨e1, e2⟩ := hb.whole hp
    omega
  cases hxi : x.inner with
  | header xs n c => exact (line ((element_header h hx n c).2 ⟨xs, hxi⟩)).elim
  | divider => exact (line ((element_divider h hx).2 hxi)).elim
  | placeholder p =>
    rw [hxi] at hk
    have := ok_of_run (placeholder_line e.inn) hk (q - 1) (by omega) (by omega)
    exact absurd hnl this
  | defs xs =>
    rw [hxi] at hk
    exact (ok_of_run (defs_shown hK e.inn) hk q hq (by omega) (whole (by simp [hxi])))
  | list xs =>
    rw [hxi] at hk
    exact (ok_of_run (list_shown hK e.inn hs) hk q hq (by omega) (whole (by simp [hxi])))
  | table xs =>
    rw [hxi] at hk
    exact (ok_of_run (table_shown hK e.inn) hk q hq (by omega) (whole (by simp [hxi])))
  | code l m ls =>
    rw [hxi] at hk
    exact (ok_of_run (code_shown hK e.inn hs fun _ => e.stop_eq) hk q hq (by omega) (whole (by simp [hxi])))
  | math ls en =>
    rw [hxi] at hk
    exact (ok_of_run (math_shown hK e.inn hs fun _ => e.stop_eq) hk q hq (by omega) (whole (by simp [hxi])))
  | paragraph rows =>
    rw [hxi] at hk
    exact (ok_of_run (paragraph_shown hK e.inn hs fun _ => e.stop_eq) hk q hq (by omega) (whole (by simp [hxi])))
  | blockquote ls =>
    rw [hxi] at hk
    rcases alt_inv hk with hk | ⟨-, hk⟩
    · obtain ⟨-, ho⟩ := ok_of_run (indented_lines e.inn) hk
      exact (.inl (.inr (.inr ⟨x, mem_self x, ⟨h1, h2⟩, ⟨ls, hxi⟩,
        ho q (hK.bol q hq) (by omega) (whole (by simp [hxi]))⟩)))
    · exact (ok_of_run (arrow_shown hK e.inn hs) hk q hq (by omega) (whole (by simp [hxi])))

/-- A line of the kind inside an element is hidden. -/
theorem element_hidden {env : Env} {text : Str} {K : Nat → Prop}
    {E : Nat → Located Block → Prop} (hK : LineKind (Ctx.ofText env text) K E) {s' : Span} {pg : Page}
    (h : parsePage env text = .ok s' pg) {x : Located Block} (hx : x ∈ pg.elements) {q : Nat}
    (hq : K q) (h1 : x.region.offset < q) (h2 : q < x.region.offset + x.region.len) :
    Hd (Ctx.ofText env text) E pg.blocks pg.inlines q := by
  obtain ⟨m1, m2⟩ := mem_allBlocks hx
  exact Hd.mono (element_hid hK h hx hq h1 h2) m1 m2

/-- A line of the kind begins an element or is hidden. -/
theorem line_found {env : Env} {text : Str} {K : Nat → Prop}
    {E : Nat → Located Block → Prop} (hK : LineKind (Ctx.ofText env text) K E) {s' : Span} {pg : Page}
    (h : parsePage env text = .ok s' pg) {q : Nat} (hq : K q) :
    (∃ x ∈ pg.elements, x.region.offset = q) ∨ Hd (Ctx.ofText env text) E pg.blocks pg.inlines q := by
  obtain ⟨x, hx, h1, h2⟩ := (parsePage_tiled h).has (C := Ctx.ofText env text) hK hq (Nat.zero_le _)
  rcases Nat.eq_or_lt_of_le h1 with h1 | h1
  · exact .inl ⟨x, hx, h1⟩
  · exact .inr (element_hidden hK h hx hq h1 h2)

/-! ## The kinds of lines -/

theorem PrefixText.first {ty : ItemType} {su : Suffix} {w : Str} (h : PrefixText ty su w) :
    ∃ c q, w = c :: q ∧ c ≠ 61 ∧ c ≠ 37 ∧ (c = 45 → q = [32]) ∧ (c < 60 ∧ 32 < c ∨ 64 < c ∧ c < 123) := by
  have run : ∀ {f : Byte → Prop} {w r : Str}, RunOf f w r → (∀ c, f c → c < 60 ∧ 47 < c ∨ 64 < c ∧ c < 123) →
      ∃ c q, w = c :: q ∧ c ≠ 61 ∧ c ≠ 37 ∧ c ≠ 45 ∧ (c < 60 ∧ 32 < c ∨ 64 < c ∧ c < 123) := by
    intro f w r h hf
    cases w with
    | nil => exact absurd rfl h.1
    | cons c q =>
      have hc := hf c (h.2.1 c (by simp))
      exact ⟨c, q, rfl, by omega, by omega, by omega, by omega⟩
  have num : ∀ {w r : Str}, NumberWord w r ty →
      ∃ c q, w = c :: q ∧ c ≠ 61 ∧ c ≠ 37 ∧ c ≠ 45 ∧ (c < 60 ∧ 32 < c ∨ 64 < c ∧ c < 123) := by
    intro w r h
    cases ty with
    | number => exact run h (by unfold DigitByte; omega)
    | lowerRoman => exact run h (by unfold LowerRomanByte; simp)
    | upperRoman => exact run h (by unfold UpperRomanByte; simp)
    | lowerAlpha => exact run h.1 (by unfold LowerByte; omega)
    | upperAlpha => exact run h.1 (by unfold UpperByte; omega)
    | _ => exact h.elim
  cases h with
  | period h => obtain ⟨c, q, rfl, h1, h2, h3, h4⟩ := num h; exact ⟨c, _, rfl, h1, h2, fun e => absurd e h3, h4⟩
  | paren h => obtain ⟨c, q, rfl, h1, h2, h3, h4⟩ := num h; exact ⟨c, _, rfl, h1, h2, fun e => absurd e h3, h4⟩
  | _ => exact ⟨_, _, rfl, by decide, by decide, by decide, by decide⟩

/-- What is left of a line when the text is cut at the end of a line. -/
theorem line_cut {L r u v : Str} (h : L ++ r = u ++ v) (hL : 10 ∉ L) (hr : EolHere r)
    (hv : v = [] ∨ u.getLast? = some 10) : ∃ r', u = L ++ r' ∧ EolHere r' ∧
      ∀ w, LineSplit w r → LineSplit w r' := by
  rcases hv with rfl | hv
  · exact ⟨r, by simpa using h.symm, hr, fun _ h => h⟩
  · have hm : ∀ {x : Str}, x.getLast? = some 10 → 10 ∈ x := fun h => List.mem_of_getLast? h
    rcases List.append_eq_append_iff.1 h with ⟨a, rfl, rfl⟩ | ⟨a, rfl, rfl⟩
    · rcases a with - | ⟨x, a⟩
      · rw [List.append_nil] at hv
        exact absurd (hm hv) hL
      · have hx : (x :: a).getLast? = some 10 := by
          rw [List.getLast?_append] at hv
          simpa using hv
        rcases hr with hr | ⟨t, hr⟩ | ⟨t, hr⟩
        · simp at hr
        · have hr := (List.cons.inj hr).1
          subst hr
          refine ⟨_, rfl, .inr (.inl ⟨a, rfl⟩), fun w hw => ⟨hw.1, ?_⟩⟩
          rcases hw.2 with h | ⟨t, h, h'⟩ | ⟨t, h⟩
          · simp at h
          · exact .inr (.inl ⟨a, rfl, h'⟩)
          · simp at h
        · rcases a with - | ⟨y, a⟩
          · simp at hx
            simp [hx] at hr
          · simp only [List.cons_append, List.cons.injEq] at hr
            obtain ⟨rfl, rfl, -⟩ := hr
            exact ⟨_, rfl, .inr (.inr ⟨a, rfl⟩), fun w hw => ⟨hw.1, .inr (.inr ⟨a, rfl⟩)⟩⟩
    · exact absurd (List.mem_append_left _ (hm hv)) hL

/-- The text from a place to the end of a whole number of lines. -/
theorem In.line {s : Span} (h : C.In k s) (hs : Full C s) (hlt : s.start < s.stop) {L r : Str}
    (e : C.inner.drop s.start = L ++ r) (hL : 10 ∉ L) (hr : EolHere r) :
    ∃ r', View s (L ++ r') ∧ EolHere r' ∧ ∀ w, LineSplit w r → LineSplit w r' := by
  have hv := In.sub_view h (Nat.le_of_lt hlt) (Nat.le_refl _)
  rw [show sub C.inner s.stop s.stop = [] by simp [sub], List.append_nil] at hv
  rw [drop_split (Nat.le_of_lt hlt)] at e
  obtain ⟨r', e', h1, h2⟩ := line_cut e.symm hL hr (by
    rcases hs with hs | hs
    · left; rw [hs, List.drop_length]
    · right
      rw [List.getLast?_eq_getElem?, sub_length _ _ _ h.wf.hi, sub_getElem?, if_pos (by omega), ← hs]
      congr 1; omega)
  exact ⟨r', e' ▸ hv, h1, h2⟩

theorem AllBlank.no10 {w : Str} (h : AllBlank w) : 10 ∉ w := fun hm => by
  rcases h 10 hm with h | h <;> cases h

/-- The first byte of a line after blanks. -/
theorem firstByte_of {q : Nat} {ws r : Str} {x : Byte} (e : C.inner.drop q = ws ++ x :: r)
    (hw : AllBlank ws) (hx : ¬ (x = 32 ∨ x = 9)) : FirstByte C q (q + ws.length) x ∧
      ∀ w, At C.inner (q + ws.length) w → w = (x :: r).take w.length := by
  have get : ∀ i, C.inner[q + i]? = (ws ++ x :: r)[i]? := by
    intro i; rw [← e, List.getElem?_drop]
  refine ⟨⟨by omega, ?_, ?_, isSpace_false.2 hx⟩, ?_⟩
  · intro i b h1 h2 hb
    obtain ⟨i, rfl⟩ := Nat.exists_eq_add_of_le h1
    rw [get, List.getElem?_append_left (by omega)] at hb
    exact isSpace_iff.2 (hw b (List.mem_of_getElem? hb))
  · rw [get, List.getElem?_append_right (Nat.le_refl _)]; simp
  · intro w h
    unfold At at h
    rw [← List.drop_drop, e, List.drop_left] at h
    exact h.symm

/-- Lines that no block with other blocks or lines in it is for. -/
theorem LineKind.plain {K : Nat → Prop} (hb : ∀ q, K q → Bol C q)
    (hm : ∀ q, K q → ∃ j x, FirstByte C q j x ∧ x ≠ 10 ∧ x ≠ 13 ∧ x ≠ c!"|" ∧ x ≠ c!"{" ∧ x ≠ c!">" ∧
      ∀ ty su w, PrefixText ty su w → ¬ At C.inner j w)
    (hp : ∀ k s list, C.In (k + 2) s → Full C s → s.start < s.stop → K s.start →
      ∀ s' u, continueParagraphOf C.env list s ≠ .ok s' u) : LineKind C K (fun _ _ => False) := by
  refine ⟨hb, ?_, fence_of_mark ?_, ?_, ?_, ?_, .inl fun k s list h1 h2 _ h3 h4 _ => hp k s list h1 h2 h3 h4⟩
  · intro q hq
    obtain ⟨j, x, h1, h2, h3, -⟩ := hm q hq
    exact ⟨j, x, h1, h2, h3⟩
  · intro q hq
    obtain ⟨j, x, h1, h2, h3, -, h4, -⟩ := hm q hq
    exact ⟨j, x, h1, h4⟩
  · intro q j hq hj
    obtain ⟨j, x, h1, h2, h3, h4, -⟩ := hm q hq
    exact absurd (hj.uniq h1).2.symm h4
  · intro q j hq hj
    obtain ⟨j, x, h1, h2, h3, -, -, h4, -⟩ := hm q hq
    exact absurd (hj.uniq h1).2.symm h4
  · rintro q it hq ⟨hqj, hbl, ty, su, w, hw, ha⟩
    obtain ⟨j', x', h', -, -, -, -, -, hno⟩ := hm q hq
    obtain ⟨hne, hhd⟩ := hw.head
    cases w with
    | nil => exact absurd rfl hne
    | cons y w' =>
      have h0 := ha.getElem? 0 (by simp)
      simp only [Nat.add_zero, List.getElem?_cons_zero] at h0
      have hf : FirstByte C q it.region.offset y := ⟨hqj, hbl, h0, by
        have := hhd y rfl; rw [isSpace_false]; exact this⟩
      obtain ⟨rfl, _⟩ := hf.uniq h'
      exact absurd ha (hno ty su _ hw)

/-- Lines that are headers. -/
theorem headerKind (C : Ctx) : LineKind C (fun q => Bol C q ∧
    ∃ n c mid, HeaderForm (C.inner.drop q) n c mid) (fun _ _ => False) := by
  refine .plain (fun q h => h.1) ?_ ?_
  · rintro q ⟨-, n, c, mid, hf⟩
    obtain ⟨ws, b1, b2, ws', r, e, hw, -⟩ := hf.form
    obtain ⟨m, rfl⟩ : ∃ m, n = m + 1 := ⟨n - 1, by have := hf.level; omega⟩
    obtain ⟨h1, h2⟩ := firstByte_of (C := C) (q := q) (ws := ws) (x := c!"=") e hw (by decide)
    refine ⟨_, _, h1, by decide, by decide, by decide, by decide, by decide, ?_⟩
    intro ty su w hp hat
    obtain ⟨c, q, rfl, hc, -⟩ := hp.first
    exact hc (List.cons.inj (h2 _ hat)).1
  · rintro k s list h hs hlt ⟨hb, n, c, mid, hf⟩ s' u hc
    obtain ⟨he, -⟩ := not_bind_inv hc
    obtain ⟨ws, b1, b2, ws', r, e, hw, hb1, hb2, hw', hr, hcent, f1, f2⟩ := hf.form
    obtain ⟨r', hv, hr', -⟩ := In.line h hs hlt (L := ws ++ (List.replicate n c!"=" ++ (b1 ++ mid ++ b2 ++
      List.replicate n c!"=" ++ ws'))) (r := r) (by rw [e]; simp) (by
        have := hf.noNl
        have := hw.no10; have := hb1.no10; have := hb2.no10; have := hw'.no10
        simp [*]) hr
    have hf' : HeaderForm _ n c mid := ⟨hf.level, ⟨ws, b1, b2, ws', r', rfl, hw, hb1, hb2, hw', hr', hcent, f1, f2⟩,
      hf.ne, hf.noNl, hf.first, hf.last⟩
    rcases header_complete (k := k + 1) h (hb.atBol h) (by simpa using hv) hf' with ⟨_, e⟩ | ⟨_, _, _, e, -⟩ <;>
      · rw [he] at e; cases e

/-- Lines that are dividers. -/
theorem dividerKind (C : Ctx) : LineKind C (fun q => Bol C q ∧ DividerForm (C.inner.drop q))
    (fun _ _ => False) := by
  refine .plain (fun q h => h.1) ?_ ?_
  · rintro q ⟨-, n, r, hn, e, -⟩
    obtain ⟨m, rfl⟩ : ∃ m, n = m + 2 := ⟨n - 2, by omega⟩
    obtain ⟨h1, h2⟩ := firstByte_of (C := C) (q := q) (ws := []) (x := c!"-") e (by simp [AllBlank]) (by decide)
    refine ⟨_, _, h1, by decide, by decide, by decide, by decide, by decide, ?_⟩
    intro ty su w hp hat
    obtain ⟨c, q, rfl, -, -, hc, -⟩ := hp.first
    have h3 := h2 _ hat
    have := hc (List.cons.inj h3).1
    subst this
    simp [List.replicate_succ] at h3
  · rintro k s list h hs hlt ⟨hb, n, r, hn, e, hr⟩ s' u hc
    obtain ⟨-, hc⟩ := not_bind_inv hc
    obtain ⟨-, hc⟩ := not_bind_inv hc
    obtain ⟨-, hc⟩ := not_bind_inv hc
    obtain ⟨-, hc⟩ := not_bind_inv hc
    obtain ⟨-, hc⟩ := not_bind_inv hc
    obtain ⟨-, hc⟩ := not_bind_inv hc
    obtain ⟨-, hc⟩ := not_bind_inv hc
    obtain ⟨-, hc⟩ := not_bind_inv hc
    obtain ⟨he, -⟩ := not_bind_inv hc
    obtain ⟨r', hv, hr', -⟩ := In.line h hs hlt e (by simp [List.mem_replicate]) hr
    obtain ⟨_, _, e⟩ := divider_run (hb.atBol h) hv ⟨n, r', hn, rfl, hr'⟩
    rw [he] at e; cases e

theorem LineSplit.head {v r : Str} (hl : LineSplit v r) (hv : v ≠ []) : (v ++ r).head? = v.head? := by
  cases v with
  | nil => exact absurd rfl hv
  | cons _ _ => rfl

/-- A placeholder line is read as a placeholder. -/
theorem placeholderForm_run {s : Span} {env : Env} {t : Str} {p : Placeholder} (hb : AtBol s) (hv : View s t)
    (h : PlaceholderForm t p) : ∃ s' x, placeholder env s = .ok s' x ∧ x.inner = .placeholder p := by
  obtain ⟨head, mk, ws, v, r, rfl, hh, rfl, hn, hw, hl, hf, hm⟩ := h
  have hv0 : v ≠ [] := by
    rintro rfl
    obtain ⟨_, h, -⟩ := hm
    simp at h
  have hf' : ∀ x, (v ++ r).head? = some x → ¬ (x = 32 ∨ x = 9) := by rw [hl.head hv0]; exact hf
  cases hh with
  | title =>
    obtain ⟨x, e, hx⟩ := (placeholder_title_run env hb hv hn hw hf' hl).1 hm
    exact ⟨_, x, e, hx⟩
  | template =>
    obtain ⟨x, e, hx⟩ := (placeholder_template_run env hb hv hn hw hf' hl).1 hm
    exact ⟨_, x, e, hx⟩
  | other ho =>
    obtain ⟨x, e, hx⟩ := (placeholder_other_run env ho hb (by simpa using hv) hn hw hf' hl).1 hm
    exact ⟨_, x, e, hx⟩

theorem PlaceholderHead.shape {head : Str} {mk : Str → Placeholder} (h : PlaceholderHead head mk) :
    ∃ q, head = c!"%" :: q ∧ 10 ∉ q := by
  cases h with
  | title => exact ⟨_, rfl, by decide⟩
  | template => exact ⟨_, rfl, by decide⟩
  | other ho => exact ⟨_, rfl, fun hm => (ho.2.1 10 hm).1 rfl⟩

/-- Lines that are placeholders. -/
theorem placeholderKind (C : Ctx) : LineKind C (fun q => Bol C q ∧
    ∃ p, PlaceholderForm (C.inner.drop q) p) (fun _ _ => False) := by
  refine .plain (fun q h => h.1) ?_ ?_
  · rintro q ⟨-, p, head, mk, ws, v, r, e, hh, -⟩
    obtain ⟨y, rfl, -⟩ := hh.shape
    obtain ⟨h1, h2⟩ := firstByte_of (C := C) (q := q) (ws := []) (x := c!"%") e (by simp [AllBlank]) (by decide)
    refine ⟨_, _, h1, by decide, by decide, by decide, by decide, by decide, ?_⟩
    intro ty su w hp hat
    obtain ⟨c, q, rfl, -, hc, -⟩ := hp.first
    exact hc (List.cons.inj (h2 _ hat)).1
  · rintro k s list h hs hlt ⟨hb, p, head, mk, ws, v, r, e, hh, hp, hn, hw, hl, hf, hm⟩ s' u hc
    obtain ⟨-, hc⟩ := not_bind_inv hc
    obtain ⟨-, hc⟩ := not_bind_inv hc
    obtain ⟨-, hc⟩ := not_bind_inv hc
    obtain ⟨-, hc⟩ := not_bind_inv hc
    obtain ⟨-, hc⟩ := not_bind_inv hc
    obtain ⟨-, hc⟩ := not_bind_inv hc
    obtain ⟨-, hc⟩ := not_bind_inv hc
    obtain ⟨-, hc⟩ := not_bind_inv hc
    obtain ⟨-, hc⟩ := not_bind_inv hc
    obtain ⟨he, -⟩ := not_bind_inv hc
    obtain ⟨r', hv, hr', hl'⟩ := In.line h hs hlt (L := head ++ (ws ++ v)) (r := r) (by rw [e]; simp) (by
      obtain ⟨y, rfl, hy⟩ := hh.shape
      have := hw.no10; have := hl.1
      simp [*]) hl.eolHere
    obtain ⟨_, _, e, -⟩ := placeholderForm_run (env := C.env) (hb.atBol h) hv
      ⟨head, mk, ws, v, r', by simp, hh, hp, hn, hw, hl' v hl, hf, hm⟩
    rw [he] at e; cases e

/-! ## Lines that no definition list and no quote can have -/

theorem no_deep {text : Str} {q : Nat} {x : Byte} {r : Str} (e : text.drop q = x :: r)
    (hx : ¬ (x = 32 ∨ x = 9)) : ¬ DeepLine text q := by
  rintro ⟨w, r', h, hw, hl⟩
  cases w with
  | nil => simp at hl
  | cons y w =>
    rw [e] at h
    have := (List.cons.inj h).1
    exact hx (this ▸ hw y (by simp))

theorem no_colon {text : Str} {q n : Nat} {r : Str} (e : text.drop q = List.replicate n c!"-" ++ r)
    (hr : EolHere r) : ¬ ColonLine text q := by
  rintro ⟨w, r', h, hw⟩
  rw [e] at h
  rcases List.append_eq_append_iff.1 h with ⟨a, rfl, ha⟩ | ⟨a, h1, ha⟩
  · have h10 : 10 ∉ a := fun h => hw (List.mem_append_right _ h)
    rcases hr with rfl | ⟨t, rfl⟩ | ⟨t, rfl⟩
    · simp at ha
    · cases a with
      | nil => simp at ha
      | cons y a => simp at ha; simp [← ha.1] at h10
    · rcases a with - | ⟨y, - | ⟨z, a⟩⟩
      · simp at ha
      · simp at ha
      · simp at ha; simp [← ha.2.1] at h10
  · cases a with
    | nil =>
      rcases hr with rfl | ⟨t, rfl⟩ | ⟨t, rfl⟩ <;> simp at ha
    | cons y a =>
      have hy : y = c!"-" := (List.mem_replicate.1 (h1 ▸ List.mem_append_right w (by simp))).2
      simp [hy] at ha

/-- A line of the kind at the beginning of an element of another kind is hidden. -/
theorem element_first_hid {env : Env} {text : Str} {K : Nat → Prop}
    {E : Nat → Located Block → Prop} (hK : LineKind (Ctx.ofText env text) K E) {s' : Span} {pg : Page}
    (h : parsePage env text = .ok s' pg) {x : Located Block} (hx : x ∈ pg.elements)
    (hq : K x.region.offset) (h2 : 0 < x.region.len) :
    (∃ xs n c, x.inner = .header xs n c) ∨ x.inner = .divider ∨ (∃ p, x.inner = .placeholder p) ∨
      ((∃ ls, x.inner = .blockquote ls) ∧ DeepLine text x.region.offset) ∨
      Hid (Ctx.ofText env text) E x.region.offset x := by
  obtain ⟨s1, s2, e⟩ := element_run h hx
  have hb := ok_of_run (topLevel_ok e.inn) e.run
  have hs := e.full
  have hst := e.start
  have hk := topLevel_kind e.run
  have whole : (∀ p, x.inner ≠ .placeholder p) → x.region.offset < s2.start := by
    intro hp
    obtain ⟨e1, e2⟩ := hb.whole hp
    omega
  have hle : s1.start ≤ x.region.offset := by omega
  cases hxi : x.inner with
  | header xs n c => exact .inl ⟨xs, n, c, rfl⟩
  | divider => exact .inr (.inl rfl)
  | placeholder p => exact .inr (.inr (.inl ⟨p, rfl⟩))
  | defs xs =>
    rw [hxi] at hk
    exact .inr (.inr (.inr (.inr ((ok_of_run (defs_shown hK e.inn) hk _ hq hle (whole (by simp [hxi])))))))
  | list xs =>
    rw [hxi] at hk
    exact .inr (.inr (.inr (.inr ((ok_of_run (list_shown hK e.inn hs) hk _ hq hle (whole (by simp [hxi])))))))
  | table xs =>
    rw [hxi] at hk
    exact .inr (.inr (.inr (.inr ((ok_of_run (table_shown hK e.inn) hk _ hq hle (whole (by simp [hxi])))))))
  | code l m ls =>
    rw [hxi] at hk
    exact .inr (.inr (.inr (.inr ((ok_of_run (code_shown hK e.inn hs fun _ => e.stop_eq) hk _ hq hle (whole (by simp [hxi])))))))
  | math ls en =>
    rw [hxi] at hk
    exact .inr (.inr (.inr (.inr ((ok_of_run (math_shown hK e.inn hs fun _ => e.stop_eq) hk _ hq hle (whole (by simp [hxi])))))))
  | paragraph rows =>
    rw [hxi] at hk
    exact .inr (.inr (.inr (.inr ((ok_of_run (paragraph_shown hK e.inn hs fun _ => e.stop_eq) hk _ hq hle (whole (by simp [hxi])))))))
  | blockquote ls =>
    rw [hxi] at hk
    rcases alt_inv hk with hk | ⟨-, hk⟩
    · obtain ⟨-, ho⟩ := ok_of_run (indented_lines e.inn) hk
      exact .inr (.inr (.inr (.inl ⟨⟨ls, rfl⟩, ho _ (hK.bol _ hq) hle (whole (by simp [hxi]))⟩)))
    · exact .inr (.inr (.inr (.inr ((ok_of_run (arrow_shown hK e.inn hs) hk _ hq hle (whole (by simp [hxi])))))))

/-- A line of the kind at the beginning of an element of another kind is hidden. -/
theorem element_first {env : Env} {text : Str} {K : Nat → Prop}
    {E : Nat → Located Block → Prop} (hK : LineKind (Ctx.ofText env text) K E) {s' : Span} {pg : Page}
    (h : parsePage env text = .ok s' pg) {x : Located Block} (hx : x ∈ pg.elements)
    (hq : K x.region.offset) (h2 : 0 < x.region.len) :
    (∃ xs n c, x.inner = .header xs n c) ∨ x.inner = .divider ∨ (∃ p, x.inner = .placeholder p) ∨
      ((∃ ls, x.inner = .blockquote ls) ∧ DeepLine text x.region.offset) ∨
      Hd (Ctx.ofText env text) E pg.blocks pg.inlines x.region.offset := by
  obtain ⟨m1, m2⟩ := mem_allBlocks hx
  rcases element_first_hid hK h hx hq h2 with h | h | h | h | h
  · exact .inl h
  · exact .inr (.inl h)
  · exact .inr (.inr (.inl h))
  · exact .inr (.inr (.inr (.inl h)))
  · exact .inr (.inr (.inr (.inr (Hd.mono h m1 m2))))

theorem Hd.hidden {bs : List (Located Block)} {is : List (Located Inline)} {q : Nat}
    (h : Hd C (fun _ _ => False) bs is q) : Hidden C.inner bs is q := by
  rcases h with h | ⟨_, _, h⟩
  · exact h
  · exact h.elim

end Vw
