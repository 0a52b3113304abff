import Verif.Lemmas.Scan

/-!
# Facts about the scanning utilities, continued
-/

namespace Vw
open P Scan

variable {C : Ctx} {k : Nat}

/-! ## Searching -/

theorem offsetLoop_res (pat bytes : Str) (hp : pat ≠ []) (lo : Nat) (ps : List Nat)
    (hpos : PosFrom (fun b => b == pat.headD 0) bytes lo ps)
    (hclear : ∀ i, i < lo → ¬ At bytes i pat) :
    match offsetLoop pat bytes ps with
    | some n => At bytes n pat ∧ ∀ i, i < n → ¬ At bytes i pat
    | none => ∀ i, ¬ At bytes i pat := by
  induction hpos with
  | nil h =>
    rename_i lo
    simp only [offsetLoop]
    intro i
    rcases Nat.lt_or_ge i lo with h' | h'
    · exact hclear i h'
    · exact not_at_of_head hp fun b hb => h i b h' hb
  | cons h1 h2 h3 h4 h5 ih =>
    rename_i lo pos b ps
    have hcl : ∀ i, i < pos → ¬ At bytes i pat := by
      intro i hi
      rcases Nat.lt_or_ge i lo with h' | h'
      · exact hclear i h'
      · exact not_at_of_head hp fun b hb => h4 i b h' hi hb
    unfold offsetLoop
    by_cases hov : pos + pat.length > bytes.length
    · rw [if_pos hov]
      intro i ha
      have := ha.le hp
      exact hcl i (by omega) ha
    · rw [if_neg hov]
      by_cases hm : matchesAt bytes pos pat = true
      · rw [if_pos hm]
        exact ⟨(matchesAt_iff ..).1 hm, hcl⟩
      · rw [if_neg hm]
        refine ih ?_
        intro i hi
        rcases Nat.lt_or_ge i pos with h' | h'
        · exact hcl i h'
        · have : i = pos := by omega
          subst this
          exact fun ha => hm ((matchesAt_iff ..).2 ha)

theorem offset_res (pat bytes : Str) (hp : pat ≠ []) :
    match offsetLoop pat bytes (memchrIter (fun b => b == pat.headD 0) bytes) with
    | some n => At bytes n pat ∧ ∀ i, i < n → ¬ At bytes i pat
    | none => ∀ i, ¬ At bytes i pat :=
  offsetLoop_res pat bytes hp 0 _ (memchrIter_pos _ _) (by intro i hi; omega)

theorem takeUntil_good {s : Span} (h : C.In k s) (pat : Str) (hp : ∃ c t, pat = c :: t ∧ c < 128) :
    C.Ok (takeUntil pat s) (fun s' o => Split C s s' o ∧ AtIn C.inner s.stop s'.start pat ∧
      ∀ i, s.start ≤ i → i < s'.start → ¬ AtIn C.inner s.stop i pat) := by
  obtain ⟨c, t, hpe, hc⟩ := hp
  have hne : pat ≠ [] := by rw [hpe]; simp
  have := offset_res pat s.asRemaining hne
  unfold takeUntil
  simp only
  cases hm : offsetLoop pat s.asRemaining (memchrIter (fun b => b == pat.headD 0) s.asRemaining) with
  | none => simp [Ctx.Ok]
  | some n =>
    rw [hm] at this
    obtain ⟨h1, h2⟩ := this
    rw [h.wf.at_rem n pat hne] at h1
    simp only
    refine takeSplit_ok (by have := h1.1; omega) ?_
      (Q := fun s' _ => AtIn C.inner s.stop s'.start pat ∧
        ∀ i, s.start ≤ i → i < s'.start → ¬ AtIn C.inner s.stop i pat) ⟨h1, ?_⟩
    · have := h1.2.getElem? 0 (by rw [hpe]; simp)
      rw [hpe] at this
      simp at this
      exact Ctx.B_of_lt this hc
    · intro i hi1 hi2 ha
      simp at hi2
      refine h2 (i - s.start) (by omega) ?_
      rw [h.wf.at_rem _ pat hne, show s.start + (i - s.start) = i by omega]
      exact ha

theorem notContains_rule {pat : Str} (hp : pat ≠ []) {p : P Span} {s : Span}
    {Q : Span → Span → Prop}
    (h : C.Ok (p s) (fun s' o => C.Wf k o ∧
      ((∀ i, o.start ≤ i → ¬ AtIn C.inner o.stop i pat) → Q s' o))) :
    C.Ok (notContains pat p s) Q := by
  unfold notContains
  cases hps : p s with
  | ok s' o =>
    rw [hps] at h
    simp only [Ctx.Ok] at h
    simp only
    have := offset_res pat o.asRemaining hp
    unfold P.not offset
    simp only
    cases hm : offsetLoop pat o.asRemaining (memchrIter (fun b => b == pat.headD 0) o.asRemaining) with
    | some n => simp [Ctx.Ok]
    | none =>
      rw [hm] at this
      simp only at this
      simp only [Ctx.Ok]
      refine h.2 fun i hi ha => ?_
      refine this (i - o.start) ?_
      rw [h.1.at_rem _ pat hp, show o.start + (i - o.start) = i by omega]
      exact ha
  | _ => rw [hps] at h; simp_all [Ctx.Ok]

/-- What `surround_in_line1` matches. -/
structure Surround (C : Ctx) (L R : Str) (s s' o : Span) : Prop where
  good : C.Good s s'
  left : AtIn C.inner s.stop s.start L
  ostart : o.start = s.start + L.length
  nonempty : o.start < o.stop
  right : AtIn C.inner s.stop o.stop R
  send : s'.start = o.stop + R.length
  sub : Sub s o
  bs : C.B o.start
  be : C.B o.stop
  noNl : ∀ i, o.start ≤ i → i < o.stop → C.inner[i]? ≠ some 10
  first : ∀ i, o.start < i → i < o.stop → ¬ AtIn C.inner s.stop i R

theorem Surround.in {left right : Str} {s s' o : Span} (h : Surround C left right s s' o)
    (hs : C.In k s) : C.In (k + left.length) o := by
  refine ⟨⟨?_, h.sub.mid, ?_, ?_⟩, h.bs, h.be⟩
  · rw [h.sub.inner]; exact hs.wf.inner
  · have := h.sub.hi; have := hs.wf.hi; omega
  · have := h.sub.hi; have := hs.wf.depth; have := h.sub.depth; have := h.ostart
    have := h.sub.mid; have := h.sub.lo
    omega

theorem surroundLoop_res (right bytes : Str) (hr : right ≠ []) (nl : Option Nat)
    (hnl : memchr (· == 10) bytes = nl) (lo : Nat) (ps : List Nat)
    (hpos : PosFrom (fun b => b == right.headD 0) bytes lo ps)
    (hclear : ∀ i, 0 < i → i < lo → ¬ At bytes i right) :
    ∀ n, surroundLoop right bytes nl ps = some n →
      0 < n ∧ At bytes n right ∧ (∀ i, 0 < i → i < n → ¬ At bytes i right) ∧
      ∀ i, i < n → bytes[i]? ≠ some 10 := by
  induction hpos with
  | nil h => intro n hn; simp [surroundLoop] at hn
  | cons h1 h2 h3 h4 h5 ih =>
    rename_i lo pos b ps
    have hcl : ∀ i, 0 < i → i < pos → ¬ At bytes i right := by
      intro i h0 hi
      rcases Nat.lt_or_ge i lo with h' | h'
      · exact hclear i h0 h'
      · exact not_at_of_head hr fun b hb => h4 i b h' hi hb
    intro n hn
    unfold surroundLoop at hn
    by_cases hlt : pastNewline nl pos = true
    · rw [if_pos hlt] at hn; cases hn
    · rw [if_neg hlt] at hn
      split at hn
      · rename_i h0
        refine ih ?_ n hn
        intro i hi hi2; omega
      · rename_i h0
        split at hn
        · cases hn
        · split at hn
          · rename_i hm
            cases hn
            refine ⟨by omega, (matchesAt_iff ..).1 hm, hcl, ?_⟩
            intro i hi hb
            have := memchr_facts (· == 10) bytes
            cases hml : memchr (· == 10) bytes with
            | none => rw [hml] at this; simpa using this i 10 hb
            | some p =>
              rw [hml] at this
              subst hnl
              rw [hml] at hlt
              simp [pastNewline] at hlt
              have := this.2 i 10 (by omega) hb
              simp at this
          · rename_i hm
            refine ih ?_ n hn
            intro i hi hi2
            rcases Nat.lt_or_ge i pos with h' | h'
            · exact hcl i hi h'
            · have : i = pos := by omega
              subst this
              exact fun ha => hm ((matchesAt_iff ..).2 ha)

theorem surround_good {s : Span} (h : C.In k s) (left right : Str) (hl : left ≠ [] := by decide)
    (hla : ∀ b ∈ left, b < 128 := by decide) (hr : right ≠ [] := by decide)
    (hra : ∀ b ∈ right, b < 128 := by decide) :
    C.Ok (surroundInLine1 left right s) (fun s' o => Surround C left right s s' o) := by
  have ht := tag_good h left hl hla
  unfold surroundInLine1
  cases htag : tag left s with
  | ok s1 t =>
    rw [htag] at ht
    simp only [Ctx.Ok] at ht
    obtain ⟨hsp, hst, hat⟩ := ht
    have h1 := h.good hsp.good
    simp only
    have hres := surroundLoop_res right s1.asRemaining hr _ rfl 0
      (memchrIter (fun b => b == right.headD 0) s1.asRemaining) (memchrIter_pos _ _)
      (by intro i hi hi2; omega)
    cases hm : surroundLoop right s1.asRemaining (memchr (· == 10) s1.asRemaining)
        (memchrIter (fun b => b == right.headD 0) s1.asRemaining) with
    | none => simp [Ctx.Ok]
    | some n =>
      obtain ⟨h0, hright, hfirst, hnl⟩ := hres n hm
      rw [h1.wf.at_rem _ _ hr] at hright
      have hstop := hsp.good.step.stop
      have hrl : 0 < right.length := List.length_pos_iff.2 hr
      have hb := hright.1
      rw [hstop] at hb
      have e1 : ((s1.sliceFrom n).sliceFrom right.length).start = s1.start + n + right.length := by
        simp only [Span.sliceFrom, Span.advanceStartBy]
        split <;> split <;> omega
      have hbs : C.B (s1.start + n) := by
        have := hright.2.getElem? 0 hrl
        obtain ⟨c, t, rfl⟩ := List.exists_cons_of_ne_nil hr
        simp at this
        exact Ctx.B_of_lt this (hra c (by simp))
      have hbe : C.B (s1.start + n + right.length) := by
        have := hright.2.getElem? (right.length - 1) (by omega)
        rw [List.getElem?_eq_getElem (by omega : right.length - 1 < right.length)] at this
        have hb := Ctx.B_succ (C := C) this (hra _ (List.getElem_mem _))
        simpa [show s1.start + n + (right.length - 1) + 1 = s1.start + n + right.length by omega]
          using hb
      refine ⟨⟨⟨?_, ?_, ?_, ?_, ?_⟩, ?_⟩, hat, hst, ?_, ?_, ?_, ⟨?_, ?_, ?_, ?_, ?_⟩, ?_, ?_, ?_, ?_⟩
      · exact hsp.good.step.inner
      · exact hstop
      · exact hsp.good.step.depth
      · rw [e1]; omega
      · rw [e1]; omega
      · rw [e1]; exact hbe
      · show s1.start < s1.start + n; omega
      · rw [hstop] at hright; exact hright
      · rw [e1]; rfl
      · exact hsp.good.step.inner
      · exact hsp.good.step.depth
      · show s.start ≤ s1.start; omega
      · show s1.start ≤ s1.start + n; omega
      · show s1.start + n ≤ s.stop; omega
      · exact hsp.good.b
      · exact hbs
      · intro i hi1 hi2 hb'
        simp only [Span.sliceTo, Span.advanceEndBy] at hi1 hi2
        refine hnl (i - s1.start) (by omega) ?_
        rw [h1.wf.rem_some, show s1.start + (i - s1.start) = i by omega]
        exact ⟨by omega, hb'⟩
      · intro i hi1 hi2 ha
        simp only [Span.sliceTo, Span.advanceEndBy] at hi1 hi2
        refine hfirst (i - s1.start) (by omega) (by omega) ?_
        rw [h1.wf.at_rem _ _ hr, show s1.start + (i - s1.start) = i by omega, hstop]
        exact ha
  | _ => rw [htag] at ht; simp_all [Ctx.Ok]

/-! ## Runs of one byte -/

theorem takeLineWhile_char_good {s : Span} (h : C.In k s) (c : Byte) (hc : c < 128)
    (hnl : c ≠ 10) (hcr : c ≠ 13) :
    C.Ok (takeLineWhile (char c) s) (fun s' o => Split C s s' o ∧
      Took C (· == c) s s') := by
  unfold takeLineWhile
  refine Ctx.Ok.recognize ?_
  refine (Ctx.Ok.many0 (I := fun t => C.In k t ∧ Step s t ∧
      ∀ i b, s.start ≤ i → i < t.start → C.inner[i]? = some b → (b == c) = true)
    (T := fun _ _ _ => True) ?_ (fun _ _ _ => trivial)
    ⟨h, Step.refl h.wf.le, by intro i b h1 h2; omega⟩ h.wf.le).mono ?_
  · rintro t ⟨ht, hst, hall⟩
    have hchar := char_good ht c hc
    unfold takeLineWhileStep P.not
    have he := endOfLineOrInput_good ht
    cases hee : endOfLineOrInput t with
    | err =>
      simp only
      cases hcc : char c t with
      | ok t1 b =>
        simp only
        rw [hcc] at hchar
        obtain ⟨hg, hs1, hlt, hb, _⟩ := hchar
        refine (satisfy_ok ht.wf _).mono ?_
        rintro t2 b2 ⟨rfl, _, _, _⟩
        have e : t1 = { t with start := t.start + 1 } := by
          obtain ⟨⟨i, st, d, _, _⟩, _⟩ := hg
          cases t1; cases t; simp_all
        refine ⟨⟨rfl, rfl, rfl, by simp, by simp; omega⟩, fun _ => ⟨⟨?_, ?_, ?_⟩, fun _ _ _ => trivial⟩⟩
        · rw [← e]; exact ht.good hg
        · rw [← e]; exact hst.trans hg.step
        · intro i b h1 h2 hbi
          simp at h2
          rcases Nat.lt_or_ge i t.start with h' | h'
          · exact hall i b h1 h' hbi
          · have : i = t.start := by omega
            subst this
            rw [hb] at hbi
            cases hbi
            simp
      | err => simp [Ctx.Ok]
      | panic r => rw [hcc] at hchar; exact hchar
      | diverge => rw [hcc] at hchar; exact hchar
    | ok a b => simp [Ctx.Ok]
    | panic r => rw [hee] at he; exact he
    | diverge => rw [hee] at he; exact he
  · rintro s' as ⟨st, ⟨hin, _, hall⟩, hperr, _⟩
    refine ⟨st, ⟨⟨st, hin.bs⟩, rfl⟩, hall, ?_⟩
    intro b hlt hb
    rw [← st.stop] at hlt
    by_cases hbc : b = c
    · subst hbc
      exfalso
      unfold takeLineWhileStep P.not at hperr
      have he := endOfLineOrInput_good hin
      cases hee : endOfLineOrInput s' with
      | err =>
        rw [hee] at hperr
        simp only at hperr
        have hs : ∀ f : Byte → Bool, f b = true →
            satisfy f s' = .ok (s'.sliceFrom 1) b := by
          intro f hf
          unfold satisfy
          have h0 : s'.asRemaining[0]? = some b := hin.wf.rem_some.2 ⟨by omega, hb⟩
          cases hr : s'.asRemaining with
          | nil => rw [hr] at h0; simp at h0
          | cons x xs => rw [hr] at h0; simp at h0; subst h0; simp [hf]
        unfold char anychar at hperr
        rw [hs _ (by simp)] at hperr
        simp only at hperr
        rw [hs _ (by simp)] at hperr
        cases hperr
      | ok a u =>
        rw [hee] at he
        obtain ⟨_, hor⟩ := he
        rcases hor with ⟨h1, _⟩ | ⟨_, h2, _⟩
        · omega
        · rcases h2 with ⟨_, h2⟩ | ⟨_, h2, _⟩
          · rw [hb] at h2; cases h2; exact hnl rfl
          · rw [hb] at h2; cases h2; exact hcr rfl
      | panic r => rw [hee] at hperr; cases hperr
      | diverge => rw [hee] at hperr; cases hperr
    · simpa using hbc

theorem takeLineWhile1_char_good {s : Span} (h : C.In k s) (c : Byte) (hc : c < 128 := by decide)
    (hnl : c ≠ 10 := by decide) (hcr : c ≠ 13 := by decide) :
    C.Ok (takeLineWhile1 (char c) s) (fun s' o => Split C s s' o ∧
      Took C (· == c) s s' ∧ s.start < s'.start) :=
  verify_nonempty h (Q := fun s' => Took C (· == c) s s')
    (takeLineWhile_char_good h c hc hnl hcr)

/-! ## Words and URI text -/

theorem isAsciiWs_lt {b : Byte} (h : isAsciiWs b = true) : b < 128 := by
  simp [isAsciiWs] at h; omega

/-- The previous byte is ASCII whitespace or there is none. -/
def AfterWs (C : Ctx) (i : Nat) : Prop := i = 0 ∨ ∃ b, C.inner[i - 1]? = some b ∧ isAsciiWs b = true

theorem consumed_last {s : Span} (h : C.Wf k s) (h0 : 0 < s.start) :
    s.asConsumed.getLast? = C.inner[s.start - 1]? := by
  have hle := h.le
  have hhi := h.hi
  unfold Span.asConsumed
  rw [List.getLast?_eq_getElem?, h.inner]
  simp only [List.length_take, List.getElem?_take]
  rw [Nat.min_eq_left (by omega), if_pos (by omega)]

theorem wholeWord_good {s : Span} (h : C.In k s) :
    C.Ok (wholeWord s) (fun s' o => Split C s s' o ∧ Took C (fun c => !isAsciiWs c) s s' ∧
      s.start < s'.start ∧ AfterWs C s.start) := by
  unfold wholeWord
  by_cases hc : lastIsWs s.asConsumed = true
  · rw [if_pos hc]
    refine (takeWhile1_good h _ (.inr ?_)).mono ?_
    · intro b hb
      simp at hb
      exact isAsciiWs_lt hb
    · rintro s' o ⟨h1, h2, h3⟩
      refine ⟨h1, h2, h3, ?_⟩
      by_cases h0 : s.start = 0
      · exact .inl h0
      · right
        unfold lastIsWs at hc
        rw [consumed_last h.wf (by omega)] at hc
        obtain ⟨b, hb⟩ := Wf_get h.wf (i := s.start - 1) (by have := h.wf.le; omega)
        rw [hb] at hc
        exact ⟨b, hb, hc⟩
  · rw [if_neg hc]; simp [Ctx.Ok]

/-- A blank, tab or line ending at `i`. -/
def MultispaceAt (C : Ctx) (stop i : Nat) : Prop :=
  (i < stop ∧ (C.inner[i]? = some 32 ∨ C.inner[i]? = some 9)) ∨ LineEndAt C.inner stop i

theorem singleMultispace_good {s : Span} (h : C.Wf k s) :
    C.Ok (singleMultispace s) (fun _ _ => MultispaceAt C s.stop s.start) := by
  unfold singleMultispace
  refine Ctx.Ok.value ?_
  refine Ctx.Ok.alt ((tag_wf h _ (by simp)).mono ?_) fun _ =>
    Ctx.Ok.alt ((tag_wf h _ (by simp)).mono ?_) fun _ =>
    Ctx.Ok.alt ((tag_wf h _ (by simp)).mono ?_) fun _ => (tag_wf h _ (by simp)).mono ?_
  · rintro s' o ⟨_, _, ha⟩
    have h0 := ha.2.getElem? 0 (by simp)
    have h1 := ha.2.getElem? 1 (by simp)
    have hl := ha.1
    simp at h0 h1 hl
    exact .inr (.inr ⟨by omega, h0, h1⟩)
  · rintro s' o ⟨_, _, ha⟩
    have hl := ha.1
    simp at hl
    exact .inr (.inl ⟨by omega, at_singleton.1 ha.2⟩)
  · rintro s' o ⟨_, _, ha⟩
    have hl := ha.1
    simp at hl
    exact .inl ⟨by omega, .inr (at_singleton.1 ha.2)⟩
  · rintro s' o ⟨_, _, ha⟩
    have hl := ha.1
    simp at hl
    exact .inl ⟨by omega, .inl (at_singleton.1 ha.2)⟩

theorem at_pair {s : Str} {i : Nat} {a b : Byte} (h0 : s[i]? = some a) (h1 : s[i + 1]? = some b) :
    At s i [a, b] := by
  apply List.ext_getElem?
  intro j
  rw [List.getElem?_take, List.getElem?_drop]
  match j with
  | 0 => simpa using h0
  | 1 => simpa using h1
  | j + 2 => simp; intro h; omega

theorem alt_err {α} {p q : P α} {s : Span} (h : P.alt p q s = .err) : p s = .err ∧ q s = .err := by
  unfold P.alt at h
  cases hp : p s with
  | err => rw [hp] at h; exact ⟨rfl, h⟩
  | _ => rw [hp] at h; simp at h

theorem map_err {α β} {p : P α} {f : α → β} {s : Span} (h : P.map p f s = .err) : p s = .err := by
  unfold P.map at h
  cases hp : p s with
  | err => rfl
  | _ => rw [hp] at h; simp at h

theorem value_err {α β} {p : P α} {b : β} {s : Span} (h : P.value b p s = .err) : p s = .err :=
  map_err h

theorem bind_err {α β} {p : P α} {f : α → P β} {s : Span} (h : P.bind p f s = .err) :
    p s = .err ∨ ∃ s' a, p s = .ok s' a ∧ f a s' = .err := by
  unfold P.bind at h
  cases hp : p s with
  | ok s' a => rw [hp] at h; exact .inr ⟨s', a, rfl, h⟩
  | err => exact .inl rfl
  | _ => rw [hp] at h; simp at h

theorem not_err {α} {p : P α} {s : Span} (h : P.not p s = .err) : ∃ s' a, p s = .ok s' a := by
  unfold P.not at h
  cases hp : p s with
  | ok s' a => exact ⟨s', a, rfl⟩
  | _ => rw [hp] at h; simp at h

theorem alts_err {α} {ps : List (P α)} {s : Span} (h : P.alts ps s = .err) :
    ∀ p ∈ ps, p s = .err := by
  induction ps with
  | nil => simp
  | cons p ps ih =>
    cases ps with
    | nil => simpa [P.alts] using h
    | cons q qs =>
      obtain ⟨h1, h2⟩ := alt_err (p := p) (q := P.alts (q :: qs)) h
      intro r hr
      rcases List.mem_cons.1 hr with rfl | hr
      · exact h1
      · exact ih h2 r hr

theorem located_err {α} {p : P α} {s : Span} (h : located p s = .err) : p s = .err := by
  unfold located at h
  cases hp : p s with
  | ok s' a => rw [hp] at h; simp only at h; split at h <;> cases h
  | err => rfl
  | _ => rw [hp] at h; simp at h

theorem singleMultispace_err {s : Span} (h : C.Wf k s) (he : singleMultispace s = .err) :
    ¬ MultispaceAt C s.stop s.start := by
  have he := value_err he
  obtain ⟨e1, he⟩ := alt_err he
  obtain ⟨e2, he⟩ := alt_err he
  obtain ⟨e3, e4⟩ := alt_err he
  have e1 := tag_err h _ (by simp) e1
  have e2 := tag_err h _ (by simp) e2
  have e3 := tag_err h _ (by simp) e3
  have e4 := tag_err h _ (by simp) e4
  rintro (⟨hl, hb | hb⟩ | ⟨hl, hb⟩ | ⟨hl, hb, hb'⟩)
  · exact e4 ⟨by simp; omega, at_singleton.2 hb⟩
  · exact e3 ⟨by simp; omega, at_singleton.2 hb⟩
  · exact e2 ⟨by simp; omega, at_singleton.2 hb⟩
  · exact e1 ⟨by simp; omega, at_pair hb hb'⟩

theorem MultispaceAt.byte {stop i : Nat} (h : MultispaceAt C stop i) :
    i < stop ∧ ∃ b, C.inner[i]? = some b ∧ b < 128 := by
  rcases h with ⟨hl, h | h⟩ | h
  · exact ⟨hl, 32, h, by omega⟩
  · exact ⟨hl, 9, h, by omega⟩
  · exact ⟨h.lt, h.byte⟩

theorem uriText_good {s : Span} (h : C.In k s) :
    C.Ok (uriText s) (fun s' o => Split C s s' o ∧ s.start < s'.start ∧
      (∀ i, s.start ≤ i → i < s'.start → ¬ MultispaceAt C s.stop i) ∧
      (s'.start = s.stop ∨ MultispaceAt C s.stop s'.start)) := by
  unfold uriText
  refine Ctx.Ok.recognize ?_
  refine (Ctx.Ok.many1 (I := fun t => C.Wf k t ∧ Step s t ∧
      ∀ i, s.start ≤ i → i < t.start → ¬ MultispaceAt C s.stop i)
    (T := fun _ _ _ => True) ?_ (fun _ _ _ => trivial)
    ⟨h.wf, Step.refl h.wf.le, by intro i h1 h2; omega⟩).mono ?_
  · rintro t ⟨ht, hst, hall⟩
    unfold P.pair
    refine Ctx.Ok.bind (Ctx.Ok.not ((singleMultispace_good ht).mono fun _ _ _ => trivial) ?_)
    intro hm
    have hm := singleMultispace_err ht hm
    refine Ctx.Ok.bind' (satisfy_ok ht _) ?_
    rintro t2 b2 ⟨rfl, hlt, _, _⟩
    have st : Step t { t with start := t.start + 1 } :=
      ⟨rfl, rfl, rfl, by simp, by simp; omega⟩
    refine Ctx.Ok.pure ⟨st, by simp, ⟨ht.step st, hst.trans st, ?_⟩, fun _ _ _ => trivial⟩
    intro i h1 h2
    simp at h2
    rcases Nat.lt_or_ge i t.start with h' | h'
    · exact hall i h1 h'
    · have : i = t.start := by omega
      subst this
      rw [← hst.stop]
      exact hm
  · rintro s' as ⟨st, hlt, ⟨hin, _, hall⟩, hperr, _⟩
    have hex : s'.start = s.stop ∨ MultispaceAt C s.stop s'.start := by
      by_cases he : s'.start = s.stop
      · exact .inl he
      · right
        have hlt' : s'.start < s'.stop := by have := st.hi; have := st.stop; omega
        obtain ⟨b, hb⟩ := Wf_get hin hlt'
        rcases bind_err hperr with hn | ⟨s1, a, hn, hr⟩
        · obtain ⟨s2, a, hn⟩ := not_err hn
          have := singleMultispace_good hin
          rw [hn] at this
          rw [← st.stop]; exact this
        · have : s1 = s' := by
            unfold P.not at hn
            split at hn <;> cases hn
            rfl
          subst this
          rcases bind_err hr with hr | ⟨_, _, _, hr⟩
          · have := satisfy_err hin _ hr hlt' hb
            simp at this
          · cases hr
    refine ⟨st, ⟨⟨st, ?_⟩, rfl⟩, hlt, hall, hex⟩
    rcases hex with he | he
    · rw [he]; exact h.be
    · obtain ⟨_, b, hb, hlt⟩ := he.byte
      exact Ctx.B_of_lt hb hlt

/-! ## Ends of spans -/

theorem takeEnd_good {s : Span} (h : C.Wf k s) (n : Nat) :
    C.Ok (takeEnd n s) (fun s' o => s.start + n ≤ s.stop ∧ s' = { s with stop := s.stop - n } ∧
      o = { s with start := s.stop - n }) := by
  have hle := h.le
  unfold takeEnd
  simp only [h.remLen]
  split
  · simp [Ctx.Ok]
  · refine ⟨by omega, ?_, ?_⟩
    · simp only [Span.sliceTo, Span.advanceEndBy]; congr 1; omega
    · simp only [Span.sliceFrom, Span.advanceStartBy]; rw [if_neg (by omega)]; congr 1; omega

theorem countTrailingWs_facts (l : Str) :
    countTrailingWs l ≤ l.length ∧
    (∀ (i : Nat) b, l.length - countTrailingWs l ≤ i → l[i]? = some b → isSpace b = true) ∧
    (∀ b, 0 < l.length - countTrailingWs l → l[l.length - countTrailingWs l - 1]? = some b →
      isSpace b = false) := by
  obtain ⟨h1, h2, h3⟩ := takeWhile_facts isSpace l.reverse
  rw [List.length_reverse] at h1
  unfold countTrailingWs
  generalize (l.reverse.takeWhile isSpace).length = n at h1 h2 h3
  refine ⟨h1, ?_, ?_⟩
  · intro i b hi hb
    have hlt : i < l.length := (List.getElem?_eq_some_iff.1 hb).1
    refine h2 (l.length - 1 - i) b (by omega) ?_
    rw [List.getElem?_reverse (by omega), ← hb]
    congr 1; omega
  · intro b h0 hb
    refine h3 b ?_
    rw [List.getElem?_reverse (by omega), ← hb]
    congr 1; omega

theorem trimTrailing_good {s : Span} (h : C.In k s) :
    C.Ok (trimTrailingWhitespace s) (fun s' _ => Sub s s' ∧ s'.start = s.start ∧ C.B s'.stop ∧
      Blanks C s'.stop s.stop ∧
      ∀ b, s'.start < s'.stop → C.inner[s'.stop - 1]? = some b → isSpace b = false) := by
  have hle := h.wf.le
  obtain ⟨h1, h2, h3⟩ := countTrailingWs_facts s.asRemaining
  unfold trimTrailingWhitespace
  rw [h.wf.remLen] at h1 h2 h3 ⊢
  generalize hn : countTrailingWs s.asRemaining = n at h1 h2 h3 ⊢
  have hbl : Blanks C (s.start + (s.stop - s.start - n)) s.stop := by
    intro i x hi1 hi2 hx
    refine h2 (i - s.start) x (by omega) ?_
    rw [h.wf.rem_some, show s.start + (i - s.start) = i by omega]
    exact ⟨hi2, hx⟩
  refine ⟨⟨rfl, rfl, Nat.le_refl _, ?_, ?_⟩, rfl, ?_, ?_, ?_⟩
  · show s.start ≤ s.start + (s.stop - s.start - n); omega
  · show s.start + (s.stop - s.start - n) ≤ s.stop; omega
  · show C.B (s.start + (s.stop - s.start - n))
    by_cases h0 : n = 0
    · rw [show s.start + (s.stop - s.start - n) = s.stop by omega]; exact h.be
    · obtain ⟨b, hb⟩ := Wf_get h.wf (i := s.start + (s.stop - s.start - n)) (by omega)
      exact Ctx.B_of_lt hb (isSpace_lt (hbl _ b (by omega) (by omega) hb))
  · exact hbl
  · intro b hlt hb
    simp only [Span.sliceTo, Span.advanceEndBy] at hlt hb
    refine h3 b (by omega) ?_
    rw [h.wf.rem_some]
    refine ⟨by omega, ?_⟩
    rw [← hb]; congr 1; omega

theorem Ctx.In.sub {s o : Span} (h : C.In k s) (hs : Sub s o) (b1 : C.B o.start) (b2 : C.B o.stop) :
    C.In k o := ⟨h.wf.sub hs, b1, b2⟩

theorem trimWhitespace_good {s : Span} (h : C.In k s) :
    C.Ok (trimWhitespace s) (fun s' _ => Sub s s' ∧ C.In k s' ∧
      Blanks C s.start s'.start ∧ Blanks C s'.stop s.stop) := by
  unfold trimWhitespace
  refine Ctx.Ok.bind' (space0_good h) ?_
  rintro s1 o ⟨hsp, ht⟩
  have h1 := h.good hsp.good
  refine (trimTrailing_good h1).mono ?_
  rintro s2 _ ⟨hsub, he, hb, hbl, _⟩
  have hst := hsp.good.step.stop
  refine ⟨hsp.good.step.sub.trans hsub, h1.sub hsub ?_ hb, ?_, ?_⟩
  · rw [he]; exact hsp.good.b
  · intro i x hi1 hi2 hx
    exact ht.all i x hi1 (by omega) hx
  · rw [← hst]; exact hbl

theorem notLineEnding_good {s : Span} (h : C.In k s) :
    C.Ok (notLineEnding s) (fun s' o => Split C s s' o ∧
      (∀ i, s.start ≤ i → i < s'.start → C.inner[i]? ≠ some 10 ∧ C.inner[i]? ≠ some 13) ∧
      (s'.start = s.stop ∨ LineEndAt C.inner s.stop s'.start)) := by
  unfold notLineEnding
  simp only
  have := memchr_facts (fun b => b == 10 || b == 13) s.asRemaining
  have hle := h.wf.le
  cases hm : memchr (fun b => b == 10 || b == 13) s.asRemaining with
  | none =>
    rw [hm] at this
    simp only at this ⊢
    have e : s.sliceFrom s.asRemaining.length = { s with start := s.stop } := by
      rw [h.wf.remLen]
      simp only [Span.sliceFrom, Span.advanceStartBy]
      rw [if_neg (by omega)]; congr 1; omega
    rw [e]
    refine ⟨⟨⟨⟨rfl, rfl, rfl, hle, Nat.le_refl _⟩, h.be⟩, rfl⟩, ?_, .inl rfl⟩
    intro i hi1 hi2
    simp at hi2
    refine ⟨fun hb => ?_, fun hb => ?_⟩
    · have := this (i - s.start) 10 (by
        rw [h.wf.rem_some, show s.start + (i - s.start) = i by omega]; exact ⟨by omega, hb⟩)
      simp at this
    · have := this (i - s.start) 13 (by
        rw [h.wf.rem_some, show s.start + (i - s.start) = i by omega]; exact ⟨by omega, hb⟩)
      simp at this
  | some n =>
    rw [hm] at this
    simp only at this ⊢
    obtain ⟨⟨b, hb, _⟩, h2⟩ := this
    rw [h.wf.rem_some] at hb
    have e : s.sliceFrom n = { s with start := s.start + n } := by
      simp only [Span.sliceFrom, Span.advanceStartBy]
      rw [if_neg (by omega)]
    split
    · rename_i hme
      have hle : LineEndAt C.inner s.stop (s.start + n) := by
        simp only [Bool.or_eq_true, matchesAt_iff] at hme
        rcases hme with hme | hme
        · have := (h.wf.at_rem n _ (by simp)).1 hme
          have hl := this.1
          simp at hl
          exact .inl ⟨by omega, at_singleton.1 this.2⟩
        · have := (h.wf.at_rem n _ (by simp)).1 hme
          have hl := this.1
          have h0 := this.2.getElem? 0 (by simp)
          have h1 := this.2.getElem? 1 (by simp)
          simp at h0 h1 hl
          exact .inr ⟨by omega, h0, h1⟩
      rw [e]
      refine ⟨⟨⟨⟨rfl, rfl, rfl, by simp, by simp; omega⟩, ?_⟩, rfl⟩, ?_, .inr hle⟩
      · obtain ⟨b, hb, hlt⟩ := hle.byte
        exact Ctx.B_of_lt hb hlt
      · intro i hi1 hi2
        simp at hi2
        refine ⟨fun hb => ?_, fun hb => ?_⟩
        · have := h2 (i - s.start) 10 (by omega) (by
            rw [h.wf.rem_some, show s.start + (i - s.start) = i by omega]; exact ⟨by omega, hb⟩)
          simp at this
        · have := h2 (i - s.start) 13 (by omega) (by
            rw [h.wf.rem_some, show s.start + (i - s.start) = i by omega]; exact ⟨by omega, hb⟩)
          simp at this
    · simp [Ctx.Ok]

/-! ## Bytes of spans -/

theorem strOf_rule {p : P Span} {s : Span} {Q : Span → Str → Prop}
    (h : C.Ok (p s) (fun s' o => Q s' o.asRemaining)) : C.Ok (strOf p s) Q :=
  Ctx.Ok.mapParser h

end Vw
