import Verif.Lemmas.Whole
import Verif.Lemmas.TableStarts

/-!
# Lists take in all their items
-/

namespace Vw
open P Scan

variable {C : Ctx} {k : Nat} {s : Span}

/-- The line at `e` has at most `m` blanks. -/
def Shallow (C : Ctx) (e m : Nat) : Prop := ∀ j x, FirstByte C e j x → j ≤ e + m

/-- The line at `e` has more than `m` blanks. -/
def Deeper (C : Ctx) (e m : Nat) : Prop := ∀ j x, FirstByte C e j x → e + m < j

/-- Nothing that belongs to a list at the beginning of the span stands behind the span. -/
def Closed (C : Ctx) (s : Span) : Prop :=
  s.stop = C.inner.length ∨ ∃ m, Shallow C s.stop m ∧ (Bol C s.start → Deeper C s.start m)

/-- The number of blanks at the beginning of the span. -/
theorem peek_level {s : Span} (h : C.In k s) : C.Ok (indentationPeek s) (fun s' lv => s' = s ∧
    Blanks C s.start (s.start + lv) ∧ s.start + lv ≤ s.stop ∧
    ∀ b, s.start + lv < s.stop → C.inner[s.start + lv]? = some b → isSpace b = false) := by
  refine Ctx.Ok.map (Ctx.Ok.peek ((space0_good h).mono ?_))
  rintro s1 o ⟨hsp, tk⟩
  have h1 := hsp.good.step.le
  have h2 := hsp.good.step.hi
  have e : o.remainingLen = s1.start - s.start := by rw [hsp.out, remainingLen_eq]
  rw [e, show s.start + (s1.start - s.start) = s1.start by omega]
  exact ⟨rfl, tk.all, h2, tk.stop⟩

theorem indentationPeek_run {s : Span} (h : C.In k s) : ∃ lv, indentationPeek s = .ok s lv := by
  have hv := In.sub_view h h.wf.le (Nat.le_refl _)
  obtain ⟨w, r, e, hw, hr⟩ := while_exists isSpace (sub C.inner s.start s.stop ++ sub C.inner s.stop s.stop)
  rw [e] at hv
  exact ⟨_, map_ok (peek_ok (space0_run hv hw hr))⟩

theorem restOfLine_lt {s u : Span} {a : Span} (h : C.In k s) (hr : restOfLine s = .ok u a) :
    s.start = s.stop ∨ s.start < u.start := by
  rcases Nat.eq_or_lt_of_le h.wf.le with h0 | h0
  · exact .inl h0
  right
  have hv := In.sub_view h h.wf.le (Nat.le_refl _)
  obtain ⟨o, ho⟩ := restOfLine_run hv
  rw [ho] at hr
  have e : s.start + lineLen (sub C.inner s.start s.stop ++ sub C.inner s.stop s.stop) = u.start :=
    congrArg Span.start (Res.ok.inj hr).1
  have hl : 0 < (sub C.inner s.start s.stop ++ sub C.inner s.stop s.stop).length := by
    rw [List.length_append, sub_length _ _ _ h.wf.hi]; omega
  cases ht : sub C.inner s.start s.stop ++ sub C.inner s.stop s.stop with
  | nil => rw [ht] at hl; simp at hl
  | cons b t =>
    rw [ht] at e
    unfold lineLen at e
    split at e <;> omega

theorem deeper_of_blanks {e m n : Nat} (h : Blanks C e (e + n)) (hm : m < n) : Deeper C e m := by
  rintro j x ⟨j1, -, j3, j4⟩
  rcases Nat.lt_or_ge j (e + n) with hj | hj
  · have := h j x j1 hj j3
    rw [this] at j4; cases j4
  · omega

theorem itemLines_deeper {s : Span} (h : C.In k s) (ind : Nat) :
    C.Ok (itemLines ind s) (fun s' _ => On C (fun q => q = s.start ∨ Deeper C q ind) s.start s'.start) := by
  refine Ctx.Ok.recognize ((pair_on (R := fun q => q = s.start ∨ Deeper C q ind) h
    ((restOfLine_one h).mono fun s1 _ h1 => ⟨h1.1, h1.2.on (.inl rfl)⟩) ?_).mono ?_)
  · intro t ht _
    refine many0_on ht fun u hu _ => ?_
    refine Ctx.Ok.preceded (Ctx.Ok.mono (Q := fun u' _ => u' = u ∧ Deeper C u.start ind) ?_ ?_)
    · refine Ctx.Ok.verify ((peek_level hu).mono ?_)
      rintro u1 lv ⟨e, hbl, -⟩ hv
      exact ⟨e, deeper_of_blanks hbl (of_decide_eq_true hv)⟩
    · rintro u' _ ⟨rfl, hd⟩
      exact (restOfLine_one hu).mono fun s1 _ h1 => ⟨h1.1, h1.2.on (.inr hd)⟩
  · rintro s' _ ⟨g, o⟩
    exact ⟨g.step, o⟩

theorem itemLines_stop {s : Span} (h : C.In k s) (hs : Full C s) (ind : Nat) :
    C.Ok (itemLines ind s) (fun s' _ => (s'.start = s.stop ∨ Shallow C s'.start ind) ∧
      ∀ q' j x, s.start < q' → C.inner[q' - 1]? = some 10 → FirstByte C q' j x →
        j ≤ q' + ind → s'.start ≤ q') := by
  refine (((itemLines_ok h ind).self).and (itemLines_deeper h ind)).mono ?_
  rintro s' o ⟨⟨⟨g, -, -⟩, hrun⟩, hon⟩
  unfold itemLines recognize at hrun
  split at hrun
  rotate_left
  all_goals try (cases hrun)
  rename_i s1 a hp
  split at hrun
  · cases hrun
  have e1 := (Res.ok.inj hrun).1
  rw [e1] at hp
  obtain ⟨u, y, hu, hp⟩ := bind_inv hp
  obtain ⟨s2, ys, hm, hp⟩ := bind_inv hp
  have e2 := (Res.ok.inj hp).1
  rw [e2] at hm
  have hone := ok_of_run ((restOfLine_one h).and (restOfLine_line h)) hu
  obtain ⟨⟨gu, hone⟩, -, hends, -⟩ := hone
  have hi := h.good g
  have hiu := h.good gu
  have st := g.step
  have a1 := st.hi
  have a2 := st.stop
  have b1 := gu.step.hi
  have b2 := gu.step.stop
  have b3 := gu.step.le
  have part1 : s'.start = s.stop ∨ Shallow C s'.start ind := by
    rcases Nat.eq_or_lt_of_le a1 with a1 | a1
    · exact .inl a1
    right
    have herr := many0_stops hm
    rcases bind_err herr with he | ⟨t, lv, hv, he⟩
    · rcases verify_err he with he | ⟨t, lv, hv, hf⟩
      · obtain ⟨lv, hr⟩ := indentationPeek_run hi
        rw [hr] at he
        cases he
      · obtain ⟨-, hbl, hle, hno⟩ := ok_of_run (peek_level hi) hv
        simp only [decide_eq_false_iff_not, Nat.not_lt, gt_iff_lt] at hf
        rw [a2] at hle hno
        intro j x hj
        rcases Nat.eq_or_lt_of_le hle with hle | hle
        · exfalso
          rcases hs with hs | hs
          · obtain ⟨j1, j2, j3, j4⟩ := hj
            have : j < C.inner.length := by
              rcases Nat.lt_or_ge j C.inner.length with h | h
              · exact h
              · rw [List.getElem?_eq_none h] at j3; cases j3
            have := hbl j x j1 (by omega) j3
            rw [this] at j4; cases j4
          · have := hbl (s.stop - 1) 10 (by omega) (by omega) hs
            exact absurd this (by decide)
        · obtain ⟨b, hb⟩ := Wf_get h.wf hle
          have := (hj.uniq ⟨by omega, hbl, hb, hno b hle hb⟩).1
          omega
    · have : t = s' := by
        have := ok_of_run (indentVerify_ok hi _) hv
        exact this
      rw [this] at he
      exact absurd he (restOfLine_ne (In.sub_view hi hi.wf.le (Nat.le_refl _)))
  refine ⟨part1, ?_⟩
  intro q' j x q1 q2 hj hle
  rcases Nat.lt_or_ge q' s'.start with hlt | hge
  · exfalso
    rcases hon q' (.inr q2) (by omega) hlt with e | e
    · omega
    · have := e j x hj
      omega
  · exact hge

/-! ## The items of a list -/

/-- Items at the regions `rs`, one after the other from `a` to `b`, all with `n` blanks before them. -/
def ItemRows (C : Ctx) (n : Nat) : Nat → List Region → Nat → Prop
  | a, [], b => a = b
  | a, r :: rs, b => Bol C a ∧ r.offset = a + n ∧ (∃ x, FirstByte C a (a + n) x) ∧ a < r.offset + r.len ∧
      (Bol C (r.offset + r.len) ∨ r.offset + r.len = C.inner.length) ∧
      (∀ q' j x, a < q' → C.inner[q' - 1]? = some 10 → FirstByte C q' j x →
        j ≤ q' + n → r.offset + r.len ≤ q') ∧
      ItemRows C n (r.offset + r.len) rs b

/-- The lines of a quote are blank or begin with an arrow. -/
def Arrowed (C : Ctx) (y : Located Block) : Prop :=
  ∀ ls, y.inner = .blockquote ls → ∀ q, Bol C q → y.region.offset ≤ q → q < y.region.offset + y.region.len →
    ∀ j x, FirstByte C q j x → x = 10 ∨ x = 13 ∨ x = c!">"

/-- A list that the parser for lists has found, or a block that the parser for nested blocks has found. -/
def Ran (C : Ctx) (y : Located Block) : Prop :=
  ∃ k s s' n, C.In (k + 2) s ∧ Full C s ∧
    ((s.stop - s.start < n + 2 ∧ listOf (nestedF C.env n) s = .ok s' y) ∨
      (∀ items, y.inner ≠ .list items) ∧ s.stop - s.start < n ∧ nestedF C.env n s = .ok s' y)

/-- Every list of the blocks has more than `n` blanks before its items, and the lines of quotes begin
with arrows. -/
def AllMore (C : Ctx) (n : Nat) (bs : List (Located Block)) : Prop :=
  ∀ y ∈ Block.allBlocks bs, (∀ items, y.inner = .list items → ∃ n' b, n < n' ∧
    ItemRows C n' y.region.offset (items.map (·.region)) b) ∧ Arrowed C y

/-- What may stand where an item with `n` blanks before it ends: the end of the text, a line with no
more blanks, a line with blanks only, or a header. -/
def ItemStop (C : Ctx) (n e : Nat) : Prop := ∀ j x, FirstByte C e j x →
  j ≤ e + n ∨ EolHere (C.inner.drop j) ∨ ∃ m c mid, HeaderForm (C.inner.drop e) m c mid

/-- What stands in an item at `r` with `n` blanks before it: lists with more blanks; the item goes on
to a line that cannot belong to it, and all lines within the item are hidden in it or shown by its
blocks. -/
def InItem (C : Ctx) (n : Nat) (r : Region) (cs : List (Located Block)) : Prop :=
  AllMore C n cs ∧
  ItemStop C n (r.offset + r.len) ∧
  ∀ K E, LineKind C K E → (∀ q r, K q → ¬ E q ⟨.list [], r⟩) → ∀ q', r.offset < q' → q' < r.offset + r.len → K q' →
    Hd C E (Block.allBlocks cs) (Block.allInlines cs) q'

def itemParts (it : Located ListItem) : Region × List (Located Block) := (it.region, it.inner.contents)

/-- The items of a list have the same number of blanks before them, and no item with that number
follows the list. -/
def SameItems (C : Ctx) (y : Located Block) : Prop :=
  ∀ items, y.inner = .list items → ∃ n b, ItemRows C n y.region.offset (items.map (·.region)) b ∧
    (items ≠ [] ∧ y.region.offset + y.region.len = b) ∧ (Bol C b → ¬ ItemForm (C.inner.drop b) n) ∧ ∀ p ∈ items.map itemParts, InItem C n p.1 p.2

def AllSame (C : Ctx) (bs : List (Located Block)) : Prop :=
  ∀ y ∈ Block.allBlocks bs, SameItems C y ∧ Arrowed C y ∧ Ran C y

theorem AllSame.cons {x : Located Block} {xs : List (Located Block)} (h1 : AllSame C [x]) (h2 : AllSame C xs) :
    AllSame C (x :: xs) := by
  intro y hy
  rw [allBlocks_cons] at hy
  rcases List.mem_append.1 hy with h | h
  · exact h1 y h
  · exact h2 y h

theorem AllSame.flat {x : Located Block} (h : ∀ items, x.inner ≠ .list items) (ha : Arrowed C x) (hr : Ran C x) :
    AllSame C [x] := by
  intro y hy
  rw [allBlocks_flat h] at hy
  obtain rfl := List.mem_singleton.1 hy
  exact ⟨fun items e => absurd e (h items), ha, hr⟩

/-- What is known of the lists in nested blocks on short enough spans. -/
def NestedSame (C : Ctx) (nested : P (Located Block)) (n : Nat) : Prop :=
  ∀ k t, C.In (k + 2) t → Full C t → Closed C t → t.stop - t.start < n →
    C.Ok (nested t) (fun _ x => AllSame C [x])

theorem indentVerify_level {s : Span} (h : C.In k s) (f : Nat → Bool) :
    C.Ok (verify indentationPeek f s) (fun s' lv => s' = s ∧ f lv = true ∧ Blanks C s.start (s.start + lv) ∧
      ∀ b, s.start + lv < s.stop → C.inner[s.start + lv]? = some b → isSpace b = false) :=
  Ctx.Ok.verify ((peek_level h).mono fun _ _ h hf => ⟨h.1, hf, h.2.1, h.2.2.2⟩)

theorem AllMore.cons {n : Nat} {x : Located Block} {xs : List (Located Block)} (h1 : AllMore C n [x]) (h2 : AllMore C n xs) :
    AllMore C n (x :: xs) := by
  intro y hy
  rw [allBlocks_cons] at hy
  rcases List.mem_append.1 hy with h | h
  · exact h1 y h
  · exact h2 y h

theorem mem_itemBlocks {y : Located Block} {its : List (Located ListItem)} (h : y ∈ Block.itemBlocks its) :
    ∃ it ∈ its, y ∈ Block.allBlocks it.inner.contents := by
  induction its with
  | nil => simp [Block.itemBlocks] at h
  | cons x xs ih =>
    rw [itemBlocks_cons] at h
    rcases List.mem_append.1 h with h | h
    · exact ⟨x, by simp, h⟩
    · obtain ⟨z, hz, h⟩ := ih h
      exact ⟨z, by simp [hz], h⟩

theorem ItemRows.head {n a b : Nat} {rs : List Region} (h : ItemRows C n a rs b) (hne : rs ≠ []) :
    Bol C a ∧ ∃ x, FirstByte C a (a + n) x := by
  cases rs with
  | nil => exact absurd rfl hne
  | cons r rs => exact ⟨h.1, h.2.2.1⟩

theorem AllSame.more {x : Located Block} {n lv : Nat} (h : AllSame C [x])
    (hl : Bol C x.region.offset → Blanks C x.region.offset (x.region.offset + lv)) (hn : n < lv) : AllMore C n [x] := by
  by_cases hx : ∃ items, x.inner = .list items
  · obtain ⟨items, hx⟩ := hx
    obtain ⟨hsx, hax⟩ := h x (mem_self x)
    obtain ⟨n', b, h1, hne, -, h2⟩ := hsx items hx
    obtain ⟨hb, c, hc⟩ := h1.head (by
      intro e
      exact hne.1 (List.map_eq_nil_iff.1 e))
    have hlt : n < n' := by
      have := deeper_of_blanks (hl hb) hn _ _ hc
      omega
    intro y hy
    refine ⟨?_, (h y hy).2.1⟩
    intro its hyi
    have hy' : y = x ∨ y ∈ Block.itemBlocks items := by
      obtain ⟨xi, xr⟩ := x
      subst hx
      simpa [Block.allBlocks, Block.inside] using hy
    rcases hy' with rfl | hy'
    · rw [hx] at hyi
      cases hyi
      exact ⟨n', b, hlt, h1⟩
    · obtain ⟨it, hit, hy'⟩ := mem_itemBlocks hy'
      obtain ⟨n'', b', hn'', hr⟩ := ((h2 _ (List.mem_map_of_mem hit)).1 y hy').1 its hyi
      exact ⟨n'', b', by omega, hr⟩
  · intro y hy
    refine ⟨?_, (h y hy).2.1⟩
    intro its hyi
    rw [allBlocks_flat (fun items e => hx ⟨items, e⟩)] at hy
    obtain rfl := List.mem_singleton.1 hy
    exact absurd ⟨_, hyi⟩ hx

/-- If no block is found, the line is blank or begins a block that is none of an item. -/
theorem nested_stops {s : Span} {n : Nat} (h : C.In (k + 2) s) (hn : s.stop - s.start < n)
    (he : nestedF C.env n s = .err) {s1 o : Span} (hs1 : space0 s = .ok s1 o) :
    (s1.start = s1.stop ∨ LineEndAt C.inner s1.stop s1.start) ∨ (∃ s' x, header C.env s = .ok s' x) ∨
      (∃ s' x, blankLine s = .ok s' x) ∨ (∃ s' x, divider s = .ok s' x) ∨ ∃ s' x, placeholder C.env s = .ok s' x := by
  obtain ⟨n, rfl⟩ : ∃ m, n = m + 1 := ⟨n - 1, by omega⟩
  have etop := alts_err he
  have e2 := etop (definitionList C.env) (by simp)
  have e3 := etop (listOf (nestedF C.env n)) (by simp)
  have e4 := map_err (etop (nestedTable C.env) (by simp))
  have e5 := etop codeBlock (by simp)
  have e6 := etop mathBlock (by simp)
  have e7 := etop arrowBlockquote (by simp)
  have e10 := etop (paragraphOf C.env (listOf (nestedF C.env n))) (by simp)
  have e4 : table C.env s = .err := map_fails e4
  unfold paragraphOf at e10
  have e11 := many1_err (I := fun t => C.In (k + 2) t ∧ Step s t) ?_ ⟨h, Step.refl h.wf.le⟩
    (map_err (located_err e10))
  · unfold delimited at e11
    rcases bind_err e11 with ec | ⟨s0, _, hc, e11⟩
    · right
      unfold continueParagraphOf at ec
      rcases bind_err ec with ec | ⟨t, _, hk, ec⟩
      · exact .inl (not_err ec)
      rw [(not_inv hk).1, bind_of_ok (not_of_err e2), bind_of_ok (not_of_err e3),
        bind_of_ok (not_of_err e4), bind_of_ok (not_of_err e5), bind_of_ok (not_of_err e6)] at ec
      rcases bind_err ec with ec | ⟨t, _, hk, ec⟩
      · exact .inr (.inl (not_err ec))
      rw [(not_inv hk).1, bind_of_ok (not_of_err e7)] at ec
      rcases bind_err ec with ec | ⟨t, _, hk, ec⟩
      · exact .inr (.inr (.inl (not_err ec)))
      rw [(not_inv hk).1] at ec
      rcases bind_err ec with ec | ⟨t, _, hk, ec⟩
      · exact .inr (.inr (.inr (not_err ec)))
      · cases ec
    left
    rw [ok_of_run (continueParagraph_ok h (listOf_ok h (nestedF_ok n) (by omega))) hc] at e11
    have hw := ok_of_run (space0_good h) hs1
    have h1 := h.good hw.1.good
    rcases bind_err e11 with e | ⟨s2, xs, hp, e⟩
    · unfold paragraphLine at e
      rw [bind_of_ok hs1] at e
      exact inlineContainer_err (h1.mono (j := k + 1) (by omega)) (map_err e)
    · have hpl : C.Ok (paragraphLine C.env s) (fun s' _ => C.Good s s' ∧
          (s'.start = s.stop ∨ LineEndAt C.inner s.stop s'.start)) := by
        refine Ctx.Ok.bind' (space0_good h) ?_
        rintro s1 _ ⟨hsp1, _⟩
        have h1 : C.In (k + 1) s1 := (h.good hsp1.good).mono (by omega)
        refine Ctx.Ok.map ((inlineContainer_ok h1).mono ?_)
        rintro s2 x ⟨hc, _⟩
        have hex := hc.exit
        rw [hsp1.good.step.stop] at hex
        exact ⟨hsp1.good.trans hc.good, hex⟩
      obtain ⟨g, hex⟩ := ok_of_run hpl hp
      have h2 := h.good g
      exfalso
      rcases bind_err e with e | ⟨_, _, _, e⟩
      · have := endOfLineOrInput_err h2.wf e
        have hst := g.step.stop
        rw [hst] at this
        rcases hex with hh | hh
        · omega
        · exact this.2 hh
      · cases e
  · rintro t ⟨ht, hst⟩ t' x hx
    have q1 := hst.le
    have q2 := hst.stop
    have := ok_of_run (paragraphRow_ok ht (listOf_ok ht (nestedF_ok n) (by omega))) hx
    exact ⟨fun e => by have := this.lt; rw [e] at this; omega, ht.good this.good, hst.trans this.good.step⟩

theorem HeaderForm.longer {t v : Str} {n : Nat} {c : Bool} {mid : Str} (h : HeaderForm t n c mid)
    (hv : v = [] ∨ t.getLast? = some 10) : HeaderForm (t ++ v) n c mid := by
  obtain ⟨hl, ⟨ws, b1, b2, ws', r, e, h1, h2, h3, h4, h5, h6, h7, h8⟩, hne, hno, hf, hla⟩ := h
  refine ⟨hl, ⟨ws, b1, b2, ws', r ++ v, by rw [e]; simp, h1, h2, h3, h4, ?_, h6, h7, h8⟩, hne, hno, hf, hla⟩
  rcases hv with rfl | hv
  · simpa using h5
  · rcases h5 with rfl | ⟨t, rfl⟩ | ⟨t, rfl⟩
    · exfalso
      rw [e, List.append_nil] at hv
      have hm := List.mem_of_getLast? hv
      have nb : ∀ {w : Str}, AllBlank w → 10 ∉ w := fun h hx => by
        have := h 10 hx; omega
      simp only [List.mem_append, List.mem_replicate] at hm
      rcases hm with hm | hm | ((((hm | hm) | hm) | hm) | hm)
      · exact nb h1 hm
      · exact absurd hm.2 (by decide)
      · exact nb h2 hm
      · exact hno hm
      · exact nb h3 hm
      · exact absurd hm.2 (by decide)
      · exact nb h4 hm
    · exact .inr (.inl ⟨t ++ v, rfl⟩)
    · exact .inr (.inr ⟨t ++ v, rfl⟩)

theorem drop_cons_of {t : Str} {i : Nat} {b : Byte} (h : t[i]? = some b) : t.drop i = b :: t.drop (i + 1) := by
  obtain ⟨hi, e⟩ := List.getElem?_eq_some_iff.1 h
  rw [List.drop_eq_getElem_cons hi, e]

theorem LineEndAt.eol {t : Str} {b i : Nat} (h : LineEndAt t b i) : EolHere (t.drop i) := by
  rcases h with ⟨-, h⟩ | ⟨-, h1, h2⟩
  · exact .inr (.inl ⟨_, drop_cons_of h⟩)
  · exact .inr (.inr ⟨_, (drop_cons_of h1).trans (congrArg _ (drop_cons_of h2))⟩)

/-- If no block is found at a line that begins with a blank, the line is blank or a header. -/
theorem nested_stop {s : Span} {n j : Nat} {x : Byte} (h : C.In (k + 2) s) (hs : Full C s) (hn : s.stop - s.start < n)
    (he : nestedF C.env n s = .err) (hj : FirstByte C s.start j x) (hlt : s.start < j) (hjs : j < s.stop) :
    EolHere (C.inner.drop j) ∨ ∃ m c mid, HeaderForm (C.inner.drop s.start) m c mid := by
  have hv := In.sub_view h h.wf.le (Nat.le_refl _)
  rw [show sub C.inner s.stop s.stop = [] by simp [sub], List.append_nil] at hv
  obtain ⟨y, hy⟩ := Wf_get h.wf (i := s.start) (by omega)
  have hyb := hj.2.1 s.start y (Nat.le_refl _) hlt hy
  have hhead : (sub C.inner s.start s.stop).head? = some y := by
    rw [List.head?_eq_getElem?, sub_getElem?, if_pos (by omega)]
    exact hy
  obtain ⟨w, r, e, hw, hr⟩ := while_exists isSpace (sub C.inner s.start s.stop)
  have hs1 := space0_run (e ▸ hv) hw hr
  have hsp := ok_of_run (space0_good h) hs1
  have hj1 : (adv s w.length).start = j := by
    have hle := hsp.1.good.step.le
    have hhi := hsp.1.good.step.hi
    rcases Nat.lt_trichotomy (adv s w.length).start j with hh | hh | hh
    · exfalso
      obtain ⟨b, hb⟩ := Wf_get h.wf (i := (adv s w.length).start) (by omega)
      have e1 := hsp.2.stop b (by omega) hb
      have e2 := hj.2.1 _ b hle hh hb
      rw [e1] at e2; cases e2
    · exact hh
    · exfalso
      have := hsp.2.all j x (by omega) hh hj.2.2.1
      rw [hj.2.2.2] at this; cases this
  rcases nested_stops h hn he hs1 with (e | e) | ⟨s', z, e⟩ | ⟨s', z, e⟩ | ⟨s', z, e⟩ | ⟨s', z, e⟩
  · exfalso
    have : s.stop = j := by rw [← hj1, e]; rfl
    omega
  · left
    rw [hj1] at e
    exact e.eol
  · right
    obtain ⟨m, c, mid, -, hf, -⟩ := header_inv (h.mono (j := k + 1) (by omega)) hv e
    refine ⟨m, c, mid, ?_⟩
    rw [drop_split h.wf.le]
    refine hf.longer ?_
    rcases hs with hs | hs
    · left; rw [hs, List.drop_length]
    · right
      rw [List.getLast?_eq_getElem?, sub_length _ _ _ h.wf.hi, sub_getElem?, if_pos (by omega), ← hs]
      congr 1; omega
  · left
    have h1 := h.good hsp.1.good
    have hst := hsp.1.good.step.stop
    refine LineEndAt.eol (b := s.stop) ?_
    rw [← hj1, ← hst]
    obtain ⟨t1, _, hb1, e⟩ := bind_inv e
    rw [beginningOfLine_inv hb1] at e
    rcases alt_inv e with e | ⟨-, e⟩
    · obtain ⟨t2, b, h2, e⟩ := bind_inv e
      obtain ⟨t3, c, h3, e⟩ := bind_inv e
      have h2' : space0 s = .ok t2 b := by
        unfold space1 takeWhile1 at h2
        split at h2
        · cases h2
        · exact h2
      rw [hs1] at h2'
      rw [← (Res.ok.inj h2').1] at h3
      rcases (ok_of_run (endOfLineOrInput_good h1) h3).2 with ⟨e, -⟩ | ⟨-, e, -⟩
      · omega
      · exact e
    · obtain ⟨t2, b, h2, e⟩ := bind_inv e
      obtain ⟨t3, c, h3, e⟩ := bind_inv e
      rw [hs1] at h2
      rw [← (Res.ok.inj h2).1] at h3
      exact (ok_of_run (lineEnding_good h1) h3).2.2.1
  · exfalso
    obtain ⟨⟨m, r', hm, hd, -⟩, -⟩ := divider_inv hv e
    obtain ⟨m, rfl⟩ : ∃ m', m = m' + 1 := ⟨m - 1, by omega⟩
    rw [hd] at hhead
    have : c!"-" = y := Option.some.inj hhead
    rw [← this] at hyb
    exact absurd hyb (by decide)
  · exfalso
    obtain ⟨hd, -⟩ := placeholder_inv hv e
    rw [hhead] at hd
    cases hd
    exact absurd hyb (by decide)

theorem listItemTail_same {s : Span} {n : Nat} (h : C.In (k + 3) s) (hs : Full C s)
    (hN : NestedSame C (nestedF C.env n) n) (hsn : s.stop - s.start < n) (ind : Nat)
    (hc : s.stop = C.inner.length ∨ ∃ m, m ≤ ind ∧ Shallow C s.stop m) (h0 : 0 < s.start)
    (hnl : C.inner[s.start - 1]? ≠ some 10) :
    C.Ok (listItemTailOf (nestedF C.env n) ind s) (fun s' r => AllSame C r.2 ∧ AllMore C ind r.2 ∧
      ItemStop C ind s'.start) := by
  have hn := nestedF_ok (C := C) n
  have nest : ∀ t, C.In (k + 3) t → Step s t → (Bol C t.start → Blanks C t.start (t.start + (ind + 1))) →
      C.Ok (Scan.deeper (nestedF C.env n) t) (fun t' x => C.Good t t' ∧ (AllSame C [x] ∧ AllMore C ind [x] ∧
        t.start < t'.start ∧ Ends C t t')) := by
    intro t ht hst hd
    have h1 := hst.le
    have h2 := hst.stop
    have ht' : C.In (k + 2) (t.withDepth (t.depth + 1)) := withDepth_in (k := k + 2) ht
    have hlt : (t.withDepth (t.depth + 1)).stop - (t.withDepth (t.depth + 1)).start < n := by
      show t.stop - t.start < n; omega
    refine deeper_rule (Q := fun t' x => AllSame C [x] ∧ AllMore C ind [x] ∧
        t.start < t'.start ∧ Ends C t t') (ht.mono (j := k + 2 + 1) (by omega)) ?_
    refine ((hn k _ ht' hlt).and (hN k _ ht' ?_ ?_ hlt)).mono ?_
    · show Full C t
      unfold Full; rw [h2]; exact hs
    · show Closed C t
      rcases hc with hc | ⟨m, hm, hc⟩
      · exact .inl (by rw [h2]; exact hc)
      · refine .inr ⟨m, by rw [h2]; exact hc, fun hb => deeper_of_blanks (hd hb) (by omega)⟩
    · rintro t' x ⟨hb, hx⟩
      have ho : x.region.offset = t.start := by rw [hb.region]; rfl
      exact ⟨hb.good, hx, hx.more (by rw [ho]; exact hd) (Nat.lt_succ_self _), hb.lt, hb.ends⟩
  refine Ctx.Ok.bind' (Q1 := fun s' t => C.Good s s' ∧ sub C.inner s.start s'.start = todoText t)
    (Ctx.Ok.opt ((todoStatus_ok h).mono fun _ _ h => h)
      fun _ => ⟨Ctx.Good.refl h, by rw [sub_self]; rfl⟩) ?_
  rintro s1 todo ⟨g1, e1⟩
  have h1 := h.good g1
  have l1 := g1.step.le
  refine Ctx.Ok.bind' (nest s1 h1 g1.step ?_) ?_
  · rintro (hb | hb)
    · omega
    · exfalso
      rcases Nat.eq_or_lt_of_le l1 with l1 | l1
      · rw [← l1] at hb; exact hnl hb
      · exact noNl_sub e1 (todoText_noNl _) (s1.start - 1) (by omega) (by omega) hb
  rintro s2 x ⟨g2, hx, hx', lt2, en2⟩
  have h2 := h1.good g2
  refine Ctx.Ok.bind' (Ctx.Ok.many0 (I := fun t => C.In (k + 3) t ∧ Step s t)
    (T := fun _ xs _ => AllSame C xs ∧ AllMore C ind xs) ?_ ?_ ⟨h2, (g1.trans g2).step⟩ h2.wf.le) ?_
  · rintro t ⟨ht, hst⟩
    refine Ctx.Ok.preceded ((indentVerify_level ht _).mono ?_)
    rintro t0 lv ⟨e, hlv, hbl, -⟩
    simp only [decide_eq_true_eq, gt_iff_lt] at hlv
    rw [e]
    refine (nest t ht hst fun _ => fun i b i1 i2 => hbl i b i1 (by omega)).mono ?_
    rintro t1 y ⟨gt1, hy, hy', -⟩
    exact ⟨gt1.step, fun _ => ⟨⟨ht.good gt1, hst.trans gt1.step⟩, fun as t2 hT => ⟨hy.cons hT.1, hy'.cons hT.2⟩⟩⟩
  · intro t _ _
    constructor <;> intro y hy <;> simp [Block.allBlocks] at hy
  rintro s3 xs ⟨st3, ⟨h3, st3'⟩, herr, hT, hT'⟩
  refine Ctx.Ok.pure ⟨hx.cons hT, hx'.cons hT', ?_⟩
  intro j x hj
  have c4 := st3'.stop
  have hf3 : Full C s3 := by unfold Full; rw [c4]; exact hs
  have hle3 := h3.wf.le
  rcases Nat.eq_or_lt_of_le hle3 with e3 | lt3
  · left
    rw [c4] at e3
    rcases hc with hc | ⟨m, hm, hc⟩
    · exfalso
      have := hj.1
      have hg := hj.2.2.1
      rw [List.getElem?_eq_none (by omega)] at hg
      cases hg
    · rw [e3] at hj ⊢
      have := hc _ _ hj
      omega
  rcases Nat.lt_or_ge (s3.start + ind) j with hlt | hge
  rotate_left
  · exact .inl hge
  right
  obtain ⟨lv, hr⟩ := indentationPeek_run h3
  obtain ⟨-, hbl, hlv, hns⟩ := ok_of_run (peek_level h3) hr
  rcases Nat.eq_or_lt_of_le hlv with hlv' | hlv'
  · exfalso
    rcases hf3 with hf3 | hf3
    · have hg := hj.2.2.1
      have hjl : j < C.inner.length := by
        rcases Nat.lt_or_ge j C.inner.length with h | h
        · exact h
        · rw [List.getElem?_eq_none h] at hg; cases hg
      have := hbl j x hj.1 (by omega) hg
      rw [hj.2.2.2] at this; cases this
    · exact absurd (hbl (s3.stop - 1) 10 (by omega) (by omega) hf3) (by decide)
  obtain ⟨b, hb⟩ := Wf_get h3.wf hlv'
  obtain ⟨ej, rfl⟩ := hj.uniq ⟨by omega, hbl, hb, hns b hlv' hb⟩
  unfold preceded at herr
  have hver : verify indentationPeek (fun level => decide (level > ind)) s3 = .ok s3 lv := by
    unfold verify
    rw [hr]
    simp [show lv > ind by omega]
  rw [bind_ok hver] at herr
  have h3' : C.In (k + 2) (s3.withDepth (s3.depth + 1)) := withDepth_in (k := k + 2) h3
  exact nested_stop (n := n) (s := s3.withDepth (s3.depth + 1)) h3' hf3 (by show s3.stop - s3.start < _; have := st3'.le; omega) (deeper_err herr) hj (by
    show s3.start < j; omega) (by show j < s3.stop; omega)

theorem listItemOf_hd {s : Span} {n : Nat} (h : C.In (k + 1) s) (hs : Full C s) (hsn : s.stop - s.start < n + 2) :
    C.Ok (listItemOf (nestedF C.env n) s) (fun s' r => ∀ K E, LineKind C K E → (∀ q r, K q → ¬ E q ⟨.list [], r⟩) →
      ∀ q', r.2.region.offset < q' → s.start ≤ q' → q' < s'.start → K q' →
      Hd C E (Block.allBlocks r.2.inner.contents) (Block.allInlines r.2.inner.contents) q') := by
  refine ((listItemOf_ok h (nestedF_ok n) hsn).self).mono ?_
  rintro s' r ⟨-, hrun⟩ K E hK hE q' q1 q2 q3 hk
  by_cases hT : InLists C E
  · exfalso
    rcases ok_of_run (listItemOf_deep h (nestedF_ok n) hsn) hrun q' (hK.bol q' hk) q2 q3 with hi | hi
    · exact hE q' _ hk (hT q' ⟨.list [], ⟨q', 1, 0⟩⟩ [] rfl (Nat.le_refl _) (Nat.lt_succ_self _) hi)
    · have := hi.1
      omega
  · rcases ok_of_run (listItemOf_shown hK.base h hs (nestedF_ok n) (nestedF_shown hK hT n) hsn) hrun q' hk q2 q3 with hh | hi
    · exact hh
    · have := hi.1
      omega

theorem listItemOf_same {s : Span} {n : Nat} (h : C.In (k + 1) s) (hs : Full C s)
    (hN : NestedSame C (nestedF C.env n) n) (hsn : s.stop - s.start < n + 2) (hcl : Closed C s) :
    C.Ok (listItemOf (nestedF C.env n) s) (fun s' r => (AllSame C r.2.inner.contents ∧
      AllMore C r.1 r.2.inner.contents ∧
      ItemStop C r.1 s'.start) ∧
      Bol C s.start ∧ r.2.region.offset = s.start + r.1 ∧ (∃ x, FirstByte C s.start (s.start + r.1) x) ∧
      r.2.region.offset + r.2.region.len = s'.start ∧
      ∀ q' j x, s.start < q' → C.inner[q' - 1]? = some 10 → FirstByte C q' j x →
        j ≤ q' + r.1 → s'.start ≤ q') := by
  have hn := nestedF_ok (C := C) n
  refine bol_rule h fun hbol => ?_
  refine Ctx.Ok.bind' (Q1 := fun s1 ind => C.Good s s1 ∧ Took C isSpace s s1 ∧ s.start + ind = s1.start)
    (Ctx.Ok.map ((space0_good h).mono fun s1 o h => ⟨h.1.good, h.2, ?_⟩)) ?_
  · rw [h.1.out, remainingLen_eq]
    have := h.1.good.step.le
    show s.start + (s1.start - s.start) = s1.start
    omega
  rintro s1 ind ⟨g1, tk1, hind⟩
  have h1 := h.good g1
  have l1 := g1.step.le
  have st1 := g1.step.stop
  have hf1 : Full C s1 := by unfold Full; rw [st1]; exact hs
  have hil := (itemLines_ok h1 ind).and (itemLines_stop h1 hf1 ind)
  simp only
  cases hrun : itemLines ind s1 with
  | err => trivial
  | panic r => rw [hrun] at hil; exact hil
  | diverge => rw [hrun] at hil; exact hil
  | ok s2 o =>
    rw [hrun] at hil
    obtain ⟨⟨g2, he2, ho⟩, hstop, hone⟩ := hil
    simp only
    have hsub : Sub s1 o := by
      rw [ho]; exact ⟨rfl, rfl, Nat.le_refl _, g2.step.le, g2.step.hi⟩
    have hoin : C.In (k + 1) o := h1.sub hsub (by rw [ho]; exact h1.bs) (by rw [ho]; exact g2.b)
    have hio := hsub.hi
    have hos : o.start = s1.start := by rw [ho]
    have hoe : o.stop = s2.start := by rw [ho]
    have hmid := hsub.mid
    have hfo : Full C o := by
      unfold Full
      rw [hoe]
      rcases he2 with e | e
      · rw [e, st1]; exact hs
      · exact .inr e
    have hitem : C.Ok (located (P.map (P.pair listItemPrefix (listItemTailOf (nestedF C.env n) ind))
          (fun ((ty, suffix), (todo, contents)) =>
            (⟨ty, suffix, 0, contents, todo⟩ : ListItem))) o) (fun o' x => C.Good o o' ∧
        (AllSame C x.inner.contents ∧ AllMore C ind x.inner.contents ∧
          ItemStop C ind o'.start) ∧ x.region.offset = s.start + ind ∧ (∃ x, FirstByte C s.start (s.start + ind) x) ∧
        x.region.offset + x.region.len = o'.start) := by
      refine Ctx.Ok.located (Ctx.Ok.map (Ctx.Ok.pair ((listItemPrefix_ok hoin).self.mono ?_)))
      rintro o1 ⟨ty, suffix⟩ ⟨⟨go1, lto1⟩, hpre⟩
      have ho1 : C.In (k + 3) o1 := (hoin.good_lt go1 (by omega)).mono (by omega)
      have hst := go1.step.stop
      have hle1 := ho1.wf.le
      have hf1 : Full C o1 := by unfold Full; rw [hst]; exact hfo
      obtain ⟨w, r, er, eo, hw⟩ := listItemPrefix_inv
        (In.sub_view hoin go1.step.le go1.step.hi) hpre
      have ew : sub C.inner o.start o1.start = w := by
        refine (List.append_inj er ?_).1
        rw [sub_length _ _ _ (by have := hoin.wf.hi; have := go1.step.hi; omega), eo]
        simp
      have hfb : ∃ x, FirstByte C s.start (s.start + ind) x := by
        have hwh := hw.head
        cases hwc : w with
        | nil => exact absurd hwc hwh.1
        | cons y w' =>
          refine ⟨y, by omega, by rw [hind]; exact tk1.all, ?_, ?_⟩
          · have : (sub C.inner o.start o1.start)[0]? = some y := by rw [ew, hwc]; rfl
            unfold sub at this
            rw [List.getElem?_drop, List.getElem?_take] at this
            split at this
            · rw [hind, ← hos]; simpa using this
            · cases this
          · rw [isSpace_false]
            exact hwh.2 y (by rw [hwc]; rfl)
      obtain ⟨fb, hfb⟩ := hfb
      have hc : o1.stop = C.inner.length ∨ ∃ m, m ≤ ind ∧ Shallow C o1.stop m := by
        rw [hst, hoe]
        rcases hstop with e | e
        · rw [e, st1]
          rcases hcl with hcl | ⟨m, hm, hd⟩
          · exact .inl hcl
          · have := hd hbol _ _ hfb
            exact .inr ⟨m, by omega, hm⟩
        · exact .inr ⟨ind, Nat.le_refl _, e⟩
      have hnl : C.inner[o1.start - 1]? ≠ some 10 :=
        noNl_sub ew hw.no10 (o1.start - 1) (by omega) (by omega)
      refine ((listItemTail_ok ho1 hn (by omega) ind).and
        (listItemTail_same ho1 hf1 hN (by omega) ind hc (by omega) hnl)).mono ?_
      rintro o2 ⟨todo, cs⟩ ⟨⟨go2, -⟩, hsh, hmore, hnext⟩
      refine ⟨(go1.trans go2).step, go1.trans go2, ⟨hsh, hmore, hnext⟩, ?_, ⟨fb, hfb⟩, ?_⟩
      · show o.start = _
        omega
      · show o.start + (o2.start - o.start) = o2.start
        have := go1.step.le
        have := go2.step.le
        omega
    cases hrun2 : located (P.map (P.pair listItemPrefix (listItemTailOf (nestedF C.env n) ind))
          (fun ((ty, suffix), (todo, contents)) =>
            (⟨ty, suffix, 0, contents, todo⟩ : ListItem))) o with
    | err => trivial
    | panic r => rw [hrun2] at hitem; exact hitem
    | diverge => rw [hrun2] at hitem; exact hitem
    | ok o' x =>
      rw [hrun2] at hitem
      obtain ⟨go, hsh, hoff, hfb, hend⟩ := hitem
      simp only
      have hle := go.step.le
      rw [if_neg (by omega)]
      have hhi := go.step.hi
      have hadv : s1.advanceStartBy (o'.start - s1.start) = { s1 with start := o'.start } := by
        unfold Span.advanceStartBy
        rw [if_neg (by omega)]
        congr 1
        omega
      rw [hadv]
      refine ⟨hsh, hbol, hoff, hfb, hend, ?_⟩
      intro q' j y q1 q2 hj hle
      have hq1 : s1.start < q' := by
        rcases Nat.lt_or_ge s1.start q' with h | h
        · exact h
        · have := tk1.noNl (by decide) (q' - 1) (by omega) (by omega) q2
          exact this.elim
      have := hone q' j y hq1 q2 hj hle
      show o'.start ≤ q'
      omega

theorem numbered_parts (x : Located ListItem) (xs : List (Located ListItem)) :
    (normalizeItems (x :: assignPos 1 xs)).map itemParts = (x :: xs).map itemParts := by
  have h : ∀ i (xs : List (Located ListItem)), (assignPos i xs).map itemParts = xs.map itemParts := by
    intro i xs
    induction xs generalizing i with
    | nil => rfl
    | cons y ys ih => simp [assignPos, ih, itemParts]
  simp only [normalizeItems, List.map_cons, List.map_map]
  congr 1
  exact h 1 xs

theorem listOf_within {s : Span} {n : Nat} (h : C.In (k + 2) s) (hs : Full C s)
    (hN : NestedSame C (nestedF C.env n) n) (hsn : s.stop - s.start < n + 2) (hcl : Closed C s) :
    C.Ok (listOf (nestedF C.env n) s) (fun _ x => ∀ y ∈ Block.allBlocks [x],
      SameItems C y ∧ Arrowed C y ∧ (y = x ∨ Ran C y)) := by
  have hn := nestedF_ok (C := C) n
  have item : ∀ t, C.In (k + 2) t → Step s t → Closed C t → C.Ok (Scan.deeper (listItemOf (nestedF C.env n)) t)
      (fun t' r => C.Good t t' ∧ (AllSame C r.2.inner.contents ∧ InItem C r.1 r.2.region r.2.inner.contents ∧ t.start < t'.start ∧ Ends C t t' ∧
      Bol C t.start ∧ r.2.region.offset = t.start + r.1 ∧ (∃ x, FirstByte C t.start (t.start + r.1) x) ∧
      r.2.region.offset + r.2.region.len = t'.start ∧
      ∀ q' j x, t.start < q' → C.inner[q' - 1]? = some 10 → FirstByte C q' j x →
        j ≤ q' + r.1 → t'.start ≤ q')) := by
    intro t ht hst hct
    have h1 := hst.le
    have h2 := hst.stop
    have ht' : C.In (k + 1) (t.withDepth (t.depth + 1)) := withDepth_in ht
    have hft : Full C (t.withDepth (t.depth + 1)) := by
      show Full C t
      unfold Full; rw [h2]; exact hs
    have hlt : (t.withDepth (t.depth + 1)).stop - (t.withDepth (t.depth + 1)).start < n + 2 := by
      show t.stop - t.start < n + 2; omega
    refine deeper_rule (Q := fun t' r => AllSame C r.2.inner.contents ∧ InItem C r.1 r.2.region r.2.inner.contents ∧ t.start < t'.start ∧ Ends C t t' ∧
      Bol C t.start ∧ r.2.region.offset = t.start + r.1 ∧ (∃ x, FirstByte C t.start (t.start + r.1) x) ∧
      r.2.region.offset + r.2.region.len = t'.start ∧
      ∀ q' j x, t.start < q' → C.inner[q' - 1]? = some 10 → FirstByte C q' j x →
        j ≤ q' + r.1 → t'.start ≤ q') ht (((listItemOf_ok ht' hn hlt).and
      ((listItemOf_same ht' hft hN hlt hct).and (listItemOf_hd ht' hft hlt))).mono ?_)
    rintro t' ⟨ind, r⟩ ⟨hb, ⟨⟨hx, hm, hnx⟩, hx'⟩, hhd⟩
    refine ⟨hb.good, hx, ⟨hm, ?_, ?_⟩, hb.lt, hb.ends, hx'⟩
    · obtain ⟨-, -, -, he, -⟩ := hx'
      have he : r.region.offset + r.region.len = t'.start := he
      show ItemStop C ind (r.region.offset + r.region.len)
      rw [he]
      exact hnx
    · intro K E hK hE q' q1 q2 q3
      obtain ⟨-, ho, -, he, -⟩ := hx'
      have ho : r.region.offset = t.start + ind := ho
      have he : r.region.offset + r.region.len = t'.start := he
      simp only at q1 q2
      exact hhd K E hK hE q' q1 (by show t.start ≤ q'; omega) (by omega) q3
  have ends : ∀ t t', Step s t → Ends C t t' → Bol C t'.start ∨ t'.start = C.inner.length := by
    intro t t' hst he
    rcases he with he | he
    · rw [he, hst.stop]
      rcases hs with hs | hs
      · exact .inr hs
      · exact .inl (.inr hs)
    · exact .inl (.inr he)
  refine Ctx.Ok.located ?_
  refine Ctx.Ok.bind' (item s h (Step.refl h.wf.le) hcl) ?_
  rintro s1 ⟨ind, x⟩ ⟨g1, hx, hin1, lt1, he1, hb1, hoff1, hfb1, hend1, hone1⟩
  simp only at hoff1 hfb1 hend1 hone1
  have h1 := h.good g1
  have hshal : s.stop = C.inner.length ∨ ∃ m, m < ind ∧ Shallow C s.stop m := by
    rcases hcl with hcl | ⟨m, hm, hd⟩
    · exact .inl hcl
    · obtain ⟨fb, hfb⟩ := hfb1
      have := hd hb1 _ _ hfb
      exact .inr ⟨m, by omega, hm⟩
  refine Ctx.Ok.bind' (Ctx.Ok.many0 (I := fun t => C.In (k + 2) t ∧ Step s t)
    (T := fun t xs t' => (∀ y ∈ Block.itemBlocks xs, SameItems C y ∧ Arrowed C y ∧ Ran C y) ∧
      ItemRows C ind t.start (xs.map (·.region)) t'.start ∧ ∀ p ∈ xs.map itemParts, InItem C ind p.1 p.2) ?_ ?_ ⟨h1, g1.step⟩ h1.wf.le) ?_
  · rintro t ⟨ht, hst⟩
    refine Ctx.Ok.preceded ((indentVerify_level ht _).mono ?_)
    rintro t0 lv ⟨e, hlv, hbl, hnb⟩
    simp only [decide_eq_true_eq] at hlv
    subst hlv
    rw [e]
    have hct : Closed C t := by
      unfold Closed
      rw [hst.stop]
      rcases hshal with hc | ⟨m, hm, hc⟩
      · exact .inl hc
      · exact .inr ⟨m, hc, fun _ => deeper_of_blanks hbl hm⟩
    refine Ctx.Ok.map ((item t ht hst hct).mono ?_)
    rintro t1 ⟨lv', r⟩ ⟨gt1, hr, hin, lt, he, hb, hoff, ⟨fb, hfb⟩, hend, hone⟩
    simp only at hoff hfb hend hone hr
    refine ⟨gt1.step, fun _ => ⟨⟨ht.good gt1, hst.trans gt1.step⟩, ?_⟩⟩
    rintro as t2 ⟨hT1, hT2, hT3⟩
    have hgl := gt1.step.hi
    have hstp := gt1.step.stop
    have elv : lv' = lv := by
      rcases Nat.lt_trichotomy lv' lv with h | h | h
      · have := hbl _ fb (by omega) (by omega) hfb.2.2.1
        rw [hfb.2.2.2] at this; cases this
      · exact h
      · obtain ⟨b, hb'⟩ := Wf_get (i := t.start + lv) ht.wf (by omega)
        have e1 := hnb b (by omega) hb'
        have e2 := hfb.2.1 _ b (by omega) (by omega) hb'
        rw [e1] at e2; cases e2
    subst elv
    refine ⟨?_, ?_, ?_⟩
    · intro y hy
      rw [itemBlocks_cons] at hy
      rcases List.mem_append.1 hy with h | h
      · exact hr y h
      · exact hT1 y h
    · rw [List.map_cons]
      refine ⟨hb, hoff, ⟨fb, hfb⟩, by rw [hend]; exact lt, by rw [hend]; exact ends t t1 hst he, ?_, by rw [hend]; exact hT2⟩
      rw [hend]; exact hone
    · intro p hp
      rw [List.map_cons] at hp
      rcases List.mem_cons.1 hp with rfl | hp
      · exact hin
      · exact hT3 p hp
  · intro t _ _
    exact ⟨by simp [Block.itemBlocks], rfl, by simp⟩
  rintro s2 xs ⟨st2, ⟨hi2, hst2⟩, herr, hT1, hT2, hT3⟩
  refine Ctx.Ok.pure ⟨hst2, ?_⟩
  intro y hy
  obtain ⟨n1, -⟩ := itemBlocks_normalize (x :: assignPos 1 xs)
  obtain ⟨a1, -⟩ := itemBlocks_assign 1 xs
  rw [itemBlocks_cons, a1] at n1
  simp only [Block.allBlocks, Block.inside, n1, List.append_nil, List.mem_cons, List.mem_append] at hy
  rcases hy with rfl | hy | hy
  rotate_left
  · exact ⟨(hx y hy).1, (hx y hy).2.1, .inr (hx y hy).2.2⟩
  · exact ⟨(hT1 y hy).1, (hT1 y hy).2.1, .inr (hT1 y hy).2.2⟩
  refine ⟨?_, (fun ls e => by cases e), .inl rfl⟩
  intro items ei
  simp only [Block.list.injEq] at ei
  subst ei
  refine ⟨ind, s2.start, ?_, ?_, ?_, ?_⟩
  · rw [normalizeItems_regions, List.map_cons, assignPos_regions]
    refine ⟨hb1, hoff1, hfb1, by rw [hend1]; exact lt1, by rw [hend1]; exact ends s s1 (Step.refl h.wf.le) he1, ?_, by
      rw [hend1]; exact hT2⟩
    rw [hend1]; exact hone1
  · refine ⟨by simp [normalizeItems], ?_⟩
    have := hst2.le
    show s.start + (s2.start - s.start) = s2.start
    omega
  · intro hb hf
    have hle := hst2.hi
    have hstp := hst2.stop
    have hl2 := hst2.le
    rcases Nat.eq_or_lt_of_le hle with hle | hle
    · rw [hle] at hf
      obtain ⟨c, hfc, -⟩ := ItemForm.first hf
      rcases hshal with hc | ⟨m, hm, hc⟩
      · have := hfc.2.2.1
        rw [List.getElem?_eq_none (by omega)] at this
        cases this
      · have := hc _ _ hfc
        omega
    · have hf2 : Full C s2 := by unfold Full; rw [hstp]; exact hs
      obtain ⟨v2, o2, hsp2, hlen2⟩ := indent_run hi2 hf2 (by omega) hf
      have hver : verify indentationPeek (fun level => decide (level = ind)) s2 = .ok s2 ind := by
        unfold verify indentationPeek
        rw [map_ok (peek_ok hsp2), hlen2]
        simp
      unfold preceded at herr
      rw [bind_ok hver] at herr
      refine listItem_ne (n := n) (s := s2.withDepth (s2.depth + 1)) (withDepth_in hi2) hf2 (by
        show s2.start < s2.stop; omega) hb hf ?_ (deeper_err (map_err herr))
      show s2.stop - s2.start < _
      omega
  · intro p hp
    rw [numbered_parts] at hp
    rw [List.map_cons] at hp
    rcases List.mem_cons.1 hp with rfl | hp
    · exact hin1
    · exact hT3 p hp

theorem listOf_same {s : Span} {n : Nat} (h : C.In (k + 2) s) (hs : Full C s)
    (hN : NestedSame C (nestedF C.env n) n) (hsn : s.stop - s.start < n + 2) (hcl : Closed C s) :
    C.Ok (listOf (nestedF C.env n) s) (fun _ x => AllSame C [x]) := by
  refine (listOf_within h hs hN hsn hcl).self.mono ?_
  rintro s' x ⟨hx, hrun⟩ y hy
  obtain ⟨h1, h2, h3⟩ := hx y hy
  refine ⟨h1, h2, ?_⟩
  rcases h3 with rfl | h3
  · exact ⟨k, s, s', n, h, hs, .inl ⟨hsn, hrun⟩⟩
  · exact h3

theorem nestedF_same (n : Nat) : NestedSame C (nestedF C.env n) n := by
  induction n with
  | zero => intro k t _ _ _ hn; omega
  | succ n ih =>
    intro k t ht hs hcl hn
    have hok := nestedF_ok (C := C) (n + 1) k t ht hn
    have hl := listOf_same ht hs ih (by omega) hcl
    refine hok.self.mono ?_
    rintro t' x ⟨-, hrun⟩
    have ran : (∀ items, x.inner ≠ .list items) → Ran C x := fun hx => ⟨k, t, t', n + 1, ht, hs, .inr ⟨hx, hn, hrun⟩⟩
    rcases alts_cons_inv hrun with h | ⟨-, h⟩
    · obtain ⟨_, e⟩ := defs_shape h
      exact AllSame.flat (by simp [e]) (by simp [Arrowed, e]) (ran (by simp [e]))
    rcases alts_cons_inv h with h | ⟨-, h⟩
    · exact ok_of_run hl h
    rcases alts_cons_inv h with h | ⟨-, h⟩
    · obtain ⟨a, -, e⟩ := map_inv h
      subst e
      exact AllSame.flat (by simp [Located.map]) (by simp [Arrowed, Located.map]) (ran (by simp [Located.map]))
    rcases alts_cons_inv h with h | ⟨-, h⟩
    · obtain ⟨_, _, _, e⟩ := code_shape h
      exact AllSame.flat (by simp [e]) (by simp [Arrowed, e]) (ran (by simp [e]))
    rcases alts_cons_inv h with h | ⟨-, h⟩
    · obtain ⟨_, _, e⟩ := math_shape h
      exact AllSame.flat (by simp [e]) (by simp [Arrowed, e]) (ran (by simp [e]))
    rcases alts_cons_inv h with h | ⟨-, h⟩
    · obtain ⟨a, -, e⟩ := map_inv (located_inv h).1
      refine AllSame.flat (by simp [e]) ?_ (ran (by simp [e]))
      intro ls _ q hb q1 q2 j c hj
      have hk : C.In k t := ht.mono (by omega)
      obtain ⟨hbr, g, ho⟩ := ok_of_run ((arrowBlockquote_ok hk).and (arrow_lines hk)) h
      obtain ⟨w1, w2⟩ := hbr.whole (by simp [e])
      have := g.step.hi
      rcases ho q hb (by omega) (by omega) with ⟨j', c', hj', hc⟩ | hbl
      · obtain ⟨-, rfl⟩ := hj.uniq hj'
        exact hc
      · exfalso
        rcases hs with hs | hs
        · have hg := hj.2.2.1
          have : j < C.inner.length := by
            rcases Nat.lt_or_ge j C.inner.length with h | h
            · exact h
            · rw [List.getElem?_eq_none h] at hg; cases hg
          have := hbl j c hj.1 (by omega) hg
          rw [hj.2.2.2] at this; cases this
        · exact absurd (hbl (t.stop - 1) 10 (by omega) (by omega) hs) (by decide)
    · have h : paragraphOf C.env (listOf (nestedF C.env n)) t = .ok t' x := h
      obtain ⟨a, -, e⟩ := map_inv (located_inv h).1
      exact AllSame.flat (by simp [e]) (by simp [Arrowed, e]) (ran (by simp [e]))

theorem mem_element {y : Located Block} {xs : List (Located Block)} (h : y ∈ Block.allBlocks xs) :
    ∃ x ∈ xs, y ∈ Block.allBlocks [x] := by
  induction xs with
  | nil => simp [Block.allBlocks] at h
  | cons x xs ih =>
    rw [allBlocks_cons] at h
    rcases List.mem_append.1 h with h | h
    · exact ⟨x, by simp, h⟩
    · obtain ⟨z, hz, h⟩ := ih h
      exact ⟨z, by simp [hz], h⟩

/-- All lists of a page. -/
theorem page_items {env : Env} {text : Str} {s' : Span} {pg : Page} (h : parsePage env text = .ok s' pg)
    {y : Located Block} (hy : y ∈ pg.blocks) : SameItems (Ctx.ofText env text) y := by
  obtain ⟨x, hx, hyx⟩ := mem_element hy
  obtain ⟨s1, s2, e⟩ := element_run h hx
  have hk := topLevel_kind e.run
  cases hxi : x.inner with
  | list xs =>
    rw [hxi] at hk
    exact ok_of_run (listOf_same e.inn e.full (nestedF_same _) (by rw [remainingLen_eq]; omega)
      (.inl e.stop_eq)) hk y hyx |>.1
  | _ =>
    rw [allBlocks_flat (by simp [hxi])] at hyx
    obtain rfl := List.mem_singleton.1 hyx
    exact fun items e => absurd e (by simp [hxi])

theorem nestedF_defs {s s' : Span} {y : Located Block} {n : Nat} {xs : List (Located TermDefs)}
    (h : nestedF C.env n s = .ok s' y) (hi : y.inner = .defs xs) : definitionList C.env s = .ok s' y := by
  cases n with
  | zero => cases h
  | succ n =>
    rcases alts_cons_inv h with h | ⟨-, h⟩
    · exact h
    exfalso
    rcases alts_cons_inv h with h | ⟨-, h⟩
    · obtain ⟨_, a, -, h⟩ := bind_inv (located_inv h).1
      obtain ⟨_, b, -, h⟩ := bind_inv h
      have e := (Res.ok.inj h).2
      rw [hi] at e; cases e
    rcases alts_cons_inv h with h | ⟨-, h⟩
    · obtain ⟨a, -, e⟩ := map_inv h
      subst e
      simp [Located.map] at hi
    rcases alts_cons_inv h with h | ⟨-, h⟩
    · obtain ⟨_, _, _, e⟩ := code_shape h
      rw [hi] at e; cases e
    rcases alts_cons_inv h with h | ⟨-, h⟩
    · obtain ⟨_, _, e⟩ := math_shape h
      rw [hi] at e; cases e
    rcases alts_cons_inv h with h | ⟨-, h⟩
    · obtain ⟨a, -, e⟩ := map_inv (located_inv h).1
      rw [hi] at e; cases e
    · have h : paragraphOf C.env (listOf (nestedF C.env n)) s = .ok s' y := h
      obtain ⟨a, -, e⟩ := map_inv (located_inv h).1
      rw [hi] at e; cases e

/-- All definition lists of a page. -/
theorem page_defs {env : Env} {text : Str} {s' : Span} {pg : Page} (h : parsePage env text = .ok s' pg)
    {y : Located Block} (hy : y ∈ pg.blocks) {xs : List (Located TermDefs)} (hi : y.inner = .defs xs) :
    ∃ k s s1, (Ctx.ofText env text).In (k + 2) s ∧ Full (Ctx.ofText env text) s ∧ definitionList env s = .ok s1 y ∧
      (y ∈ pg.elements → s.stop = text.length) := by
  by_cases hel : y ∈ pg.elements
  · obtain ⟨s1, s2, e⟩ := element_run h hel
    have hk := topLevel_kind e.run
    rw [hi] at hk
    exact ⟨0, s1, s2, e.inn, e.full, hk, fun _ => e.stop_eq⟩
  obtain ⟨x, hx, hyx⟩ := mem_element hy
  obtain ⟨s1, s2, e⟩ := element_run h hx
  have hk := topLevel_kind e.run
  cases hxi : x.inner with
  | list xs =>
    rw [hxi] at hk
    rcases (ok_of_run (listOf_same e.inn e.full (nestedF_same _) (by rw [remainingLen_eq]; omega)
      (.inl e.stop_eq)) hk y hyx).2.2 with ⟨k, t, t', n, h1, h2, ⟨-, h3⟩ | ⟨-, -, h3⟩⟩
    · obtain ⟨_, a, -, h⟩ := bind_inv (located_inv h3).1
      obtain ⟨_, b, -, h⟩ := bind_inv h
      have e := (Res.ok.inj h).2
      rw [hi] at e; cases e
    · exact ⟨k, t, t', h1, h2, nestedF_defs (C := Ctx.ofText env text) h3 hi, fun h => absurd h hel⟩
  | _ =>
    rw [allBlocks_flat (by simp [hxi])] at hyx
    obtain rfl := List.mem_singleton.1 hyx
    exact absurd hx hel

/-- All lists of a page come from a run of the parser for lists. -/
theorem page_lists {env : Env} {text : Str} {s' : Span} {pg : Page} (h : parsePage env text = .ok s' pg)
    {y : Located Block} (hy : y ∈ pg.blocks) {xs : List (Located ListItem)} (hi : y.inner = .list xs) :
    ∃ k s s1 n, (Ctx.ofText env text).In (k + 2) s ∧ Full (Ctx.ofText env text) s ∧ s.stop - s.start < n + 2 ∧
      listOf (nestedF env n) s = .ok s1 y := by
  obtain ⟨x, hx, hyx⟩ := mem_element hy
  obtain ⟨s1, s2, e⟩ := element_run h hx
  have hk := topLevel_kind e.run
  cases hxi : x.inner with
  | list xs =>
    rw [hxi] at hk
    rcases (ok_of_run (listOf_same e.inn e.full (nestedF_same _) (by rw [remainingLen_eq]; omega)
      (.inl e.stop_eq)) hk y hyx).2.2 with ⟨k, t, t', n, h1, h2, ⟨h3, h4⟩ | ⟨h3, -, -⟩⟩
    · exact ⟨k, t, t', n, h1, h2, h3, h4⟩
    · exact absurd hi (h3 _)
  | _ =>
    rw [allBlocks_flat (by simp [hxi])] at hyx
    obtain rfl := List.mem_singleton.1 hyx
    rw [hi] at hxi
    cases hxi

/-- Where the rows of items go on. -/
theorem ItemRows.next {n : Nat} : ∀ {a b : Nat} {rs : List Region}, ItemRows C n a rs b →
    (Bol C b → ¬ ItemForm (C.inner.drop b) n) → ∀ r ∈ rs, Bol C (r.offset + r.len) →
    ItemForm (C.inner.drop (r.offset + r.len)) n → ∃ r' ∈ rs, r'.offset = r.offset + r.len + n
  | a, b, r :: rs, h, hb, r0, hr0, hbol, hf => by
    rcases List.mem_cons.1 hr0 with rfl | hr0
    · cases rs with
      | nil =>
        have e : r0.offset + r0.len = b := h.2.2.2.2.2.2
        rw [e] at hf hbol
        exact absurd hf (hb hbol)
      | cons r1 rs => exact ⟨r1, by simp, h.2.2.2.2.2.2.2.1⟩
    · obtain ⟨r', m, e⟩ := ItemRows.next h.2.2.2.2.2.2 hb r0 hr0 hbol hf
      exact ⟨r', List.mem_cons_of_mem _ m, e⟩

theorem ItemRows.row {n : Nat} : ∀ {a b : Nat} {rs : List Region}, ItemRows C n a rs b → ∀ r ∈ rs,
    ∃ a', ItemRows C n a' [r] (r.offset + r.len)
  | a, b, r :: rs, h, r0, hr0 => by
    rcases List.mem_cons.1 hr0 with rfl | hr0
    · exact ⟨a, h.1, h.2.1, h.2.2.1, h.2.2.2.1, h.2.2.2.2.1, h.2.2.2.2.2.1, rfl⟩
    · exact ItemRows.row h.2.2.2.2.2.2 r0 hr0

theorem lineLen_end {t : Str} (h : lineLen t < t.length) : 0 < lineLen t ∧ t[lineLen t - 1]? = some 10 ∧
    ∀ i, i < lineLen t - 1 → t[i]? ≠ some 10 := by
  refine ⟨?_, ?_, fun i hi => lineLen_noNl (by omega)⟩
  · cases t with
    | nil => simp at h
    | cons b t => unfold lineLen; split <;> omega
  · induction t with
    | nil => simp at h
    | cons b t ih =>
      unfold lineLen at h ⊢
      split
      · rename_i e; simp [e]
      · rename_i e
        rw [if_neg e] at h
        have h' : lineLen t < t.length := by simpa using h
        have ih := ih h'
        have : 0 < lineLen t := by
          cases t with
          | nil => simp at h'
          | cons b t => unfold lineLen; split <;> omega
        obtain ⟨m, hm⟩ : ∃ m, lineLen t = m + 1 := ⟨lineLen t - 1, by omega⟩
        rw [hm] at ih ⊢
        simpa using ih

end Vw
