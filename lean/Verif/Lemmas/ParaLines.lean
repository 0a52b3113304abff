import Verif.Spec.ParaLines
import Verif.Lemmas.ItemWhole

/-!
# The rows of a paragraph are its lines
-/

namespace Vw
open P Scan

variable {C : Ctx} {k : Nat} {s s' : Span}

theorem Tile.rowOver {d a b : Nat} {xs : Inlines} (h : Tile C d a xs b) (hne : xs ≠ []) : RowOver xs a b := by
  induction h with
  | nil => exact absurd rfl hne
  | @leaf d a n x xs b _ _ _ _ _ ht _ _ ih =>
    refine ⟨⟨_, rfl, rfl⟩, ?_⟩
    cases xs with
    | nil => cases ht; exact ⟨_, rfl, rfl⟩
    | cons y ys =>
      obtain ⟨-, z, hz, e⟩ := ih (by simp)
      exact ⟨z, by rw [List.getLast?_cons_cons]; exact hz, e⟩
  | @deco d a n kd ys e xs b _ _ _ _ _ _ _ _ _ ht _ ih =>
    refine ⟨⟨_, rfl, rfl⟩, ?_⟩
    cases xs with
    | nil => cases ht; exact ⟨_, rfl, rfl⟩
    | cons y ys =>
      obtain ⟨-, z, hz, e⟩ := ih (by simp)
      exact ⟨z, by rw [List.getLast?_cons_cons]; exact hz, e⟩

theorem Tile.all_le {d a b : Nat} {xs : Inlines} (h : Tile C d a xs b) :
    ∀ y ∈ Inline.all xs, y.region.offset + y.region.len ≤ b := by
  induction h with
  | nil => intro x hx; simp [Inline.all] at hx
  | @leaf d a n x xs b _ _ _ _ hp ht _ _ ih =>
    intro y hy
    have hle := ht.le
    have hnd : ∀ k ys, x ≠ .decorated k ys := by
      rintro k ys rfl
      exact hp
    have hall : Inline.all (⟨x, ⟨a, n, d⟩⟩ :: xs) = ⟨x, ⟨a, n, d⟩⟩ :: Inline.all xs := by
      cases x <;> first | exact absurd rfl (hnd _ _) | simp [Inline.all, Inline.inside]
    rw [hall] at hy
    rcases List.mem_cons.1 hy with rfl | hy
    · exact hle
    · exact ih y hy
  | @deco d a n kd ys e xs b _ _ _ _ _ _ he _ hi ht ihi ih =>
    intro y hy
    have hle := ht.le
    have hall : Inline.all (⟨.decorated kd ys, ⟨a, n, d⟩⟩ :: xs) =
        ⟨.decorated kd ys, ⟨a, n, d⟩⟩ :: (Inline.all ys ++ Inline.all xs) := by
      simp [Inline.all, Inline.inside]
    rw [hall] at hy
    rcases List.mem_cons.1 hy with rfl | hy
    · exact hle
    rcases List.mem_append.1 hy with hy | hy
    · have := ihi y hy
      omega
    · exact ih y hy

/-- A row of elements does not end with a line feed. -/
theorem Tile.last_feed {d a b : Nat} {xs : Inlines} (h : Tile C d a xs b) (hab : a < b) : C.inner[b - 1]? ≠ some 10 := by
  intro hx
  obtain ⟨y, hy, ⟨-, hi⟩, -⟩ := h.nl (i := b - 1) (by omega) (by omega) hx
  have := h.all_le y hy
  omega

theorem paragraphRow_line (h : C.In (k + 2) s) (hs : Full C s) {list : P (Located Block)}
    (hl : C.Ok (list s) (BlockRes C s)) :
    C.Ok (delimited (continueParagraphOf C.env list) (paragraphLine C.env) endOfLineOrInput s)
      (fun s' xs => C.Good s s' ∧ s.start < s'.start ∧ RowOfLine C.inner xs s.start s'.start) := by
  refine Ctx.Ok.delimited ((continueParagraph_ok h hl).mono ?_)
  rintro s' u e
  rw [e]
  refine Ctx.Ok.bind' (space0_good h) ?_
  rintro s1 _ ⟨hsp1, tk1⟩
  have h1 : C.In (k + 1) s1 := (h.good hsp1.good).mono (by omega)
  refine Ctx.Ok.map ((inlineContainer_ok h1).mono ?_)
  rintro s2 x ⟨hc, _⟩
  have h2 := h1.good hc.good
  refine (endOfLine_full h2).mono ?_
  intro s3 _ he
  have g := hsp1.good.trans hc.good
  have l1 := hsp1.good.step.le
  have l2 := hc.lt
  have l3 := he.good.step.le
  have l4 := g.step.hi
  have l5 := g.step.stop
  refine ⟨g.trans he.good, by omega, s1.start, s2.start, l1, tk1.allBlank, ?_, hc.tile.rowOver hc.ne, l2, ?_, ?_⟩
  · intro b hb
    exact isSpace_false.1 (tk1.stop b (by omega) hb)
  · rcases he.eol with ⟨e1, e2⟩ | ⟨-, -, e1 | e1⟩
    · refine .inr (.inr ⟨?_, by rw [e2]⟩)
      rcases hs with hs | hs
      · omega
      · refine absurd ?_ (hc.tile.last_feed l2)
        rw [e1, l5]
        exact hs
    · have hl := sub_length C.inner s2.start s3.start (by have := he.good.step.hi; have := h2.wf.hi; omega)
      rw [e1] at hl
      exact .inl ⟨by simp at hl; omega, e1⟩
    · have hl := sub_length C.inner s2.start s3.start (by have := he.good.step.hi; have := h2.wf.hi; omega)
      rw [e1] at hl
      exact .inr (.inl ⟨by simp at hl; omega, e1⟩)
  · intro p p1 p2 hp
    exact hc.tile.nl p1 p2 hp

theorem paragraphOf_lines (h : C.In (k + 2) s) (hs : Full C s) {list : P (Located Block)}
    (hl : ∀ t, C.In (k + 2) t → t.stop - t.start ≤ s.stop - s.start → C.Ok (list t) (BlockRes C t)) :
    C.Ok (paragraphOf C.env list s) (fun _ x => ∃ rows, x.inner = .paragraph rows ∧
      LineRows C.inner x.region.offset rows (x.region.offset + x.region.len)) := by
  refine Ctx.Ok.located (Ctx.Ok.map ((Ctx.Ok.many1 (I := fun t => C.In (k + 2) t ∧ Step s t)
    (T := fun t rows t' => LineRows C.inner t.start rows t'.start)
    ?_ ?_ ⟨h, Step.refl h.wf.le⟩).mono ?_))
  · rintro t ⟨ht, hst⟩
    have h1 := hst.le
    have h2 := hst.stop
    have hft : Full C t := by unfold Full; rw [h2]; exact hs
    refine (paragraphRow_line ht hft (hl t ht (by omega))).mono ?_
    rintro t1 xs ⟨g, lt, hx⟩
    refine ⟨g.step, lt, ⟨ht.good g, hst.trans g.step⟩, ?_⟩
    intro as t2 hT
    exact ⟨t1.start, lt, hx, hT⟩
  · intro t _ _
    rfl
  · rintro s' rows ⟨st, lt, _, _, hT, hne⟩
    refine ⟨st, rows, rfl, ?_⟩
    show LineRows C.inner s.start rows (s.start + (s'.start - s.start))
    rw [show s.start + (s'.start - s.start) = s'.start by omega]
    exact hT

/-- All paragraphs of a page. -/
theorem page_paragraphs {env : Env} {text : Str} {s' : Span} {pg : Page} (h : parsePage env text = .ok s' pg)
    {y : Located Block} (hy : y ∈ pg.blocks) {rows : List Inlines} (hi : y.inner = .paragraph rows) :
    LineRows text y.region.offset rows (y.region.offset + y.region.len) := by
  have fin : (∃ rows', y.inner = .paragraph rows' ∧
      LineRows (Ctx.ofText env text).inner y.region.offset rows' (y.region.offset + y.region.len)) →
      LineRows text y.region.offset rows (y.region.offset + y.region.len) := by
    rintro ⟨rows', e, h⟩
    rw [hi] at e
    cases e
    exact h
  refine fin ?_
  obtain ⟨x, hx, hyx⟩ := mem_element hy
  obtain ⟨s1, s2, e⟩ := element_run h hx
  have hk := topLevel_kind e.run
  have flat : (∀ xs, x.inner ≠ .list xs) → _ := fun hxi => by
    rw [allBlocks_flat hxi] at hyx
    obtain rfl := List.mem_singleton.1 hyx
    rw [hi] at hk
    have hk : paragraphOf env (list env) s1 = .ok s2 y := hk
    exact ok_of_run (paragraphOf_lines (C := Ctx.ofText env text) e.inn e.full fun t ht _ => list_ok ht) hk
  cases hxi : x.inner with
  | list xs =>
    rw [hxi] at hk
    rcases (ok_of_run (listOf_same e.inn e.full (nestedF_same _) (by rw [remainingLen_eq]; omega)
      (.inl e.stop_eq)) hk y hyx).2.2 with ⟨k, t, t', n, h1, h2, ⟨-, h3⟩ | ⟨-, h4, h3⟩⟩
    · obtain ⟨_, a, -, h⟩ := bind_inv (located_inv h3).1
      obtain ⟨_, b, -, h⟩ := bind_inv h
      have e := (Res.ok.inj h).2
      rw [hi] at e; cases e
    · cases n with
      | zero => cases h3
      | succ n =>
        have k3 := nestedOf_kind h3
        rw [hi] at k3
        exact ok_of_run (paragraphOf_lines (C := Ctx.ofText env text) h1 h2 fun u hu hut =>
          listOf_ok hu (nestedF_ok n) (by omega)) k3
  | _ => exact flat (by simp [hxi])

/-- Where a line of the rows is. -/
theorem LineRows.line {text : Str} {q : Nat} (hq : LineStart text q) : ∀ {a b : Nat} {rows : List Inlines},
    LineRows text a rows b → a ≤ q → q < b →
    (∃ xs ∈ rows, ∃ q', RowOfLine text xs q q') ∨
    ∃ xs ∈ rows, ∃ y ∈ Inline.all xs, y.region.Inside q ∧ ∃ ls, y.inner = .comment (.multi ls)
  | a, b, [], h, q1, q2 => by
    have : a = b := h
    omega
  | a, b, xs :: rows, ⟨a', lt, hx, hr⟩, q1, q2 => by
    rcases Nat.eq_or_lt_of_le q1 with rfl | q1
    · exact .inl ⟨xs, by simp, a', hx⟩
    rcases Nat.lt_or_ge q a' with q3 | q3
    rotate_left
    · rcases LineRows.line hq hr q3 q2 with ⟨ys, hy, h⟩ | ⟨ys, hy, h⟩
      · exact .inl ⟨ys, by simp [hy], h⟩
      · exact .inr ⟨ys, by simp [hy], h⟩
    have hnl : text[q - 1]? = some 10 := by
      rcases hq with h | h
      · omega
      · exact h
    obtain ⟨i, e, l1, hb, -, -, l2, he, hc⟩ := hx
    rcases Nat.lt_or_ge (q - 1) i with a1 | a1
    · have := hb 10 (mem_sub.2 ⟨q - 1, by omega, a1, hnl⟩)
      omega
    rcases Nat.lt_or_ge (q - 1) e with a2 | a2
    · obtain ⟨y, hy, h⟩ := hc (q - 1) a1 a2 hnl
      rw [show q - 1 + 1 = q by omega] at h
      exact .inr ⟨xs, by simp, y, hy, h⟩
    exfalso
    have get : (sub text e a')[q - 1 - e]? = some 10 := by
      unfold sub
      rw [List.getElem?_drop, List.getElem?_take_of_lt (by omega), show e + (q - 1 - e) = q - 1 by omega]
      exact hnl
    rcases he with ⟨h1, h2⟩ | ⟨h1, h2⟩ | ⟨h1, h2⟩
    · omega
    · rw [h2, show q - 1 - e = 0 by omega] at get
      cases get
    · omega

theorem RowOfLine.feeds {text : Str} {xs : Inlines} {q q' : Nat} (h : RowOfLine text xs q q')
    (hn : ∀ z ∈ Inline.all xs, ∀ ls, z.inner ≠ .comment (.multi ls)) :
    q < q' ∧ q < text.length ∧ ((sub text q q').count 10 = 1 ∨ ((sub text q q').count 10 = 0 ∧ q' = text.length)) := by
  obtain ⟨i, e, l1, hb, -, -, l2, he, hc⟩ := h
  have c1 : (sub text q i).count 10 = 0 := List.count_eq_zero.2 fun h => by
    have := hb 10 h
    omega
  have c2 : (sub text i e).count 10 = 0 := List.count_eq_zero.2 fun h => by
    obtain ⟨p, p1, p2, hp⟩ := mem_sub.1 h
    obtain ⟨z, hz, -, ls, hzi⟩ := hc p p1 p2 hp
    exact hn z hz ls hzi
  have split : e ≤ q' → (sub text q q').count 10 = (sub text e q').count 10 := by
    intro hle
    rw [← sub_append text q i q' l1 (by omega), ← sub_append text i e q' (by omega) hle, List.count_append,
      List.count_append, c1, c2]
    omega
  have len : ∀ w, sub text e q' = w → w ≠ [] → e < text.length := by
    intro w hw hne
    rcases Nat.lt_or_ge e text.length with h | h
    · exact h
    · refine absurd ?_ hne
      rw [← hw]
      unfold sub
      exact List.drop_eq_nil_of_le (by rw [List.length_take]; omega)
  rcases he with ⟨h1, h2⟩ | ⟨h1, h2⟩ | ⟨h1, h2⟩
  · have := len _ h2 (by simp)
    refine ⟨by omega, by omega, .inl ?_⟩
    rw [split (by omega), h2]
    rfl
  · have := len _ h2 (by simp)
    refine ⟨by omega, by omega, .inl ?_⟩
    rw [split (by omega), h2]
    rfl
  · refine ⟨by omega, by omega, .inr ⟨?_, by omega⟩⟩
    rw [split (by omega), h2]
    simp [sub]

theorem LineRows.feeds {text : Str} : ∀ {a b : Nat} {rows : List Inlines}, LineRows text a rows b →
    (∀ xs ∈ rows, ∀ z ∈ Inline.all xs, ∀ ls, z.inner ≠ .comment (.multi ls)) →
    a ≤ b ∧ ((sub text a b).count 10 = rows.length ∨
      ((sub text a b).count 10 + 1 = rows.length ∧ b = text.length))
  | a, b, [], h, _ => by
    have h : a = b := h
    subst h
    exact ⟨Nat.le_refl _, .inl (by simp [sub])⟩
  | a, b, xs :: rows, ⟨a', lt, hx, hr⟩, hn => by
    obtain ⟨l1, l2, hc⟩ := hx.feeds (hn xs (by simp))
    obtain ⟨l3, ih⟩ := hr.feeds fun ys hy => hn ys (by simp [hy])
    refine ⟨by omega, ?_⟩
    rw [← sub_append text a a' b (by omega) l3, List.count_append, List.length_cons]
    rcases hc with hc | ⟨hc, he⟩
    · rcases ih with ih | ⟨ih, e⟩
      · exact .inl (by omega)
      · exact .inr ⟨by omega, e⟩
    · cases rows with
      | nil =>
        have hr : a' = b := hr
        rcases ih with ih | ⟨ih, e⟩
        · refine .inr ⟨by omega, by omega⟩
        · simp at ih
      | cons ys rows =>
        obtain ⟨a'', -, hy, -⟩ := hr
        have := (hy.feeds (hn ys (by simp))).2.1
        omega

end Vw
