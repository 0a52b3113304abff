import Verif.Lemmas.BlockStarts
import Verif.Lemmas.TableRun
import Verif.Lemmas.TableIter

/-!
# Table rows are found
-/

namespace Vw
open P Scan

variable {C : Ctx} {k : Nat} {s : Span} {r : Str}

/-- The place of an ASCII byte and the one after it are boundaries. -/
theorem In.ascii {w : Str} {c : Byte} (h : C.In k s) (hv : View s (w ++ c :: r)) (hc : c < 128) :
    C.In k (adv s w.length) ∧ C.In k (adv s (w.length + 1)) := by
  have h0 : C.inner[s.start + w.length]? = some c := View.at h hv (by simp)
  have hl := hv.len
  simp at hl
  refine ⟨⟨⟨h.wf.inner, ?_, h.wf.hi, ?_⟩, fun _ b hb => ?_, h.be⟩,
    ⟨⟨h.wf.inner, ?_, h.wf.hi, ?_⟩, fun hu b hb => ?_, h.be⟩⟩
  · have := h.wf.le
    show s.start + w.length ≤ s.stop
    omega
  · have := h.wf.depth
    show s.depth + (s.stop - (s.start + w.length)) + k ≤ C.D
    omega
  · have hb' : C.inner[s.start + w.length]? = some b := hb
    rw [h0] at hb'
    cases hb'
    unfold isCont
    simp
    omega
  · have := h.wf.le
    show s.start + (w.length + 1) ≤ s.stop
    omega
  · have := h.wf.depth
    show s.depth + (s.stop - (s.start + (w.length + 1))) + k ≤ C.D
    omega
  · exact hu.succ _ _ h0 hc b hb

theorem align_none {u : Str} (h : View s u) (h1 : ¬ b!"-" <+: u) (h2 : ¬ b!":-" <+: u) : columnAlign s = .err := by
  have key : ∀ {t : Span} {q : Str}, View t q → ¬ b!"-" <+: q → takeLineWhile1 (char c!"-") t = .err := by
    intro t q hq hn
    have := takeLineWhile1_run (c := c!"-") (by decide) (n := 0) (r := q) (by
      intro e
      cases q with
      | nil => cases e
      | cons x q => cases e; exact hn ⟨q, rfl⟩) (by simpa using hq)
    simpa using this
  unfold columnAlign
  cases u with
  | nil => rw [bind_ok (opt_er (p := char c!":") (satisfy_run_err h (by simp))), bind_er (key h h1)]
  | cons x u =>
    by_cases hx : x = c!":"
    · subst hx
      rw [bind_ok (opt_ok (char_run h)), bind_er (key (t := adv s 1) (View.adv (w := [c!":"]) h) fun hp => h2 ?_)]
      obtain ⟨t, rfl⟩ := hp
      exact ⟨t, rfl⟩
    · rw [bind_ok (opt_er (p := char c!":") (satisfy_run_err h (by simpa using hx))), bind_er (key h h1)]

theorem prefix_cell {p u : Str} (hp : c!"|" ∉ p) (h : p <+: u ++ c!"|" :: r) : p <+: u := by
  obtain ⟨t, e⟩ := h
  rcases List.append_eq_append_iff.1 e with ⟨a, rfl, -⟩ | ⟨b, rfl, e2⟩
  · exact List.prefix_append _ _
  · cases b with
    | nil => simp
    | cons x b =>
      simp at e2
      exact absurd (by simp [e2.1]) hp

/-- Whether a cell is an alignment. -/
def Cell.Aligns (x : Cell) : Prop := ∃ a, x = .align a

/-- A cell is read up to the bar. -/
theorem cell_gives {w : Str} (h : C.In (k + 1) s) (hv : View s (w ++ c!"|" :: r)) (hw : CellShape w) :
    Gives (cell C.env s) (adv s w.length) fun y => y.inner.Aligns → ∃ a b, HyphenForm w a b := by
  obtain ⟨hne, hbar, h10, hf⟩ := hw
  refine Gives.located (Q := fun y : Cell => y.Aligns → ∃ a b, HyphenForm w a b) ?_
  have no : ∀ {x c : Byte} {q p : Str}, w.head? = some x → ¬ (x = 32 ∨ x = 9) → p = c :: q → x ≠ c →
      ¬ Begins (w ++ c!"|" :: r) p := by
    intro x c q p hx h1 hp h2
    refine no_begins hp (x := x) ?_ h1 h2
    cases w with
    | nil => cases hx
    | cons y w => exact hx
  rcases hf with ⟨a, b, rfl, ha, hb⟩ | ⟨a, b, rfl, ha, hb⟩ | ⟨x, y, hh⟩ | ⟨h1, h2, h3⟩
  · have hv' : View s (a ++ (b!"\\/" ++ (b ++ c!"|" :: r))) := by simpa using hv
    refine Gives.alts_fst (Gives.of_ok (map_ok (span_run .fromAbove hv' ha hb ?_)) ?_)
    · intro y hy; simp at hy; subst hy; decide
    · rintro ⟨_, h⟩; cases h
  · have hv' : View s (a ++ (b!">" ++ (b ++ c!"|" :: r))) := by simpa using hv
    refine Gives.alts (Fails.map (.of_inv fun _ _ e => ?_))
      (Gives.alts_fst (Gives.of_ok (map_ok (span_run .fromLeft hv' ha hb ?_)) ?_))
    · obtain ⟨ws, z, e, hws⟩ := span_begins hv' e
      have h1 := congrArg (List.dropWhile fun x => decide (x = 32 ∨ x = 9)) e
      rw [List.dropWhile_append_of_pos (l₁ := a) fun x hx => by simpa using ha x hx,
        List.dropWhile_append_of_pos (l₁ := ws) fun x hx => by simpa using hws x hx] at h1
      simp at h1
    · intro y hy; simp at hy; subst hy; decide
    · rintro ⟨_, h⟩; cases h
  · have hx : ∃ z, w.head? = some z ∧ (z = c!"-" ∨ z = c!":") := by
      cases w with
      | nil => exact absurd rfl hne
      | cons z w => exact ⟨z, rfl, hh.mem (by simp)⟩
    obtain ⟨z, hz, hz'⟩ := hx
    obtain ⟨f1, f2⟩ := fails_spans hv
      (no hz (by rcases hz' with rfl | rfl <;> decide) rfl (by rcases hz' with rfl | rfl <;> decide))
      (no hz (by rcases hz' with rfl | rfl <;> decide) rfl (by rcases hz' with rfl | rfl <;> decide))
    refine Gives.alts f1 (Gives.alts f2 (Gives.alts_fst ?_))
    refine Gives.map (Q := fun _ => True) ?_ fun _ _ _ => ⟨x, y, hh⟩
    obtain ⟨n, hn, rfl⟩ := hh
    have hv' : View s ((if x then b!":" else []) ++ (rep c!"-" n ++ ((if y then b!":" else []) ++ c!"|" :: r))) := by
      simpa [colonIf, rep] using hv
    rw [align_run x y hn hv']
    refine ⟨?_, trivial⟩
    congr 1
    cases x <;> cases y <;> simp [colonIf] <;> omega
  · obtain ⟨f1, f2⟩ := fails_spans hv
      (fun hb => by
        obtain ⟨ws, v, e, hws, hp⟩ := begins_cell rfl (by decide) hb (by decide)
        exact (h1 ws v e hws).2 hp)
      (fun hb => by
        obtain ⟨ws, v, e, hws, hp⟩ := begins_cell rfl (by decide) hb (by decide)
        exact (h1 ws v e hws).1 hp)
    refine Gives.alts f1 (Gives.alts f2 (Gives.alts (Fails.map (.of_err (align_none hv
      (fun h => h2 (prefix_cell (by decide) h)) fun h => h3 (prefix_cell (by decide) h)))) ?_))
    refine Gives.map (Q := fun _ => True) ?_ (fun _ _ => by rintro ⟨_, h⟩; cases h)
    have hr := takeLineUntil1_run hv h10 hbar (by decide) hne
    obtain ⟨hsp, -⟩ := ok_of_run (takeLineUntil1_good h _ (patOk_1 _ (by decide))) hr
    have hi := hsp.in h
    unfold P.mapParser
    rw [hr]
    dsimp only
    cases hc : inlineContainer C.env (cut s w.length) with
    | ok s3 y => exact ⟨rfl, trivial⟩
    | err =>
      refine absurd (inlineContainer_err hi hc) ?_
      cases w with
      | nil => exact absurd rfl hne
      | cons z w => exact no_lineEnd hi (by simpa using View.cut hv) ⟨h10, .inl rfl⟩
    | _ => trivial

theorem no_cell_end (h : View s r) (hr : EolHere r) : Fails (cell C.env s) := by
  have hd : ∀ x, r.head? = some x → x = 10 ∨ x = 13 := by
    rintro x hx
    rcases hr with rfl | ⟨t, rfl⟩ | ⟨t, rfl⟩ <;> simp at hx <;> omega
  have hp : ∀ {p : Str} {c : Byte} {q : Str}, p = c :: q → c ≠ 10 → c ≠ 13 → ¬ p <+: r := by
    rintro p c q rfl h1 h2 ⟨t, e⟩
    have := hd c (by rw [← e]; rfl)
    omega
  have hb : ∀ {p : Str} {c : Byte} {q : Str}, p = c :: q → c ≠ 10 → c ≠ 13 → ¬ Begins r p := by
    rintro p c q hp' h1 h2 ⟨ws, z, e, hws⟩
    cases ws with
    | nil => exact hp hp' h1 h2 ⟨z, e.symm⟩
    | cons y ws =>
      have := hd y (by rw [e]; rfl)
      have := hws y (by simp)
      omega
  obtain ⟨f1, f2⟩ := fails_spans h (hb rfl (by decide) (by decide)) (hb rfl (by decide) (by decide))
  refine Fails.located (Fails.alts f1 (Fails.alts f2 (Fails.alts (Fails.map (.of_err
    (align_none h (hp rfl (by decide) (by decide)) (hp rfl (by decide) (by decide))))) (Fails.map ?_))))
  refine .of_inv fun _ _ e => ?_
  obtain ⟨s1, s2, e1, -⟩ := mapParser_inv e
  have e2 : takeLineUntil1 b!"|" s = .err :=
    takeLineUntil1_run_eol (w := []) (c := c!"|") h ⟨by simp, by
      rcases hr with rfl | ⟨t, rfl⟩ | ⟨t, rfl⟩
      · exact .inl rfl
      · exact .inr (.inl ⟨t, rfl, by simp⟩)
      · exact .inr (.inr ⟨t, rfl⟩)⟩ (by simp) (by decide)
  rw [e2] at e1
  cases e1

/-- Cells with bars after them. -/
def bars (xs : List Str) : Str := xs.flatMap fun x => x ++ b!"|"

theorem bars_cons (x : Str) (xs : List Str) : bars (x :: xs) = x ++ c!"|" :: bars xs := by simp [bars]

/-- A list with a condition for the first element and none for others. -/
def Firsts (P : Located Cell → Prop) (ys : List (Located Cell)) : Prop := ∃ y t, ys = y :: t ∧ P y

theorem row_tail {xs : List Str} (h : C.In (k + 2) s) (hx : ∀ x ∈ xs, CellShape x) (hr : EolHere r)
    (hv : View s (c!"|" :: (bars xs ++ r))) :
    SepMany (char c!"|") (deeper (cell C.env)) s (xs.map fun _ _ => True) (adv s (bars xs).length) := by
  induction xs generalizing s with
  | nil => exact .stop (char_run hv) (by decide) (Fails.deeper (no_cell_end (View.withDepth (View.adv (w := [c!"|"]) hv) _) hr))
  | cons x xs ih =>
    rw [bars_cons] at hv
    have v1 : View (adv s 1) (x ++ c!"|" :: (bars xs ++ r)) := by
      simpa using View.adv (w := [c!"|"]) hv
    have i1 : C.In (k + 2) (adv s 1) := (In.ascii (w := []) (c := c!"|") h hv (by decide)).2
    have v2 : View (adv s (1 + x.length)) (c!"|" :: (bars xs ++ r)) := by
      rw [← adv_adv]; exact View.adv v1
    refine .cons (n := 1 + x.length) (char_run hv) (by decide) ?_ ?_
    · rw [← adv_adv]
      exact Gives.deeper fun _ => (cell_gives (withDepth_in i1) (View.withDepth v1 _) (hx x (by simp))).mono fun _ _ => trivial
    · have i2 : C.In (k + 2) (adv s (1 + x.length)) := by
        rw [← adv_adv]; exact (In.ascii i1 v1 (by decide)).1
      have := ih (s := adv s (1 + x.length)) i2 (fun e he => hx e (by simp [he])) v2
      rw [adv_adv] at this
      simpa [bars, Nat.add_comm, Nat.add_left_comm, Nat.add_assoc] using this

theorem Each.firsts {P : Located Cell → Prop} {Qs : List (Located Cell → Prop)} {ys : List (Located Cell)}
    (h : Each (P :: Qs) ys) : Firsts P ys := by
  cases h with
  | cons h1 _ => exact ⟨_, _, rfl, h1⟩

/-- A row is read. -/
theorem row_found {w : Str} {xs : List Str} (h : C.In (k + 2) s) (hx : ∀ x ∈ w :: xs, CellShape x)
    (hr : EolHere r) (hv : View s (c!"|" :: (bars (w :: xs) ++ r))) :
    ∃ n, Gives (row C.env s) (adv s n) (Firsts fun y => y.inner.Aligns → ∃ a b, HyphenForm w a b) := by
  have v1 : View (adv s 1) (w ++ c!"|" :: (bars xs ++ r)) := by
    rw [bars_cons] at hv
    simpa using View.adv (w := [c!"|"]) hv
  have i1 : C.In (k + 2) (adv s 1) := (In.ascii (w := []) (c := c!"|") h hv (by decide)).2
  have v2 : View (adv (adv s 1) w.length) (c!"|" :: (bars xs ++ r)) := View.adv v1
  have i2 : C.In (k + 2) (adv (adv s 1) w.length) := (In.ascii i1 v1 (by decide)).1
  have turn : ∀ l : List Str, ∃ u, c!"|" :: bars l = u ++ [c!"|"] := by
    intro l
    induction l with
    | nil => exact ⟨[], rfl⟩
    | cons x l ih =>
      obtain ⟨u, hu⟩ := ih
      refine ⟨c!"|" :: (x ++ u), ?_⟩
      rw [bars_cons, hu]
      simp
  have v3 : View (adv (adv (adv s 1) w.length) (bars xs).length) (c!"|" :: r) := by
    obtain ⟨u, hu⟩ := turn xs
    have v2' : View (adv (adv s 1) w.length) (u ++ c!"|" :: r) := by
      have : c!"|" :: (bars xs ++ r) = u ++ c!"|" :: r := by
        rw [← List.cons_append, hu]; simp
      rwa [this] at v2
    have := View.adv v2'
    rwa [show u.length = (bars xs).length by have := congrArg List.length hu; simpa using this.symm] at this
  have v4 : View (adv (adv (adv (adv s 1) w.length) (bars xs).length) 1) r := View.adv (w := [c!"|"]) v3
  obtain ⟨n, h1, -⟩ := eol_run v4 hr
  refine ⟨1 + w.length + (bars xs).length + 1 + n, ?_⟩
  refine Gives.bind (Q := Firsts fun y => y.inner.Aligns → ∃ a b, HyphenForm w a b)
    (s1 := adv (adv (adv (adv s 1) w.length) (bars xs).length) 1) ?_ ?_
  · refine Gives.bind (Q := fun _ => True) (Gives.of_ok (char_run hv) trivial) fun _ _ => ?_
    refine Gives.bind (SepMany.list1 (Gives.deeper fun _ =>
      cell_gives (withDepth_in i1) (View.withDepth v1 _) (hx w (by simp)))
      (row_tail i2 (fun x h => hx x (by simp [h])) hr v2)) fun y hy => ?_
    exact Gives.bind (Q := fun _ => True) (Gives.of_ok (char_run v3) trivial) fun _ _ => Gives.pure hy.firsts
  · intro y hy
    rw [bind_ok h1]
    refine ⟨?_, hy⟩
    simp only [adv_adv]

theorem verify_err {α} {p : P α} {f : α → Bool} (h : verify p f s = .err) :
    p s = .err ∨ ∃ s' a, p s = .ok s' a ∧ f a = false := by
  unfold verify at h
  cases hp : p s with
  | ok s' a =>
    rw [hp] at h
    refine .inr ⟨s', a, rfl, ?_⟩
    cases hf : f a with
    | false => rfl
    | true => simp [hf] at h
  | err => exact .inl rfl
  | _ => rw [hp] at h; simp at h

/-- A line with the form of a row is no failure of the parser for tables. -/
theorem tableRaw_ne {ws w : Str} {xs : List Str} (h : C.In (k + 2) s) (hw : AllBlank ws)
    (hx : ∀ x ∈ w :: xs, CellShape x) (hr : EolHere r) (hn : ∀ a b, ¬ HyphenForm w a b)
    (hv : View s (ws ++ c!"|" :: (bars (w :: xs) ++ r))) : tableRaw C.env s ≠ .err := by
  intro he
  have e1 := space0_run hv (AllBlank.iff.1 hw) (by intro x hx; simp at hx; subst hx; rfl)
  have v1 : View (adv s ws.length) (c!"|" :: (bars (w :: xs) ++ r)) := View.adv hv
  have i1 : C.In (k + 2) (adv s ws.length) := (In.ascii h hv (by decide)).1
  obtain ⟨n, hg⟩ := row_found i1 hx hr v1
  rcases verify_err (located_err he) with he | ⟨s', t, ht, hf⟩
  · rw [bind_ok e1] at he
    rcases bind_err he with he | ⟨s2, ys, h2, he⟩
    · rw [he] at hg; exact hg
    · obtain ⟨g2, -⟩ := ok_of_run (row_ok i1) h2
      have i2 := i1.good g2
      rcases bind_err he with he | ⟨s3, _, _, he⟩
      · refine many0_ne_err (I := fun t => C.In (k + 2) t) ?_ i2 he
        intro t ht t' x hx
        obtain ⟨u, _, hu, hx⟩ := bind_inv hx
        obtain ⟨hsp, -⟩ := ok_of_run (space0_good ht) hu
        have iu := ht.good hsp.good
        obtain ⟨g, lt, -⟩ := ok_of_run (row_ok iu) hx
        refine ⟨fun e => ?_, iu.good g⟩
        have := hsp.good.step.le
        rw [e] at lt
        omega
      · cases he
  · rw [bind_ok e1] at ht
    obtain ⟨s2, ys, h2, ht⟩ := bind_inv ht
    obtain ⟨-, y, t', rfl, hy⟩ := hg.inv h2
    obtain ⟨s3, rows, h3, ht⟩ := bind_inv ht
    cases ht
    generalize (!(cut s ws.length).isEmpty) = ce at hf
    have hpos : 0 < (Table.new (tableCells 0 ((y :: t') :: rows)) ce).rowCnt := by
      show 0 < ((Table.collect (tableCells 0 ((y :: t') :: rows))).map (·.1)).foldl (fun acc p => max acc (p.row + 1)) 0
      have hm := (Table.mem_keys_tableCells (rows := (y :: t') :: rows) (p := ⟨0, 0⟩)).2 ⟨y :: t', rfl, by simp⟩
      exact ((Table.foldl_max_le (fun p : CellPos => p.row + 1) _ 0 _).1 (Nat.le_refl _)).2 _ hm
    rw [Bool.not_eq_false'] at hf
    have hd := Table.isDividerRow_iff.1 (List.all_eq_true.1 hf 0 (List.mem_range.2 hpos))
    obtain ⟨a, reg, hd⟩ := hd
    rw [Table.getCell_new] at hd
    simp at hd
    obtain ⟨a', b', hh⟩ := hy ⟨a, by rw [hd]⟩
    exact hn _ _ hh

/-- Lines that are table rows. -/
theorem rowKind (C : Ctx) : LineKind C (fun q => Bol C q ∧ RowForm (C.inner.drop q))
    (fun q y => (∃ t, y.inner = .table t) ∧ y.region.offset ≤ q ∧ q < y.region.offset + y.region.len) := by
  have first : ∀ q, RowForm (C.inner.drop q) → ∃ j, FirstByte C q j c!"|" := by
    rintro q ⟨ws, w, xs, r, e, hw, -⟩
    exact ⟨_, (firstByte_of (C := C) (q := q) (ws := ws) (x := c!"|") e hw (by decide)).1⟩
  refine .unfenced (fun q h => h.1) ?_ ?_ ?_ ?_ ?_
  · rintro q ⟨-, hf⟩
    obtain ⟨j, hj⟩ := first q hf
    exact ⟨j, _, hj, by decide, by decide, by decide⟩
  · rintro q j - - y t hy h1 h2
    exact ⟨⟨t, hy⟩, h1, h2⟩
  · rintro q j ⟨-, hf⟩ hj
    obtain ⟨j', hj'⟩ := first q hf
    exact absurd (hj.uniq hj').2 (by decide)
  · rintro q it ⟨-, hf⟩ ⟨hqj, hbl, ty, su, w, hw, ha⟩
    exfalso
    obtain ⟨j', hj'⟩ := first q hf
    obtain ⟨hne, hhd⟩ := hw.head
    cases w with
    | nil => exact hne rfl
    | cons y w' =>
      have h0 := ha.getElem? 0 (by simp)
      simp only [Nat.add_zero, List.getElem?_cons_zero] at h0
      have hy := (FirstByte.uniq ⟨hqj, hbl, h0, isSpace_false.2 (hhd y rfl)⟩ hj').2
      obtain ⟨c, u, e, -, -, -, hc⟩ := hw.first
      have := (List.cons.inj e).1
      omega
  · rintro k s list h hs hlt ⟨hb, ws, w, xs, r, e, hw, hx, hn, hr⟩ - s' u hc
    obtain ⟨-, hc⟩ := not_bind_inv hc
    obtain ⟨-, hc⟩ := not_bind_inv hc
    obtain ⟨-, hc⟩ := not_bind_inv hc
    obtain ⟨he, -⟩ := not_bind_inv hc
    obtain ⟨r', hv, hr', -⟩ := In.line h hs hlt (L := ws ++ c!"|" :: bars (w :: xs)) (r := r) (by rw [e]; simp [bars]) (by
      have := hw.no10
      intro hm
      rcases List.mem_append.1 hm with hm | hm
      · exact this hm
      · rcases List.mem_cons.1 hm with hm | hm
        · cases hm
        · obtain ⟨x, h1, h2⟩ := List.mem_flatMap.1 hm
          rcases List.mem_append.1 h2 with h2 | h2
          · exact (hx x h1).2.2.1 h2
          · simp at h2) hr
    refine tableRaw_ne h hw hx hr' hn (by simpa using hv) (map_err he)

end Vw
