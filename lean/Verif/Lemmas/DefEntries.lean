import Verif.Lemmas.DefStarts
import Verif.Lemmas.ListWhole
import Verif.Lemmas.LinkRead

/-!
# The entries of definition lists
-/

namespace Vw
open P Scan

variable {C : Ctx} {k : Nat} {s : Span} {r : Str}

theorem lineLen_unique {t : Str} {m : Nat} (h0 : 0 < m) (hm : m ≤ t.length) (hn : ∀ i, i + 1 < m → t[i]? ≠ some 10)
    (he : m = t.length ∨ t[m - 1]? = some 10) : lineLen t = m := by
  have hle := lineLen_le t
  rcases Nat.lt_trichotomy (lineLen t) m with h | h | h
  · obtain ⟨h1, h2, -⟩ := lineLen_end (t := t) (by omega)
    exact absurd h2 (hn _ (by omega))
  · exact h
  · rcases he with he | he
    · omega
    · exact absurd he (lineLen_noNl (by omega))

/-- Where a line ends. -/
theorem OneLine.stop {a : Nat} {s' : Span} (h : C.In k s) (hs : Full C s) (g : C.Good s s') (ho : OneLine C s.start s'.start)
    (hlt : s.start < s'.start) (he : Ends C s s') (ha : a = s.start) : s'.start = a + lineLen (C.inner.drop a) := by
  subst ha
  have h1 := g.step.hi
  have h2 := g.step.stop
  have h3 := h.wf.hi
  have key := lineLen_unique (t := C.inner.drop s.start) (m := s'.start - s.start) (by omega) (by rw [List.length_drop]; omega) (by
    intro i hi
    rw [List.getElem?_drop]
    exact ho _ (by omega) (by omega)) (by
    have e : s'.start = C.inner.length ∨ C.inner[s'.start - 1]? = some 10 := by
      rcases he with he | he
      · rw [he]
        exact hs
      · exact .inr he
    rcases e with e | e
    · left; rw [List.length_drop]; omega
    · right
      rw [List.getElem?_drop, show s.start + (s'.start - s.start - 1) = s'.start - 1 by omega]
      exact e)
  omega

theorem definitionLine_found {ws sp d : Str} {c' : Byte} (h : C.In (k + 1) s)
    (hv : View s (ws ++ (b!"::" ++ (sp ++ (d ++ r))))) (hw : AllBlank ws) (hsp : AllBlank sp) (hne : sp ≠ [])
    (hd : d.head? = some c') (hd1 : ¬ (c' = 32 ∨ c' = 9)) (hl : LineSplit d r) :
    ∃ n, Gives (definitionLine C.env s) (adv s n) fun _ => True := by
  have r0 := space0_run hv (AllBlank.iff.1 hw) (by intro x hx; simp at hx; subst hx; rfl)
  have i1 : C.In (k + 1) (adv s ws.length) := h.good (ok_of_run (space0_good h) r0).1.good
  have v1 := View.adv hv
  have r1 : tag b!"::" (adv s ws.length) = .ok (adv (adv s ws.length) 2) _ := tag_run v1
  have i2 : C.In (k + 1) (adv (adv s ws.length) 2) := i1.good (ok_of_run (tag_good i1 _) r1).1.good
  have v2 : View (adv (adv s ws.length) 2) (sp ++ (d ++ r)) := View.adv v1
  have r2 := space1_run v2 hne (AllBlank.iff.1 hsp) (by
    intro x hx
    cases d with
    | nil => cases hd
    | cons a u => simp at hd hx; subst hd; subst hx; exact isSpace_false.2 hd1)
  have i3 : C.In (k + 1) (adv (adv (adv s ws.length) 2) sp.length) :=
    i2.good (ok_of_run (space1_good i2) r2).1.good
  have v3 := View.adv v2
  have v4 := View.adv v3
  have r3 := takeUntilEol_run v3 hl
  have dne : d ≠ [] := by rintro rfl; cases hd
  have g3 := line_gives i3 v3 dne hl.1 r3 (ok_of_run (takeUntilEol_good i3) r3).1
  obtain ⟨n, r5, -⟩ := eol_run v4 hl.eol
  refine ⟨ws.length + 2 + sp.length + d.length + n, ?_⟩
  unfold definitionLine
  refine Gives.mono (Gives.located (Q := fun _ => True) ?_) fun _ _ => trivial
  rw [bind_ok r0, bind_ok r1, bind_ok r2]
  refine Gives.bind g3 fun y _ => ?_
  rw [bind_ok r5]
  exact Gives.at (Gives.pure trivial) (by simp only [adv_adv])

theorem more_line (h : C.In (k + 1) s) (hs : Full C s) (hlt : s.start < s.stop) (hf : MoreForm (C.inner.drop s.start)) :
    definitionLine C.env s ≠ .err := by
  obtain ⟨ws, sp, d, r, e, hw, hsp, hne, ⟨c, hd, hd'⟩, hl⟩ := hf
  obtain ⟨r', hv, -, hl'⟩ := In.line h hs hlt (L := ws ++ (b!"::" ++ (sp ++ d))) (r := r) (by rw [e]; simp) (by
    simp only [List.mem_append, not_or]
    exact ⟨hw.no10, by decide, hsp.no10, hl.1⟩) hl.eol
  obtain ⟨n, hg⟩ := definitionLine_found h (by simpa using hv) hw hsp hne hd hd' (hl' d hl)
  intro he
  rw [he] at hg
  exact hg

theorem ColonsAt.form {q : Nat} (h : ColonsAt C q) : ColonForm (C.inner.drop q) := by
  obtain ⟨j, hqj, hbl, hat⟩ := h
  refine ⟨sub C.inner q j, C.inner.drop (j + 2), ?_, ?_⟩
  · have : C.inner.drop j = b!"::" ++ C.inner.drop (j + 2) := by
      unfold At at hat
      have := (List.take_append_drop 2 (C.inner.drop j)).symm
      rw [List.drop_drop] at this
      rw [this]
      congr 1
    rw [← this]
    exact drop_split hqj
  · intro x hx
    obtain ⟨i, h1, h2, h3⟩ := mem_sub.1 hx
    exact isSpace_iff.1 (hbl i x h1 h2 h3)

/-- A line with a term does not begin with two colons. -/
theorem term_noColons {text ws t v : Str} {c : Byte} (e : text = ws ++ (t ++ (b!"::" ++ v))) (hw : AllBlank ws)
    (ht : TermText t) (hc : t.head? = some c) (h1 : 32 < c) : ¬ ColonForm text := by
  rintro ⟨ws', r', e', hw'⟩
  cases t with
  | nil => cases hc
  | cons c' t =>
    simp at hc
    subst hc
    obtain ⟨-, hu⟩ := blanks_unique hw hw' (by intro x hx; simp at hx; subst hx; omega) (by
      intro x hx; simp at hx; subst hx; decide) (e.symm.trans e')
    obtain ⟨h2, hv⟩ := List.cons.inj hu
    subst h2
    refine ht.first ?_
    cases t with
    | nil => exact ⟨[], [], rfl⟩
    | cons x t =>
      have h3 : x = 58 := (List.cons.inj hv).1
      rw [h3]
      exact ⟨[], t ++ b!":", rfl⟩

theorem DefLine.noColons {text ws t sp d r : Str} (h : DefLine text ws t sp d r) : ¬ ColonForm text := by
  obtain ⟨e, hw, -, -, ht, ⟨c, hc, h1, -⟩, -, -⟩ := h
  exact term_noColons e hw ht hc h1

theorem BareLine.noColons {text ws t sp r : Str} (h : BareLine text ws t sp r) : ¬ ColonForm text := by
  obtain ⟨e, hw, -, ht, ⟨c, hc, h1, -⟩, -⟩ := h
  exact term_noColons e hw ht hc h1

/-- What is known of the entry of a term. -/
theorem termAndDefinitions_entry (h : C.In (k + 1) s) (hs : Full C s) :
    C.Ok (termAndDefinitions C.env s) (fun s' r => C.Good s s' ∧
      On C (fun q => (DefForm (C.inner.drop q) → EntryAt C.inner s.stop q (mkTermDefs r)) ∧
        (BareForm (C.inner.drop q) → BareEntryAt C.inner s.stop q (mkTermDefs r))) s.start s'.start) := by
  refine Ctx.Ok.bind' (((termLine_ok h).and (termLine_lines h)).self) ?_
  rintro s1 ⟨term, df⟩ ⟨⟨⟨g1, lt1, he1, -⟩, -, -, o1⟩, hr1⟩
  have h1 := h.good g1
  have st1 := g1.step.stop
  have e1 := o1.stop h hs g1 lt1 he1 rfl
  refine Ctx.Ok.bind' (Q1 := fun s2 b => C.Good s1 s2 ∧ MoreRows C.inner s.stop s1.start b.inner ∧
    On C (ColonsAt C) s1.start s2.start ∧ (df = none → b.inner ≠ []))
    (Ctx.Ok.located (Ctx.Ok.verify ((Ctx.Ok.many0 (I := fun t => C.In (k + 1) t ∧ Step s1 t)
    (T := fun t ds t' => C.Good t t' ∧ MoreRows C.inner s.stop t.start ds ∧ On C (ColonsAt C) t.start t'.start) ?_ ?_
    ⟨h1, Step.refl h1.wf.le⟩ h1.wf.le).mono ?_))) ?_
  · rintro t ⟨ht, hst⟩
    have hft : Full C t := by unfold Full; rw [hst.stop, st1]; exact hs
    refine ((definitionLine_ok ht).and (definitionLine_lines ht)).mono ?_
    rintro t1 x ⟨⟨hx, hex⟩, -, -, hcol, hone⟩
    refine ⟨hx.good.step, fun _ => ⟨⟨ht.good hx.good, hst.trans hx.good.step⟩, ?_⟩⟩
    rintro as t2 ⟨g2, hm, ho⟩
    have e2 := hone.stop ht hft hx.good hx.lt hex rfl
    have hreg := hx.region
    refine ⟨hx.good.trans g2, ⟨?_, ?_, hcol.form, ?_⟩, (hone.on hcol).trans ho⟩
    · rw [hreg]
    · rw [hreg]; show t1.start - t.start = _; omega
    · rw [← e2]; exact hm
  · rintro t ⟨ht, hst⟩ herr
    refine ⟨Ctx.Good.refl ht, ?_, .refl⟩
    intro hlt hf
    have hft : Full C t := by unfold Full; rw [hst.stop, st1]; exact hs
    exact more_line ht hft (by rw [hst.stop, st1]; exact hlt) hf herr
  · rintro s2 ds ⟨_, _, _, g2, hm, ho⟩ hv
    refine ⟨g2.step, g2, hm, ho, ?_⟩
    rintro rfl rfl
    simp at hv
  rintro s2 b ⟨g2, hm, ho, hne0⟩
  refine Ctx.Ok.pure ⟨g1.trans g2, ?_⟩
  intro q hb q1 q2
  have hlt : s.start < s.stop := by have := g1.step.hi; omega
  refine ⟨fun hf => ?_, fun hf => ?_⟩
  rotate_left
  · rcases Nat.lt_or_ge q s1.start with h3 | h3
    rotate_left
    · obtain ⟨ws, t, sp, r, hd⟩ := hf
      exact absurd (ho q hb h3 q2).form hd.noColons
    obtain rfl := o1.only hb q1 h3
    obtain ⟨ws, t, sp, r, hd⟩ := hf
    obtain ⟨e, hw, hsp, ht, ⟨c, hc, hc1, -⟩, hr⟩ := id hd
    obtain ⟨r', hv, hr', -⟩ := In.line h hs hlt (L := ws ++ (t ++ (b!"::" ++ sp))) (r := r) (by rw [e]; simp) (by
      simp only [List.mem_append, not_or]
      exact ⟨hw.no10, ht.line, by decide, hsp.no10⟩) hr
    obtain ⟨n, hg⟩ := termLine_bare h (by simpa using hv) hw hsp ht hc hc1 hr'
    obtain ⟨-, y1, y2, y3⟩ := hg.inv hr1
    simp only at y1 y2 y3
    subst y3
    refine ⟨ws, t, sp, r, hd, y1, y2, hne0 rfl, ?_⟩
    rw [← e1]
    exact hm
  rcases Nat.lt_or_ge q s1.start with h3 | h3
  rotate_left
  · obtain ⟨ws, t, sp, d, r, hd⟩ := hf
    exact absurd (ho q hb h3 q2).form hd.noColons
  obtain rfl := o1.only hb q1 h3
  obtain ⟨ws, t, sp, d, r, hd⟩ := hf
  obtain ⟨e, hw, hsp, hne, ht, ⟨c, hc, hc1, -⟩, ⟨c', hd0, hd'⟩, hl⟩ := id hd
  obtain ⟨r', hv, -, hl'⟩ := In.line h hs hlt (L := ws ++ (t ++ (b!"::" ++ (sp ++ d)))) (r := r) (by rw [e]; simp) (by
    simp only [List.mem_append, not_or]
    exact ⟨hw.no10, ht.line, by decide, hsp.no10, hl.1⟩) hl.eol
  obtain ⟨n, hg⟩ := termLine_found h (by simpa using hv) hw hsp hne ht hc hc1 hd0 hd' (hl' d hl)
  obtain ⟨-, y1, y2, z, y3, y4, y5⟩ := hg.inv hr1
  simp only at y1 y2 y3
  subst y3
  refine ⟨ws, t, sp, d, r, hd, y1, y2, z, b.inner, rfl, y4, y5, ?_⟩
  rw [← e1]
  exact hm

/-- What is known of the entries of a definition list. -/
theorem definitionList_entries (h : C.In (k + 2) s) (hs : Full C s) :
    C.Ok (definitionList C.env s) (fun s' y => C.Good s s' ∧ ∀ xs, y.inner = .defs xs →
      On C (fun q => (DefForm (C.inner.drop q) → ∃ e ∈ xs, EntryAt C.inner s.stop q e) ∧
        (BareForm (C.inner.drop q) → ∃ e ∈ xs, BareEntryAt C.inner s.stop q e)) s.start s'.start) := by
  refine Ctx.Ok.located (Ctx.Ok.map ((Ctx.Ok.many1 (I := fun t => C.In (k + 2) t ∧ Step s t)
    (T := fun t xs t' => C.Good t t' ∧
      On C (fun q => (DefForm (C.inner.drop q) → ∃ e ∈ xs.map mkTermDefs, EntryAt C.inner s.stop q e) ∧
        (BareForm (C.inner.drop q) → ∃ e ∈ xs.map mkTermDefs, BareEntryAt C.inner s.stop q e)) t.start t'.start) ?_ ?_
      ⟨h, Step.refl h.wf.le⟩).mono ?_))
  · rintro t ⟨ht, hst⟩
    have hft : Full C (t.withDepth (t.depth + 1)) := by
      show Full C t
      unfold Full; rw [hst.stop]; exact hs
    refine (deeper_rule ht (Q := fun t1 r => t.start < t1.start ∧
      On C (fun q => (DefForm (C.inner.drop q) → EntryAt C.inner s.stop q (mkTermDefs r)) ∧
        (BareForm (C.inner.drop q) → BareEntryAt C.inner s.stop q (mkTermDefs r))) t.start t1.start)
      (((termAndDefinitions_ok (withDepth_in ht)).and (termAndDefinitions_entry (withDepth_in ht) hft)).mono ?_)).mono ?_
    · rintro t1 r ⟨⟨g, lt, -⟩, -, ho⟩
      refine ⟨g, lt, ?_⟩
      have : (t.withDepth (t.depth + 1)).stop = s.stop := hst.stop
      rw [this] at ho
      exact ho
    · rintro t1 r ⟨g, lt, ho⟩
      refine ⟨g.step, lt, ⟨ht.good g, hst.trans g.step⟩, ?_⟩
      rintro as t2 ⟨g2, ho2⟩
      refine ⟨g.trans g2, On.trans (b := t1.start) ?_ ?_⟩
      · intro q hb q1 q2
        exact ⟨fun hf => ⟨_, by simp, (ho q hb q1 q2).1 hf⟩, fun hf => ⟨_, by simp, (ho q hb q1 q2).2 hf⟩⟩
      · intro q hb q1 q2
        refine ⟨fun hf => ?_, fun hf => ?_⟩
        · obtain ⟨e, he, h'⟩ := (ho2 q hb q1 q2).1 hf
          exact ⟨e, by rw [List.map_cons]; exact List.mem_cons_of_mem _ he, h'⟩
        · obtain ⟨e, he, h'⟩ := (ho2 q hb q1 q2).2 hf
          exact ⟨e, by rw [List.map_cons]; exact List.mem_cons_of_mem _ he, h'⟩
  · rintro t ⟨ht, _⟩ _
    exact ⟨Ctx.Good.refl ht, .refl⟩
  · rintro s' xs ⟨st, _, _, _, ⟨g, ho⟩, _⟩
    refine ⟨st, g, ?_⟩
    intro ys e
    simp only [Block.defs.injEq] at e
    subst e
    exact ho

/-- A text is a term if it begins with a letter and has no colon, dot, bracket and blank. -/
theorem termText_word {c : Byte} {w : Str} (h : 97 ≤ c ∧ c ≤ 122) (hw : ∀ x ∈ w, 97 ≤ x ∧ x ≤ 122) :
    TermText (c :: w) := by
  have all : ∀ x ∈ c :: w, 97 ≤ x ∧ x ≤ 122 := by
    intro x hx
    rcases List.mem_cons.1 hx with rfl | hx
    · exact h
    · exact hw x hx
  refine ⟨fun hm => ?_, ?_, ?_, ?_, ?_, ?_, ?_⟩
  · have := all _ hm; omega
  · intro hm
    obtain ⟨a, b, e⟩ := hm
    have hc := congrArg (List.count 58) e
    have h0 : List.count 58 (c :: w) = 0 := List.count_eq_zero.2 fun hm => by have := all _ hm; omega
    simp only [List.count_append, h0] at hc
    simp at hc
    omega
  · rintro ⟨t, e⟩; simp at e; omega
  · simp; omega
  · simp; omega
  · rintro ⟨t, e⟩; simp at e; omega
  · intro ty su v hv hp
    have h32 : 32 ∈ v := by cases hv <;> simp
    have := all _ (hp.subset h32)
    omega

end Vw
