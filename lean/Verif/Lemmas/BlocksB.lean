import Verif.Lemmas.BlocksA
import Verif.Spec.Fences

/-!
# Facts about code blocks, math blocks and placeholders
-/

namespace Vw
open P Scan

variable {C : Ctx} {k : Nat}

/-- The position where the longest run of `f` ends is unique. -/
theorem Took.unique {f : Byte → Bool} {s s' : Span} (h : C.Wf k s) (hs : Step s s')
    (ht : Took C f s s') {p : Nat} (hp : s.start ≤ p) (hps : p ≤ s.stop)
    (hall : ∀ i b, s.start ≤ i → i < p → C.inner[i]? = some b → f b = true)
    (hstop : ∀ b, p < s.stop → C.inner[p]? = some b → f b = false) : s'.start = p := by
  have hle := hs.le
  have hhi := hs.hi
  rcases Nat.lt_trichotomy s'.start p with hlt | heq | hgt
  · obtain ⟨b, hb⟩ := Wf_get h (i := s'.start) (by omega)
    have h1 := hall _ b hle hlt hb
    have h2 := ht.stop b (by omega) hb
    rw [h1] at h2; cases h2
  · exact heq
  · obtain ⟨b, hb⟩ := Wf_get h (i := p) (by omega)
    have h1 := ht.all p b hp hgt hb
    have h2 := hstop b (by omega) hb
    rw [h1] at h2; cases h2

theorem indentSize_ok {s : Span} (h : C.In k s) :
    C.Ok (indentSize s) (fun s' n => C.Good s s' ∧ Took C isSpace s s' ∧ s'.start = s.start + n) := by
  refine Ctx.Ok.mapParser ((space0_good h).mono ?_)
  rintro s' o ⟨hsp, ht⟩
  have hle := hsp.good.step.le
  refine ⟨hsp.good, ht, ?_⟩
  rw [remainingLen_eq, hsp.out]
  simp only
  omega

/-- A closing fence from `s` to `s'`: `n` blanks, the marker and blanks up to
the end of the line at `e`. -/
structure FenceEnd (C : Ctx) (marker : Str) (s s' : Span) (n e : Nat) : Prop where
  blanks : Blanks C s.start (s.start + n)
  mark : AtIn C.inner s.stop (s.start + n) marker
  le : s.start + n + marker.length ≤ e
  blanks2 : Blanks C (s.start + n + marker.length) e
  eol : EolAt C { s with start := e } s'

/-- The shape shared by `code_block_end` and `end_of_math_block`. -/
def fenceEnd (marker : Str) : P Nat :=
  P.bind indentSize fun n =>
  P.bind (tag marker) fun _ =>
  P.bind space0 fun _ =>
  P.bind endOfLineOrInput fun _ => P.pure n

theorem fenceEnd_ok {s : Span} (h : C.In k s) {marker : Str} (hm : marker ≠ [])
    (hma : ∀ b ∈ marker, b < 128) :
    C.Ok (fenceEnd marker s) (fun s' n => C.Good s s' ∧ s.start < s'.start ∧ Ends C s s' ∧
      ∃ e, FenceEnd C marker s s' n e) := by
  have hlen : 0 < marker.length := List.length_pos_iff.2 hm
  refine Ctx.Ok.bind' (indentSize_ok h) ?_
  rintro s1 n ⟨g1, ht1, hs1⟩
  have h1 := h.good g1
  refine Ctx.Ok.bind' (tag_good h1 marker hm hma) ?_
  rintro s2 _ ⟨hsp2, hs2, hat⟩
  have h2 := h1.good hsp2.good
  refine Ctx.Ok.bind' (space0_good h2) ?_
  rintro s3 _ ⟨hsp3, ht3⟩
  have h3 := h2.good hsp3.good
  refine Ctx.Ok.bind' (endOfLine_full h3) ?_
  intro s4 _ he
  have g3 := (g1.trans hsp2.good).trans hsp3.good
  have l3 := hsp3.good.step.le
  have l4 := he.good.step.le
  refine Ctx.Ok.pure ⟨g3.trans he.good, by omega, he.ends.of_good g3, s3.start, ?_, ?_, by omega,
    ?_, ?_⟩
  · intro i x i1 i2 hx
    exact ht1.all i x i1 (by omega) hx
  · rw [← hs1, ← g1.step.stop]; exact hat
  · intro i x i1 i2 hx
    exact ht3.all i x (by omega) i2 hx
  · have := step_eq g3.step
    rw [this] at he
    exact he

/-- `l` is a line that closes a block: the marker between blanks. -/
def IsFence (marker l : Str) : Prop :=
  ∃ u v, (∀ b ∈ u, isSpace b = true) ∧ (∀ b ∈ v, isSpace b = true) ∧ l = u ++ marker ++ v

theorem fenceEnd_err {s : Span} (h : C.In k s) {marker : Str} (hm : marker ≠ [])
    (hma : ∀ b ∈ marker, b < 128) (hms : ∀ b, marker.head? = some b → isSpace b = false)
    (he : fenceEnd marker s = .err) {e : Nat} (hse : s.start ≤ e) (hes : e ≤ s.stop)
    (heol : e = s.stop ∨ LineEndAt C.inner s.stop e) :
    ¬ IsFence marker (sub C.inner s.start e) := by
  rintro ⟨u, v, hu, hv, heq⟩
  have hhi := h.wf.hi
  have hlen : 0 < marker.length := List.length_pos_iff.2 hm
  have hl : e - s.start = u.length + marker.length + v.length := by
    have := congrArg List.length heq
    rw [sub_length _ _ _ (by omega)] at this
    simp at this; omega
  have hget : ∀ i, s.start + i < e → C.inner[s.start + i]? = (u ++ marker ++ v)[i]? := by
    intro i hi
    rw [← heq, sub_getElem?, if_pos hi]
  -- indentation
  have hind := indentSize_ok h
  rcases bind_err he with he | ⟨s1, n, hr1, he⟩
  · cases he
  rw [hr1] at hind
  obtain ⟨g1, ht1, hs1⟩ := hind
  have h1 := h.good g1
  have hn : s1.start = s.start + u.length := by
    refine ht1.unique h.wf g1.step (by omega) (by omega) ?_ ?_
    · intro i b i1 i2 hb
      have := hget (i - s.start) (by omega)
      rw [show s.start + (i - s.start) = i by omega, hb, List.append_assoc,
        List.getElem?_append_left (by omega)] at this
      exact hu b (List.mem_of_getElem? this.symm)
    · intro b _ hb
      have := hget u.length (by omega)
      rw [hb, List.append_assoc, List.getElem?_append_right (by omega), Nat.sub_self,
        List.getElem?_append_left hlen] at this
      apply hms
      rw [List.head?_eq_getElem?]
      exact this.symm
  have hat : AtIn C.inner s.stop (s.start + u.length) marker := by
    refine ⟨by omega, ?_⟩
    apply at_iff_sub.2
    have : sub C.inner (s.start + u.length) (s.start + u.length + marker.length)
        = (((sub C.inner s.start e).drop u.length).take marker.length) := by
      rw [sub_drop, sub_take _ _ _ _ (by omega)]
    rw [this, heq]
    simp
  have htag := tag_good h1 marker hm hma
  rcases bind_err he with he | ⟨s2, o2, hr2, he⟩
  · refine tag_err h1.wf marker hm he ?_
    rw [hn, g1.step.stop]; exact hat
  rw [hr2] at htag
  obtain ⟨hsp2, hs2, _⟩ := htag
  have h2 := h1.good hsp2.good
  have g2 := g1.trans hsp2.good
  have hsp := space0_good h2
  rcases bind_err he with he | ⟨s3, o3, hr3, he⟩
  · cases he
  rw [hr3] at hsp
  obtain ⟨hsp3, ht3⟩ := hsp
  have h3 := h2.good hsp3.good
  have g3 := g2.trans hsp3.good
  have hn3 : s3.start = e := by
    refine ht3.unique h2.wf hsp3.good.step (by omega) (by rw [g2.step.stop]; exact hes) ?_ ?_
    · intro i b i1 i2 hb
      have := hget (i - s.start) (by omega)
      rw [show s.start + (i - s.start) = i by omega, hb,
        List.getElem?_append_right (by simp; omega)] at this
      exact hv b (List.mem_of_getElem? this.symm)
    · intro b hlt hb
      rw [g2.step.stop] at hlt
      rcases heol with h' | h'
      · omega
      · rcases h' with ⟨_, h'⟩ | ⟨_, h', _⟩ <;> rw [hb] at h' <;> cases h' <;> rfl
  rcases bind_err he with he | ⟨s4, o4, hr4, he⟩
  · have := endOfLineOrInput_err h3.wf he
    rw [g3.step.stop, hn3] at this
    rcases heol with h' | h'
    · omega
    · exact this.2 h'
  · cases he

/-! ## Lines up to a closing fence -/

/-- The raw lines of a block between two fences. -/
structure RawLines (C : Ctx) (marker : Str) (s s' : Span) (ls : List Str) : Prop where
  good : C.Good s s'
  strs : ∀ l ∈ ls, IsStr C s.start s'.start l
  lines : s'.start < s.stop → ∀ rest rs, LinesOf rest rs →
    LinesOf (sub C.inner s.start s'.start ++ rest) (ls ++ rs)
  open_ : ∀ l ∈ ls, ¬ IsFence marker l

theorem rawLines_ok {s : Span} (h : C.In k s) {marker : Str} (hm : marker ≠ [])
    (hma : ∀ b ∈ marker, b < 128) (hms : ∀ b, marker.head? = some b → isSpace b = false) :
    C.Ok (many0 (preceded (P.not (fenceEnd marker)) (strOf anyLine)) s)
      (fun s' ls => RawLines C marker s s' ls) := by
  refine (Ctx.Ok.many0 (I := fun t => C.In k t) (T := fun t ls t' => RawLines C marker t t' ls)
    ?_ ?_ h h.wf.le).mono ?_
  · intro t ht
    refine Ctx.Ok.preceded (Ctx.Ok.not ((fenceEnd_ok ht hm hma).mono fun _ _ _ => trivial) ?_)
    intro herr
    refine strOf_rule ((anyLine_line ht).mono ?_)
    rintro t1 o ⟨g1, he1, hstr, hnl, hterm, hfrom⟩
    refine ⟨g1.step, fun hlt => ⟨ht.good g1, ?_⟩⟩
    intro ls t2 hT
    have l1 := g1.step.le
    have l2 := hT.good.step.le
    have u2 := hT.good.step.hi
    have st1 := g1.step.stop
    have hhi := ht.wf.hi
    refine ⟨g1.trans hT.good, ?_, ?_, ?_⟩
    · intro x hx
      rcases List.mem_cons.1 hx with rfl | hx
      · exact hstr.mono (Nat.le_refl _) l2
      · exact (hT.strs x hx).mono l1 (Nat.le_refl _)
    · intro hlt2 rest rs hr
      have hrec := hT.lines (by omega) rest rs hr
      rcases hterm with he | hterm
      · omega
      · have e : sub C.inner t.start t2.start ++ rest = sub C.inner t.start t1.start ++
            (sub C.inner t1.start t2.start ++ rest) := by
          rw [← sub_append _ t.start t1.start t2.start (by omega) (by omega)]
          simp
        rw [e]
        exact hterm.lines hrec
    · intro x hx
      rcases List.mem_cons.1 hx with rfl | hx
      · obtain ⟨e, e1, e2, e3, e4⟩ := hfrom
        rw [e3]
        exact fenceEnd_err ht hm hma hms herr e1 e2 e4
      · exact hT.open_ x hx
  · intro t ht _
    refine ⟨Ctx.Good.refl ht, by simp, ?_, by simp⟩
    intro _ rest rs hr
    rw [sub_self]; exact hr
  · rintro s' ls ⟨_, _, _, hT⟩
    exact hT

/-! ## Removing the indentation -/

theorem wsCharLen_ascii {b : Byte} {l : Str} (hb : b < 128) :
    wsCharLen (b :: l) = if (9 ≤ b ∧ b ≤ 13) ∨ b = 32 then 1 else 0 := by
  unfold wsCharLen
  split <;> simp_all <;> omega

theorem wsCharLen_le (l : Str) : wsCharLen l ≤ l.length := by
  unfold wsCharLen
  split <;> simp <;> (try split) <;> omega

theorem leadingWsF_le (n : Nat) (l : Str) : leadingWsF n l ≤ l.length := by
  induction n generalizing l with
  | zero => simp [leadingWsF]
  | succ n ih =>
    unfold leadingWsF
    split
    · omega
    · have := ih (l.drop (wsCharLen l))
      have := wsCharLen_le l
      rw [List.length_drop] at *
      omega

theorem leadingWs_le (l : Str) : leadingWs l ≤ l.length := leadingWsF_le _ _

/-- ASCII whitespace as in `char::is_whitespace`. -/
def isWsByte (b : Byte) : Bool := decide ((9 ≤ b ∧ b ≤ 13) ∨ b = 32)

theorem leadingWs_ascii {l : Str} (h : ∀ b ∈ l, b < 128) :
    leadingWs l = (l.takeWhile isWsByte).length := by
  have : ∀ n, l.length ≤ n → leadingWsF n l = (l.takeWhile isWsByte).length := by
    intro n hn
    induction l generalizing n with
    | nil => cases n <;> simp [leadingWsF, wsCharLen]
    | cons b bs ih =>
      cases n with
      | zero => simp at hn
      | succ n =>
        unfold leadingWsF
        rw [wsCharLen_ascii (h b (by simp))]
        simp only [List.takeWhile_cons, isWsByte]
        by_cases hb : (9 ≤ b ∧ b ≤ 13) ∨ b = 32
        · rw [if_pos hb]
          simp only [Nat.one_ne_zero, if_false, List.drop_succ_cons, List.drop_zero, hb,
            decide_true, if_true, List.length_cons]
          rw [ih (fun x hx => h x (by simp [hx])) n (by simpa using hn)]
          omega
        · rw [if_neg hb]
          simp [hb]
  exact this _ (Nat.le_refl _)

theorem mapM_some {α β} {f : α → Option β} {l : List α} {r : List β} (h : l.mapM f = some r) :
    All2 (fun x y => f x = some y) l r := by
  induction l generalizing r with
  | nil => simp at h; subst h; exact .nil
  | cons x xs ih =>
    simp only [List.mapM_cons] at h
    cases hx : f x with
    | none => simp [hx] at h
    | some y =>
      cases hxs : xs.mapM f with
      | none => simp [hx, hxs] at h
      | some ys =>
        simp [hx, hxs] at h
        subst h
        exact .cons hx (ih hxs)

theorem mapM_none {α β} {f : α → Option β} {l : List α} (h : l.mapM f = none) :
    ∃ x ∈ l, f x = none := by
  induction l with
  | nil => simp at h
  | cons x xs ih =>
    simp only [List.mapM_cons] at h
    cases hx : f x with
    | none => exact ⟨x, by simp, hx⟩
    | some y =>
      cases hxs : xs.mapM f with
      | none =>
        obtain ⟨z, hz, hz'⟩ := ih hxs
        exact ⟨z, by simp [hz], hz'⟩
      | some ys => simp [hx, hxs] at h

theorem isCharBoundary_ascii {l : Str} (h : ∀ b ∈ l, b < 128) {i : Nat} (hi : i ≤ l.length) :
    isCharBoundary l i = true := by
  unfold isCharBoundary
  rcases Nat.lt_or_ge i l.length with hlt | hge
  · have hb := h l[i] (List.getElem_mem hlt)
    rw [List.getElem?_eq_getElem hlt]
    simp
    omega
  · have : i = l.length := by omega
    simp [this]

theorem dedentLine_eq {n : Nat} {l r : Str} (h : dedentLine n l = some r) :
    r = l.drop (min (leadingWs l) n) ∧ isCharBoundary l (min (leadingWs l) n) = true := by
  unfold dedentLine at h
  simp only at h
  split at h
  · rename_i hb
    cases h
    exact ⟨rfl, hb⟩
  · cases h

theorem dedentLine_isStr {n a b : Nat} {l r : Str} (hb : b ≤ C.inner.length) (hl : IsStr C a b l)
    (h : dedentLine n l = some r) : IsStr C a b r := by
  obtain ⟨rfl, hbd⟩ := dedentLine_eq h
  have hle := leadingWs_le l
  obtain ⟨i, j, h1, h2, h3, h4, h5, rfl⟩ := hl
  have hlen := sub_length C.inner i j (by omega)
  have hc : min (leadingWs (sub C.inner i j)) n ≤ j - i := by omega
  generalize min (leadingWs (sub C.inner i j)) n = c at *
  refine ⟨i + c, j, by omega, by omega, h3, ?_, h5, by rw [sub_drop]⟩
  unfold isCharBoundary at hbd
  rw [hlen] at hbd
  simp only [Bool.or_eq_true, beq_iff_eq] at hbd
  rcases hbd with (hbd | hbd) | hbd
  · rw [hbd]; exact h4
  · rw [hbd, show i + (j - i) = j by omega]; exact h5
  · intro _ x hx hcont
    rcases Nat.lt_or_ge (i + c) j with hlt | hge
    · rw [sub_getElem?, if_pos hlt, hx] at hbd
      simp at hbd
      unfold isCont at hcont
      omega
    · rw [sub_getElem?, if_neg (by omega)] at hbd
      cases hbd

theorem wsCharLen_append {l : Str} (h : 2 ≤ wsCharLen l) (r : Str) : 2 ≤ wsCharLen (l ++ r) := by
  unfold wsCharLen at h ⊢
  split at h <;> simp_all
  all_goals (split at h <;> omega)

theorem wsCharLen_pos {l : Str} (h0 : wsCharLen l ≠ 0) (h1 : ¬ 2 ≤ wsCharLen l) :
    wsCharLen l = 1 ∧ ∃ b r, l = b :: r ∧ b < 128 := by
  unfold wsCharLen at *
  split at h0 <;> simp_all
  all_goals (split at h1 <;> simp_all)
  all_goals omega

/-- Without white space outside ASCII, leading white space is a run of ASCII bytes. -/
theorem leadingWsF_ascii {n : Nat} {l : Str} (h : ∀ i, ¬ 2 ≤ wsCharLen (l.drop i)) :
    ∀ i, i < leadingWsF n l → ∃ b, l[i]? = some b ∧ b < 128 := by
  induction n generalizing l with
  | zero => intro i hi; simp [leadingWsF] at hi
  | succ n ih =>
    intro i hi
    unfold leadingWsF at hi
    split at hi
    · omega
    · rename_i h0
      obtain ⟨h1, b, r, rfl, hb⟩ := wsCharLen_pos h0 (by simpa using h 0)
      rw [h1] at hi
      cases i with
      | zero => exact ⟨b, rfl, hb⟩
      | succ i =>
        obtain ⟨c, hc, hlt⟩ := ih (l := r) (fun i => by simpa using h (i + 1)) i (by
          simp only [List.drop_succ_cons, List.drop_zero] at hi; omega)
        exact ⟨c, by simpa using hc, hlt⟩

theorem dedentLines_ok {s : Span} (n : Nat) (ls : List Str)
    (hls : ∀ l ∈ ls, l <:+: C.inner) :
    C.Ok (dedentLines n ls s) (fun s' rs => s' = s ∧
      All2 (fun x y => dedentLine n x = some y) ls rs) := by
  unfold dedentLines
  cases hm : ls.mapM (dedentLine n) with
  | some rs => exact ⟨rfl, mapM_some hm⟩
  | none =>
    obtain ⟨l, hl, hd⟩ := mapM_none hm
    show (∃ i, 2 ≤ wsCharLen (C.inner.drop i)) ∨ ¬ Utf8ish C.inner
    refine Classical.byContradiction fun hno => ?_
    have hw : ∀ i, ¬ 2 ≤ wsCharLen (C.inner.drop i) := fun i hi => hno (.inl ⟨i, hi⟩)
    have hu : Utf8ish C.inner := Classical.byContradiction fun h => hno (.inr h)
    clear hno
    obtain ⟨u, v, he⟩ := hls l hl
    have hwl : ∀ i, ¬ 2 ≤ wsCharLen (l.drop i) := by
      intro i hi
      rcases Nat.lt_or_ge l.length i with hlt | hge
      · rw [List.drop_of_length_le (by omega)] at hi
        simp [wsCharLen] at hi
      · refine hw (u.length + i) ?_
        have e : C.inner.drop (u.length + i) = l.drop i ++ v := by
          rw [← he, List.append_assoc, ← List.drop_drop, List.drop_left,
            List.drop_append_of_le_length hge]
        rw [e]
        exact wsCharLen_append hi v
    have ha := leadingWsF_ascii (n := l.length) hwl
    have hle := leadingWs_le l
    unfold dedentLine at hd
    simp only at hd
    have hc : min (leadingWs l) n ≤ leadingWs l := Nat.min_le_left _ _
    generalize min (leadingWs l) n = c at hd hc
    suffices hb : isCharBoundary l c = true by rw [if_pos hb] at hd; cases hd
    unfold isCharBoundary
    cases c with
    | zero => simp
    | succ c =>
      obtain ⟨b, hb, hlt⟩ := ha c hc
      have hI : ∀ i, i < l.length → C.inner[u.length + i]? = l[i]? := by
        intro i hi
        rw [← he, List.append_assoc, List.getElem?_append_right (by omega),
          List.getElem?_append_left (by omega), Nat.add_sub_cancel_left]
      rcases Nat.lt_or_ge (c + 1) l.length with h1 | h1
      · have := hu.succ (u.length + c) b (by rw [hI c (by omega)]; exact hb) hlt
          l[c + 1] (by rw [Nat.add_assoc, hI _ h1]; exact List.getElem?_eq_getElem h1)
        rw [List.getElem?_eq_getElem h1]
        unfold isCont at this
        simp
        omega
      · have : c + 1 = l.length := by omega
        simp [this]

/-! ## Separated lists -/

/-- Rule for the tail of `separated_list` that keeps the order of elements. -/
theorem Ctx.Ok.sepLoopT {α β} {sep : P β} {p : P α} {I : Span → Prop}
    {T : Span → List α → Span → Prop}
    (h : ∀ s, I s → C.Ok (sep s) (fun s1 _ => Step s s1 ∧ (s.start < s1.start →
      C.Ok (p s1) (fun s2 a => Step s1 s2 ∧ I s2 ∧ ∀ as s3, T s2 as s3 → T s (a :: as) s3))))
    (hnil : ∀ s, I s → T s [] s)
    (n : Nat) (s : Span) (hs : I s) (hle : s.start ≤ s.stop) (hn : s.stop - s.start < n) :
    C.Ok (P.sepLoop sep p n s) (fun s' as => Step s s' ∧ I s' ∧ T s as s') := by
  induction n generalizing s with
  | zero => omega
  | succ n ih =>
    unfold P.sepLoop
    have hp := h s hs
    cases hps : sep s with
    | err => simp only [Ctx.Ok]; exact ⟨Step.refl hle, hs, hnil s hs⟩
    | panic r => rw [hps] at hp; exact hp
    | diverge => rw [hps] at hp; exact hp
    | ok s1 b =>
      rw [hps] at hp
      simp only [Ctx.Ok] at hp
      obtain ⟨st, hp⟩ := hp
      simp only
      split
      · simp [Ctx.Ok]
      · rename_i hne
        have hlt : s.start < s1.start := by
          have := st.le
          rcases Nat.lt_or_ge s.start s1.start with h | h
          · exact h
          · exact absurd (st.eq_of_start (by omega)) hne
        have hp := hp hlt
        cases hpp : p s1 with
        | err => simp only [Ctx.Ok]; exact ⟨Step.refl hle, hs, hnil s hs⟩
        | panic r => rw [hpp] at hp; exact hp
        | diverge => rw [hpp] at hp; exact hp
        | ok s2 a =>
          rw [hpp] at hp
          obtain ⟨st2, hI2, hR⟩ := hp
          have hst := st.stop
          have hst2 := st2.stop
          have hhi := st2.hi
          have hle2 := st2.le
          have := ih s2 hI2 (by omega) (by omega)
          simp only
          cases hm : P.sepLoop sep p n s2 with
          | ok s3 as =>
            rw [hm] at this
            simp only [Ctx.Ok] at this ⊢
            exact ⟨(st.trans st2).trans this.1, this.2.1, hR as s3 this.2.2⟩
          | err => simp [Ctx.Ok]
          | panic r => rw [hm] at this; exact this
          | diverge => rw [hm] at this; exact this

theorem Ctx.Ok.separatedList1T {α β} {sep : P β} {p : P α} {I : Span → Prop}
    {T : Span → List α → Span → Prop} {s : Span} {Q : Span → List α → Prop}
    (h0 : C.Ok (p s) (fun s2 a => s2.start ≤ s2.stop ∧ I s2 ∧
      ∀ as s3, Step s2 s3 → I s3 → T s2 as s3 → Q s3 (a :: as)))
    (h : ∀ s, I s → C.Ok (sep s) (fun s1 _ => Step s s1 ∧ (s.start < s1.start →
      C.Ok (p s1) (fun s2 a => Step s1 s2 ∧ I s2 ∧ ∀ as s3, T s2 as s3 → T s (a :: as) s3))))
    (hnil : ∀ s, I s → T s [] s) :
    C.Ok (P.separatedList1 sep p s) Q := by
  unfold P.separatedList1
  refine bind' h0 ?_
  rintro s1 a ⟨hle, hI, hQ⟩
  have hl := sepLoopT h hnil (s1.remainingLen + 1) s1 hI hle (by rw [remainingLen_eq]; omega)
  refine bind' (p := P.sepTail sep p) hl ?_
  rintro s2 as ⟨st2, hI2, hT⟩
  exact pure (hQ as s2 st2 hI2 hT)

theorem Ctx.Ok.separatedList0T {α β} {sep : P β} {p : P α} {I : Span → Prop}
    {T : Span → List α → Span → Prop} {s : Span} {Q : Span → List α → Prop}
    (hemp : Q s [])
    (h0 : C.Ok (p s) (fun s2 a => s2.start ≤ s2.stop ∧ I s2 ∧
      ∀ as s3, Step s2 s3 → I s3 → T s2 as s3 → Q s3 (a :: as)))
    (h : ∀ s, I s → C.Ok (sep s) (fun s1 _ => Step s s1 ∧ (s.start < s1.start →
      C.Ok (p s1) (fun s2 a => Step s1 s2 ∧ I s2 ∧ ∀ as s3, T s2 as s3 → T s (a :: as) s3))))
    (hnil : ∀ s, I s → T s [] s) :
    C.Ok (P.separatedList0 sep p s) Q := by
  unfold P.separatedList0
  cases hp : p s with
  | err => exact hemp
  | panic r => rw [hp] at h0; exact h0
  | diverge => rw [hp] at h0; exact h0
  | ok s1 a =>
    rw [hp] at h0
    obtain ⟨hle, hI, hQ⟩ := h0
    have hl := sepLoopT h hnil (s1.remainingLen + 1) s1 hI hle (by rw [remainingLen_eq]; omega)
    simp only
    refine map (p := P.sepTail sep p) (Ctx.Ok.mono hl ?_)
    rintro s2 as ⟨st2, hI2, hT⟩
    exact hQ as s2 st2 hI2 hT

/-! ## Code blocks -/

/-- No newline from `a` to `b`. -/
def NoNl (C : Ctx) (a b : Nat) : Prop := ∀ i, a ≤ i → i < b → C.inner[i]? ≠ some 10

theorem NoNl.trans {a b c : Nat} (h1 : NoNl C a b) (h2 : NoNl C b c) : NoNl C a c := by
  intro i i1 i2
  rcases Nat.lt_or_ge i b with h | h
  · exact h1 i i1 h
  · exact h2 i h i2

theorem NoNl.refl {a : Nat} : NoNl C a a := by
  intro i i1 i2; omega

theorem Took.noNl {f : Byte → Bool} {s s' : Span} (h : Took C f s s') (hf : f 10 = false) :
    NoNl C s.start s'.start := by
  intro i i1 i2 hb
  rw [h.all i 10 i1 i2 hb] at hf
  cases hf

theorem Clear.noNl' {pats : List Str} {s s' : Span} (h : Clear C pats s s') :
    NoNl C s.start s'.start := fun i i1 i2 => (h i i1 i2).1

theorem noNl_tag {a stop : Nat} {t : Str} (h : AtIn C.inner stop a t) (ht : 10 ∉ t) {b : Nat}
    (hb : b = a + t.length) : NoNl C a b := by
  intro i i1 i2 hx
  have := h.2.getElem? (i - a) (by omega)
  rw [show a + (i - a) = i by omega, hx] at this
  exact ht (List.mem_of_getElem? this.symm)

/-- The opening line of a block between fences: `n` blanks, the marker and the
rest of the line up to `e`. -/
structure FenceStart (C : Ctx) (marker : Str) (s s' : Span) (n e : Nat) : Prop where
  blanks : Blanks C s.start (s.start + n)
  mark : AtIn C.inner s.stop (s.start + n) marker
  le : s.start + n + marker.length ≤ e
  noNl : NoNl C s.start e
  eol : EolAt C { s with start := e } s'

theorem sub_one {t : Str} {a : Nat} {b : Byte} (h : t[a]? = some b) : sub t a (a + 1) = [b] := by
  apply List.ext_getElem?
  intro i
  rw [sub_getElem?]
  rcases i with _ | i
  · rw [if_pos (by omega), Nat.add_zero, h]; rfl
  · rw [if_neg (by omega)]; rfl

theorem clear_one {s s' : Span} {b : Byte} (h : Clear C [[b]] s s') (hs : s'.start ≤ s.stop) :
    b ∉ sub C.inner s.start s'.start := by
  intro hm
  obtain ⟨i, h1, h2, h3⟩ := mem_sub.1 hm
  exact (h i h1 h2).2 [b] (by simp) ⟨by simp only [List.length_cons, List.length_nil]; omega, at_singleton.2 h3⟩

theorem codePair_ok {s : Span} (h : C.In k s) :
    C.Ok (separatedPair (strOf (takeLineUntil1 b!"=")) (char c!"=")
      (delimited (char c!"\"") (strOf (takeLineUntil b!"\"")) (char c!"\"")) s)
      (fun s' e => C.Good s s' ∧ s.start < s'.start ∧ NoNl C s.start s'.start ∧
        (IsStr C s.start s'.start e.1 ∧ IsStr C s.start s'.start e.2) ∧
        sub C.inner s.start s'.start = pairText e ∧
        e.1 ≠ [] ∧ c!"=" ∉ e.1 ∧ c!"\"" ∉ e.2) := by
  refine Ctx.Ok.separatedPair (strOf_rule ((takeLineUntil1_good h _ (patOk_1 _ (by decide))).mono ?_))
  rintro s1 o1 ⟨hsp1, ⟨hc1, _⟩, hlt1⟩
  have h1 := h.good hsp1.good
  refine (char_good h1 _).mono ?_
  rintro s2 _ ⟨g2, hs2, _, hb2, _⟩
  have h2 := h1.good g2
  refine Ctx.Ok.delimited ((char_good h2 _).mono ?_)
  rintro s3 _ ⟨g3, hs3, _, hb3, _⟩
  have h3 := h2.good g3
  refine strOf_rule ((takeLineUntil_good h3 _ (patOk_1 _ (by decide))).mono ?_)
  rintro s4 o4 ⟨hsp4, hc4, _⟩
  have h4 := h3.good hsp4.good
  refine (char_good h4 _).mono ?_
  rintro s5 _ ⟨g5, hs5, _, hb5, _⟩
  have l1 := hsp1.good.step.le
  have l4 := hsp4.good.step.le
  have one : ∀ {t t' : Span} {b : Byte}, C.inner[t.start]? = some b → b ≠ 10 →
      t'.start = t.start + 1 → NoNl C t.start t'.start := by
    intro t t' b hb hne he i i1 i2 hx
    have : i = t.start := by omega
    subst this
    rw [hb] at hx; cases hx; exact hne rfl
  refine ⟨(((hsp1.good.trans g2).trans g3).trans hsp4.good).trans g5, by omega,
    (((hc1.noNl'.trans (one hb2 (by decide) hs2)).trans (one hb3 (by decide) hs3)).trans
      hc4.noNl').trans (one hb5 (by decide) hs5), ⟨?_, ?_⟩, ?_, ?_, ?_, ?_⟩
  · exact (IsStr.split h hsp1).mono (Nat.le_refl _) (by omega)
  · exact (IsStr.split h3 hsp4).mono (by omega) (by omega)
  · rw [hsp1.rem h.wf, hsp4.rem h3.wf, pairText]
    have e1 := sub_append C.inner s.start s1.start s5.start l1 (by omega)
    have e2 := sub_append C.inner s1.start s2.start s5.start (by omega) (by omega)
    have e3 := sub_append C.inner s2.start s3.start s5.start (by omega) (by omega)
    have e4 := sub_append C.inner s3.start s4.start s5.start (by omega) (by omega)
    have f2 := sub_one hb2
    have f3 := sub_one hb3
    have f5 := sub_one hb5
    rw [← hs2] at f2
    rw [← hs3] at f3
    rw [← hs5] at f5
    rw [← e1, ← e2, ← e3, ← e4, f2, f3, f5]
    simp
  · intro e0
    have := congrArg List.length ((hsp1.rem h.wf).symm.trans e0)
    rw [sub_length _ _ _ (by have := h1.wf.le; have := h1.wf.hi; omega)] at this
    simp at this
    omega
  · rw [hsp1.rem h.wf]
    exact clear_one hc1 (by have := hsp1.good.step.stop; have := hsp1.good.step.hi; omega)
  · rw [hsp4.rem h3.wf]
    exact clear_one hc4 (by have := hsp4.good.step.stop; have := hsp4.good.step.hi; omega)

theorem codeBlockStart_ok {s : Span} (h : C.In k s) :
    C.Ok (codeBlockStart s) (fun s' r => C.Good s s' ∧ s.start < s'.start ∧
      (∃ e, FenceStart C b!"{{{" s s' r.1 e ∧ ∃ ps, r.2.2 = Map.collect ps ∧
        CodeHead r.2.1 ps (sub C.inner (s.start + r.1 + 3) e)) ∧
      (∀ l ∈ r.2.1, IsStr C s.start s'.start l) ∧
      (∀ e ∈ r.2.2, IsStr C s.start s'.start e.1 ∧ IsStr C s.start s'.start e.2)) := by
  refine Ctx.Ok.bind' (indentSize_ok h) ?_
  rintro s1 n ⟨g1, ht1, hs1⟩
  have h1 := h.good g1
  refine Ctx.Ok.bind' (tag_good h1 _) ?_
  rintro s2 _ ⟨hsp2, hs2, hat⟩
  have h2 := h1.good hsp2.good
  have n2 : NoNl C s.start s2.start :=
    (ht1.noNl (by decide)).trans (noNl_tag hat (by decide) hs2)
  simp only [List.length_cons, List.length_nil] at hs2
  refine Ctx.Ok.bind' (Ctx.Ok.opt (Q := fun s3 l => C.Good s2 s3 ∧ NoNl C s2.start s3.start ∧
    (∀ x ∈ l, IsStr C s2.start s3.start x) ∧ sub C.inner s2.start s3.start = l.getD [] ∧
    ∀ x, l = some x → x ≠ [] ∧ 32 ∉ x ∧ c!"=" ∉ x) (strOf_rule (Ctx.Ok.verify
      ((takeLineUntil1_good h2 _ (patOk_1 _ (by decide))).mono ?_))) ?_) ?_
  · rintro s3 o ⟨hsp, ⟨hc, _⟩, hlt⟩ hv
    have ho : o.asRemaining = sub C.inner s2.start s3.start := hsp.rem h2.wf
    refine ⟨hsp.good, hc.noNl', ?_, ho.symm, ?_⟩
    · intro x hx
      cases hx
      exact IsStr.split h2 hsp
    · intro x hx
      cases hx
      refine ⟨fun e0 => ?_, ?_, ?_⟩
      · have := congrArg List.length (ho.symm.trans e0)
        have hw := (h2.good hsp.good).wf
        rw [sub_length _ _ _ (by have := hw.le; have := hw.hi; omega)] at this
        simp at this
        omega
      · rw [ho]; exact clear_one hc (by have := hsp.good.step.stop; have := hsp.good.step.hi; omega)
      · simpa using hv
  · intro _
    exact ⟨Ctx.Good.refl h2, NoNl.refl, by simp, by rw [sub_self]; rfl, by simp⟩
  rintro s3 lang ⟨g3, n3, hlang, hlt, hlok⟩
  have h3 := h2.good g3
  refine Ctx.Ok.bind' (space0_good h3) ?_
  rintro s4 _ ⟨hsp4, ht4⟩
  have h4 := h3.good hsp4.good
  refine Ctx.Ok.bind' (Ctx.Ok.separatedList0T (I := fun t => C.In k t ∧ Step s4 t)
    (T := fun t as t' => C.Good t t' ∧ NoNl C t.start t'.start ∧
      (∀ e ∈ as, IsStr C t.start t'.start e.1 ∧ IsStr C t.start t'.start e.2) ∧
      (∀ p, PairList (p :: as) (pairText p ++ sub C.inner t.start t'.start)) ∧
      ∀ e ∈ as, e.1 ≠ [] ∧ c!"=" ∉ e.1 ∧ c!"\"" ∉ e.2)
    (Q := fun s5 ps => C.Good s4 s5 ∧ NoNl C s4.start s5.start ∧
      (∀ e ∈ ps, IsStr C s4.start s5.start e.1 ∧ IsStr C s4.start s5.start e.2) ∧
      PairList ps (sub C.inner s4.start s5.start) ∧
      ∀ e ∈ ps, e.1 ≠ [] ∧ c!"=" ∉ e.1 ∧ c!"\"" ∉ e.2) ?_ ?_ ?_ ?_) ?_
  · exact ⟨Ctx.Good.refl h4, NoNl.refl, by simp, by rw [sub_self]; exact .nil, by simp⟩
  · refine (codePair_ok h4).mono ?_
    rintro t e ⟨g, _, nn, he, htx, hok⟩
    have ht := h4.good g
    refine ⟨ht.wf.le, ⟨ht, g.step⟩, ?_⟩
    rintro as t' st _ ⟨g', nn', has, hpl, hoks⟩
    refine ⟨g.trans g', nn.trans nn', ?_, ?_, ?_⟩
    · intro x hx
      rcases List.mem_cons.1 hx with rfl | hx
      · exact ⟨he.1.mono (Nat.le_refl _) st.le, he.2.mono (Nat.le_refl _) st.le⟩
      · exact ⟨(has x hx).1.mono g.step.le (Nat.le_refl _), (has x hx).2.mono g.step.le (Nat.le_refl _)⟩
    · rw [← sub_append _ _ _ _ g.step.le g'.step.le, htx]
      exact hpl e
    · intro x hx
      rcases List.mem_cons.1 hx with rfl | hx
      · exact hok
      · exact hoks x hx
  · rintro t ⟨ht, hst⟩
    refine (space1_good ht).mono ?_
    rintro t1 _ ⟨hsp, htk, hlt1⟩
    refine ⟨hsp.good.step, fun _ => ?_⟩
    have ht1' := ht.good hsp.good
    refine (codePair_ok ht1').mono ?_
    rintro t2 e ⟨g, _, nn, he, htx, hok⟩
    refine ⟨g.step, ⟨ht1'.good g, hst.trans (hsp.good.trans g).step⟩, ?_⟩
    rintro as t' ⟨g', nn', has, hpl, hoks⟩
    have l1 := hsp.good.step.le
    have l2 := g.step.le
    have l3 := g'.step.le
    refine ⟨(hsp.good.trans g).trans g', ((htk.noNl (by decide)).trans nn).trans nn', ?_, ?_, ?_⟩
    · intro x hx
      rcases List.mem_cons.1 hx with rfl | hx
      · exact ⟨he.1.mono (by omega) (by omega), he.2.mono (by omega) (by omega)⟩
      · exact ⟨(has x hx).1.mono (by omega) (by omega), (has x hx).2.mono (by omega) (by omega)⟩
    · intro p
      rw [← sub_append _ _ _ _ l1 (by omega), ← sub_append _ _ _ _ l2 l3, htx, ← List.append_assoc]
      refine .cons ?_ (Blanks.allBlank fun i b => htk.all i b) (hpl e)
      intro e0
      have := congrArg List.length e0
      rw [sub_length _ _ _ (by have := ht1'.wf.le; have := ht1'.wf.hi; omega)] at this
      simp at this
      omega
    · intro x hx
      rcases List.mem_cons.1 hx with rfl | hx
      · exact hok
      · exact hoks x hx
  · rintro t ⟨ht, _⟩
    exact ⟨Ctx.Good.refl ht, NoNl.refl, by simp, fun p => by rw [sub_self, List.append_nil]; exact .one, by simp⟩
  rintro s5 pairs ⟨g5, n5, hpairs, hpl, hoks⟩
  have h5 := h4.good g5
  refine Ctx.Ok.bind' (space0_good h5) ?_
  rintro s6 _ ⟨hsp6, ht6⟩
  have h6 := h5.good hsp6.good
  refine Ctx.Ok.bind' (endOfLine_full h6) ?_
  intro s7 _ he
  have l3 := g3.step.le
  have l4 := hsp4.good.step.le
  have l5 := g5.step.le
  have l6 := hsp6.good.step.le
  have l7 := he.good.step.le
  have g6 := ((((g1.trans hsp2.good).trans g3).trans hsp4.good).trans g5).trans hsp6.good
  refine Ctx.Ok.pure ⟨g6.trans he.good, by omega, ⟨s6.start, ⟨?_, ?_, ?_, ?_, ?_⟩, pairs, rfl,
    sub C.inner s3.start s4.start, sub C.inner s4.start s5.start, sub C.inner s5.start s6.start, ?_,
    Blanks.allBlank fun i b => ht4.all i b, Blanks.allBlank fun i b => ht6.all i b, hpl, hoks, hlok⟩, ?_, ?_⟩
  · intro i x i1 i2 hx
    exact ht1.all i x i1 (by omega) hx
  · show AtIn _ _ (s.start + n) _
    rw [← hs1, ← g1.step.stop]; exact hat
  · show s.start + n + 3 ≤ s6.start
    omega
  · exact (((n2.trans n3).trans (ht4.noNl (by decide))).trans n5).trans (ht6.noNl (by decide))
  · have := step_eq g6.step
    rw [this] at he
    exact he
  · rw [← hlt, show s.start + n + 3 = s2.start by omega, sub_append _ _ _ _ l3 l4,
      sub_append _ _ _ _ (by omega) l5, sub_append _ _ _ _ (by omega) l6]
  · intro x hx
    exact (hlang x hx).mono (by omega) (by omega)
  · intro x hx
    have := hpairs x (mem_collect hx)
    exact ⟨this.1.mono (by omega) (by omega), this.2.mono (by omega) (by omega)⟩

/-- A block of lines between fences: `a` is where the lines begin and `b` where
the closing fence line begins. -/
structure Fenced (C : Ctx) (op cl : Str) (s s' : Span) (ls : List Str)
    (raw : List Str) (a b n m : Nat) : Prop where
  open_ : ∃ e, FenceStart C op s { s with start := a } n e
  lines : ∀ rest rs, LinesOf rest rs → LinesOf (sub C.inner a b ++ rest) (raw ++ rs)
  notClosed : ∀ l ∈ raw, ¬ IsFence cl l
  dedent : All2 (fun x y => dedentLine (min n m) x = some y) raw ls
  close : ∃ e, FenceEnd C cl { s with start := b } s' m e

theorem forall_all2 {α β} {R : α → β → Prop} {P : α → Prop} {Q : β → Prop} {l : List α} {r : List β}
    (h : All2 R l r) (hp : ∀ x ∈ l, P x) (hi : ∀ x y, P x → R x y → Q y) : ∀ y ∈ r, Q y := by
  induction h with
  | nil => simp
  | cons hxy _ ih =>
    intro y hy
    rcases List.mem_cons.1 hy with rfl | hy
    · exact hi _ _ (hp _ (by simp)) hxy
    · exact ih (fun x hx => hp x (by simp [hx])) y hy

theorem LinesOf.last_start {t : Str} {ls : List Str} (h : LinesOf t ls) :
    t.getLast? ≠ some 10 → ∀ x, ls.getLast? = some x →
      ∃ u, t = u ++ x ∧ (u = [] ∨ u.getLast? = some 10) := by
  induction h with
  | nil => simp
  | last => intro _ x hx; exact ⟨[], by simpa using hx, .inl rfl⟩
  | @lf l rest ls h1 h2 h3 ih =>
    intro ht x hx
    cases ls with
    | nil => cases h3; simp at ht
    | cons y ys =>
      obtain ⟨u, rfl, hu⟩ := ih (fun h => ht (by rw [List.getLast?_append, h]; rfl)) x
        (by simpa using hx)
      refine ⟨l ++ b!"\n" ++ u, by simp, .inr ?_⟩
      rcases hu with rfl | hu
      · simp
      · rw [List.getLast?_append, hu]; rfl
  | @crlf l rest ls h1 h3 ih =>
    intro ht x hx
    cases ls with
    | nil => cases h3; simp at ht
    | cons y ys =>
      obtain ⟨u, rfl, hu⟩ := ih (fun h => ht (by rw [List.getLast?_append, h]; rfl)) x
        (by simpa using hx)
      refine ⟨l ++ b!"\r\n" ++ u, by simp, .inr ?_⟩
      rcases hu with rfl | hu
      · simp
      · rw [List.getLast?_append, hu]; rfl

theorem whole_lines {body : Str} {raw : List Str}
    (h : ∀ rest rs, LinesOf rest rs → LinesOf (body ++ rest) (raw ++ rs)) :
    LinesOf body raw ∧ (body = [] ∨ body.getLast? = some 10) := by
  refine ⟨by simpa using h [] [] .nil, ?_⟩
  obtain ⟨u, hu, h2⟩ := (h [97] [[97]] (.last (by decide) (by decide))).last_start
    (by simp) [97] (by simp)
  rw [List.append_cancel_right hu]
  exact h2

theorem IsFence.closing {cl l : Str} : IsFence cl l ↔ ClosingLine cl l := by
  unfold IsFence ClosingLine AllBlank
  simp only [isSpace_iff]

theorem Fenced.source {s s' : Span} {op cl : Str} {ls raw : List Str} {a b n m : Nat}
    (h : Fenced C op cl s s' ls raw a b n m) (hab : a ≤ b) (hb : b ≤ s'.start)
    (hhi : s'.start ≤ C.inner.length) (hcl : cl ≠ []) :
    FencedSource op cl (sub C.inner s.start s'.start) raw n m := by
  obtain ⟨e1, f1⟩ := h.open_
  obtain ⟨e2, f2⟩ := h.close
  obtain ⟨hl1, hl2⟩ := whole_lines h.lines
  have b1 := f1.blanks
  have b2 := f2.blanks
  have b3 := f2.blanks2
  have m1 := f1.mark.sub_eq
  have m2 := f2.mark.sub_eq
  have le1 := f1.le
  have le2 := f2.le
  have c1 := f1.eol.good.step.le
  have c2 := f2.eol.good.step.le
  have d2 := f2.eol.good.step.stop
  have d3 := f2.eol.good.step.hi
  simp only at b1 b2 b3 m1 m2 le1 le2 c1 c2 d2 d3
  have hclp := List.length_pos_iff.2 hcl
  refine ⟨⟨sub C.inner s.start (s.start + n), sub C.inner (s.start + n + op.length) e1,
    sub C.inner e1 a, sub C.inner a b, sub C.inner b (b + m), sub C.inner (b + m + cl.length) e2,
    sub C.inner e2 s'.start, ?_, b1.allBlank, ?_, ?_, ?_, hl1, hl2, b2.allBlank, ?_, b3.allBlank, ?_⟩,
    fun l hl hc => h.notClosed l hl (IsFence.closing.2 hc)⟩
  · have := sub_append C.inner s.start (s.start + n) s'.start (by omega) (by omega)
    rw [← this]
    have := sub_append C.inner (s.start + n) (s.start + n + op.length) s'.start (by omega) (by omega)
    rw [← this, m1]
    have := sub_append C.inner (s.start + n + op.length) e1 s'.start (by omega) (by omega)
    rw [← this]
    have := sub_append C.inner e1 a s'.start (by omega) (by omega)
    rw [← this]
    have := sub_append C.inner a b s'.start (by omega) (by omega)
    rw [← this]
    have := sub_append C.inner b (b + m) s'.start (by omega) (by omega)
    rw [← this]
    have := sub_append C.inner (b + m) (b + m + cl.length) s'.start (by omega) (by omega)
    rw [← this, m2]
    have := sub_append C.inner (b + m + cl.length) e2 s'.start (by omega) (by omega)
    rw [← this]
    simp only [List.append_assoc]
  · rw [sub_length _ _ _ (by omega)]; omega
  · intro hm
    obtain ⟨i, h1, h2, h3⟩ := mem_sub.1 hm
    exact f1.noNl i (by omega) h2 h3
  · rcases f1.eol.eol with ⟨h1, h2⟩ | ⟨_, _, h3⟩
    · simp only [Span.mk.injEq] at h1 h2
      omega
    · exact h3
  · rw [sub_length _ _ _ (by omega)]; omega
  · rcases f2.eol.eol with ⟨h1, h2⟩ | ⟨_, _, h3⟩
    · left
      rw [h2, sub_self]
    · exact .inr h3

theorem leadingWs_spec {l : Str} (h : ∀ b ∈ l, b < 128) : leadingWs l = leadingBlanks l := by
  rw [leadingWs_ascii h, leadingBlanks]
  congr 2
  funext b
  rw [isWsByte]
  by_cases h1 : 9 ≤ b <;> by_cases h2 : b ≤ 13 <;> by_cases h3 : b = 32 <;> simp_all

theorem dedentLine_spec {n : Nat} {l r : Str} (h : dedentLine n l = some r) (hl : ∀ b ∈ l, b < 128) :
    r = dedent n l := by
  rw [(dedentLine_eq h).1, leadingWs_spec hl, dedent, Nat.min_comm]

theorem All2.imp {α β : Type} {R S : α → β → Prop} {l : List α} {m : List β} (h : All2 R l m)
    (hi : ∀ x y, R x y → S x y) : All2 S l m := by
  induction h with
  | nil => exact .nil
  | cons h _ ih => exact .cons (hi _ _ h) ih

/-- The opening line and the lines of a block between fences. -/
theorem Fenced.text {s s' : Span} {op cl : Str} {ls raw : List Str} {a b n m e : Nat} {P : Str → Prop}
    (h : Fenced C op cl s s' ls raw a b n m) (hab : a ≤ b) (hb : b ≤ s'.start)
    (hhi : s'.start ≤ C.inner.length) (hcl : cl ≠ [])
    (f1 : FenceStart C op s { s with start := a } n e)
    (hp : P (sub C.inner (s.start + n + op.length) e)) :
    FencedText op cl (sub C.inner s.start s'.start) ls P := by
  refine ⟨?_, raw, n, m, h.source hab hb hhi hcl, h.dedent.imp fun l l' h1 h2 => dedentLine_spec h1 h2⟩
  refine ⟨_, ⟨sub C.inner s.start (s.start + n), sub C.inner e a, sub C.inner a s'.start, ?_,
    f1.blanks.allBlank, ?_, ?_⟩, hp⟩
  · have le1 := f1.le
    have c1 := f1.eol.good.step.le
    simp only at c1
    have m1 := f1.mark.sub_eq
    have := sub_append C.inner s.start (s.start + n) s'.start (by omega) (by omega)
    rw [← this]
    have := sub_append C.inner (s.start + n) (s.start + n + op.length) s'.start (by omega) (by omega)
    rw [← this, m1]
    have := sub_append C.inner (s.start + n + op.length) e s'.start (by omega) (by omega)
    rw [← this]
    have := sub_append C.inner e a s'.start (by omega) (by omega)
    rw [← this]
    simp only [List.append_assoc]
  · rcases f1.eol.eol with ⟨h1, h2⟩ | ⟨_, _, h3⟩
    · simp only [Span.mk.injEq] at h1 h2
      obtain ⟨e2, f2⟩ := h.close
      have le2 := f2.le
      have c2 := f2.eol.good.step.le
      have d2 := f2.eol.good.step.stop
      have d3 := f2.eol.good.step.hi
      simp only at le2 c2 d2 d3
      have hclp := List.length_pos_iff.2 hcl
      omega
    · exact h3
  · intro hm
    obtain ⟨i, h1, h2, h3⟩ := mem_sub.1 hm
    exact f1.noNl i (by omega) h2 h3

theorem fenced_ok {α} {s : Span} (h : C.In k s) {op cl : Str} {start : P (Nat × α)}
    {mk : α → List Str → Block} {R : α → Nat → Prop} {H : α → Str → Prop}
    (hcl : cl ≠ []) (hca : ∀ b ∈ cl, b < 128) (hcs : ∀ b, cl.head? = some b → isSpace b = false)
    (hR : ∀ x a b, a ≤ b → R x a → R x b)
    (hstart : C.Ok (start s) (fun s' r => C.Good s s' ∧ s.start < s'.start ∧
      (∃ e, FenceStart C op s s' r.1 e ∧ H r.2 (sub C.inner (s.start + r.1 + op.length) e)) ∧
      R r.2 s'.start))
    (hmk : ∀ x ls b, R x b → (∀ l ∈ ls, IsStr C s.start b l) →
      FencedText op cl (sub C.inner s.start b) ls (H x) → BlockAt C s.depth s.start b (mk x ls)) :
    C.Ok (located (P.bind start fun r =>
      P.bind (many0 (preceded (P.not (fenceEnd cl)) (strOf anyLine))) fun lines =>
      P.bind (fenceEnd cl) fun endIndent =>
      P.bind (dedentLines (min r.1 endIndent) lines) fun lines =>
      P.pure (mk r.2 lines)) s) (fun s' x => BlockRes C s s' x ∧ ∃ y ls raw a b n m,
        x.inner = mk y ls ∧ R y a ∧ x.region.len = s'.start - s.start ∧ s.start ≤ a ∧ a ≤ b ∧
        b ≤ s'.start ∧ s'.start ≤ C.inner.length ∧ Fenced C op cl s s' ls raw a b n m) := by
  refine Ctx.Ok.located ?_
  refine Ctx.Ok.bind' hstart ?_
  rintro s1 r ⟨g1, lt1, ⟨e1, hfs, hH⟩, hr⟩
  have h1 := h.good g1
  refine Ctx.Ok.bind' (rawLines_ok h1 hcl hca hcs) ?_
  intro s2 raw hraw
  have h2 := h1.good hraw.good
  refine Ctx.Ok.bind' (fenceEnd_ok h2 hcl hca) ?_
  rintro s3 m ⟨g3, lt3, he3, e3, hfe⟩
  have h3 := h2.good g3
  refine Ctx.Ok.bind' (dedentLines_ok (s := s3) (min r.1 m) raw ?_) ?_
  · intro l hl
    obtain ⟨_, _, _, _, _, _, _, rfl⟩ := hraw.strs l hl
    exact sub_infix _ _ _
  rintro s4 ls ⟨rfl, hd⟩
  have g12 := g1.trans hraw.good
  have g := g12.trans g3
  have l2 := hraw.good.step.le
  have l3 := g3.step.le
  have hhi := h.wf.hi
  have hhi4 := g.step.hi
  rw [step_eq g1.step] at hfs
  have hfen : Fenced C op cl s s4 ls raw s1.start s2.start r.1 m := by
    refine ⟨⟨e1, hfs⟩, hraw.lines (by have := g3.step.hi; have := hraw.good.step.stop; omega),
      hraw.open_, hd, e3, ?_⟩
    rw [← step_eq g12.step]; exact hfe
  have hblk : BlockAt C s.depth s.start s4.start (mk r.2 ls) := by
    refine hmk _ _ _ (hR _ _ _ (by omega) hr) (forall_all2 hd (P := IsStr C s.start s4.start) ?_ ?_)
      (hfen.text l2 l3 (by omega) hcl hfs hH)
    · intro x hx
      exact (hraw.strs x hx).mono g1.step.le l3
    · intro x y hx hxy
      exact dedentLine_isStr (by omega) hx hxy
  refine Ctx.Ok.pure ⟨g.step, blockRes_whole g (by omega) (he3.of_good g12) hblk, r.2, ls, raw,
    s1.start, s2.start, r.1, m, rfl, hr, rfl, g1.step.le, l2, l3, by omega, hfen⟩

theorem codeBlock_full {s : Span} (h : C.In k s) :
    C.Ok (codeBlock s) (fun s' x => BlockRes C s s' x ∧ ∃ lang m ls raw a b n n',
      x.inner = .code lang m ls ∧ x.region.len = s'.start - s.start ∧
      s.start ≤ a ∧ a ≤ b ∧ b ≤ s'.start ∧ s'.start ≤ C.inner.length ∧ Fenced C b!"{{{" b!"}}}" s s' ls raw a b n n') := by
  refine Ctx.Ok.mono (fenced_ok h (op := b!"{{{") (cl := b!"}}}") (start := codeBlockStart)
    (mk := fun (lang, m) ls => .code lang m ls) (R := fun y b =>
      (∀ l ∈ y.1, IsStr C s.start b l) ∧ ∀ e ∈ y.2, IsStr C s.start b e.1 ∧ IsStr C s.start b e.2)
    (H := fun y hd => ∃ ps, y.2 = Map.collect ps ∧ CodeHead y.1 ps hd)
    (by decide) (by decide) (by decide) ?_ (codeBlockStart_ok h) ?_) ?_
  · rintro x a b hab ⟨h1, h2⟩
    exact ⟨fun l hl => (h1 l hl).mono (Nat.le_refl _) hab, fun e he =>
      ⟨(h2 e he).1.mono (Nat.le_refl _) hab, (h2 e he).2.mono (Nat.le_refl _) hab⟩⟩
  · rintro ⟨lang, m⟩ ls b ⟨h1, h2⟩ h3 h4
    exact .code h1 h2 h3 h4
  · rintro s' x ⟨hb, ⟨lang, m⟩, ls, raw, a, b, n, n', he, _, hf⟩
    exact ⟨hb, lang, m, ls, raw, a, b, n, n', he, hf⟩

theorem codeBlock_ok {s : Span} (h : C.In k s) : C.Ok (codeBlock s) (BlockRes C s) :=
  (codeBlock_full h).mono fun _ _ h => h.1

/-! ## Math blocks -/

theorem mathBlockStart_ok {s : Span} (h : C.In k s) :
    C.Ok (mathBlockStart s) (fun s' r => C.Good s s' ∧ s.start < s'.start ∧
      (∃ e, FenceStart C b!"{{$" s s' r.1 e ∧ MathHead r.2 (sub C.inner (s.start + r.1 + 3) e)) ∧
      (∀ l ∈ r.2, IsStr C s.start s'.start l)) := by
  refine Ctx.Ok.bind' (indentSize_ok h) ?_
  rintro s1 n ⟨g1, ht1, hs1⟩
  have h1 := h.good g1
  refine Ctx.Ok.bind' (tag_good h1 _) ?_
  rintro s2 _ ⟨hsp2, hs2, hat⟩
  have h2 := h1.good hsp2.good
  have n2 : NoNl C s.start s2.start :=
    (ht1.noNl (by decide)).trans (noNl_tag hat (by decide) hs2)
  simp only [List.length_cons, List.length_nil] at hs2
  refine Ctx.Ok.bind' (Ctx.Ok.opt (Q := fun s3 l => C.Good s2 s3 ∧ NoNl C s2.start s3.start ∧
    (∀ x ∈ l, IsStr C s2.start s3.start x) ∧ sub C.inner s2.start s3.start = envText l ∧
    ∀ e, l = some e → e ≠ [] ∧ c!"%" ∉ e) (strOf_rule (Ctx.Ok.delimited
      ((char_good h2 _).mono ?_))) ?_) ?_
  · rintro t1 _ ⟨gt1, ht1', _, hb1, _⟩
    have hin1 := h2.good gt1
    refine (takeLineUntil1_good hin1 _ (patOk_1 _ (by decide))).mono ?_
    rintro t2 o ⟨hsp, ⟨hc, _⟩, hlt⟩
    refine (char_good (hin1.good hsp.good) _).mono ?_
    rintro t3 _ ⟨gt3, ht3', _, hb3, _⟩
    have l2 := hsp.good.step.le
    have ho : o.asRemaining = sub C.inner t1.start t2.start := hsp.rem hin1.wf
    refine ⟨(gt1.trans hsp.good).trans gt3, ?_, ?_, ?_, ?_⟩
    · refine NoNl.trans (b := t1.start) ?_ (hc.noNl'.trans ?_)
      · intro i i1 i2 hx
        have : i = s2.start := by omega
        subst this; rw [hb1] at hx; cases hx
      · intro i i1 i2 hx
        have : i = t2.start := by omega
        subst this; rw [hb3] at hx; cases hx
    · intro x hx
      cases hx
      exact (IsStr.split hin1 hsp).mono (by omega) (by omega)
    · rw [envText, ho, ← sub_append _ s2.start t1.start t3.start (by omega) (by omega),
        ← sub_append _ t1.start t2.start t3.start l2 (by omega), ht1', sub_one hb1, ← ht1', ht3',
        sub_one hb3]
      simp
    · intro e he
      cases he
      refine ⟨fun e0 => ?_, ?_⟩
      · have := congrArg List.length (ho.symm.trans e0)
        have hw := (hin1.good hsp.good).wf
        rw [sub_length _ _ _ (by have := hw.le; have := hw.hi; omega)] at this
        simp at this
        omega
      · rw [ho]; exact clear_one hc (by have := hsp.good.step.stop; have := hsp.good.step.hi; omega)
  · intro _
    exact ⟨Ctx.Good.refl h2, NoNl.refl, by simp, by rw [sub_self]; rfl, by simp⟩
  rintro s3 e ⟨g3, n3, he3, htx, hok⟩
  have h3 := h2.good g3
  refine Ctx.Ok.bind' (space0_good h3) ?_
  rintro s4 _ ⟨hsp4, ht4⟩
  have h4 := h3.good hsp4.good
  refine Ctx.Ok.bind' (lineEnding_full h4) ?_
  rintro s5 _ ⟨g5, lt5, hle5, hnl5, hall5⟩
  have l3 := g3.step.le
  have l4 := hsp4.good.step.le
  have g4 := ((g1.trans hsp2.good).trans g3).trans hsp4.good
  refine Ctx.Ok.pure ⟨g4.trans g5, by omega, ⟨s4.start, ⟨?_, ?_, ?_, ?_, ?_⟩,
    sub C.inner s3.start s4.start, ?_, Blanks.allBlank fun i b => ht4.all i b, hok⟩, ?_⟩
  · intro i x i1 i2 hx
    exact ht1.all i x i1 (by omega) hx
  · show AtIn _ _ (s.start + n) _
    rw [← hs1, ← g1.step.stop]; exact hat
  · show s.start + n + 3 ≤ s4.start
    omega
  · exact (n2.trans n3).trans (ht4.noNl (by decide))
  · rw [← step_eq g4.step]
    exact ⟨g5, .inr hnl5, .inr ⟨lt5, hle5, hall5⟩⟩
  · rw [← htx, show s.start + n + 3 = s2.start by omega, sub_append _ _ _ _ l3 l4]
  · intro x hx
    exact (he3 x hx).mono (by omega) (by omega)

theorem mathBlock_full {s : Span} (h : C.In k s) :
    C.Ok (mathBlock s) (fun s' x => BlockRes C s s' x ∧ ∃ ls e raw a b n n',
      x.inner = .math ls e ∧ x.region.len = s'.start - s.start ∧
      s.start ≤ a ∧ a ≤ b ∧ b ≤ s'.start ∧ s'.start ≤ C.inner.length ∧ Fenced C b!"{{$" b!"}}$" s s' ls raw a b n n') := by
  refine Ctx.Ok.mono (fenced_ok h (op := b!"{{$") (cl := b!"}}$") (start := mathBlockStart)
    (mk := fun e ls => .math ls e) (R := fun y b => ∀ l ∈ y, IsStr C s.start b l)
    (H := MathHead) (by decide) (by decide) (by decide) ?_ (mathBlockStart_ok h) ?_) ?_
  · rintro x a b hab h1
    exact fun l hl => (h1 l hl).mono (Nat.le_refl _) hab
  · rintro e ls b h1 h3 h4
    exact .math h3 h1 h4
  · rintro s' x ⟨hb, e, ls, raw, a, b, n, n', he, _, hf⟩
    exact ⟨hb, ls, e, raw, a, b, n, n', he, hf⟩

theorem mathBlock_ok {s : Span} (h : C.In k s) : C.Ok (mathBlock s) (BlockRes C s) :=
  (mathBlock_full h).mono fun _ _ h => h.1

/-! ## Placeholders -/

theorem placeholderText_ok {s : Span} (h : C.In k s) :
    C.Ok (placeholderText s) (fun s' v => C.Good s s' ∧ IsStr C s.start s'.start v ∧
      NoNl C s.start s'.start ∧ v = sub C.inner s.start s'.start) := by
  refine strOf_rule (Ctx.Ok.verify ((takeUntilEol_good h).mono ?_))
  rintro s' o ⟨hsp, hc, _⟩ _
  exact ⟨hsp.good, IsStr.split h hsp, hc.noNl', hsp.rem h.wf⟩

/-- Outcome of the part of a placeholder before the line ending. -/
def PlaceRes (C : Ctx) (s s' : Span) (p : Placeholder) : Prop :=
  C.Good s s' ∧ s.start < s'.start ∧ ∀ d, BlockAt C d s.start s'.start (.placeholder p)

/-- Blanks and the rest of the line. -/
theorem value_of {s s1 s2 : Span} (h : C.In k s) (t : Took C isSpace s s1) (g1 : C.Good s s1)
    (lt : s.start < s1.start) (g2 : C.Good s1 s2) (hn : NoNl C s1.start s2.start) :
    Value (sub C.inner s.start s2.start) (sub C.inner s1.start s2.start) := by
  have l1 := g1.step.le
  have l2 := g2.step.le
  have h2 := (h.good g1).good g2
  have := h2.wf.le
  have e1 := g1.step.stop
  have e2 := g2.step.stop
  refine ⟨sub C.inner s.start s1.start, ?_, ?_, (sub_append _ _ _ _ l1 l2).symm, ?_, ?_⟩
  · intro e
    obtain ⟨b, hb⟩ := Wf_get h2.wf (i := s.start) (by omega)
    have : b ∈ sub C.inner s.start s1.start := mem_sub.2 ⟨_, Nat.le_refl _, lt, hb⟩
    rw [e] at this; cases this
  · intro x hx
    obtain ⟨i, i1, i2, i3⟩ := mem_sub.1 hx
    exact isSpace_iff.1 (t.all i x i1 i2 i3)
  · intro hx
    obtain ⟨i, i1, i2, i3⟩ := mem_sub.1 hx
    exact hn i i1 i2 i3
  · intro x hx
    rw [List.head?_eq_getElem?, sub_getElem?] at hx
    split at hx
    · have := t.stop x (by omega) (by simpa using hx)
      rw [← isSpace_iff, this]; simp
    · cases hx

theorem placeholderTagged_ok {s : Span} (h : C.In k s) {t : Str} (ht : t ≠ [])
    (hta : ∀ b ∈ t, b < 128)
    {mk : Str → Placeholder} (hmk : ∀ d a b v, IsStr C a b v →
      (∃ w, sub C.inner a b = t ++ w ∧ Value w v) → BlockAt C d a b (.placeholder (mk v))) :
    C.Ok ((P.bind (tag t) fun _ => P.bind space1 fun _ => P.map placeholderText mk) s)
      (PlaceRes C s) := by
  have hlen : 0 < t.length := List.length_pos_iff.2 ht
  refine Ctx.Ok.bind' (tag_good h _ ht hta) ?_
  rintro s1 _ ⟨hsp1, hs1, hat⟩
  have h1 := h.good hsp1.good
  refine Ctx.Ok.bind' (space1_good h1) ?_
  rintro s2 _ ⟨hsp2, htk, hlt⟩
  have h2 := h1.good hsp2.good
  refine Ctx.Ok.map ((placeholderText_ok h2).mono ?_)
  rintro s3 v ⟨g3, hv, hnl, rfl⟩
  have l2 := hsp2.good.step.le
  have l3 := g3.step.le
  refine ⟨(hsp1.good.trans hsp2.good).trans g3, by omega, fun d => hmk d _ _ _
    (hv.mono (by omega) (Nat.le_refl _)) ⟨sub C.inner s1.start s3.start, ?_,
      value_of h1 htk hsp2.good hlt g3 hnl⟩⟩
  rw [← sub_append C.inner s.start s1.start s3.start (by omega) (by omega), hs1, at_iff_sub.1 hat.2]

theorem placeholder_ok {s : Span} (h : C.In k s) : C.Ok (placeholder C.env s) (BlockRes C s) := by
  refine bol_rule h fun _ => ?_
  refine Ctx.Ok.bind' (Q1 := fun s' (x : Located Block) => C.Good s s' ∧ s.start < s'.start ∧
      x.region = ⟨s.start, s'.start - s.start, s.depth⟩ ∧
      BlockAt C s.depth s.start s'.start x.inner ∧ ∃ p, x.inner = .placeholder p)
    (Ctx.Ok.located (Ctx.Ok.map (Ctx.Ok.mono (Q := PlaceRes C s) ?_ ?_))) ?_
  · refine Ctx.Ok.alts_cons ?_ (Ctx.Ok.alts_cons ?_ (Ctx.Ok.alts_cons ?_ (Ctx.Ok.alts_cons ?_
      (Ctx.Ok.alts_cons ?_ Ctx.Ok.alts_nil))))
    · exact placeholderTagged_ok h (by decide) (by decide) (mk := .title)
        fun _ _ _ _ hv ⟨w, e, hw⟩ => .title hv (by rw [e]; exact .title hw)
    · refine Ctx.Ok.bind' (tag_good h _) ?_
      rintro s1 _ ⟨hsp1, hs1, hat⟩
      have h1 := h.good hsp1.good
      refine Ctx.Ok.bind' (space0_good h1) ?_
      rintro s2 _ ⟨hsp2, htk⟩
      have := hsp2.good.step.le
      have hat := at_iff_sub.1 hat.2
      rw [← hs1] at hat
      simp only [List.length_cons, List.length_nil] at hs1
      refine Ctx.Ok.pure ⟨hsp1.good.trans hsp2.good, by omega, fun _ => .noHtml ?_⟩
      rw [← sub_append C.inner s.start s1.start s2.start (by omega) (by omega), hat]
      refine .noHtml fun x hx => ?_
      obtain ⟨i, i1, i2, i3⟩ := mem_sub.1 hx
      exact isSpace_iff.1 (htk.all i x i1 i2 i3)
    · exact placeholderTagged_ok h (by decide) (by decide) (mk := .template)
        fun _ _ _ _ hv ⟨w, e, hw⟩ => .template hv (by rw [e]; exact .template hw)
    · refine Ctx.Ok.bind' (tag_good h _) ?_
      rintro s1 _ ⟨hsp1, hs1, hat⟩
      have h1 := h.good hsp1.good
      refine Ctx.Ok.bind' (space1_good h1) ?_
      rintro s2 _ ⟨hsp2, htk, hlt⟩
      have h2 := h1.good hsp2.good
      have := hsp2.good.step.le
      have hat := at_iff_sub.1 hat.2
      rw [← hs1] at hat
      simp only [List.length_cons, List.length_nil] at hs1
      refine Ctx.Ok.map (Ctx.Ok.mapOpt ((takeUntilEol_good h2).mono ?_))
      rintro s3 o ⟨hsp3, hc, _⟩ d hd
      have := hsp3.good.step.le
      refine ⟨(hsp1.good.trans hsp2.good).trans hsp3.good, by omega, fun _ => .date ?_⟩
      rw [← sub_append C.inner s.start s1.start s3.start (by omega) (by omega), hat]
      rw [hsp3.rem h2.wf] at hd
      exact .date (value_of h1 htk hsp2.good hlt hsp3.good hc.noNl') hd
    · unfold placeholderOther
      have hnot : ∀ {β} {t : Str} {f : Unit → P β} {Q : Span → β → Prop}, t ≠ [] →
          (∀ b ∈ t, b < 128) → (¬ AtIn C.inner s.stop s.start t → C.Ok (f () s) Q) →
          C.Ok (P.bind (P.not (tag t)) f s) Q := by
        intro β t f Q h1 h2 hf
        exact Ctx.Ok.bind (Ctx.Ok.not ((tag_good h t h1 h2).mono fun _ _ _ => trivial)
          fun he => hf (tag_err h.wf t h1 he))
      refine hnot (by decide) (by decide) fun n1 => (hnot (by decide) (by decide) fun n2 =>
        (hnot (by decide) (by decide) fun n3 => (hnot (by decide) (by decide) fun n4 => ?_)))
      refine Ctx.Ok.bind' (tag_good h _) ?_
      rintro s1 _ ⟨hsp1, hs1, hat⟩
      have h1 := h.good hsp1.good
      have hat := at_iff_sub.1 hat.2
      rw [← hs1] at hat
      simp only [List.length_cons, List.length_nil] at hs1
      refine Ctx.Ok.bind' (Q1 := fun s2 n => C.Good s1 s2 ∧ IsStr C s1.start s2.start n ∧
          s1.start < s2.start ∧ Clear C [b!" ", b!"\t", b!"%"] s1 s2 ∧ n = sub C.inner s1.start s2.start)
        (strOf_rule ((takeLineUntil31_good h1 _ _ _ (patOk_1 _ (by decide))
        (patOk_1 _ (by decide)) (patOk_1 _ (by decide))).mono ?_)) ?_
      · rintro s2 o ⟨hsp2, ⟨hc, _⟩, lt⟩
        exact ⟨hsp2.good, IsStr.split h1 hsp2, lt, hc, hsp2.rem h1.wf⟩
      rintro s2 n ⟨g2, hn, lt2, hc, rfl⟩
      have h2 := h1.good g2
      refine Ctx.Ok.bind' (space1_good h2) ?_
      rintro s3 _ ⟨hsp3, htk, hlt⟩
      have h3 := h2.good hsp3.good
      refine Ctx.Ok.map ((placeholderText_ok h3).mono ?_)
      rintro s4 v ⟨g4, hv, hnl, rfl⟩
      have l2 := g2.step.le
      have l3 := hsp3.good.step.le
      have l4 := g4.step.le
      refine ⟨((hsp1.good.trans g2).trans hsp3.good).trans g4, by omega, fun d =>
        .other (hn.mono (by omega) (by omega)) (hv.mono (by omega) (Nat.le_refl _)) ?_⟩
      rw [← sub_append C.inner s.start s1.start s4.start (by omega) (by omega), hat,
        ← sub_append C.inner s1.start s2.start s4.start (by omega) (by omega)]
      have w2 := h2.wf.le
      have e1 := hsp1.good.step.stop
      have e2 := g2.step.stop
      refine .other ⟨?_, ?_, ?_⟩ (value_of h2 htk hsp3.good hlt g4 hnl)
      · intro e
        obtain ⟨b, hb⟩ := Wf_get h2.wf (i := s1.start) (by omega)
        have : b ∈ sub C.inner s1.start s2.start := mem_sub.2 ⟨_, Nat.le_refl _, lt2, hb⟩
        rw [e] at this; cases this
      · intro x hx
        obtain ⟨i, i1, i2, i3⟩ := mem_sub.1 hx
        obtain ⟨c1, c2⟩ := hc i i1 i2
        have one : ∀ c, [c] ∈ [b!" ", b!"\t", b!"%"] → x ≠ c := by
          rintro c hc rfl
          exact c2 _ hc ⟨by simp only [List.length_cons, List.length_nil]; omega, at_singleton.2 i3⟩
        exact ⟨fun e => c1 (e ▸ i3), one _ (by simp), one _ (by simp), one _ (by simp)⟩
      · intro key hk hp
        have all : ∀ key, ¬ AtIn C.inner s.stop s.start (b!"%" ++ key) →
            ¬ key <+: sub C.inner s1.start s2.start := by
          rintro key hna ⟨r, hr⟩
          have hlen := congrArg List.length hr
          have hsl : (sub C.inner s1.start s2.start).length ≤ s2.start - s1.start := by
            simp [sub]; omega
          rw [List.length_append] at hlen
          apply hna
          refine ⟨by simp only [List.length_append, List.length_cons, List.length_nil]; omega, ?_⟩
          rw [at_iff_sub]
          have hs2 : sub C.inner s.start s2.start = b!"%" ++ key ++ r := by
            rw [← sub_append C.inner s.start s1.start s2.start (by omega) (by omega), hat, ← hr,
              List.append_assoc]
          have : sub C.inner s.start (s.start + (b!"%" ++ key).length) =
              (sub C.inner s.start s2.start).take (b!"%" ++ key).length := by
            rw [List.length_append, List.length_cons, List.length_nil]
            apply List.ext_getElem?
            intro i
            rw [List.getElem?_take, sub_getElem?, sub_getElem?]
            split <;> split <;> (try split) <;> first | rfl | omega
          rw [this, hs2, List.take_left']
          rfl
        simp only [List.mem_cons, List.not_mem_nil, or_false] at hk
        rcases hk with rfl | rfl | rfl | rfl
        · exact all _ n1 hp
        · exact all _ n2 hp
        · exact all _ n3 hp
        · exact all _ n4 hp
  · rintro s' p ⟨g, lt, hb⟩
    exact ⟨g.step, g, lt, rfl, hb _, p, rfl⟩
  rintro s1 x ⟨g, lt, hr, hb, hpl⟩
  refine Ctx.Ok.bind' (endOfLine_full (h.good g)) ?_
  intro s2 _ he
  have hl : x.region.len = s1.start - s.start := by rw [hr]
  have hsum : s.start + x.region.len = s1.start := by omega
  have l2 := he.good.step.le
  refine Ctx.Ok.pure ⟨g.trans he.good, by omega, he.ends.of_good g, by omega,
    by rw [hl]; exact hr, ?_, by rw [hsum]; exact hb⟩
  rw [hsum]
  rcases he.eol with ⟨_, h'⟩ | ⟨h1, h2, h3⟩
  · left; rw [h']
  · right; exact ⟨h1, hpl, h3⟩

end Vw
