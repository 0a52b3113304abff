import Verif.Lemmas.BlockRun

/-!
# Blockquotes and definition lists are read back
-/

namespace Vw
open P Scan Fm

variable {env : Env} {ue : Uri → Uri → Bool} {L : OutLib} {cfg : VwCfg} {s s' : Span} {t w r ws : Str} {k : Nat}

/-! ## Blockquotes -/

theorem quote_text {i : Nat} (hp : cfg.preferIndentedQuote = false) :
    ∀ (ls : List Str) (c : Str), (cfg.trimQuote = true → ∀ l ∈ ls, Tight l) →
      quoteFmt cfg ls ⟨c, i, false⟩ = ⟨c ++ quoteText (indentText cfg i) (bol c) ls, i, false⟩ := by
  intro ls
  induction ls with
  | nil => intro c _; simp [quoteFmt, quoteText]
  | cons l ls ih =>
    intro c ht
    unfold quoteFmt
    rw [writeIndent_eq, hp, write_eq]
    have : andTrimIf cfg.trimQuote (write l) ⟨c ++ indentAt cfg i (bol c) ++ (if false = true then b!"    " else b!"> "), i, false⟩ =
        ⟨c ++ indentAt cfg i (bol c) ++ b!"> " ++ l, i, false⟩ := by
      cases hq : cfg.trimQuote with
      | false => rfl
      | true =>
        exact andTrimIf_tight true (Writes.write l) (ht hq l (by simp)) (Whole.of_last (b := 32) (by decide) (by simp))
    rw [this, write_eq, ih _ (fun h x hx => ht h x (by simp [hx]))]
    have : bol (c ++ indentAt cfg i (bol c) ++ b!"> " ++ l ++ b!"\n") = true := by
      unfold bol
      rw [List.getLast?_append]
      simp
    rw [this]
    simp [quoteText, indentAt]

theorem notLineEnding_run (h : View s (w ++ 10 :: r)) (h10 : 10 ∉ w) (h13 : 13 ∉ w) :
    notLineEnding s = .ok (adv s w.length) (cut s w.length) := by
  unfold notLineEnding
  simp only [h.rem]
  have : memchr (fun b => b == 10 || b == 13) (w ++ 10 :: r) = some w.length := by
    unfold memchr
    rw [List.findIdx?_eq_some_iff_getElem]
    refine ⟨by simp, by simp, ?_⟩
    intro j hj
    rw [List.getElem_append_left hj]
    have hm := List.getElem_mem hj
    simp only [Bool.or_eq_true, beq_iff_eq]
    rintro (e | e)
    · exact h10 (e ▸ hm)
    · exact h13 (e ▸ hm)
  rw [this]
  simp only
  rw [if_pos (by simp [matchesAt]), sliceTo_run h, sliceFrom_run h]

theorem arrowLine_run (h : View s (ws ++ (b!"> " ++ (w ++ 10 :: r)))) (hws : AllBlank ws) (h10 : 10 ∉ w) (h13 : 13 ∉ w) :
    arrowBlockquoteLine s = .ok (adv s (ws.length + 2 + w.length + 1)) w := by
  have v1 := View.adv h
  have v2 := View.adv v1
  have v3 := View.adv v2
  unfold arrowBlockquoteLine
  rw [bind_ok (space0_run h (AllBlank.iff.1 hws) (by intro x hx; simp at hx; subst hx; rfl)), bind_ok (tag_run v1),
    bind_ok (strOf_ok (notLineEnding_run v2 h10 h13)), v2.cut.rem, bind_ok (eol_nl v3)]
  simp only [adv_adv]
  rfl

theorem arrowLine_begins {x : Str} (h : View s t) (h1 : arrowBlockquoteLine s = .ok s' x) : Begins t b!"> " := by
  obtain ⟨s2, b, h2, h1⟩ := bind_inv h1
  obtain ⟨ws, r, rfl, hws, -, rfl, -⟩ := space0_inv h h2
  obtain ⟨s3, c, h3, -⟩ := bind_inv h1
  obtain ⟨r', rfl, -⟩ := tag_inv (View.adv h) h3
  exact ⟨ws, r', rfl, hws⟩

/-- Nothing that goes on with a blockquote. -/
structure QuoteStop (s : Span) : Prop where
  line : Fails (arrowBlockquoteLine s)
  more : Fails (P.pair (many0 (P.value ([] : Str) blankLine)) arrowBlockquoteLine s)

theorem quote_many {ind : Str} (hi : AllBlank ind) :
    ∀ (ls : List Str) (b : Bool) (s : Span), View s (quoteText ind b ls ++ r) → (∀ l ∈ ls, 10 ∉ l ∧ 13 ∉ l) →
      Fails (arrowBlockquoteLine (adv s (quoteText ind b ls).length)) →
      Many arrowBlockquoteLine s (ls.map fun l y => y = l) (adv s (quoteText ind b ls).length) := by
  intro ls
  induction ls with
  | nil => intro b s _ _ hf; exact .nil hf
  | cons l ls ih =>
    intro b s hv hok hf
    have hws : AllBlank (if b then ind else []) := by
      cases b
      · intro x hx; simp at hx
      · exact hi
    generalize hwe : (if b then ind else []) = ws at *
    have e : quoteText ind b (l :: ls) = ws ++ (b!"> " ++ (l ++ 10 :: quoteText ind true ls)) := by
      rw [← hwe]; rfl
    rw [e] at hv hf ⊢
    have hv' : View s (ws ++ (b!"> " ++ (l ++ 10 :: (quoteText ind true ls ++ r)))) := by simpa using hv
    have v2 : View s ((ws ++ b!"> " ++ l ++ [10]) ++ (quoteText ind true ls ++ r)) := by simpa using hv
    have el : (ws ++ b!"> " ++ l ++ [10]).length = ws.length + 2 + l.length + 1 := by simp; omega
    have em : (ws ++ (b!"> " ++ (l ++ 10 :: quoteText ind true ls))).length =
        ws.length + 2 + l.length + 1 + (quoteText ind true ls).length := by
      simp; omega
    rw [em, ← adv_adv] at hf ⊢
    have ho := hok l (by simp)
    refine .cons (.of_ok (arrowLine_run hv' hws ho.1 ho.2) rfl) (by omega) ?_
    have v3 := View.adv v2
    rw [el] at v3
    exact ih true _ v3 (fun l' h' => hok l' (by simp [h'])) hf

theorem each_eq {α} : ∀ {ls ys : List α}, Each (ls.map fun l y => y = l) ys → ys = ls := by
  intro ls
  induction ls with
  | nil => intro ys h; cases h; rfl
  | cons l ls ih =>
    intro ys h
    cases h with
    | cons h1 h2 => rw [h1, ih h2]

theorem quote_gives {ind : Str} {ls : List Str} {b : Bool} (hi : AllBlank ind) (hne : ls ≠ [])
    (hv : View s (quoteText ind b ls ++ r)) (hok : ∀ l ∈ ls, 10 ∉ l ∧ 13 ∉ l)
    (hf : QuoteStop (adv s (quoteText ind b ls).length)) :
    Gives (arrowBlockquote s) (adv s (quoteText ind b ls).length)
      fun x => x.inner.eqv false ue (.blockquote ls) = true := by
  have hm := quote_many hi ls b s hv hok hf.line
  unfold arrowBlockquote
  refine Gives.located (Q := fun x : Block => x.eqv false ue (.blockquote ls) = true)
    (Gives.map (Q := fun y : List Str × List (List Str × Str) => y.1 = ls ∧ y.2 = []) ?_ ?_)
  · cases ls with
    | nil => exact absurd rfl hne
    | cons l ls =>
      cases hm with
      | cons h1 _ h3 =>
        refine Gives.bind (Many.many1 h1 h3) fun a ha => ?_
        refine Gives.bind (Many.nil hf.more).many0 fun c hc => ?_
        cases hc
        exact Gives.pure ⟨each_eq (ls := l :: ls) ha, rfl⟩
  · rintro ⟨a, c⟩ ⟨rfl, rfl⟩
    simp [Block.eqv]

/-! ## What ends a blockquote -/

/-- Blanks and line ends. -/
def AllGap (w : Str) : Prop := ∀ x ∈ w, x = 32 ∨ x = 9 ∨ x = 10 ∨ x = 13

theorem AllBlank.gap (h : AllBlank w) : AllGap w := fun x hx => by have := h x hx; omega

theorem lineEnding_inv {o : Span} (h : View s t) (hl : lineEnding s = .ok s' o) :
    ∃ w r, t = w ++ r ∧ AllGap w ∧ s' = adv s w.length := by
  rcases alt_inv hl with h1 | ⟨-, h1⟩
  · obtain ⟨r, rfl, rfl, -⟩ := tag_inv h h1
    exact ⟨_, r, rfl, by intro x hx; simp at hx; omega, rfl⟩
  · obtain ⟨r, rfl, rfl, -⟩ := tag_inv h h1
    exact ⟨_, r, rfl, by intro x hx; simp at hx; omega, rfl⟩

theorem blankLine_inv {o : Span} (h : View s t) (hb : blankLine s = .ok s' o) :
    ∃ w r, t = w ++ r ∧ AllGap w ∧ s' = adv s w.length := by
  obtain ⟨s1, x, h1, hb⟩ := bind_inv hb
  rw [beginningOfLine_inv h1] at hb
  rcases alt_inv hb with hb | ⟨-, hb⟩
  · obtain ⟨s2, b, h2, hb⟩ := bind_inv hb
    obtain ⟨s3, c, h3, hb⟩ := bind_inv hb
    cases hb
    have h2' : space0 s = .ok s2 o := by
      unfold space1 takeWhile1 at h2
      split at h2
      · cases h2
      · exact h2
    obtain ⟨w, r, rfl, hw, -, rfl, -⟩ := space0_inv h h2'
    have v := View.adv h
    by_cases he : r = []
    · subst he
      unfold endOfLineOrInput at h3
      rw [v.isEmpty] at h3
      cases h3
      exact ⟨w, [], rfl, hw.gap, rfl⟩
    · unfold endOfLineOrInput at h3
      rw [v.isEmpty, if_neg (by simpa using he)] at h3
      obtain ⟨d, h3, -⟩ := value_inv h3
      obtain ⟨w', r', rfl, hw', rfl⟩ := lineEnding_inv v h3
      refine ⟨w ++ w', r', by simp, ?_, by simp [adv_adv]⟩
      intro x hx
      rcases List.mem_append.1 hx with hx | hx
      · exact hw.gap x hx
      · exact hw' x hx
  · obtain ⟨s2, b, h2, hb⟩ := bind_inv hb
    obtain ⟨s3, c, h3, hb⟩ := bind_inv hb
    cases hb
    obtain ⟨w, r, rfl, hw, -, rfl, -⟩ := space0_inv h h2
    obtain ⟨w', r', rfl, hw', rfl⟩ := lineEnding_inv (View.adv h) h3
    refine ⟨w ++ w', r', by simp, ?_, by simp [adv_adv]⟩
    intro x hx
    rcases List.mem_append.1 hx with hx | hx
    · exact hw.gap x hx
    · exact hw' x hx

theorem blankLines_inv : ∀ (n : Nat) {s s' : Span} {t : Str} {xs : List Str}, View s t →
    many0Loop (P.value ([] : Str) blankLine) n s = .ok s' xs →
    ∃ w r, t = w ++ r ∧ AllGap w ∧ s' = adv s w.length := by
  intro n
  induction n with
  | zero => intro s s' t xs _ h; cases h
  | succ n ih =>
    intro s s' t xs hv h
    rcases many0Loop_inv h with ⟨-, rfl, -⟩ | ⟨m, s1, x, ys, hm, hx, -, hl⟩
    · exact ⟨[], t, rfl, by intro x hx; simp at hx, by simp⟩
    · obtain ⟨o, hx, -⟩ := value_inv hx
      obtain ⟨w, r, rfl, hw, rfl⟩ := blankLine_inv hv hx
      cases hm
      obtain ⟨w', r', rfl, hw', rfl⟩ := ih (View.adv hv) hl
      refine ⟨w ++ w', r', by simp, ?_, by simp [adv_adv]⟩
      intro x hx
      rcases List.mem_append.1 hx with hx | hx
      · exact hw x hx
      · exact hw' x hx

/-- The next visible text is no arrow blockquote. -/
def NoQuote (t : Str) : Prop := ∀ w r, t = w ++ (b!"> " ++ r) → AllGap w → False

theorem quoteStop (h : View s t) (hq : NoQuote t) : QuoteStop s := by
  have key : ∀ {s1 s2 : Span} {w r x : Str}, View s1 r → AllGap w → t = w ++ r →
      arrowBlockquoteLine s1 = .ok s2 x → False := by
    intro s1 s2 w r x hv hw ht ha
    obtain ⟨ws, q, rfl, hws⟩ := arrowLine_begins hv ha
    refine hq (w ++ ws) q (by simpa using ht) ?_
    intro x hx
    rcases List.mem_append.1 hx with hx | hx
    · exact hw x hx
    · exact (AllBlank.gap hws) x hx
  refine ⟨.of_inv fun s' y e => key (w := []) h (by intro x hx; simp at hx) rfl e, .of_inv fun s' y e => ?_⟩
  obtain ⟨s1, a, h1, e⟩ := bind_inv e
  obtain ⟨s2, b, h2, e⟩ := bind_inv e
  obtain ⟨w, r, rfl, hw, rfl⟩ := blankLines_inv _ h h1
  exact key (View.adv h) hw rfl h2

theorem noQuote_of {c : Byte} {w r : Str} (hw : AllGap w) (hc : ¬ (c = 32 ∨ c = 9 ∨ c = 10 ∨ c = 13))
    (hq : ¬ b!"> " <+: c :: r) : NoQuote (w ++ c :: r) := by
  intro w' r' e hw'
  have h62 : ∀ w : Str, AllGap w → ∀ (c : Byte) (t : Str), ¬ (c = 32 ∨ c = 9 ∨ c = 10 ∨ c = 13) →
      (w ++ c :: t).dropWhile (fun x => x == 32 || x == 9 || x == 10 || x == 13) = c :: t := by
    intro w hw c t hc
    rw [List.dropWhile_append_of_pos (by intro x hx; have := hw x hx; simpa [or_assoc] using this),
      List.dropWhile_cons_of_neg (by simpa [or_assoc] using hc)]
  have e1 := h62 w hw c r hc
  rw [e] at e1
  have e2 := h62 w' hw' 62 (32 :: r') (by omega)
  rw [show b!"> " ++ r' = 62 :: 32 :: r' from rfl, e2] at e1
  exact hq ⟨r', e1⟩

theorem noQuote_nil {w : Str} (hw : AllGap w) : NoQuote w := by
  intro w' r e _
  have := hw 62 (by rw [e]; simp)
  omega

end Vw
