import Verif.Lemmas.Gives
import Verif.Lemmas.InlineRead
import Verif.Lemmas.ListPrefix
import Verif.Lemmas.ReadPage
import Verif.Lemmas.VwBlocks
import Verif.Spec.BlockText

/-!
# Paragraphs and headers are read back
-/

namespace Vw
open P Scan Fm

variable {env : Env} {ue : Uri → Uri → Bool} {L : OutLib} {cfg : VwCfg} {s s' : Span} {t w r ws : Str} {k : Nat}

/-! ## Tight texts -/

theorem wsText_ws {b : Byte} (h : b = 32 ∨ (9 ≤ b ∧ b ≤ 13)) : WsText [b] := by
  refine ⟨[[b]], ?_, by simp⟩
  have : b = 32 ∨ b = 9 ∨ b = 10 ∨ b = 11 ∨ b = 12 ∨ b = 13 := by omega
  rcases this with rfl | rfl | rfl | rfl | rfl | rfl <;> decide

theorem Tight.head (h : Tight t) : ∀ x, t.head? = some x → ¬ (x = 32 ∨ (9 ≤ x ∧ x ≤ 13)) := by
  intro x hx hb
  cases t with
  | nil => cases hx
  | cons y t =>
    cases hx
    have := h.2.1 [x] t rfl (wsText_ws hb)
    simp at this

theorem Tight.last (h : Tight t) : ∀ x, t.getLast? = some x → ¬ (x = 32 ∨ (9 ≤ x ∧ x ≤ 13)) := by
  intro x hx hb
  have hne := h.1
  rw [List.getLast?_eq_some_getLast hne] at hx
  have e := List.dropLast_concat_getLast hne
  simp at hx
  rw [hx] at e
  have := h.2.2 [x] _ e.symm (wsText_ws hb)
  simp at this

theorem Tight.notWs (h : Tight t) : ¬ WsText t := fun hw => h.1 (h.2.1 t [] (by simp) hw)

theorem Tight.trimEnd (h : Tight t) : trimEnd t = t := by
  obtain ⟨w, h1, h2⟩ := trimEnd_spec t
  have := h.2.2 w _ h2 h1
  subst this
  simpa using h2.symm

theorem andTrimIf_tight {f : Fm → Fm} {o c : Str} {i : Nat} (b : Bool) (hw : Writes f o) (ho : Tight o)
    (hc : Whole c) : andTrimIf b f ⟨c, i, false⟩ = ⟨c ++ o, i, false⟩ := by
  cases b with
  | false => exact hw.plain _ rfl
  | true =>
    obtain ⟨u, p, hu, rfl, e⟩ := hw.skips
    have hu0 := ho.2.1 u p rfl hu
    subst hu0
    simp only [List.nil_append] at ho ⊢
    show Fm.trimEnd (skipWhitespace f ⟨c, i, false⟩) = _
    unfold skipWhitespace Fm.trimEnd
    rw [e _ rfl]
    simp only [trimEnd_append hc ho.notWs, ho.trimEnd]

/-! ## Writing -/

theorem Whole.blank {c : Str} (hc : Whole c) (hw : AllBlank w) : Whole (c ++ w) := by
  refine hc.append ?_
  cases hl : w.getLast? with
  | none => exact .inl (List.getLast?_eq_none_iff.1 hl)
  | some x =>
    refine .inr ⟨x, ?_, rfl⟩
    rcases hw x (List.mem_of_getLast? hl) with rfl | rfl <;> decide

theorem Whole.nl {c : Str} : Whole (c ++ b!"\n") := Whole.of_last (b := 10) (by decide) (by simp)

theorem paragraph_text {i : Nat} (hI : AllBlank (indentText cfg i)) :
    ∀ (ls : List Inlines) (c : Str), (∀ l ∈ ls, Tight (Inline.textAll L cfg l)) → Whole c →
      paragraphFmt L cfg ls ⟨c, i, false⟩ =
        ⟨c ++ paraText L cfg (indentText cfg i) (bol c) ls, i, false⟩ := by
  intro ls
  induction ls with
  | nil => intro c _ _; simp [paragraphFmt, paraText]
  | cons l ls ih =>
    intro c ht hc
    unfold paragraphFmt
    have hind : AllBlank (indentAt cfg i (bol c)) := by
      unfold indentAt
      split
      · exact hI
      · intro x hx; simp at hx
    rw [writeIndent_eq, andTrimIf_tight _ (writes_inlines L cfg l) (ht l (by simp)) (hc.blank hind), write_eq,
      ih _ (fun x hx => ht x (by simp [hx])) Whole.nl]
    have : bol (c ++ indentAt cfg i (bol c) ++ Inline.textAll L cfg l ++ b!"\n") = true := by
      simp [bol]
    rw [this]
    simp [paraText, indentAt]

theorem header_text {c : Str} {i n : Nat} {xs : Inlines} {ce : Bool} (ht : Tight (Inline.textAll L cfg xs))
    (hn : 1 ≤ n) : headerFmt L cfg xs n ce ⟨c, i, false⟩ = ⟨c ++ headerText L cfg xs n ce, i, false⟩ := by
  unfold headerFmt
  obtain ⟨m, rfl⟩ : ∃ m, n = m + 1 := ⟨n - 1, by omega⟩
  have hw : Whole (c ++ (if ce = true then b!"    " else []) ++ (List.replicate (m + 1) b!"=").flatten ++
      (if (!cfg.headerNoPadding) = true then b!" " else [])) := by
    have h1 : Whole (c ++ (if ce = true then b!"    " else []) ++ (List.replicate (m + 1) b!"=").flatten) :=
      Whole.of_last (b := c!"=") (by decide) (by
        rw [List.replicate_succ']
        simp)
    refine h1.append ?_
    cases cfg.headerNoPadding
    · exact .inr ⟨32, by decide, rfl⟩
    · exact .inl rfl
  rw [writeIf_eq, writeN_eq, writeIf_eq, andTrimIf_tight _ (writes_inlines L cfg xs) ht hw, writeIf_eq, writeN_eq,
    write_eq]
  have hr : (List.replicate (m + 1) b!"=").flatten = rep c!"=" (m + 1) := by
    have : ∀ n, (List.replicate n b!"=").flatten = rep c!"=" n := by
      intro n
      induction n with
      | zero => rfl
      | succ n ih => rw [List.replicate_succ, List.flatten_cons, ih]; rfl
    exact this _
  rw [hr]
  unfold headerText
  cases cfg.headerNoPadding <;> simp

/-! ## Reading -/

theorem Begins.strip {p : Str} (h : Begins (ws ++ t) p) (hw : AllBlank ws)
    (ht : ∀ x, t.head? = some x → ¬ (x = 32 ∨ x = 9)) (hp : ∀ x, p.head? = some x → ¬ (x = 32 ∨ x = 9)) (hne : p ≠ []) :
    p <+: t := by
  obtain ⟨ws', q, e, hw'⟩ := h
  induction ws generalizing ws' with
  | nil =>
    cases ws' with
    | nil => exact ⟨q, by simpa using e.symm⟩
    | cons x ws' =>
      simp at e
      exact absurd (hw' x (by simp)) (ht x (by rw [e]; rfl))
  | cons y ws ih =>
    cases ws' with
    | nil =>
      cases p with
      | nil => exact absurd rfl hne
      | cons z p =>
        simp at e
        exact absurd (hw y (by simp)) (hp y (by simp [e.1]))
    | cons x ws' =>
      simp at e
      exact ih (fun x hx => hw x (by simp [hx])) ws' (by simpa using e.2) fun x hx => hw' x (by simp [hx])

theorem beginningOfLine_inv {x : Unit} (h : beginningOfLine s = .ok s' x) : s' = s := by
  unfold beginningOfLine at h
  split at h
  · exact (Res.ok.inj h).1.symm
  · cases h

theorem header_begins {x : Located Block} (h : View s t) (hd : header env s = .ok s' x) : Begins t b!"=" := by
  unfold header at hd
  obtain ⟨h0, -⟩ := located_inv hd
  obtain ⟨s1, _, h1, h0⟩ := bind_inv h0
  have hs := beginningOfLine_inv h1
  rw [hs] at h0
  obtain ⟨s2, c, h2, h0⟩ := bind_inv h0
  obtain ⟨o, h2, -⟩ := map_inv h2
  obtain ⟨ws, r, rfl, hws, -, rfl, -⟩ := space0_inv h h2
  obtain ⟨s3, n, h3, -⟩ := bind_inv h0
  obtain ⟨h3, -⟩ := verify_inv h3
  obtain ⟨o, h3, -⟩ := map_inv h3
  obtain ⟨n, r', rfl, hr'⟩ := run_exists c!"=" r
  have := takeLineWhile1_run (c := c!"=") (by decide) hr' h.adv
  cases n with
  | zero => rw [if_pos rfl] at this; rw [this] at h3; cases h3
  | succ n => exact ⟨ws, _, rfl, hws⟩

theorem View.drop (h : View s t) {n : Nat} (hn : n ≤ t.length) : View (Vw.adv s n) (t.drop n) := by
  have e : t = t.take n ++ t.drop n := (List.take_append_drop n t).symm
  rw [e] at h
  have := View.adv h
  rwa [List.length_take, Nat.min_eq_left hn] at this

theorem View.take (h : View s t) {n : Nat} (hn : n ≤ t.length) : View (Vw.cut s n) (t.take n) := by
  have e : t = t.take n ++ t.drop n := (List.take_append_drop n t).symm
  rw [e] at h
  have := View.cut h
  rwa [List.length_take, Nat.min_eq_left hn] at this

theorem restOfLine_run (h : View s t) : ∃ o, restOfLine s = .ok (adv s (lineLen t)) o := by
  obtain ⟨l, r, rfl, hl⟩ := lineSplit_exists t
  obtain ⟨n, hn, -, -, -, he⟩ := eol_run (View.adv h) hl.eol
  refine ⟨cut s l.length, ?_⟩
  unfold restOfLine
  rw [bind_ok (takeUntilEol_run h hl), bind_ok hn, lineLen_append hl.1, he]
  simp [P.pure]

theorem moreLines_inv {f : Nat → Bool} : ∀ (n : Nat) (s s' : Span) (t : Str) (os : List Span), View s t →
    many0Loop (preceded (verify indentationPeek f) restOfLine) n s = .ok s' os →
    ∃ n ≤ t.length, s' = adv s n := by
  intro n
  induction n with
  | zero => intro s s' t os _ h; cases h
  | succ n ih =>
    intro s s' t os hv h
    rcases many0Loop_inv h with ⟨-, rfl, -⟩ | ⟨m, s1, x, ys, e, hx, -, h'⟩
    · exact ⟨0, by omega, rfl⟩
    · cases e
      obtain ⟨s2, y, hy, hx⟩ := bind_inv hx
      obtain ⟨hy, -⟩ := verify_inv hy
      obtain ⟨o, hy, -⟩ := map_inv hy
      have hs : s2 = s := by
        unfold peek at hy
        split at hy
        · exact (Res.ok.inj hy).1.symm
        all_goals cases hy
      rw [hs] at hx
      obtain ⟨o, ho⟩ := restOfLine_run hv
      rw [ho] at hx
      obtain ⟨rfl, -⟩ := Res.ok.inj hx
      obtain ⟨k, hk, rfl⟩ := ih _ _ _ _ (hv.drop (lineLen_le t)) h'
      have := lineLen_le t
      simp at hk
      exact ⟨lineLen t + k, by omega, by rw [adv_adv]⟩

theorem itemLines_inv {i : Nat} {o : Span} (hv : View s t) (h : itemLines i s = .ok s' o) :
    ∃ n ≤ t.length, s' = adv s n ∧ o = cut s n := by
  unfold itemLines recognize at h
  split at h
  · rename_i s1 _ h1
    obtain ⟨s2, y, hy, h2⟩ := bind_inv h1
    obtain ⟨s3, z, hz, h3⟩ := bind_inv h2
    obtain ⟨q, hq⟩ := restOfLine_run hv
    rw [hq] at hy
    obtain ⟨rfl, -⟩ := Res.ok.inj hy
    obtain ⟨k, hk, rfl⟩ := moreLines_inv _ _ _ _ _ (hv.drop (lineLen_le t)) hz
    obtain ⟨rfl, -⟩ := Res.ok.inj h3
    have := lineLen_le t
    simp at hk
    split at h
    · cases h
    · obtain ⟨rfl, rfl⟩ := Res.ok.inj h
      refine ⟨lineLen t + k, by omega, by rw [adv_adv], ?_⟩
      simp [Span.sliceTo, Span.advanceEndBy, cut, adv]
      omega
  all_goals cases h

/-- What an item begins with. -/
theorem listItem_begins {nested : P (Located Block)} {x : Nat × Located ListItem} (hv : View s t)
    (h1 : listItemOf nested s = .ok s' x) :
    ∃ ws ty su w r, t = ws ++ (w ++ r) ∧ AllBlank ws ∧ PrefixText ty su w := by
  unfold listItemOf at h1
  obtain ⟨s3, _, h3, h1⟩ := bind_inv h1
  have hs := beginningOfLine_inv h3
  rw [hs] at h1
  obtain ⟨s4, n, h4, h1⟩ := bind_inv h1
  obtain ⟨o, h4, -⟩ := map_inv h4
  obtain ⟨ws, r, rfl, hws, -, rfl, -⟩ := space0_inv hv h4
  split at h1
  · rename_i s5 remaining hl
    obtain ⟨m, hm, -, rfl⟩ := itemLines_inv hv.adv hl
    split at h1
    · rename_i hp
      obtain ⟨hp, -⟩ := located_inv hp
      obtain ⟨_, hp, -⟩ := map_inv hp
      obtain ⟨s7, y, hp, -⟩ := bind_inv hp
      obtain ⟨w, r', e, -, hw⟩ := listItemPrefix_inv (hv.adv.take hm) hp
      exact ⟨ws, _, _, w, r' ++ r.drop m, by rw [← List.append_assoc w, ← e, List.take_append_drop], hws, hw⟩
    all_goals cases h1
  · cases h1
  · cases h1
  · cases h1

/-- What a list begins with. -/
theorem listOf_begins {nested : P (Located Block)} {x : Located Block} (h : View s t)
    (ht : listOf nested s = .ok s' x) :
    ∃ ws ty su w r, t = ws ++ (w ++ r) ∧ AllBlank ws ∧ PrefixText ty su w := by
  obtain ⟨ht, -⟩ := located_inv ht
  obtain ⟨s1, a, h1, -⟩ := bind_inv ht
  obtain ⟨s2, h1, -⟩ := deeper_inv h1
  exact listItem_begins (h.withDepth (s.depth + 1)) h1

/-! ## Parsers that fail on the first line of a paragraph -/

theorem NumberWord.bytes {ty : ItemType} (h : NumberWord w r ty) : w ≠ [] ∧ ∀ x ∈ w, 32 < x := by
  have key : ∀ {f : Byte → Prop}, (∀ x, f x → 32 < x) → RunOf f w r → w ≠ [] ∧ ∀ x ∈ w, 32 < x :=
    fun hf h => ⟨h.1, fun x hx => hf x (h.2.1 x hx)⟩
  have dig : ∀ x, DigitByte x → 32 < x := by intro x hx; unfold DigitByte at hx; omega
  have low : ∀ x, LowerByte x → 32 < x := by intro x hx; unfold LowerByte at hx; omega
  have upp : ∀ x, UpperByte x → 32 < x := by intro x hx; unfold UpperByte at hx; omega
  have lro : ∀ x, LowerRomanByte x → 32 < x := by
    intro x hx; unfold LowerRomanByte at hx; revert hx; simp; omega
  have uro : ∀ x, UpperRomanByte x → 32 < x := by
    intro x hx; unfold UpperRomanByte at hx; revert hx; simp; omega
  cases ty with
  | number => exact key dig h
  | lowerRoman => exact key lro h
  | upperRoman => exact key uro h
  | lowerAlpha => exact key low h.1
  | upperAlpha => exact key upp h.1
  | _ => exact h.elim

theorem PrefixText.no10 {ty : ItemType} {su : Suffix} (h : PrefixText ty su w) : 10 ∉ w := by
  cases h with
  | period h => intro h10; have := h.bytes.2 10; simp at h10; have := this h10; omega
  | paren h => intro h10; have := h.bytes.2 10; simp at h10; have := this h10; omega
  | _ => decide

theorem PrefixText.head {ty : ItemType} {su : Suffix} (h : PrefixText ty su w) :
    w ≠ [] ∧ ∀ x, w.head? = some x → ¬ (x = 32 ∨ x = 9) := by
  have num : ∀ {w r : Str}, NumberWord w r ty → ∃ c q, w = c :: q ∧ ¬ (c = 32 ∨ c = 9) := by
    intro w r h
    cases w with
    | nil => exact absurd rfl h.bytes.1
    | cons c q => have := h.bytes.2 c (by simp); exact ⟨c, q, rfl, by omega⟩
  cases h with
  | period h => obtain ⟨c, q, rfl, hc⟩ := num h; simpa using hc
  | paren h => obtain ⟨c, q, rfl, hc⟩ := num h; simpa using hc
  | _ => exact ⟨by simp, by simp⟩

theorem prefix_of_line {p x : Str} (h : p <+: x ++ 10 :: r) (h10 : 10 ∉ p) : p <+: x :=
  prefix_line h h10 (.inr rfl)

theorem blankLine_fails {c : Byte} (hv : View s (ws ++ c :: r)) (hw : AllBlank ws)
    (hc : c ≠ 32 ∧ c ≠ 9 ∧ c ≠ 10 ∧ c ≠ 13) : blankLine s = .err := by
  by_cases hn : ws = []
  · subst hn; exact blankLine_run_err hv hc
  have hw' := AllBlank.iff.1 hw
  have hs : isSpace c = false := isSpace_false.2 (by omega)
  have v1 := View.adv hv
  have e1 : EolHere (c :: r) → False := by
    rintro (h | ⟨t, h⟩ | ⟨t, h⟩)
    · cases h
    · cases h; omega
    · cases h; omega
  have l1 : lineEnding (adv s ws.length) = .err := by
    unfold lineEnding alt
    rw [tag_run_err (w := b!"\n") v1, tag_run_err (w := b!"\r\n") v1]
    · rintro ⟨t, e⟩; cases e; omega
    · rintro ⟨t, e⟩; cases e; omega
  unfold blankLine preceded
  cases hb : beginningOfLine s with
  | ok s1 x =>
    rw [bind_ok hb, beginningOfLine_inv hb]
    unfold alt terminated
    rw [bind_ok (space1_run hv hn hw' (by simpa using hs)), bind_er (eol_run_err v1 e1)]
    simp only
    rw [bind_ok (space0_run hv hw' (by simpa using hs)), bind_er l1]
  | err => rw [bind_er hb]
  | panic p => unfold beginningOfLine at hb; split at hb <;> cases hb
  | diverge => unfold beginningOfLine at hb; split at hb <;> cases hb

theorem placeholder_inv {x : Located Block} (hv : View s t) (h : placeholder env s = .ok s' x) :
    t.head? = some c!"%" ∧ ¬ b!"%%" <+: t := by
  obtain ⟨s1, _, h1, h⟩ := bind_inv h
  rw [beginningOfLine_inv h1] at h
  obtain ⟨_, y, hy, -⟩ := bind_inv h
  obtain ⟨hy, -⟩ := located_inv hy
  obtain ⟨p, hp, -⟩ := map_inv hy
  have tg : ∀ {α} {f : Span → P α} {q : Str} {s' a}, P.bind (tag q) f s = .ok s' a → ∃ r, t = q ++ r := by
    intro α f q s' a h
    obtain ⟨_, _, h, -⟩ := bind_inv h
    obtain ⟨r, e, -⟩ := tag_inv hv h
    exact ⟨r, e⟩
  have lit : ∀ {q r : Str}, t = q ++ r → q.head? = some c!"%" → q.drop 1 ≠ [] → (q.drop 1).head? ≠ some c!"%" →
      t.head? = some c!"%" ∧ ¬ b!"%%" <+: t := by
    rintro q r rfl h1 h2 h3
    match q, h1, h2, h3 with
    | [_], _, h2, _ => exact absurd rfl h2
    | a :: b :: q, h1, _, h3 =>
      simp at h1 h3
      subst h1
      simp
      intro h
      exact absurd h.symm h3
  rcases alts_cons_inv hp with hp | hp
  · obtain ⟨r, e⟩ := tg hp; exact lit e (by decide) (by decide) (by decide)
  rcases alts_cons_inv hp.2 with hp | hp
  · obtain ⟨r, e⟩ := tg hp; exact lit e (by decide) (by decide) (by decide)
  rcases alts_cons_inv hp.2 with hp | hp
  · obtain ⟨r, e⟩ := tg hp; exact lit e (by decide) (by decide) (by decide)
  rcases alts_cons_inv hp.2 with hp | hp
  · obtain ⟨r, e⟩ := tg hp; exact lit e (by decide) (by decide) (by decide)
  replace hp := hp.2
  have nt : ∀ {q : P Span} {s s' x}, P.not q s = .ok s' x → s' = s := by
    intro q s s' x h
    unfold P.not at h
    split at h
    · cases h
    · exact (Res.ok.inj h).1.symm
    all_goals cases h
  obtain ⟨_, _, n1, hp⟩ := bind_inv hp
  rw [nt n1] at hp
  obtain ⟨_, _, n1, hp⟩ := bind_inv hp
  rw [nt n1] at hp
  obtain ⟨_, _, n1, hp⟩ := bind_inv hp
  rw [nt n1] at hp
  obtain ⟨_, _, n1, hp⟩ := bind_inv hp
  rw [nt n1] at hp
  obtain ⟨_, _, n1, hp⟩ := bind_inv hp
  obtain ⟨r, rfl, rfl, -⟩ := tag_inv hv n1
  refine ⟨rfl, ?_⟩
  obtain ⟨_, nm, n2, -⟩ := bind_inv hp
  rintro ⟨q, e⟩
  have : View (adv s 1) (c!"%" :: q) := by
    have := View.adv hv
    simp at e
    rw [← e] at this
    exact this
  obtain ⟨o, n2, -⟩ := strOf_inv n2
  unfold takeLineUntil31 at n2
  obtain ⟨n2, n3⟩ := verify_inv n2
  obtain ⟨w, q', e', hw, hs⟩ := takeLineUntil3_view (p1 := b!" ") (p2 := b!"\t") (p3 := b!"%")
    (by simp) (by simp) (by simp) this
  have n2' : takeLineUntil3 b!" " b!"\t" b!"%" (adv s 1) = .ok _ o := n2
  rw [hw] at n2'
  obtain ⟨-, rfl⟩ := Res.ok.inj n2'
  rw [e'] at this
  rw [this.cut.isEmpty] at n3
  cases w with
  | nil => simp at n3
  | cons a w =>
    simp at e'
    have := (hs.clear 0 (by simp)).2 b!"%" (by simp)
    exact this (at_singleton.2 (by simp [e'.1]))

theorem quote_arrow_begins {x : Located Block} (h : View s t) (ht : arrowBlockquote s = .ok s' x) :
    Begins t b!"> " := by
  obtain ⟨ht, -⟩ := located_inv ht
  obtain ⟨_, ht, -⟩ := map_inv ht
  obtain ⟨_, _, ht, -⟩ := bind_inv ht
  obtain ⟨s1, a, h1, -⟩ := bind_inv ht
  obtain ⟨s2, b, h2, h1⟩ := bind_inv h1
  obtain ⟨ws, r, rfl, hws, -, rfl, -⟩ := space0_inv h h2
  obtain ⟨s3, c, h3, -⟩ := bind_inv h1
  obtain ⟨r', rfl, -⟩ := tag_inv (View.adv h) h3
  exact ⟨ws, r', rfl, hws⟩

/-- A list parser that succeeds only on an item prefix. -/
def ListLike (lst : P (Located Block)) : Prop :=
  ∀ s s' t x, View s t → lst s = .ok s' x → ∃ ws ty su w r, t = ws ++ (w ++ r) ∧ AllBlank ws ∧ PrefixText ty su w

theorem listLike_listOf (nested : P (Located Block)) : ListLike (listOf nested) :=
  fun _ _ _ _ hv h => listOf_begins hv h

theorem listLike_list (env : Env) : ListLike (list env) :=
  fun _ _ _ _ hv h => listOf_begins hv h

/-- The parsers that fail where a paragraph line begins. -/
structure OnlyPara (env : Env) (s : Span) : Prop where
  header : Fails (header env s)
  defs : Fails (definitionList env s)
  list : ∀ lst, ListLike lst → Fails (lst s)
  table : Fails (table env s)
  code : Fails (codeBlock s)
  math : Fails (mathBlock s)
  blank : blankLine s = .err
  arrow : Fails (arrowBlockquote s)
  divider : Fails (divider s)
  placeholder : Fails (placeholder env s)

theorem onlyPara {x : Str} (hws : AllBlank ws) (h : View s (ws ++ (x ++ 10 :: r))) (hx : Tight x) (hp : PlainLine x) :
    OnlyPara env s := by
  have hhead := hx.head
  obtain ⟨c, x', hcx⟩ : ∃ c x', x = c :: x' := by
    cases x with
    | nil => exact absurd rfl hx.1
    | cons c x' => exact ⟨c, x', rfl⟩
  have hh : ∀ y, (x ++ 10 :: r).head? = some y → ¬ (y = 32 ∨ y = 9) := by
    intro y hy
    have := hhead y (by rw [hcx] at hy ⊢; simpa using hy)
    omega
  have no : ∀ p : Str, 10 ∉ p → p ≠ [] → (∀ y, p.head? = some y → ¬ (y = 32 ∨ y = 9)) → ¬ p <+: x →
      ¬ Begins (ws ++ (x ++ 10 :: r)) p := by
    intro p h10 hne hph hpx hb
    exact hpx (prefix_of_line (hb.strip hws hh hph hne) h10)
  have one : ∀ d : Byte, x.head? ≠ some d → ¬ [d] <+: x := by
    rintro d hd ⟨q, rfl⟩
    exact hd rfl
  refine ⟨.of_inv fun s' y e => ?_, .of_inv fun s' y e => ?_, fun lst hl => .of_inv fun s' y e => ?_,
    .of_inv fun s' y e => ?_, .of_inv fun s' y e => ?_, .of_inv fun s' y e => ?_, ?_,
    .of_inv fun s' y e => ?_, .of_inv fun s' y e => ?_, .of_inv fun s' y e => ?_⟩
  · exact no b!"=" (by decide) (by decide) (by decide) (one _ hp.header) (header_begins h e)
  · obtain ⟨w, q, he, h10⟩ := defs_begins h e
    -- the text before `::` lies on the first line of `ws ++ x`
    obtain ⟨v, hv⟩ : ∃ v, ws ++ x = w ++ (b!"::" ++ v) := by
      have := prefix_of_line (p := w ++ b!"::") (x := ws ++ x) (r := r) ⟨q, by simpa using he.symm⟩ (by simpa using h10)
      obtain ⟨v, hv⟩ := this
      exact ⟨v, by simpa using hv.symm⟩
    have h2 : ∃ u, w = ws ++ u := by
      rcases List.append_eq_append_iff.1 hv with ⟨as, e1, e2⟩ | ⟨bs, e1, e2⟩
      · exact ⟨as, e1⟩
      · cases bs with
        | nil => exact ⟨[], by simpa using e1.symm⟩
        | cons b bs =>
          exfalso
          have hb : b = c!":" := by simp at e2; exact e2.1.symm
          have := hws b (by rw [e1]; simp)
          rw [hb] at this
          revert this; decide
    obtain ⟨u, rfl⟩ := h2
    have hv' : x = u ++ (b!"::" ++ v) := by simpa using hv
    exact h10 (by simp [hp.term u v hv'])
  · obtain ⟨ws', ty, su, w, q, he, hws', hw⟩ := hl _ _ _ _ h e
    exact hp.item ty su w hw (prefix_of_line (Begins.strip (p := w) ⟨ws', q, he, hws'⟩ hws hh hw.head.2 hw.head.1)
      hw.no10)
  · exact no b!"|" (by decide) (by decide) (by decide) (one _ hp.table) (table_begins h e)
  · exact no _ (by decide) (by decide) (by decide) hp.code (code_begins h e)
  · exact no _ (by decide) (by decide) (by decide) hp.math (math_begins h e)
  · subst hcx
    refine blankLine_fails h hws ?_
    have := hhead c rfl
    omega
  · exact no _ (by decide) (by decide) (by decide) hp.quote (quote_arrow_begins h e)
  · obtain ⟨n, q, hn, he, hq⟩ := (divider_inv h e).1
    cases ws with
    | cons b ws =>
      have := hws b (by simp)
      obtain ⟨m, rfl⟩ : ∃ m, n = m + 1 := ⟨n - 1, by omega⟩
      rw [List.replicate_succ] at he
      simp at he
      rw [he.1] at this
      revert this; decide
    | nil =>
      simp only [List.nil_append] at he
      rcases List.append_eq_append_iff.1 he with ⟨as, e1, e2⟩ | ⟨bs, e1, e2⟩
      · cases as with
        | nil =>
          simp at e1
          exact hp.divider ⟨n, [], hn, by simp [e1], .inl rfl⟩
        | cons a as =>
          simp at e2
          have : a ∈ List.replicate n c!"-" := by rw [e1]; simp
          rw [List.mem_replicate] at this
          rw [← e2.1] at this
          exact absurd this.2 (by decide)
      · refine hp.divider ⟨n, bs, hn, e1, ?_⟩
        subst e2
        rcases hq with h | ⟨t, h⟩ | ⟨t, h⟩
        · simp at h
        · cases bs with
          | nil => exact .inl rfl
          | cons b bs => simp at h; exact .inr (.inl ⟨bs, by rw [h.1]⟩)
        · match bs, h, e1 with
          | [], _, _ => exact .inl rfl
          | [b], h, e1 =>
            exfalso
            simp at h
            exact hx.last b (by rw [e1]; simp) (by omega)
          | b :: b' :: bs, h, _ => simp at h; exact .inr (.inr ⟨bs, by rw [h.1, h.2.1]⟩)
  · have := placeholder_inv h e
    cases ws with
    | cons b ws =>
      have h2 := hws b (by simp)
      simp at this
      omega
    | nil =>
      simp only [List.nil_append] at this
      have h1 := hp.placeholder (by rw [hcx] at this ⊢; simpa using this.1)
      exact this.2 (h1.trans (List.prefix_append _ _))

/-! ## Paragraphs -/

/-- One line of a paragraph. -/
def paraLine (env : Env) (lst : P (Located Block)) : P Inlines :=
  delimited (continueParagraphOf env lst) (paragraphLine env) endOfLineOrInput

theorem OnlyPara.continue {lst : P (Located Block)} (h : OnlyPara env s) (hl : ListLike lst) :
    Gives (continueParagraphOf env lst s) s fun _ => True := by
  unfold continueParagraphOf
  refine (Gives.not h.header).bind fun _ _ => (Gives.not h.defs).bind fun _ _ =>
    (Gives.not (h.list lst hl)).bind fun _ _ => (Gives.not h.table).bind fun _ _ => (Gives.not h.code).bind fun _ _ =>
    (Gives.not h.math).bind fun _ _ => (Gives.not (.of_err h.blank)).bind fun _ _ =>
    (Gives.not h.arrow).bind fun _ _ => (Gives.not h.divider).bind fun _ _ =>
    (Gives.not h.placeholder).bind fun _ _ => Gives.pure trivial

theorem lastWord_blank {c : Str} (h : lastWord c = []) (hw : AllBlank w) : lastWord (c ++ w) = [] := by
  by_cases hn : w = []
  · subst hn; simpa using h
  · obtain ⟨x, hx⟩ : ∃ x, w.getLast? = some x := by
      cases hl : w.getLast? with
      | none => exact absurd (List.getLast?_eq_none_iff.1 hl) hn
      | some x => exact ⟨x, rfl⟩
    have e : w = w.dropLast ++ [x] := by
      rw [List.getLast?_eq_some_getLast hn] at hx
      simp at hx
      rw [← hx, List.dropLast_concat_getLast]
    rw [e, ← List.append_assoc]
    refine lastWord_nil_of_ws ?_
    rcases hw x (List.mem_of_getLast? hx) with rfl | rfl <;> decide

theorem AtBol.lastWord (h : AtBol s) : lastWord s.asConsumed = [] := by
  rcases h with h | h
  · have : s.asConsumed = [] := by unfold Span.asConsumed; rw [h]; rfl
    rw [this]; rfl
  · have hn : s.asConsumed ≠ [] := by intro e; rw [e] at h; cases h
    rw [List.getLast?_eq_some_getLast hn] at h
    simp at h
    rw [← List.dropLast_concat_getLast hn, h]
    exact lastWord_nil_of_ws (by decide)

theorem eol_nl (h : View s (10 :: r)) : endOfLineOrInput s = .ok (adv s 1) () := by
  obtain ⟨n, h1, -, -, h3, h4⟩ := eol_run h (.inr (.inl ⟨r, rfl⟩))
  rw [h1, h4]
  simp [lineLen]

theorem paraLine_gives {lst : P (Located Block)} {l : Inlines} (hs : env.SchemeSound) (hl : ListLike lst)
    (hws : AllBlank ws) (h : View s (ws ++ (Inline.textAll L cfg l ++ 10 :: r)))
    (hw : lastWord s.asConsumed = []) (hc : ContentOk env ue L cfg [] l) (hp : PlainLine (Inline.textAll L cfg l))
    (hn : s.depth + 1 + Inline.nestAll l ≤ 65535) :
    Gives (paraLine env lst s) (adv s (ws.length + (Inline.textAll L cfg l).length + 1))
      fun ys => Inline.eqvs false ue ys l = true := by
  unfold paraLine delimited
  refine ((onlyPara hws h hc.tight hp).continue hl).bind fun _ _ => ?_
  have v1 := View.adv h
  have h0 : space0 s = .ok (adv s ws.length) (cut s ws.length) := space0_run h (AllBlank.iff.1 hws) (by
    intro x hx
    have := hc.tight.head x (by
      cases ht : Inline.textAll L cfg l with
      | nil => exact absurd ht hc.tight.1
      | cons c q => rw [ht] at hx; simpa using hx)
    exact isSpace_false.2 (by omega))
  obtain ⟨ys, hy, hq⟩ := inlines_run hs (.inr rfl) v1 hc.ne (by
    rw [h.consumed, lastWord_blank hw hws]; exact hc.ok) hn
  have h1 : paragraphLine env s = .ok (adv (adv s ws.length) (Inline.textAll L cfg l).length) ys := by
    unfold paragraphLine
    rw [bind_ok h0, map_ok hy]
  refine Gives.bind (Gives.of_ok (Q := fun ys => Inline.eqvs false ue ys l = true) h1 hq) fun ys hq => ?_
  refine (Gives.of_ok (Q := fun _ => True) (eol_nl (View.adv v1)) trivial).bind fun _ _ => ?_
  rw [adv_adv, adv_adv]
  exact Gives.pure hq

/-- The lines of a paragraph are read one by one. -/
theorem para_many {lst : P (Located Block)} {ind : Str} (hs : env.SchemeSound) (hl : ListLike lst) (hi : AllBlank ind) :
    ∀ (ls : List Inlines) (b : Bool) (s : Span), View s (paraText L cfg ind b ls ++ r) → lastWord s.asConsumed = [] →
      (∀ l ∈ ls, ContentOk env ue L cfg [] l ∧ PlainLine (Inline.textAll L cfg l) ∧
        s.depth + 1 + Inline.nestAll l ≤ 65535) →
      Fails (paraLine env lst (adv s (paraText L cfg ind b ls).length)) →
      Many (paraLine env lst) s (ls.map fun l ys => Inline.eqvs false ue ys l = true)
        (adv s (paraText L cfg ind b ls).length) := by
  intro ls
  induction ls with
  | nil => intro b s _ _ _ hf; exact .nil hf
  | cons l ls ih =>
    intro b s hv hw hok hf
    obtain ⟨h1, h2, h3⟩ := hok l (by simp)
    have hws : AllBlank (if b then ind else []) := by
      cases b
      · intro x hx; simp at hx
      · exact hi
    generalize hwe : (if b then ind else []) = ws at *
    have e : paraText L cfg ind b (l :: ls) = ws ++ (Inline.textAll L cfg l ++ 10 :: paraText L cfg ind true ls) := by
      rw [← hwe]; rfl
    rw [e] at hv hf ⊢
    have hv' : View s (ws ++ (Inline.textAll L cfg l ++ 10 :: (paraText L cfg ind true ls ++ r))) := by simpa using hv
    have v2 : View s ((ws ++ Inline.textAll L cfg l ++ [10]) ++ (paraText L cfg ind true ls ++ r)) := by simpa using hv
    have el : (ws ++ Inline.textAll L cfg l ++ [10]).length = ws.length + (Inline.textAll L cfg l).length + 1 := by
      simp; omega
    have em : (ws ++ (Inline.textAll L cfg l ++ 10 :: paraText L cfg ind true ls)).length =
        ws.length + (Inline.textAll L cfg l).length + 1 + (paraText L cfg ind true ls).length := by
      simp; omega
    have hb : AtBol (adv s (ws.length + (Inline.textAll L cfg l).length + 1)) := by
      rw [← el]; exact AtBol.after v2 (by simp)
    rw [em, ← adv_adv] at hf ⊢
    refine .cons (paraLine_gives hs hl hws hv' hw h1 h2 h3) (by omega) ?_
    have v3 := View.adv v2
    rw [el] at v3
    exact ih true _ v3 hb.lastWord (fun l' h' => hok l' (by simp [h'])) hf

theorem each_vecEq : ∀ {ls : List Inlines} {ys : List Inlines},
    Each (ls.map fun l ys => Inline.eqvs false ue ys l = true) ys → vecEq (Inline.eqvs false ue) ys ls = true := by
  intro ls
  induction ls with
  | nil => intro ys h; cases h; rfl
  | cons l ls ih =>
    intro ys h
    cases h with
    | cons h1 h2 => simp [vecEq, h1, ih h2]

/-- A paragraph is read back. -/
theorem paragraph_gives {lst : P (Located Block)} {ind : Str} {ls : List Inlines} {b : Bool} (hs : env.SchemeSound)
    (hl : ListLike lst) (hi : AllBlank ind) (hne : ls ≠ []) (hv : View s (paraText L cfg ind b ls ++ r))
    (hw : lastWord s.asConsumed = [])
    (hok : ∀ l ∈ ls, ContentOk env ue L cfg [] l ∧ PlainLine (Inline.textAll L cfg l) ∧
        s.depth + 1 + Inline.nestAll l ≤ 65535)
    (hf : Fails (paraLine env lst (adv s (paraText L cfg ind b ls).length))) :
    Gives (paragraphOf env lst s) (adv s (paraText L cfg ind b ls).length)
      fun x => x.inner.eqv false ue (.paragraph ls) = true := by
  unfold paragraphOf
  have hm := para_many hs hl hi ls b s hv hw hok hf
  cases ls with
  | nil => exact absurd rfl hne
  | cons l ls =>
    refine Gives.located (Q := fun x : Block => x.eqv false ue (.paragraph (l :: ls)) = true)
      (Gives.map (Q := Each ((l :: ls).map fun l ys => Inline.eqvs false ue ys l = true)) ?_ fun ys hy => ?_)
    · cases hm with
      | cons h1 _ h3 => exact Many.many1 h1 h3
    · exact each_vecEq hy

/-! ## Where a paragraph ends -/

theorem not_inv {α} {p : P α} {x : Unit} (h : P.not p s = .ok s' x) : s' = s ∧ p s = .err := by
  unfold P.not at h
  split at h
  · cases h
  · rename_i e
    exact ⟨(Res.ok.inj h).1.symm, e⟩
  all_goals cases h

theorem not_bind_inv {α β} {p : P α} {f : Unit → P β} {x : β} (h : P.bind (P.not p) f s = .ok s' x) :
    p s = .err ∧ f () s = .ok s' x := by
  obtain ⟨s1, _, e, h⟩ := bind_inv h
  obtain ⟨e1, e2⟩ := not_inv e
  rw [e1] at h
  exact ⟨e2, h⟩

/-- Where a paragraph goes on, none of the other parsers succeeds. -/
structure GoesOn (env : Env) (lst : P (Located Block)) (s : Span) : Prop where
  header : header env s = .err
  defs : definitionList env s = .err
  list : lst s = .err
  table : table env s = .err
  code : codeBlock s = .err
  math : mathBlock s = .err
  blank : blankLine s = .err
  arrow : arrowBlockquote s = .err
  divider : divider s = .err
  placeholder : placeholder env s = .err

theorem continue_inv {lst : P (Located Block)} {x : Unit} (h : continueParagraphOf env lst s = .ok s' x) :
    s' = s ∧ GoesOn env lst s := by
  obtain ⟨h1, h⟩ := not_bind_inv h
  obtain ⟨h2, h⟩ := not_bind_inv h
  obtain ⟨h3, h⟩ := not_bind_inv h
  obtain ⟨h4, h⟩ := not_bind_inv h
  obtain ⟨h5, h⟩ := not_bind_inv h
  obtain ⟨h6, h⟩ := not_bind_inv h
  obtain ⟨h7, h⟩ := not_bind_inv h
  obtain ⟨h8, h⟩ := not_bind_inv h
  obtain ⟨h9, h⟩ := not_bind_inv h
  obtain ⟨h10, h⟩ := not_bind_inv h
  exact ⟨(Res.ok.inj h).1.symm, h1, h2, h3, h4, h5, h6, h7, h8, h9, h10⟩

theorem paraLine_inv {lst : P (Located Block)} {y : Inlines} (h : paraLine env lst s = .ok s' y) :
    GoesOn env lst s ∧ ∃ s1, paragraphLine env s = .ok s1 y := by
  obtain ⟨s1, _, h1, h⟩ := bind_inv h
  obtain ⟨e, hg⟩ := continue_inv h1
  rw [e] at h
  obtain ⟨s2, z, h2, h3⟩ := bind_inv h
  obtain ⟨s3, _, -, h4⟩ := bind_inv h3
  obtain ⟨-, rfl⟩ := Res.ok.inj h4
  exact ⟨hg, s2, h2⟩

theorem paraLine_end_nil (hs : env.SchemeSound) {lst : P (Located Block)} (h : View s []) :
    Fails (paraLine env lst s) := by
  refine .of_inv fun s' y e => ?_
  obtain ⟨-, s1, h1⟩ := paraLine_inv e
  unfold paragraphLine at h1
  obtain ⟨s2, o, h2, h1⟩ := bind_inv h1
  obtain ⟨ws, r, e, -, -, rfl, -⟩ := space0_inv h h2
  obtain ⟨rfl, rfl⟩ := List.append_eq_nil_iff.1 e.symm
  obtain ⟨x, h1, -⟩ := map_inv h1
  obtain ⟨h1, -⟩ := located_inv h1
  obtain ⟨s3, z, h1, -⟩ := bind_inv h1
  obtain ⟨s4, h1, -⟩ := deeper_inv h1
  simp only [List.length_nil, adv_zero] at h1
  rw [inlineElement_stop hs (View.withDepth h _) (.inl rfl)] at h1
  cases h1

theorem paraLine_end_blank {lst : P (Located Block)} (hb : AtBol s) (h : View s (10 :: r)) :
    Fails (paraLine env lst s) := by
  obtain ⟨o, ho⟩ := blankLine_run hb h
  refine .of_inv fun s' y e => ?_
  have := (paraLine_inv e).1.blank
  rw [ho] at this
  cases this

/-- A paragraph that is not empty and ends at a blank line or the end of the text. -/
theorem paraText_last {ind : Str} : ∀ (ls : List Inlines) (b : Bool), ls ≠ [] →
    (paraText L cfg ind b ls).getLast? = some 10 := by
  intro ls
  induction ls with
  | nil => intro b h; exact absurd rfl h
  | cons l ls ih =>
    intro b _
    cases ls with
    | nil => simp [paraText]
    | cons l' ls =>
      rw [paraText, List.getLast?_append, List.getLast?_append, List.getLast?_cons, ih true (by simp)]
      rfl

/-! ## Headers -/

theorem rep_eq (c : Byte) (n : Nat) : rep c n = List.replicate n c := by
  induction n with
  | zero => rfl
  | succ n ih => rw [List.replicate_succ, ← ih]; rfl

theorem header_gives {c : Inlines} {n : Nat} {ce : Bool} (hs : env.SchemeSound) (hb : AtBol s)
    (hv : View s (headerText L cfg c n ce ++ r)) (hok : HeaderOk env ue L cfg c n)
    (hd : s.depth + 1 + Inline.nestAll c ≤ 65535) :
    Gives (header env s) (adv s (headerText L cfg c n ce).length) fun x => x.inner.eqv false ue (.header c n ce) = true := by
  obtain ⟨hn1, hn6, hc, h10, hpad⟩ := hok
  have hpb : AllBlank (if cfg.headerNoPadding then [] else b!" ") := by
    cases cfg.headerNoPadding <;> intro x hx <;> simp_all
  have hcb : AllBlank (if ce then b!"    " else []) := by
    cases ce <;> intro x hx <;> simp_all
  have hv0 := hv
  unfold headerText at hv0
  simp only [rep_eq] at hv0
  generalize hp : (if cfg.headerNoPadding then ([] : Str) else b!" ") = pd at *
  have hv' : View s ((if ce then b!"    " else []) ++ (List.replicate n c!"=" ++ (pd ++ Inline.textAll L cfg c ++ pd ++
      List.replicate n c!"=" ++ [] ++ (10 :: r)))) := by simpa using hv0
  have hcases : pd = [] ∧ cfg.headerNoPadding = true ∨ pd = b!" " ∧ cfg.headerNoPadding = false := by
    cases h : cfg.headerNoPadding <;> simp_all
  obtain ⟨v1, h1⟩ := header_run_at (c := ce) env hb hv' ⟨hn1, hn6⟩ hcb hpb hpb (by intro x hx; simp at hx)
    (.inr (.inl ⟨r, rfl⟩)) (by cases ce <;> simp)
    (by
      rcases hcases with ⟨rfl, e⟩ | ⟨rfl, e⟩
      · simpa using (hpad e).1
      · simp)
    (by
      rcases hcases with ⟨rfl, e⟩ | ⟨rfl, e⟩
      · simpa using (hpad e).2
      · simp)
    hc.tight.1 h10
    (fun x hx => by have := hc.tight.head x hx; omega) (fun x hx => by have := hc.tight.last x hx; omega)
  obtain ⟨ys, hy, hq⟩ := inlines_run (L := L) (cfg := cfg) (r := []) (xs := c) hs (.inl rfl)
    (by simpa using v1) hc.ne (by
      have e1 : (cut (adv s ((if ce then b!"    " else []).length + n + pd.length)) (Inline.textAll L cfg c).length).asConsumed
          = s.asConsumed ++ ((if ce then b!"    " else []) ++ List.replicate n c!"=" ++ pd) := by
        have : View s (((if ce then b!"    " else []) ++ List.replicate n c!"=" ++ pd) ++ (Inline.textAll L cfg c ++ pd ++
          List.replicate n c!"=" ++ [] ++ (10 :: r))) := by simpa using hv'
        have h2 := this.consumed
        rw [← h2]
        simp [Span.asConsumed, cut, adv, Nat.add_assoc]
      rw [e1]
      have hl0 : lastWord (s.asConsumed ++ (if ce then b!"    " else [])) = [] := lastWord_blank hb.lastWord hcb
      rcases hcases with ⟨rfl, e⟩ | ⟨rfl, e⟩
      · have : lastWord (s.asConsumed ++ ((if ce then b!"    " else []) ++ List.replicate n c!"=" ++ [])) = rep c!"=" n := by
          rw [List.append_nil, ← List.append_assoc, lastWord_append_clean, hl0, rep_eq]
          · rfl
          · intro y hy
            rw [List.mem_replicate] at hy
            rw [hy.2]
            decide
        rw [this]
        have := hc.ok
        rw [e] at this
        exact this
      · rw [← List.append_assoc, lastWord_nil_of_ws (by decide)]
        have := hc.ok
        rw [e] at this
        exact this) (by simpa [cut, adv] using hd)
  rw [hy] at h1
  obtain ⟨N, hN, h1⟩ := h1
  refine Gives.of_ok (y := ⟨.header ys n ce, ⟨s.start, N, s.depth⟩⟩) (h1.trans ?_) ?_
  · congr 1
    congr 1
    rw [hN]
    have e : (if ce then b!"    " else []) ++ (List.replicate n c!"=" ++ (pd ++ Inline.textAll L cfg c ++ pd ++
      List.replicate n c!"=" ++ [] ++ (10 :: r))) = ((if ce then b!"    " else []) ++ (List.replicate n c!"=" ++ (pd ++ Inline.textAll L cfg c ++ pd ++
      List.replicate n c!"=" ++ []))) ++ (10 :: r) := by simp
    rw [e, lineLen_append]
    · unfold headerText
      rw [hp]
      simp [lineLen, rep_eq]
      omega
    · have a1 := mem_blank_ne (c := 10) hpb (by decide)
      have a2 := mem_blank_ne (c := 10) hcb (by decide)
      simp_all
  · simpa [Block.eqv] using hq

end Vw
