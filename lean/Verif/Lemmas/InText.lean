import Verif.Lemmas.Pieces
import Verif.Lemmas.LinkElem
import Verif.Lemmas.InlineElem
import Verif.Lemmas.BlockStarts
import Verif.Spec.InText

/-!
# Nothing begins inside of text
-/

namespace Vw

open P Scan

variable {C : Ctx}

theorem ShortestBody.more {pat c r : Str} (h : ShortestBody pat c r) (m : Str) :
    ShortestBody pat c (r ++ m) := by
  intro c' r' hne e
  rcases Nat.lt_or_ge c'.length c.length with hl | hl
  · have ht := congrArg (List.take (c ++ (pat ++ r)).length) e
    rw [show c ++ (pat ++ (r ++ m)) = (c ++ (pat ++ r)) ++ m by simp, List.take_left] at ht
    rw [show c' ++ (pat ++ r') = (c' ++ pat) ++ r' by simp, List.take_append,
      List.take_of_length_le (by simp; omega), List.append_assoc] at ht
    exact h c' _ hne ht
  · exact hl

theorem BodyHere.more {l r c u : Str} (h : BodyHere l r c u) (m : Str) : BodyHere l r c (u ++ m) := by
  obtain ⟨q, rfl, h1, h2, h3, h4⟩ := h
  exact ⟨q ++ m, by simp, h1, h2, h3, h4.more m⟩

theorem preceded_peek_err {α β} {q : P β} {p : P α} {s s' : Span} {y : β}
    (h : P.preceded (P.peek q) p s = .err) (hq : q s = .ok s' y) : p s = .err := by
  unfold P.preceded P.bind P.peek at h
  rw [hq] at h
  exact h

theorem mapParser_err {α} {p : P Span} {q : P α} {s s' o : Span}
    (h : mapParser p q s = .err) (hp : p s = .ok s' o) : q o = .err := by
  unfold mapParser at h
  rw [hp] at h
  simp only at h
  cases hq : q o with
  | err => rfl
  | _ => rw [hq] at h; cases h

theorem linkData_err {env : Env} {s : Span} (h : linkData env s = .err) : linkUriRef env s = .err := by
  unfold linkData linkDataF at h
  rcases bind_err h with h | ⟨s1, u, -, h⟩
  · exact h
  rcases bind_err h with h | ⟨s2, d, -, h⟩
  · exact absurd h opt_ne_err
  rcases bind_err h with h | ⟨s3, ps, -, h⟩
  · exact absurd h opt_ne_err
  · cases h

theorem linkData_target {env : Env} {s : Span} {c : Str} (hv : View s c) (h10 : 10 ∉ c)
    (ht : TargetHere env c) : linkData env s ≠ .err := by
  intro h
  obtain ⟨t, q, rfl, hq, h1, h2, h3, h4, h5⟩ := ht
  cases hu : readUri env t with
  | none => exact h5 hu
  | some u =>
    obtain ⟨u', e, -⟩ := linkUriRef_run (ue := fun _ _ => true) (u := u) hv hq (fun hm => h10 (by simp [hm]))
      ⟨h1, h2, h3, h4, u, hu, rfl⟩
    rw [linkData_err h] at e
    cases e

theorem sub_take_view {l : Str} {i e d : Nat} (hi : i ≤ e) (he : e ≤ l.length) :
    View ⟨l, i, e, d⟩ (sub l i e) := ⟨rfl, hi, he⟩

theorem lastWord_take {text : Str} {h : Nat} (hl : h ≤ text.length)
    (hw : ∀ x, 0 < h → text[h - 1]? = some x → WsByte x) : lastWord (text.take h) = [] := by
  cases h with
  | zero => simp [lastWord]
  | succ n =>
    have hlt : n < text.length := by omega
    rw [List.take_add_one, List.getElem?_eq_getElem hlt]
    exact lastWord_nil_of_ws (hw _ (by omega) (by simp [List.getElem?_eq_getElem hlt]))

theorem sub_cons {l : Str} {i e : Nat} {x : Byte} (h : l[i]? = some x) (hi : i < e) :
    sub l i e = x :: sub l (i + 1) e := by
  rw [← sub_append l i (i + 1) e (by omega) (by omega), show sub l i (i + 1) = [x] from at_iff_sub.1 (at_singleton.2 h)]
  rfl

/-- Decorated text that begins with something decorations can hold is read. -/
theorem decoratedOf_found {i e d n : Nat} {kind : Deco} {c : Str} (hw : C.Wf k ⟨C.inner, i, e, d⟩)
    (hbe : C.B e) (hn : e - i ≤ n) (hc : BodyHere kind.delim kind.delim c (sub C.inner i e))
    (hm : ¬ MarkFirst c) : decoratedOf (decoContentsF C.env n) ⟨C.inner, i, e, d⟩ ≠ .err := by
  intro herr
  obtain ⟨q, e1, h1, h2, h3, h4⟩ := hc
  have hv : View ⟨C.inner, i, e, d⟩ (sub C.inner i e) := sub_take_view hw.le hw.hi
  rw [e1] at hv
  have hin : C.In k ⟨C.inner, i, e, d⟩ := by
    have : ∃ x y, kind.delim = x :: y ∧ x < 128 := by
      cases kind <;> exact ⟨_, _, rfl, by decide⟩
    obtain ⟨x, y, ex, hx⟩ := this
    refine hw.in_of_lt hbe (b := x) ?_ hx
    have := congrArg (fun l : Str => l[0]?) e1
    rw [ex] at this
    simp only [sub_getElem?, Nat.add_zero] at this
    split at this
    · simpa using this
    · simp at this
  have hR : kind.delim ≠ [] := by cases kind <;> simp [Deco.delim]
  have hR10 : kind.delim.head? ≠ some 10 := by cases kind <;> simp [Deco.delim]
  have hrun := notContains_run (surround_run hv h1 h2 hR hR10 h4) hv.adv.cut (by simp) h3
  obtain ⟨hsu, hbr⟩ := ok_of_run (surround_notContains hin kind.delim kind.delim hR
    (by cases kind <;> decide) hR (by cases kind <;> decide)) hrun
  have h5 := mapParser_err (map_err (alts_err (located_err herr)
    (decorated1 (decoContentsF C.env n) kind kind.delim) (by cases kind <;> simp [Deco.delim]))) hrun
  have h6 := deeper_err h5
  have hL : 0 < kind.delim.length := List.length_pos_iff.2 hR
  have ho := (hsu.in hin).mono (show k + 1 ≤ k + kind.delim.length by omega)
  generalize hoo : cut (adv ⟨C.inner, i, e, d⟩ kind.delim.length) c.length = o at *
  have g1 := hsu.ostart
  have g2 := hsu.sub.hi
  have g3 := hsu.nonempty
  have g4 := hsu.send
  have g5 := hsu.right.1
  simp only at g1 g2 g4 g5
  cases n with
  | zero => cases h6
  | succ n =>
    unfold decoContentsF at h6
    have hdeco : ∀ t, C.In k t → t.stop - t.start ≤ n →
        C.Ok (decoratedOf (decoContentsF C.env n) t) (Elem C t) := fun t ht hle =>
      decoratedOf_ok ht fun q hq hql => decoContentsF_ok n q hq (by omega)
    have hlen : (o.withDepth (o.depth + 1)).stop - (o.withDepth (o.depth + 1)).start ≤ n := by
      show o.stop - o.start ≤ n
      omega
    have h7 := many1_err (I := fun t => C.In k t ∧ t.stop - t.start ≤ n) (by
      rintro t ⟨ht, hl⟩ t' x hx
      have hE : Elem C t t' x := ok_of_run (Ctx.Ok.alts_cons (link_ok ht) (Ctx.Ok.alts_cons (keyword_ok ht)
          (Ctx.Ok.alts_cons (hdeco t ht hl) (Ctx.Ok.alts_cons (textOf_ok ht
          (fun t' ht' hst' => hdeco t' ht' (by have := hst'.le; have := hst'.stop; omega))
          (fun t' hst' => ⟨n, by have := hst'.le; have := hst'.stop; omega, rfl⟩))
          Ctx.Ok.alts_nil)))) hx
      have := hE.lt
      have := hE.good.step.stop
      exact ⟨by rintro rfl; omega, ht.good hE.good, by omega⟩) ⟨withDepth_in ho, hlen⟩ h6
    have hh := decoContents_err (withDepth_in ho) (fun t ht hst => hdeco t ht (by
      have := hst.le; have := hst.stop; omega)) h7
    have hs := (show Halts C o.start o.stop from hh).stuck (a := o.start) (Nat.le_refl _)
      (by have := hin.wf.hi; simp only at this; omega) hbr.noNl hbr.noComment
    have ec : c = sub C.inner o.start o.stop := by
      have := hv.adv.cut.rem
      rw [hoo, (hsu.in hin).wf.rem] at this
      exact this.symm
    apply hm
    rcases hs with hs | ⟨m, x, hm0, hle, hp, hx⟩
    · omega
    · rw [ec, ← sub_append C.inner o.start (o.start + m) o.stop (by omega) hle]
      cases x with
      | code c => exact .inl ⟨c, _, hp.ne, by rw [hp.eq]⟩
      | math c => exact .inr ⟨c, _, hp.1.ne, by rw [hp.1.eq]⟩
      | tags ts =>
        exfalso
        rcases hp.2.1 with h0 | ⟨x, hx, hws⟩
        · omega
        · have hsub : sub C.inner i (i + kind.delim.length) = kind.delim.dropLast ++ [kind.delim.getLast hR] := by
            rw [List.dropLast_concat_getLast]
            exact hsu.left.sub_eq
          have hl := sub_last hsub (by have := hin.wf.hi; simp only at this; omega)
          rw [← g1, hx] at hl
          cases kind <;> simp [Deco.delim] at hl <;> subst hl <;> simp [isAsciiWs] at hws
      | _ => exact hx.elim

/-- A word that is an address is read as such. -/
theorem uriRef_at {env : Env} {text : Str} {p j e d : Nat} {u : Uri} (hj : p < j) (hje : j ≤ e) (he : e ≤ text.length)
    (hno : ∀ x ∈ sub text p j, ¬ WsByte x) (hend : ∀ x, text[j]? = some x → x = 32 ∨ x = 9 ∨ x = 10)
    (hu : env.uri (sub text p j) = some u) :
    uriRef env ⟨text, p, e, d⟩ = .ok (adv ⟨text, p, e, d⟩ (sub text p j).length) u := by
  have hv2 : View ⟨text, p, e, d⟩ (sub text p j ++ sub text j e) := by
    rw [sub_append _ _ _ _ (by omega) (by omega)]
    exact sub_take_view (by omega) he
  have hne : sub text p j ≠ [] := by
    intro h0
    have := congrArg List.length h0
    rw [sub_length _ _ _ (by omega)] at this
    simp at this
    omega
  have hut := uriText_exact hv2 hno hne (by
    cases hx : (sub text j e).head? with
    | none => exact .inl (List.head?_eq_none_iff.1 hx)
    | some x =>
      have hx' := hx
      rw [List.head?_eq_getElem?, sub_getElem?, Nat.add_zero] at hx
      split at hx
      · rcases hend x hx with rfl | rfl | rfl
        · exact .inr (.inl hx')
        · exact .inr (.inr (.inl hx'))
        · exact .inr (.inr (.inr (.inl hx')))
      · cases hx)
  exact mapOpt_ok hut (by rw [hv2.cut.rem]; exact hu)

/-- Where text does not end, no element begins. -/
theorem nonText_begins {env : Env} {deco : P (Located Inline)} {text : Str} {i b e d : Nat} (hib : i < b)
    (hb : b ≤ e) (he : e ≤ text.length) (h : nonTextOf env deco ⟨text, i, e, d⟩ = .err)
    (hdeco : ∀ (k : Deco) c, BodyHere k.delim k.delim c (sub text i e) → ¬ MarkFirst c →
      deco ⟨text, i, e, d⟩ ≠ .err) :
    ¬ BeginsAt env text i b := by
  have ha := alts_err h
  have hv : View ⟨text, i, e, d⟩ (sub text i b ++ sub text b e) := by
    rw [sub_append _ _ _ _ (by omega) hb]
    exact sub_take_view (by omega) he
  generalize hs : (⟨text, i, e, d⟩ : Span) = s at *
  have hst : s.start = i := by rw [← hs]
  intro hbg
  cases hbg with
  | code hc =>
    obtain ⟨q, e1, h1, h2, h3, h4⟩ := hc.more (sub text b e)
    rw [e1] at hv
    have := preceded_peek_err (ha _ (by simp; exact .inr (.inl rfl))) (char_run hv)
    rw [codeInline_run hv h1 h2 h4 h3] at this
    cases this
  | math hc hd =>
    obtain ⟨q, e1, h1, h2, h3, h4⟩ := hc.more (sub text b e)
    rw [e1] at hv
    have := preceded_peek_err (ha _ (by simp; exact .inr (.inr (.inl rfl)))) (char_run hv)
    rw [mathInline_run hv h1 h2 hd h3] at this
    cases this
  | comment hc =>
    obtain ⟨r, e1⟩ := hc
    rw [← e1, List.append_assoc] at hv
    have := preceded_peek_err (ha _ (by simp; exact .inl rfl)) (char_run hv)
    obtain ⟨w, r', e2, hl⟩ := lineSplit_exists (r ++ sub text b e)
    rw [e2] at hv
    have h2 : lineComment s = .err := by
      unfold comment alt at this
      cases hm : multiLineComment s with
      | err => rw [hm] at this; exact this
      | _ => rw [hm] at this; cases this
    rw [lineComment_run hv hl] at h2
    cases h2
  | @keyword k hk =>
    obtain ⟨r, e1⟩ := hk
    rw [← e1, List.append_assoc] at hv
    have := ha keyword (by simp)
    rw [keyword_run hv] at this
    cases this
  | wiki hc ht =>
    obtain ⟨q, e1, h1, h2, h3, h4⟩ := hc.more (sub text b e)
    rw [e1] at hv
    have := preceded_peek_err (ha _ (by simp; exact .inr (.inr (.inr (.inr (.inl rfl))))))
      (alt_ok (char_run hv))
    have := map_err (located_err (alts_err this (wikiLink env) (by simp)))
    have hbr := notContains_run (surround_run hv h1 h2 (by simp) (by simp) h4) hv.adv.cut (by simp) h3
    exact linkData_target hv.adv.cut h2 ht (mapParser_err this hbr)
  | transclusion hc ht =>
    obtain ⟨q, e1, h1, h2, h3, h4⟩ := hc.more (sub text b e)
    rw [e1] at hv
    have := preceded_peek_err (ha _ (by simp; exact .inr (.inr (.inr (.inr (.inl rfl))))))
      ((alt_er (satisfy_run_err hv (by simp))).trans (char_run hv))
    have := located_err (map_err (alts_err this (transclusionLink env) (by simp)))
    have hbr := notContains_run (surround_run hv h1 h2 (by simp) (by simp) h4) hv.adv.cut (by simp) h3
    exact linkData_target hv.adv.cut h2 ht (mapParser_err this hbr)
  | @deco k c hc hm =>
    have hc' := hc.more (sub text b e)
    rw [sub_append _ _ _ _ (by omega) hb] at hc'
    refine hdeco k c hc' hm ?_
    obtain ⟨q, e1, -⟩ := hc.more (sub text b e)
    rw [e1] at hv
    have hm := ha _ (show P.preceded (P.peek (oneOf b!"*_~^,")) deco ∈ _ by simp)
    have hx : ∃ x y, k.delim = x :: y ∧ b!"*_~^,".contains x = true := by
      cases k <;> exact ⟨_, _, rfl, by decide⟩
    obtain ⟨x, y, ex, hx⟩ := hx
    rw [ex] at hv
    exact preceded_peek_err hm (satisfy_run hv hx)
  | @tags j ts hj e1 hts ht hw hr =>
    have hij : i ≤ j := by
      rcases Nat.lt_or_ge j i with h' | h'
      · rw [show sub text i j = [] by simp [sub]; omega] at e1; simp at e1
      · exact h'
    rw [← sub_append text i j b hij hj, List.append_assoc, sub_append _ _ _ _ hj hb, e1] at hv
    have := preceded_peek_err (ha _ (by simp; exact .inr (.inr (.inr (.inl rfl))))) (char_run hv)
    rw [tags_run hv ?_ hts ht ?_] at this
    · cases this
    · rw [show s.asConsumed = text.take i by rw [← hs]; rfl]
      exact lastWord_take (by omega) hw
    · intro x hx
      refine hr x ?_
      rw [List.head?_eq_getElem?, sub_getElem?, Nat.add_zero] at hx
      split at hx
      · exact hx
      · cases hx
  | @raw p j u sc hp hj hjb hcol hw hno hend hu hsc hm =>
    have hvc : View s (c!":" :: sub text (i + 1) e) := by
      rw [sub_append _ _ _ _ (by omega) hb, sub_cons hcol (by omega)] at hv
      exact hv
    have := preceded_peek_err (ha _ (by simp; exact .inr (.inr (.inr (.inr (.inr (.inr (.inr rfl))))))))
      (char_run hvc)
    unfold rawLinkBack at this
    have hback : s.backtrackStartBy (backtrackLen s.asConsumed) = ⟨text, p, e, d⟩ := by
      have e1 : s.asConsumed = text.take p ++ sub text p i := by
        rw [← hs]
        have := sub_append text 0 p i (by omega) hp
        simp only [sub, List.drop_zero] at this
        exact this.symm
      have e2 : backtrackLen s.asConsumed = i - p := by
        rw [backtrackLen_eq, e1, lastWord_append_clean, lastWord_take (by omega) hw, List.nil_append,
          sub_length _ _ _ (by omega)]
        intro x hx
        obtain ⟨k, k1, k2, k3⟩ := mem_sub.1 hx
        exact hno x (mem_sub.2 ⟨k, k1, by omega, k3⟩)
      rw [e2, ← hs]
      unfold Span.backtrackStartBy
      simp only
      rw [if_neg (by omega), show i - (i - p) = p by omega]
    rw [hback] at this
    have hur := uriRef_at (d := d) (by omega) (by omega) he hno hend hu
    have h3 := map_err (located_err this)
    rw [verify_ok hur, hsc] at h3
    simp only at h3
    rw [if_pos (show rawSchemes.contains sc = true from List.contains_iff_mem.2 hm)] at h3
    cases h3

theorem BeginsAt.lt {env : Env} {text : Str} {i b : Nat} (h : BeginsAt env text i b) : i < b := by
  rcases Nat.lt_or_ge i b with hlt | hge
  · exact hlt
  · exfalso
    have hsub : sub text i b = [] := by simp [sub]; omega
    cases h with
    | code hc => obtain ⟨q, e, _⟩ := hc; rw [hsub] at e; simp at e
    | math hc _ => obtain ⟨q, e, _⟩ := hc; rw [hsub] at e; simp at e
    | comment hc => rw [hsub] at hc; simp at hc
    | @keyword k hk => rw [hsub] at hk; cases k <;> simp [Keyword.display] at hk
    | wiki hc _ => obtain ⟨q, e, _⟩ := hc; rw [hsub] at e; simp at e
    | transclusion hc _ => obtain ⟨q, e, _⟩ := hc; rw [hsub] at e; simp at e
    | @deco k c hc _ => obtain ⟨q, e, _⟩ := hc; rw [hsub] at e; cases k <;> simp [Deco.delim] at e
    | @tags j ts hj e1 =>
      rw [show sub text i j = [] by simp [sub]; omega] at e1
      simp at e1
    | raw _ hj hjb => omega

/-! ## Rows -/

theorem Tile.ends {d a b : Nat} {xs : Inlines} (h : Tile C d a xs b) :
    ∀ x ∈ xs, x.region.offset + x.region.len ≤ b := by
  induction h with
  | nil => simp
  | leaf _ _ _ _ _ ht _ _ ih =>
    intro x hx
    rcases List.mem_cons.1 hx with rfl | hx
    · exact ht.le
    · exact ih x hx
  | deco _ _ _ _ _ _ _ _ _ ht _ ih =>
    intro x hx
    rcases List.mem_cons.1 hx with rfl | hx
    · exact ht.le
    · exact ih x hx

theorem Tile.quiets {d a b : Nat} {xs : Inlines} (h : Tile C d a xs b) :
    ∀ x ∈ xs, Quiet C x.region.offset (x.region.offset + x.region.len) b x.inner := by
  induction h with
  | nil => simp
  | leaf _ _ _ _ _ _ hq _ ih =>
    intro x hx
    rcases List.mem_cons.1 hx with rfl | hx
    · exact hq
    · exact ih x hx
  | deco _ _ _ _ _ _ _ _ _ _ _ ih =>
    intro x hx
    rcases List.mem_cons.1 hx with rfl | hx
    · trivial
    · exact ih x hx

/-- A row that was read as such. -/
def RowRead (C : Ctx) (xs : Inlines) : Prop := ∃ d a b, Tile C d a xs b

theorem Rows.read {d a b : Nat} {rows : List Inlines} (h : Rows C d a rows b) :
    ∀ xs ∈ rows, RowRead C xs := by
  induction h with
  | nil _ => simp
  | cons _ h2 _ _ ih =>
    intro xs hx
    rcases List.mem_cons.1 hx with rfl | hx
    · exact ⟨_, _, _, h2⟩
    · exact ih xs hx

theorem LocRows.read {d a b : Nat} {xs : List (Located Inlines)} (h : LocRows C d a xs b) :
    ∀ x ∈ xs, RowRead C x.inner := by
  induction h with
  | nil _ => simp
  | cons h1 _ ih =>
    intro x hx
    rcases List.mem_cons.1 hx with rfl | hx
    · obtain ⟨i, j, _, ht, _⟩ := h1.tile
      exact ⟨_, _, _, ht⟩
    · exact ih x hx

theorem DefsAt.read {d a b : Nat} {xs : List (Located TermDefs)} (h : DefsAt C d a xs b) :
    ∀ x ∈ xs, ∀ y ∈ x.inner.term :: x.inner.defs.inner, RowRead C y.inner := by
  induction h with
  | nil _ => simp
  | cons h1 _ _ _ _ _ _ ih =>
    intro x hx
    rcases List.mem_cons.1 hx with rfl | hx
    · exact h1.read
    · exact ih x hx

theorem CellsAt.read {d a b : Nat} {xs : List (Located Cell)} (h : CellsAt C d a xs b) :
    ∀ x ∈ xs, ∀ c, x.inner = .content c → RowRead C c := by
  induction h with
  | nil _ => simp
  | cons h1 _ ih =>
    intro x hx
    rcases List.mem_cons.1 hx with rfl | hx
    · intro c hc
      exact ⟨_, _, _, (h1.content c hc).2⟩
    · exact ih x hx

theorem CellRows.read {d a b : Nat} {rows : List (List (Located Cell))} (h : CellRows C d a rows b) :
    ∀ x ∈ rows.flatten, ∀ c, x.inner = .content c → RowRead C c := by
  induction h with
  | nil _ => simp
  | cons h1 _ _ ih =>
    intro x hx
    rw [List.flatten_cons, List.mem_append] at hx
    exact hx.elim (h1.read x) (ih x)

theorem BlockAt.read {d a b : Nat} {x : Block} (h : BlockAt C d a b x) :
    ∀ xs ∈ x.rows, RowRead C xs := by
  cases h with
  | defs _ h =>
    intro xs hx
    simp only [Block.rows, List.mem_flatMap, List.mem_map] at hx
    obtain ⟨y, hy, z, hz, rfl⟩ := hx
    exact h.read y hy z hz
  | header _ _ _ h2 _ _ =>
    intro xs hx
    simp only [Block.rows, List.mem_singleton] at hx
    exact ⟨_, _, _, hx ▸ h2⟩
  | paragraph h _ => exact h.read
  | table h _ =>
    intro xs hx
    rw [Block.rows, Table.allCells_new h.ne, List.mem_filterMap] at hx
    obtain ⟨c, hc, e⟩ := hx
    cases hy : c.inner with
    | content ys =>
      rw [hy] at e
      cases e
      exact h.read c hc _ hy
    | _ => rw [hy] at e; cases e
  | _ => intro y hy; cases hy

theorem page_row {env : Env} {text : Str} {s' : Span} {pg : Page}
    (h : parsePage env text = .ok s' pg) {xs : Inlines} (hx : pg.Row xs) :
    RowRead (Ctx.ofText env text) xs := by
  rcases hx with ⟨y, hy, hr⟩ | ⟨y, hy, k, e⟩
  · exact (parsePage_block h hy).2.2.read xs hr
  · obtain ⟨e, -, -, ht⟩ := (parsePage_piece h hy).fill k xs e
    exact ⟨_, _, _, ht⟩

end Vw
