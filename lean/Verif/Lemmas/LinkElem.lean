import Verif.Lemmas.LinkRun
import Verif.Lemmas.Uri

/-!
# Reading back whole links
-/

namespace Vw
open P Scan

variable {s : Span} {r w t x : Str} {env : Env} {ue : Uri → Uri → Bool} {L : OutLib}

theorem mapParser_inner {α : Type} {p : P Span} {q : P α} {s' o : Span} (h : p s = .ok s' o) (hq : q o = .err) :
    mapParser p q s = .err := by
  unfold mapParser; rw [h]; simp only [hq]

theorem propsEq_none : propsEq none none = true := rfl

/-- `p` reads `n` bytes as the inline element `x`. -/
def Reads1 (ue : Uri → Uri → Bool) (p : P (Located Inline)) (s : Span) (n : Nat) (x : Inline) : Prop :=
  ∃ y, p s = .ok (adv s n) ⟨y, ⟨s.start, n, s.depth⟩⟩ ∧ Inline.eqv false ue y x = true

theorem brackets_run {c : Str} (h : View s (b!"[[" ++ (c ++ (b!"]]" ++ r)))) (hb : BodyOk b!"]]" c) :
    brackets s = .ok (adv s (c.length + 4)) (cut (adv s 2) c.length) ∧ View (cut (adv s 2) c.length) c := by
  have := hb.run (lft := b!"[[") (by simp) (by simp) (by simp) h
  refine ⟨this.trans (ok_congr ?_), h.adv.cut⟩
  simp; omega

theorem braces_run {c : Str} (h : View s (b!"{{" ++ (c ++ (b!"}}" ++ r)))) (hb : BodyOk b!"}}" c) :
    braces s = .ok (adv s (c.length + 4)) (cut (adv s 2) c.length) ∧ View (cut (adv s 2) c.length) c := by
  have := hb.run (lft := b!"{{") (by simp) (by simp) (by simp) h
  refine ⟨this.trans (ok_congr ?_), h.adv.cut⟩
  simp; omega

theorem descText_bar (L : OutLib) (d : Option Description) : BarNext (descText L d) := by
  cases d with
  | none => exact .inl rfl
  | some d =>
    refine .inr ?_
    cases d with
    | text => rfl
    | transclusion u d p => cases d <;> rfl

theorem prefix_bar {p d : Str} (hd : BarNext d) (hp : c!"|" ∉ p) (h : p <+: t ++ d) : p <+: t := by
  obtain ⟨q, e⟩ := h
  rcases List.append_eq_append_iff.1 e with ⟨u, rfl, h2⟩ | ⟨u, rfl, h2⟩
  · exact ⟨u, rfl⟩
  · cases u with
    | nil => exact ⟨[], by simp⟩
    | cons a u =>
      rw [h2] at hd
      rcases hd with hd | hd
      · simp at hd
      · simp at hd
        subst hd
        simp at hp

/-- URI and description, up to the end. -/
theorem uriDesc_run {ld : P LinkData} (hld : ReadsUri env ue ld) {d : Option Description} {u : Uri}
    (h : View s (t ++ descText L d)) (h10 : 10 ∉ t ++ descText L d)
    (hu : UriTextOk env ue t u) (hd : ∀ x, d = some x → DescOk env ue L x) :
    ∃ u' d', linkUriRef env s = .ok (adv s t.length) u' ∧
      opt (linkDescriptionOf ld) (adv s t.length) = .ok (adv s (t ++ descText L d).length) d' ∧
      ue u' u = true ∧ optEq (Description.eqv ue) d' d = true := by
  simp only [List.mem_append, not_or] at h10
  obtain ⟨u', e1, h1⟩ := linkUriRef_run h (descText_bar L d) h10.1 hu
  have hv : View (adv s t.length) (descText L d ++ []) := by simpa using h.adv
  obtain ⟨d', e2, h2⟩ := optDescription_run hld hv (by split <;> simp [BarNext]) h10.2 hd
  refine ⟨u', d', e1, ?_, h1, h2⟩
  rw [e2]
  simp

theorem diary_err {c : Str} {s' o : Span} (hb : brackets s = .ok s' o) (h : View o c) (hp : ¬ b!"diary:" <+: c) :
    diaryLink env s = .err :=
  located_er (mapParser_inner hb (bind_er (tag_run_err h hp)))

theorem delimited_err {pre c : Str} {o : Span} (h : View o c) (h10 : 10 ∉ c)
    (hp : ¬ pre <+: c ∨ c!":" ∉ c) : delimited (tag pre) (takeLineUntil1 b!":") (tag b!":") o = .err := by
  by_cases hpre : pre <+: c
  · have hc : c!":" ∉ c := by
      rcases hp with hp | hp
      · exact absurd hpre hp
      · exact hp
    obtain ⟨q, rfl⟩ := hpre
    unfold delimited
    rw [bind_ok (tag_run h)]
    simp only [List.mem_append, not_or] at h10 hc
    have h1 := h.adv
    have e := takeLineUntil1_run_eol (c := c!":") (w := q) (r := []) (by simpa using h1) ⟨h10.2, .inl rfl⟩ hc.2 (by decide)
    by_cases hq : q = []
    · rw [if_pos hq] at e
      exact bind_er e
    · rw [if_neg hq] at e
      rw [bind_ok e]
      have h2 : View (adv (adv o pre.length) q.length) [] := View.adv (w := q) (by simpa using h1)
      exact bind_er (tag_run_err h2 (by simp))
  · exact bind_er (tag_run_err h hpre)

theorem indexed_err {c : Str} {s' o : Span} (hb : brackets s = .ok s' o) (h : View o c) (h10 : 10 ∉ c)
    (hp : ¬ b!"wiki" <+: c ∨ c!":" ∉ c) : indexedInterwikiLink env s = .err :=
  located_er (mapParser_inner hb (bind_er (mapOpt_er (delimited_err h h10 hp))))

theorem named_err {c : Str} {s' o : Span} (hb : brackets s = .ok s' o) (h : View o c) (h10 : 10 ∉ c)
    (hp : ¬ b!"wn." <+: c ∨ c!":" ∉ c) : namedInterwikiLink env s = .err :=
  located_er (mapParser_inner hb (bind_er (strOf_er (delimited_err h h10 hp))))

theorem link_wiki {d : LinkData} (h : View s (Link.textOf L (.wiki d) ++ r)) (hl : LinkOk env ue L x (.wiki d)) :
    Reads1 ue (link env) s (Link.textOf L (.wiki d)).length (.link (.wiki d)) := by
  obtain ⟨hb, hu, hd, hp, hc⟩ := hl
  generalize hbody : (Link.wiki d).body L = c at hb hc
  have hv : View s (b!"[[" ++ (c ++ (b!"]]" ++ r))) := by
    rw [← hbody]
    simpa [Link.textOf, Link.body] using h
  have hlen : (Link.textOf L (.wiki d)).length = c.length + 4 := by
    rw [← hbody]
    simp [Link.textOf, Link.body]
    omega
  obtain ⟨e, ho⟩ := brackets_run hv hb
  generalize cut (adv s 2) c.length = o at e ho
  have hpre : ∀ p ∈ [b!"diary:", b!"wiki", b!"wn."], ¬ p <+: c ∨ c!":" ∉ c := by
    intro p hp
    rcases hc with hc | hc
    · exact .inr hc
    · refine .inl fun hx => hc p hp ?_
      rw [← hbody] at hx
      refine prefix_bar (descText_bar L d.desc) ?_ hx
      simp only [List.mem_cons, List.not_mem_nil, or_false] at hp
      rcases hp with rfl | rfl | rfl <;> decide
  have hdi : ¬ b!"diary:" <+: c := by
    rcases hpre b!"diary:" (by simp) with hx | hx
    · exact hx
    · rintro ⟨q, rfl⟩
      simp at hx
  have h10 := hb.2.1
  obtain ⟨u', d', e1, e2, h1, h2⟩ := uriDesc_run (L := L) (d := d.desc) (s := o) (t := decodedUri L d.uri)
    (u := d.uri) (linkDataF_uri (env := env) (ue := ue) (o.remainingLen - 1)) (by rw [← hbody] at ho; exact ho)
    (by rw [← hbody] at h10; exact h10) hu hd
  have hpos : 0 < o.remainingLen := by
    rw [ho.remLen]; exact List.length_pos_iff.2 hb.1
  have hld : linkData env o = .ok (adv o c.length) ⟨u', d', none⟩ := by
    unfold linkData linkDataF
    rw [bind_ok e1]
    rw [show o.remainingLen - 1 + 1 = o.remainingLen by omega] at e2
    rw [bind_ok e2]
    have hend : View (adv o (decodedUri L d.uri ++ descText L d.desc).length) [] := by
      rw [← hbody] at ho
      exact View.adv (w := decodedUri L d.uri ++ descText L d.desc) (by simpa [Link.body] using ho)
    rw [bind_ok (opt_er (linkProperties_none hend (by simp)))]
    rw [← hbody]
    rfl
  rw [hlen]
  refine ⟨.link (.wiki ⟨u', d', none⟩), ?_, ?_⟩
  · unfold link
    rw [alts_er (diary_err e ho hdi), alts_er (indexed_err e ho h10 (hpre _ (by simp))),
      alts_er (named_err e ho h10 (hpre _ (by simp)))]
    exact alts_fst (located_run hv (by simp) (map_ok (mapParser_ok e hld)))
  · simp [Inline.eqv, Link.eqv, LinkData.eqv, h1, h2, hp, propsEq_none]

theorem digitsVal_eq : ∀ (ds : Str) (acc : Nat), (∀ b ∈ ds, 48 ≤ b ∧ b ≤ 57) →
    digitsVal acc ds = some (ds.foldl (fun v b => v * 10 + (b - 48)) acc) := by
  intro ds
  induction ds with
  | nil => intros; rfl
  | cons b ds ih =>
    intro acc h
    unfold digitsVal
    rw [if_pos ((isDigit_iff b).2 (h b (by simp))), ih _ (fun c hc => h c (by simp [hc]))]
    rfl

theorem parseU32_decStr {i : Nat} (hi : i < 4294967296) : parseU32 (decStr i) = some i := by
  have hd := decStr_digits i
  have hn := decStr_ne_nil i
  have hv := decStr_value i
  have e := digitsVal_eq (decStr i) 0 hd
  unfold decValue at hv
  rw [hv] at e
  generalize decStr i = ds at hd hn e
  unfold parseU32
  cases ds with
  | nil => exact absurd rfl hn
  | cons b ds =>
    by_cases hb : b = 43
    · have := hd b (by simp)
      omega
    · have hs : ∀ t : Str, b :: ds = 43 :: t → False := fun t ht => hb (by simp at ht; exact ht.1)
      simp [e, hi]

theorem linkIndexed_run {pre c : Str} {o : Span} (h : View o (pre ++ (c ++ (b!":" ++ r)))) (hc : c ≠ []) (h10 : 10 ∉ c)
    (h58 : c!":" ∉ c) :
    delimited (tag pre) (takeLineUntil1 b!":") (tag b!":") o =
      .ok (adv o (pre.length + c.length + 1)) (cut (adv o pre.length) c.length) := by
  unfold delimited
  have h1 := h.adv
  have h2 := h1.adv
  rw [bind_ok (tag_run h), bind_ok (takeLineUntil1_run h1 h10 h58 (by decide) hc), bind_ok (tag_run h2)]
  simp only [P.pure, adv_adv]
  exact ok_congr (by simp)

theorem link_indexed {i : Nat} {d : LinkData} (h : View s (Link.textOf L (.indexed i d) ++ r))
    (hl : LinkOk env ue L x (.indexed i d)) :
    Reads1 ue (link env) s (Link.textOf L (.indexed i d)).length (.link (.indexed i d)) := by
  obtain ⟨hb, hi, hu, hd, hp⟩ := hl
  generalize hbody : (Link.indexed i d).body L = c at hb
  have hv : View s (b!"[[" ++ (c ++ (b!"]]" ++ r))) := by
    rw [← hbody]
    simpa [Link.textOf, Link.body] using h
  have hlen : (Link.textOf L (.indexed i d)).length = c.length + 4 := by
    rw [← hbody]
    simp [Link.textOf, Link.body]
    omega
  obtain ⟨e, ho⟩ := brackets_run hv hb
  generalize cut (adv s 2) c.length = o at e ho
  have hdi : ¬ b!"diary:" <+: c := by
    rw [← hbody]
    simp [Link.body, List.cons_prefix_cons]
  have h10 := hb.2.1
  rw [← hbody] at h10
  simp only [Link.body, List.mem_append, not_or] at h10
  have ho' : View o (b!"wiki" ++ (decStr i ++ (b!":" ++ (decodedUri L d.uri ++ descText L d.desc)))) := by
    rw [← hbody] at ho; exact ho
  have hdig := decStr_digits i
  have ei := linkIndexed_run ho' (decStr_ne_nil i) h10.2.1 (fun hm => by have := hdig _ hm; omega)
  have ho2 : View (adv o (4 + (decStr i).length + 1)) (decodedUri L d.uri ++ descText L d.desc) := by
    have : View (adv o _) _ := View.adv (w := b!"wiki" ++ (decStr i ++ b!":")) (by simpa using ho')
    rw [show (b!"wiki" ++ (decStr i ++ b!":")).length = 4 + (decStr i).length + 1 by simp; omega] at this
    exact this
  have hidx : indexedLinkIndex o = .ok (adv o (4 + (decStr i).length + 1)) i := by
    refine mapOpt_ok (a := cut (adv o 4) (decStr i).length) ei ?_
    have : View (cut (adv o 4) (decStr i).length) (decStr i) := by
      have h1 : View (adv o 4) _ := View.adv (w := b!"wiki") ho'
      exact h1.cut
    rw [this.rem]
    exact parseU32_decStr hi
  obtain ⟨u', d', e1, e2, h1, h2⟩ := uriDesc_run (L := L) (d := d.desc) (t := decodedUri L d.uri)
    (u := d.uri) (linkData_uri (env := env) (ue := ue)) ho2 (by simp [h10]) hu hd
  rw [hlen]
  refine ⟨.link (.indexed i ⟨u', d', none⟩), ?_, ?_⟩
  · unfold link
    rw [alts_er (diary_err e ho hdi)]
    refine alts_fst (located_run hv (by simp) (mapParser_ok e
      (s2 := adv (adv o (4 + (decStr i).length + 1)) (decodedUri L d.uri ++ descText L d.desc).length) ?_))
    · rw [bind_ok hidx, bind_ok e1]
      unfold linkDescription
      rw [bind_ok e2]
      rfl
  · simp [Inline.eqv, Link.eqv, LinkData.eqv, h1, h2, hp, propsEq_none]

theorem link_named {n : Str} {d : LinkData} (h : View s (Link.textOf L (.named n d) ++ r))
    (hl : LinkOk env ue L x (.named n d)) :
    Reads1 ue (link env) s (Link.textOf L (.named n d)).length (.link (.named n d)) := by
  obtain ⟨hb, hn, h58, hu, hd, hp⟩ := hl
  generalize hbody : (Link.named n d).body L = c at hb
  have hv : View s (b!"[[" ++ (c ++ (b!"]]" ++ r))) := by
    rw [← hbody]
    simpa [Link.textOf, Link.body] using h
  have hlen : (Link.textOf L (.named n d)).length = c.length + 4 := by
    rw [← hbody]
    simp [Link.textOf, Link.body]
    omega
  obtain ⟨e, ho⟩ := brackets_run hv hb
  generalize cut (adv s 2) c.length = o at e ho
  have hdi : ¬ b!"diary:" <+: c := by
    rw [← hbody]
    simp [Link.body, List.cons_prefix_cons]
  have hwi : ¬ b!"wiki" <+: c := by
    rw [← hbody]
    simp [Link.body, List.cons_prefix_cons]
  have h10' := hb.2.1
  have h10 := h10'
  rw [← hbody] at h10
  simp only [Link.body, List.mem_append, not_or] at h10
  have ho' : View o (b!"wn." ++ (n ++ (b!":" ++ (decodedUri L d.uri ++ descText L d.desc)))) := by
    rw [← hbody] at ho; exact ho
  have ei := linkIndexed_run ho' hn h10.2.1 h58
  have ho2 : View (adv o (3 + n.length + 1)) (decodedUri L d.uri ++ descText L d.desc) := by
    have : View (adv o _) _ := View.adv (w := b!"wn." ++ (n ++ b!":")) (by simpa using ho')
    rw [show (b!"wn." ++ (n ++ b!":")).length = 3 + n.length + 1 by simp; omega] at this
    exact this
  have hidx : namedLinkName o = .ok (adv o (3 + n.length + 1)) n := by
    refine (strOf_ok (o := cut (adv o 3) n.length) ei).trans ?_
    have : View (cut (adv o 3) n.length) n := by
      have h1 : View (adv o 3) _ := View.adv (w := b!"wn.") ho'
      exact h1.cut
    rw [this.rem]
    rfl
  obtain ⟨u', d', e1, e2, h1, h2⟩ := uriDesc_run (L := L) (d := d.desc) (t := decodedUri L d.uri)
    (u := d.uri) (linkData_uri (env := env) (ue := ue)) ho2 (by simp [h10]) hu hd
  rw [hlen]
  refine ⟨.link (.named n ⟨u', d', none⟩), ?_, ?_⟩
  · unfold link
    rw [alts_er (diary_err e ho hdi), alts_er (indexed_err e ho h10' (.inl hwi))]
    refine alts_fst (located_run hv (by simp) (mapParser_ok e
      (s2 := adv (adv o (3 + n.length + 1)) (decodedUri L d.uri ++ descText L d.desc).length) ?_))
    · rw [bind_ok hidx, bind_ok e1]
      unfold linkDescription
      rw [bind_ok e2]
      rfl
  · simp [Inline.eqv, Link.eqv, LinkData.eqv, h1, h2, hp, propsEq_none]

/-- What is written after the date of a diary link. -/
def anchorText (a : Option Anchor) : Str := (a.map Anchor.display).getD []

theorem anchorText_read {a : Option Anchor} (ha : ∀ b, a = some b → ∀ x ∈ b, c!"#" ∉ x) :
    Anchor.fromUriFragment (anchorText a) = some (a.getD []) := by
  cases a with
  | none => rfl
  | some a =>
    cases a with
    | nil => rfl
    | cons y ys =>
      have := splitOn_join (sep := c!"#") (ps := y :: ys) (by simp) (ha _ rfl)
      show Anchor.fromUriFragment (c!"#" :: joinWith b!"#" (y :: ys)) = some (y :: ys)
      unfold Anchor.fromUriFragment splitOn
      rw [if_pos rfl, this]
      rfl

theorem mem_joinWith {sep : Str} {b : Byte} : ∀ (l : List Str), b ∈ joinWith sep l → b ∈ sep ∨ ∃ x ∈ l, b ∈ x
  | [], h => by simp [joinWith] at h
  | [x], h => .inr ⟨x, by simp, by simpa [joinWith] using h⟩
  | x :: y :: l, h => by
    simp only [joinWith, List.mem_append] at h
    rcases h with (h | h) | h
    · exact .inr ⟨x, by simp, h⟩
    · exact .inl h
    · rcases mem_joinWith (y :: l) h with h | ⟨z, hz, hb⟩
      · exact .inl h
      · exact .inr ⟨z, by simp at hz ⊢; exact .inr hz, hb⟩

theorem anchorText_bar {a : Option Anchor} (ha : ∀ b, a = some b → ∀ x ∈ b, c!"|" ∉ x) : c!"|" ∉ anchorText a := by
  cases a with
  | none => simp [anchorText]
  | some a =>
    intro h
    simp only [anchorText, Option.map_some, Option.getD_some, Anchor.display] at h
    split at h
    · simp at h
    · rcases List.mem_cons.1 h with h | h
      · simp at h
      · rcases mem_joinWith a h with h | ⟨z, hz, hb⟩
        · simp at h
        · exact ha a rfl z hz hb

theorem anchorText_head (a : Option Anchor) : anchorText a = [] ∨ (anchorText a).head? = some c!"#" := by
  cases a with
  | none => exact .inl rfl
  | some a => cases a <;> simp [anchorText, Anchor.display]

theorem diaryUriText_getD (a : Option Anchor) :
    diaryUriText (some (a.getD [])) = (a.map Anchor.toEncodedUriFragment).getD [] := by
  cases a <;> rfl

theorem link_diary {dt : Date} {d : LinkData} (h : View s (Link.textOf L (.diary dt d) ++ r))
    (hl : LinkOk env ue L x (.diary dt d)) :
    Reads1 ue (link env) s (Link.textOf L (.diary dt d)).length (.link (.diary dt d)) := by
  obtain ⟨hb, ⟨hd1, hd2, hd3, hd4⟩, ha, ⟨u, hu, hue⟩, hd, hp⟩ := hl
  generalize hbody : (Link.diary dt d).body L = c at hb
  have hv : View s (b!"[[" ++ (c ++ (b!"]]" ++ r))) := by
    rw [← hbody]
    simpa [Link.textOf, Link.body] using h
  have hlen : (Link.textOf L (.diary dt d)).length = c.length + 4 := by
    rw [← hbody]
    simp [Link.textOf, Link.body]
    omega
  obtain ⟨e, ho⟩ := brackets_run hv hb
  generalize cut (adv s 2) c.length = o at e ho
  have h10 := hb.2.1
  rw [← hbody] at h10
  simp only [Link.body, List.mem_append, not_or] at h10
  have ho' : View o (b!"diary:" ++ (L.dateStr dt ++ (anchorText d.toAnchor ++ descText L d.desc))) := by
    rw [← hbody] at ho; exact ho
  have h10a : 10 ∉ anchorText d.toAnchor := h10.2.2.1
  have v1 : View (adv o 6) _ := View.adv (w := b!"diary:") ho'
  generalize hat : anchorText d.toAnchor = at' at *
  have v2 := v1.adv
  have v3 := v2.adv
  have hhead := anchorText_head d.toAnchor
  rw [hat] at hhead
  -- the date
  have hdate : mapOpt (takeLineUntil21 b!"|" b!"#") (fun s => env.date s.asRemaining) (adv o 6) =
      .ok (adv (adv o 6) (L.dateStr dt).length) dt := by
    obtain ⟨w, q, ew, hw, hs⟩ := takeLineUntil2_view (p1 := b!"|") (p2 := b!"#") (by simp) (by simp) v1
    rw [← ew] at hs
    have hnext : ∀ b, (at' ++ descText L d.desc).head? = some b → b = c!"#" ∨ b = c!"|" := by
      intro b hb
      rcases hhead with hh | hh
      · rw [hh] at hb
        rcases descText_bar L d.desc with hx | hx
        · rw [hx] at hb; simp at hb
        · rw [List.nil_append, hx] at hb; simp at hb; exact .inr hb.symm
      · cases at' with
        | nil => simp at hh
        | cons y ys => simp at hh hb; exact .inl (by rw [← hb, hh])
    have hl := hs.unique h10.2.1 (.inr (by
        intro hx; rcases hnext _ hx with hx | hx <;> simp at hx)) (by
      intro p hp i hi ha
      simp only [List.mem_cons, List.not_mem_nil, or_false] at hp
      rcases hp with rfl | rfl
      · have := at_singleton.1 ha
        rw [List.getElem?_append_left hi] at this
        exact hd2 (List.mem_of_getElem? this)
      · have := at_singleton.1 ha
        rw [List.getElem?_append_left hi] at this
        exact hd3 (List.mem_of_getElem? this)) (by
      cases hx : at' ++ descText L d.desc with
      | nil => exact .inl rfl
      | cons y ys =>
        rcases hnext y (by rw [hx]; rfl) with rfl | rfl
        · exact .inr (.inr ⟨b!"#", by simp, ys, rfl⟩)
        · exact .inr (.inr ⟨b!"|", by simp, ys, rfl⟩))
    rw [hl] at hw
    refine mapOpt_ok (a := cut (adv o 6) (L.dateStr dt).length) ?_ ?_
    · unfold takeLineUntil21
      rw [verify_ok hw, v1.cut.isEmpty, if_pos (by simpa using hd1)]
    · rw [v1.cut.rem]; exact hd4
  have hanc : opt linkAnchor (adv (adv o 6) (L.dateStr dt).length) =
      .ok (adv (adv (adv o 6) (L.dateStr dt).length) at'.length) (some (d.toAnchor.getD [])) := by
    have hbar : c!"|" ∉ at' := by
      rw [← hat]; exact anchorText_bar (fun b hb x hx => (ha b hb x hx).1)
    refine opt_ok (mapOpt_ok (takeBar_run v2 (descText_bar L d.desc) h10a hbar) ?_)
    rw [v2.cut.rem, ← hat]
    exact anchorText_read (fun b hb x hx => (ha b hb x hx).2)
  obtain ⟨d', e2, h2⟩ := optDescription_run (r := []) (linkData_uri (env := env) (ue := ue))
    (s := adv (adv (adv o 6) (L.dateStr dt).length) at'.length) (by rw [List.append_nil]; exact v3) (by split <;> simp [BarNext]) h10.2.2.2 hd
  have hnew : ∀ o', newDiaryLink env dt d' (some (d.toAnchor.getD [])) o' = .ok o' (.link (.diary dt ⟨u, d', none⟩)) := by
    intro o'
    unfold newDiaryLink
    rw [diaryUriText_getD, hu]
  rw [hlen]
  refine ⟨.link (.diary dt ⟨u, d', none⟩), ?_, ?_⟩
  · unfold link
    refine alts_fst (located_run hv (by simp) (mapParser_ok e
      (s2 := adv (adv (adv (adv o 6) (L.dateStr dt).length) at'.length) (descText L d.desc).length) ?_))
    · have ht : tag b!"diary:" o = .ok (adv o 6) (cut o 6) := tag_run ho'
      rw [bind_ok ht, bind_ok hdate, bind_ok hanc]
      unfold linkDescription
      rw [bind_ok e2, hnew]
  · simp [Inline.eqv, Link.eqv, LinkData.eqv, hue, h2, hp, propsEq_none]

theorem not_opens_of_head {A B : Str} {b : Byte} (hx : x.head? = some b) (hA : A ≠ []) (h : A.head? ≠ some b) :
    ¬ Opens A B x := by
  rintro ⟨c, r, -, -, rfl⟩
  cases A with
  | nil => exact hA rfl
  | cons a A => simp at hx h; exact h hx

theorem link_transclusion {d : LinkData} (hs : env.SchemeSound) (h : View s (Link.textOf L (.transclusion d) ++ r))
    (hl : LinkOk env ue L x (.transclusion d)) :
    Reads1 ue (link env) s (Link.textOf L (.transclusion d)).length (.link (.transclusion d)) := by
  obtain ⟨hb, hu, hd, hp⟩ := hl
  generalize hbody : (Link.transclusion d).body L = c at hb
  have hv : View s (b!"{{" ++ (c ++ (b!"}}" ++ r))) := by
    rw [← hbody]
    simpa [Link.textOf, Link.body] using h
  have hlen : (Link.textOf L (.transclusion d)).length = c.length + 4 := by
    rw [← hbody]
    simp [Link.textOf, Link.body]
    omega
  obtain ⟨e, ho⟩ := braces_run hv hb
  generalize cut (adv s 2) c.length = o at e ho
  have h10 := hb.2.1
  rw [← hbody] at h10 ho
  simp only [Link.body, List.mem_append, not_or] at h10
  simp only [Link.body] at ho
  have hbk := brackets_err (x := b!"{{" ++ (c ++ (b!"}}" ++ r))) hv (not_opens_of_head rfl (by simp) (by simp))
  have hld : ∃ d', linkData env o = .ok (adv o c.length) d' ∧ d'.eqv ue d = true := by
    have hbn : BarNext (descText L d.desc ++ propsText d.desc.isSome d.props) := by
      cases hdd : d.desc with
      | none =>
        cases hpp : d.props with
        | none => exact .inl rfl
        | some m => have := (hp m hpp).1; rw [hdd] at this; simp at this
      | some y =>
        have := descText_bar L (some y)
        rcases this with hx | hx
        · cases y with
          | text => simp [descText, Description.textOf] at hx
          | transclusion u' d' p' => cases d' <;> simp [descText, Description.textOf] at hx
        · right
          cases hy : descText L (some y) with
          | nil => rw [hy] at hx; simp at hx
          | cons a l => rw [hy] at hx; simpa using hx
    obtain ⟨u', e1, h1⟩ := linkUriRef_run ho hbn h10.1 hu
    have v1 := ho.adv
    have hb2 : if d.desc.isSome then BarNext (propsText d.desc.isSome d.props)
        else (propsText d.desc.isSome d.props).head? ≠ some c!"|" := by
      cases hpp : d.props with
      | none => split <;> simp [propsText, BarNext]
      | some m =>
        have := (hp m hpp).1
        rw [if_pos this]
        simp [propsText, this, BarNext]
    obtain ⟨d', e2, h2⟩ := optDescription_run (linkDataF_uri (env := env) (ue := ue) (o.remainingLen - 1))
      v1 hb2 h10.2.1 hd
    have hpos : 0 < o.remainingLen := by
      rw [ho.remLen]
      have := hu.1
      have := List.length_pos_iff.2 this
      simp; omega
    rw [show o.remainingLen - 1 + 1 = o.remainingLen by omega] at e2
    have v2 := v1.adv
    have hprops : ∃ m', opt linkProperties (adv (adv o (decodedUri L d.uri).length) (descText L d.desc).length) =
        .ok (adv (adv (adv o (decodedUri L d.uri).length) (descText L d.desc).length)
          (propsText d.desc.isSome d.props).length) m' ∧ propsEq m' d.props = true := by
      cases hpp : d.props with
      | none =>
        rw [hpp] at v2
        exact ⟨none, opt_er (linkProperties_none v2 (by simp [propsText])), rfl⟩
      | some m =>
        obtain ⟨q1, q2, q3, q4⟩ := hp m hpp
        rw [hpp] at v2 h10
        simp only [propsText, q1, if_true, List.nil_append, List.mem_append, not_or] at v2 h10 ⊢
        obtain ⟨m', em, hm⟩ := linkProperties_run v2 h10.2.2.2 q2 q3 q4
        refine ⟨some m', opt_ok (em.trans (ok_congr ?_)), hm⟩
        simp; omega
    obtain ⟨m', e3, h3⟩ := hprops
    refine ⟨⟨u', d', m'⟩, ?_, by simp [LinkData.eqv, h1, h2, h3]⟩
    unfold linkData linkDataF
    rw [bind_ok e1, bind_ok e2, bind_ok e3]
    simp only [P.pure, adv_adv]
    refine ok_congr ?_
    rw [← hbody]
    simp [Link.body]
    omega
  obtain ⟨d', hld, he⟩ := hld
  rw [hlen]
  refine ⟨.link (.transclusion d'), ?_, ?_⟩
  · have hsch : ¬ SchemeStart (b!"{{" ++ (c ++ (b!"}}" ++ r))) := by
      intro hs
      obtain ⟨b, y, e, hb⟩ := schemeStart_head hs
      simp at e
      rw [← e.1] at hb
      simp [lowerByte] at hb
    unfold link
    rw [alts_er (show diaryLink env s = .err from located_er (mapParser_er hbk)),
      alts_er (show indexedInterwikiLink env s = .err from located_er (mapParser_er hbk)),
      alts_er (show namedInterwikiLink env s = .err from located_er (mapParser_er hbk)),
      alts_er (show wikiLink env s = .err from located_er (map_er (mapParser_er hbk))),
      alts_er (rawLink_err hs hv hsch)]
    refine (map_ok (a := ⟨d', ⟨s.start, c.length + 4, s.depth⟩⟩) (located_run hv (by simp) (mapParser_ok e hld))).trans ?_
    rfl
  · simpa [Inline.eqv, Link.eqv] using he

theorem raw_scheme {d : LinkData} (hs : env.SchemeSound) (hl : LinkOk env ue L x (.raw d)) :
    SchemeStart (L.uriStr d.uri) := by
  obtain ⟨h1, h2, ⟨u, sc, h3, h4, h5, h6⟩, h7, h8⟩ := hl
  exact ⟨sc, h5, hs _ _ _ h3 h4 h5⟩

theorem rawLink_run {d : LinkData} (hs : env.SchemeSound) (h : View s (Link.textOf L (.raw d) ++ r))
    (hr : r = [] ∨ r.head? = some 32 ∨ r.head? = some 9 ∨ r.head? = some 10)
    (hl : LinkOk env ue L x (.raw d)) :
    Reads1 ue (rawLink env) s (Link.textOf L (.raw d)).length (.link (.raw d)) := by
  have hne : L.uriStr d.uri ≠ [] := by
    obtain ⟨b, y, e, -⟩ := schemeStart_head (raw_scheme hs hl)
    rw [e]; simp
  obtain ⟨h1, h2, ⟨u, sc, h3, h4, h5, h6⟩, h7, h8⟩ := hl
  simp only [Link.textOf] at h ⊢
  have hue : UriEnd r := by
    rcases hr with hr | hr | hr | hr <;> simp [UriEnd, hr]
  refine ⟨.link (.raw ⟨u, none, none⟩), ?_, ?_⟩
  · refine located_run h (by simp) (map_ok (a := u) ?_)
    have e : uriRef env s = .ok (adv s (L.uriStr d.uri).length) u :=
      mapOpt_ok (uriText_exact h h1 hne hue) (by rw [h.cut.rem]; exact h3)
    rw [verify_ok e]
    rw [h4, rawSchemes_eq, if_pos (by simpa using h5)]
  · simp [Inline.eqv, Link.eqv, LinkData.eqv, h6, h7, h8, propsEq_none, optEq]

theorem link_raw {d : LinkData} (hs : env.SchemeSound) (h : View s (Link.textOf L (.raw d) ++ r))
    (hr : r = [] ∨ r.head? = some 32 ∨ r.head? = some 9 ∨ r.head? = some 10)
    (hl : LinkOk env ue L x (.raw d)) :
    Reads1 ue (link env) s (Link.textOf L (.raw d)).length (.link (.raw d)) := by
  obtain ⟨y, e, he⟩ := rawLink_run hs h hr hl
  refine ⟨y, ?_, he⟩
  have hbk : brackets s = .err := by
    refine brackets_err h ?_
    obtain ⟨b, z, e, hb⟩ := schemeStart_head (raw_scheme hs hl)
    refine not_opens_of_head (b := b) (by simp [Link.textOf, e]) (by simp) ?_
    intro hx
    simp at hx
    rw [← hx] at hb
    simp [lowerByte] at hb
  unfold link
  rw [alts_er (show diaryLink env s = .err from located_er (mapParser_er hbk)),
    alts_er (show indexedInterwikiLink env s = .err from located_er (mapParser_er hbk)),
    alts_er (show namedInterwikiLink env s = .err from located_er (mapParser_er hbk)),
    alts_er (show wikiLink env s = .err from located_er (map_er (mapParser_er hbk)))]
  exact alts_fst e

theorem link_run {l : Link} (hs : env.SchemeSound) (h : View s (Link.textOf L l ++ r)) (hl : LinkOk env ue L x l)
    (hr : ∀ d, l = .raw d → r = [] ∨ r.head? = some 32 ∨ r.head? = some 9 ∨ r.head? = some 10) :
    Reads1 ue (link env) s (Link.textOf L l).length (.link l) := by
  cases l with
  | wiki d => exact link_wiki h hl
  | indexed i d => exact link_indexed h hl
  | named n d => exact link_named h hl
  | diary dt d => exact link_diary h hl
  | raw d => exact link_raw hs h (hr d rfl) hl
  | transclusion d => exact link_transclusion hs h hl

end Vw
