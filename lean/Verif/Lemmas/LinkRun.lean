import Verif.Lemmas.InlineText
import Verif.Lemmas.RoundTrip

/-!
# Reading back links
-/

namespace Vw
open P Scan

variable {s : Span} {r w t x : Str} {env : Env} {ue : Uri → Uri → Bool} {L : OutLib}

/-- A text that follows a part of a link: nothing or a bar. -/
def BarNext (r : Str) : Prop := r = [] ∨ r.head? = some c!"|"

theorem at_two_cross {a : Byte} {i : Nat} (hi : i < w.length) (hr : r.head? ≠ some a)
    (h : At (w ++ r) i [a, a]) : [a, a] <:+: w := by
  obtain ⟨c, q, e, hc⟩ := h.split (by have := h.le (by simp); omega)
  rcases List.append_eq_append_iff.1 e with ⟨u, rfl, h2⟩ | ⟨u, rfl, h2⟩
  · simp at hc; omega
  · cases u with
    | nil => simp at hi; omega
    | cons d u =>
      simp only [List.cons_append, List.cons.injEq, List.nil_append] at h2
      obtain ⟨rfl, h2⟩ := h2
      cases u with
      | nil =>
        simp at h2
        rw [← h2] at hr
        simp at hr
      | cons e u =>
        simp only [List.cons_append, List.cons.injEq] at h2
        obtain ⟨rfl, h2⟩ := h2
        exact ⟨c, u, by simp⟩

theorem linkUriRef_run {u : Uri} (h : View s (t ++ r)) (hr : BarNext r) (h10 : 10 ∉ t)
    (hu : UriTextOk env ue t u) :
    ∃ u', linkUriRef env s = .ok (adv s t.length) u' ∧ ue u' u = true := by
  obtain ⟨h1, h2, h3, h4, u', h5, h6⟩ := hu
  obtain ⟨w, q, e, hw, hs⟩ := takeLineUntil3_view (p1 := b!"|") (p2 := b!"]]") (p3 := b!"}}")
    (by simp) (by simp) (by simp) h
  rw [← e] at hs
  have hh : ∀ a, a ≠ c!"|" → r.head? ≠ some a := by
    intro a ha he
    rcases hr with rfl | hr
    · simp at he
    · rw [hr] at he; simp at he; exact ha he.symm
  have hl := hs.unique h10 (.inr (hh 10 (by decide))) (by
    intro p hp i hi ha
    simp only [List.mem_cons, List.not_mem_nil, or_false] at hp
    rcases hp with rfl | rfl | rfl
    · have := at_singleton.1 ha
      rw [List.getElem?_append_left hi] at this
      exact h2 (List.mem_of_getElem? this)
    · exact h3 (at_two_cross hi (hh _ (by decide)) ha)
    · exact h4 (at_two_cross hi (hh _ (by decide)) ha)) (by
    rcases hr with rfl | hr
    · exact .inl rfl
    · refine .inr (.inr ⟨b!"|", by simp, ?_⟩)
      cases r with
      | nil => simp at hr
      | cons a r => simp at hr; subst hr; exact ⟨r, rfl⟩)
  rw [hl] at hw
  refine ⟨u', mapOpt_ok (a := cut s t.length) ?_ ?_, h6⟩
  · unfold takeLineUntil31
    rw [verify_ok hw, h.cut.isEmpty, if_pos (by simpa using h1)]
  · rw [h.cut.rem]; exact h5

theorem takeBar_run (h : View s (t ++ r)) (hr : BarNext r) (h10 : 10 ∉ t) (hb : c!"|" ∉ t) :
    takeLineUntil b!"|" s = .ok (adv s t.length) (cut s t.length) := by
  rcases hr with rfl | hr
  · exact takeLineUntil_run_eol h ⟨h10, .inl rfl⟩ hb (by decide)
  · cases r with
    | nil => simp at hr
    | cons a r =>
      simp at hr
      subst hr
      exact takeLineUntil_run h h10 hb (by decide)

/-- The parser of link data reads a URI that stands alone. -/
def ReadsUri (env : Env) (ue : Uri → Uri → Bool) (ld : P LinkData) : Prop :=
  ∀ (s : Span) (t : Str) (u : Uri), View s t → 10 ∉ t → UriTextOk env ue t u →
    ∃ s' u', ld s = .ok s' ⟨u', none, none⟩ ∧ ue u' u = true

theorem linkDescription_none {ld : P LinkData} (h : View s r) (hr : r.head? ≠ some c!"|") :
    linkDescriptionOf ld s = .err := by
  refine bind_er (tag_run_err h ?_)
  rintro ⟨q, rfl⟩
  exact hr rfl

theorem linkProperties_none (h : View s r) (hr : r.head? ≠ some c!"|") : linkProperties s = .err := by
  refine bind_er (tag_run_err h ?_)
  rintro ⟨q, rfl⟩
  exact hr rfl

theorem linkDataF_uri (n : Nat) : ReadsUri env ue (linkDataF env (n + 1)) := by
  intro s t u h h10 hu
  obtain ⟨u', e, he⟩ := linkUriRef_run (r := []) (by simpa using h) (.inl rfl) h10 hu
  have h1 : View (adv s t.length) [] := View.adv (by simpa using h)
  refine ⟨adv s t.length, u', ?_, he⟩
  unfold linkDataF
  rw [bind_ok e, bind_ok (opt_er (linkDescription_none h1 (by simp))),
    bind_ok (opt_er (linkProperties_none h1 (by simp)))]
  rfl

theorem linkData_uri : ReadsUri env ue (linkData env) :=
  fun s t u h h10 hu => linkDataF_uri s.remainingLen s t u h h10 hu

theorem ShortestBody.append {R c r : Str} (h : ShortestBody R c []) (hR : R.length ≤ 2) : ShortestBody R c r := by
  intro c' r' hc' e
  apply Classical.byContradiction
  intro hlt
  have hlt : c'.length < c.length := by omega
  have e2 := congrArg (List.take (c.length + R.length)) e
  have e3 : c ++ R = c' ++ (R ++ r'.take (c.length - c'.length)) := by
    have l : List.take (c.length + R.length) (c ++ (R ++ r)) = c ++ R := by
      rw [← List.append_assoc, ← List.length_append, List.take_left]
    rw [l] at e2
    rw [e2, List.take_append, List.take_append]
    have a1 : List.take (c.length + R.length) c' = c' := List.take_of_length_le (by omega)
    have a2 : List.take (c.length + R.length - c'.length) R = R := List.take_of_length_le (by omega)
    rw [a1, a2]
    congr 3
    omega
  exact Nat.not_le_of_lt hlt (h c' _ hc' (by simpa using e3))

theorem BodyOk.run {R c : Str} (h : BodyOk R c) (hR : R ≠ []) (hl : R.length ≤ 2) (hR10 : R.head? ≠ some 10)
    {lft : Str} (hv : View s (lft ++ (c ++ (R ++ r)))) :
    notContains b!"%%" (surroundInLine1 lft R) s =
      .ok (adv s (lft.length + c.length + R.length)) (cut (adv s lft.length) c.length) := by
  obtain ⟨h1, h2, h3, h4⟩ := h
  exact notContains_run (surround_run hv h1 h2 hR hR10 (h3.append hl)) hv.adv.cut (by simp) h4

theorem linkDescription_run {ld : P LinkData} (hld : ReadsUri env ue ld) {d : Description}
    (h : View s (d.textOf L ++ r)) (hr : BarNext r) (h10 : 10 ∉ d.textOf L) (hd : DescOk env ue L d) :
    ∃ d', linkDescriptionOf ld s = .ok (adv s (d.textOf L).length) d' ∧ d'.eqv ue d = true := by
  cases d with
  | text t =>
    obtain ⟨h1, h2⟩ := hd
    simp only [Description.textOf] at h h10 ⊢
    have hv : View (adv s 1) (t ++ r) := View.adv (w := b!"|") (by simpa using h)
    have h10' : 10 ∉ t := by simpa using h10
    refine ⟨.text t, ?_, by simp [Description.eqv]⟩
    unfold linkDescriptionOf
    rw [bind_ok (tag_run (by simpa using h))]
    have hb := takeBar_run hv hr h10' h1
    refine (mapParser_ok (s2 := (cut (adv s 1) t.length).sliceFrom t.length) (b := Description.text t) hb ?_).trans ?_
    · rw [alt_er (map_er (show transclusionOf ld (cut (adv s 1) t.length) = .err from
        located_er (mapParser_er (braces_err hv.cut h2))))]
      have : rest (cut (adv s 1) t.length) = .ok ((cut (adv s 1) t.length).sliceFrom t.length)
          (cut (adv s 1) t.length) := by
        unfold rest; rw [hv.cut.rem]
      rw [map_ok this, hv.cut.rem]
    · simp [Nat.add_comm]
  | transclusion u d p =>
    cases d with
    | some d => exact hd.elim
    | none =>
      cases p with
      | some p => exact hd.elim
      | none =>
        obtain ⟨h1, h2⟩ := hd
        simp only [Description.textOf, propsText, List.nil_append] at h h10 ⊢
        generalize decodedUri L u = t at h h10 h1 h2 ⊢
        have hv : View (adv s 1) ((b!"{{" ++ (t ++ b!"}}")) ++ r) := View.adv (w := b!"|") (by simpa using h)
        have h10' : 10 ∉ t := by
          simp at h10; exact h10
        have hb := takeBar_run hv hr (by simp [h10']) (by simp [h1.2.1])
        have hc := hv.cut
        generalize hcut : cut (adv s 1) (b!"{{" ++ (t ++ b!"}}")).length = o at hc hb
        have hc' : View o (b!"{{" ++ (t ++ (b!"}}" ++ []))) := by simpa using hc
        obtain ⟨s', u', e, he⟩ := hld _ t u hc'.adv.cut h10' h1
        have htr : transclusionOf ld o = .ok (adv o (t.length + 4)) ⟨⟨u', none, none⟩, ⟨o.start, t.length + 4, o.depth⟩⟩ := by
          refine located_run hc (by simp) (mapParser_ok (o := cut (adv o 2) t.length) (s2 := s') ?_ e)
          have := h2.run (lft := b!"{{") (by simp) (by simp) (by simp) hc'
          refine this.trans (ok_congr ?_)
          simp; omega
        refine ⟨.transclusion u' none none, ?_, by simp [Description.eqv, he, propsEq, optEq]⟩
        unfold linkDescriptionOf
        rw [bind_ok (tag_run (by simpa using h))]
        refine (mapParser_ok hb (alt_ok (map_ok htr))).trans ?_
        simp [Nat.add_comm]

/-- An optional description. -/
theorem optDescription_run {ld : P LinkData} (hld : ReadsUri env ue ld) {d : Option Description}
    (h : View s (descText L d ++ r)) (hr : if d.isSome then BarNext r else r.head? ≠ some c!"|")
    (h10 : 10 ∉ descText L d) (hd : ∀ x, d = some x → DescOk env ue L x) :
    ∃ d', opt (linkDescriptionOf ld) s = .ok (adv s (descText L d).length) d' ∧
      optEq (Description.eqv ue) d' d = true := by
  cases d with
  | none =>
    simp only [descText, List.nil_append] at h ⊢
    exact ⟨none, opt_er (linkDescription_none h (by simpa using hr)), rfl⟩
  | some d =>
    simp only [descText] at h h10 ⊢
    obtain ⟨d', e, he⟩ := linkDescription_run hld h (by simpa using hr) h10 (hd d rfl)
    exact ⟨some d', opt_ok e, he⟩

/-- The parser of one property. -/
def linkPair : P (Str × Str) :=
  separatedPair (strOf (takeLineUntil1 b!"=")) (tag b!"=")
    (strOf (delimited (tag b!"\"") (takeLineUntil b!"\"") (tag b!"\"")))

theorem linkPair_reads_pair {k v : Str} (h : View s (pairText (k, v) ++ r)) (h1 : k ≠ []) (h2 : 10 ∉ k)
    (h3 : c!"=" ∉ k) (h5 : 10 ∉ v) (h6 : c!"\"" ∉ v) :
    linkPair s = .ok (adv s (pairText (k, v)).length) (k, v) := by
  have v0 : View s (k ++ c!"=" :: (c!"\"" :: (v ++ c!"\"" :: r))) := by simpa [pairText] using h
  have v1 := View.adv v0
  have v2 : View (adv (adv s k.length) 1) _ := View.adv (w := [c!"="]) v1
  have v3 : View (adv (adv (adv s k.length) 1) 1) _ := View.adv (w := [c!"\""]) v2
  have v4 := View.adv v3
  have t1 : ∀ {s : Span} {c : Byte} {r : Str}, View s (c :: r) → tag [c] s = .ok (adv s 1) (cut s 1) :=
    fun h => tag_run (w := [_]) h
  unfold linkPair separatedPair delimited
  rw [bind_ok (strOf_ok (takeLineUntil1_run v0 h2 h3 (by decide) h1)), bind_ok (t1 v1)]
  rw [bind_ok (s' := adv (adv (adv (adv (adv s k.length) 1) 1) v.length) 1) (a := v)]
  · rw [(View.cut v0).rem]
    simp only [P.pure, adv_adv]
    exact ok_congr (by simp [pairText]; omega)
  · rw [strOf_ok (s' := adv (adv (adv (adv (adv s k.length) 1) 1) v.length) 1)
      (o := cut (adv (adv (adv s k.length) 1) 1) v.length)]
    · rw [(View.cut v3).rem]
    · rw [bind_ok (t1 v2), bind_ok (takeLineUntil_run v3 h5 h6 (by decide)), bind_ok (t1 v4)]
      rfl

theorem linkPair_run {p : Str × Str} (h : View s (pairText p ++ r)) (hp : PairOk p) :
    linkPair s = .ok (adv s (pairText p).length) p := by
  obtain ⟨k, v⟩ := p
  obtain ⟨h1, h2, h3, -, h5, h6⟩ := hp
  exact linkPair_reads_pair h h1 h2 h3 h5 h6

theorem linkPair_run_eol (h : View s r) (hr : EolHere r) : linkPair s = .err := by
  unfold linkPair separatedPair
  have := takeLineUntil1_run_eol (c := c!"=") (w := []) h (hr.lineSplit (by simp) (by simp)) (by simp)
    (by decide)
  rw [if_pos rfl] at this
  rw [bind_er (strOf_er this)]

theorem linkProperties_run {m : Map} (h : View s (b!"|" ++ pairsText false (sortedMap m)))
    (h10 : 10 ∉ pairsText false (sortedMap m)) (hne : m ≠ []) (hd : DistinctKeys m) (hp : ∀ p ∈ m, PropOk p) :
    ∃ m', linkProperties s = .ok (adv s (1 + (pairsText false (sortedMap m)).length)) m' ∧
      mapEq (fun x y => decide (x = y)) m' m = true := by
  have hperm : (sortedMap m).Perm m := List.mergeSort_perm _ _
  have hds : DistinctKeys (sortedMap m) := (hperm.map _).nodup_iff.2 hd
  have hmap : mapEq (fun x y => decide (x = y)) (Map.collect (sortedMap m)) m = true :=
    mapEq_of_perm hd ((collect_perm hds).trans hperm)
  have hpp : ∀ p ∈ sortedMap m, PropOk p := fun p h => hp p (hperm.subset h)
  refine ⟨_, ?_, hmap⟩
  cases hm : sortedMap m with
  | nil =>
    rw [hm] at hperm
    exact absurd hperm.symm.eq_nil hne
  | cons p ps =>
    rw [hm] at h h10 hpp
    rw [pairsText_false] at h h10 ⊢
    have hpo : ∀ q ∈ p :: ps, PairOk q := by
      intro q hq
      obtain ⟨a1, a2, a3, a4⟩ := hpp q hq
      have hn : 10 ∉ pairText q := by
        intro hc
        apply h10
        rcases List.mem_cons.1 hq with rfl | hq
        · simp [hc]
        · simp only [List.mem_append, List.mem_flatMap]
          exact .inr ⟨q, hq, by simp [hc]⟩
      unfold pairText at hn
      simp only [List.mem_append, not_or] at hn
      exact ⟨a1, by simp_all, a2, a3, by simp_all, a4⟩
    have v1 : View (adv s 1) (pairText p ++ (ps.flatMap (fun p => 32 :: pairText p) ++ ([] ++ []))) := by
      have := View.adv (w := b!"|") h
      simpa using this
    have v5 := v1.adv
    have hsl := sepLoop_pairs_gen (r := []) (fun _ _ _ => linkPair_run) (fun _ _ => linkPair_run_eol) (.inl rfl) (ws := []) (by simp [AllBlank]) ps
      ((adv (adv s 1) (pairText p).length).remainingLen + 1) _ (by
        have h1 := v5.remLen
        have h3 := len_le_pairs ps
        rw [h1]
        simp only [List.length_append]
        omega) (fun q hq => hpo q (by simp [hq])) v5
    have hsl : sepTail space1 linkPair (adv (adv s 1) (pairText p).length) = _ := hsl
    unfold linkProperties
    rw [bind_ok (tag_run h)]
    refine (map_ok (a := p :: ps) (s' := adv s (1 + (pairText p ++ ps.flatMap (fun p => 32 :: pairText p)).length)) ?_)
    have hcp : linkPair (adv s 1) = .ok (adv (adv s 1) (pairText p).length) p := linkPair_run v1 (hpo p (by simp))
    show separatedList1 space1 linkPair (adv s 1) = _
    unfold separatedList1
    rw [bind_ok hcp, bind_ok hsl]
    simp only [P.pure, adv_adv]
    exact ok_congr (by simp; omega)

end Vw
