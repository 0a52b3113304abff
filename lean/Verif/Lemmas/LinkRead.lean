import Verif.Spec.LinkRead
import Verif.Lemmas.LinkRun
import Verif.Lemmas.Fences

/-!
# What the parts of a link are read from
-/

namespace Vw
open P Scan

variable {s s' : Span} {r w t x c : Str} {env : Env}

theorem mapOpt_inv {α β : Type} {p : P α} {f : α → Option β} {b : β} (h : mapOpt p f s = .ok s' b) :
    ∃ a, p s = .ok s' a ∧ f a = some b := by
  unfold mapOpt at h
  cases hp : p s with
  | ok s1 a =>
    rw [hp] at h
    simp only at h
    cases hf : f a with
    | some y => rw [hf] at h; cases h; exact ⟨a, rfl, hf⟩
    | none => rw [hf] at h; cases h
  | _ => rw [hp] at h; cases h

theorem ScanRes.upTo {pats : List Str} (h : ScanRes pats (w ++ r) w.length) (h10 : 10 ∉ w ++ r) :
    UpTo pats (w ++ r) w r := by
  refine ⟨rfl, ?_, ?_⟩
  · intro p hp a b e
    apply Classical.byContradiction
    intro hn
    refine (h.clear a.length (by omega)).2 p hp ?_
    rw [e]
    exact at_append _ _ _
  · rcases h.exit with hx | hx | ⟨p, hp, hx⟩
    · simp at hx
      exact .inl hx
    · rcases hx with ⟨_, hx⟩ | ⟨_, _, hx⟩
      · exact absurd (List.mem_of_getElem? hx) h10
      · exact absurd (List.mem_of_getElem? hx) h10
    · refine .inr ⟨p, hp, ?_⟩
      unfold At at hx
      simp at hx
      rw [← hx]
      exact List.take_prefix _ _

theorem ScanRes.notMem {pats : List Str} {b : Byte} (h : ScanRes pats (w ++ r) w.length) (hb : [b] ∈ pats) :
    b ∉ w := by
  intro hm
  obtain ⟨i, hi, he⟩ := List.mem_iff_getElem.1 hm
  refine (h.clear i hi).2 [b] hb (at_singleton.2 ?_)
  rw [List.getElem?_append_left hi, List.getElem?_eq_getElem hi, he]

theorem linkUriRef_reads {u : Uri} (h : View s c) (h10 : 10 ∉ c) (hr : linkUriRef env s = .ok s' u) :
    ∃ t r, c = t ++ r ∧ s' = adv s t.length ∧ TargetRead env c u r := by
  obtain ⟨o, h1, h2⟩ := mapOpt_inv hr
  obtain ⟨h1, hne⟩ := verify_inv h1
  obtain ⟨w, r, rfl, e, hs⟩ := takeLineUntil3_view (p1 := b!"|") (p2 := b!"]]") (p3 := b!"}}")
    (by simp) (by simp) (by simp) h
  rw [e] at h1
  cases h1
  rw [h.cut.isEmpty] at hne
  rw [h.cut.rem] at h2
  exact ⟨w, r, rfl, rfl, w, by rintro rfl; simp at hne, hs.upTo h10, h2⟩

theorem surround_reads {L R : Str} {o : Span} (h : View s x) (hR : R ≠ [])
    (hr : notContains b!"%%" (surroundInLine1 L R) s = .ok s' o) :
    ∃ b l, x = L ++ (b ++ (R ++ l)) ∧ b ≠ [] ∧ 10 ∉ b ∧ ShortestBody R b l ∧ View o b := by
  unfold notContains at hr
  cases hs : surroundInLine1 L R s with
  | ok s1 o1 =>
    rw [hs] at hr
    simp only at hr
    have ho : o1 = o := by
      unfold P.not at hr
      split at hr
      · cases hr; rename_i e; split at e <;> cases e <;> rfl
      all_goals cases hr
    subst ho
    unfold surroundInLine1 at hs
    cases ht : tag L s with
    | ok s2 o2 =>
      obtain ⟨y, rfl, rfl, rfl⟩ := tag_inv h ht
      rw [ht] at hs
      have h1 := h.adv
      simp only [h1.rem] at hs
      cases hm : surroundLoop R y (memchr (· == 10) y) (memchrIter (fun b => b == R.headD 0) y) with
      | none => rw [hm] at hs; cases hs
      | some n =>
        rw [hm] at hs
        obtain ⟨h0, ha, hf, h10⟩ := surroundLoop_res R y hR _ rfl 0 _ (memchrIter_pos _ _)
          (by intro i hi; omega) n hm
        obtain ⟨c, r, rfl, hc⟩ := ha.split (by have := ha.le hR; omega)
        subst hc
        cases hs
        refine ⟨c, r, rfl, by rintro rfl; simp at h0, ?_, ?_, ?_⟩
        · intro hm
          obtain ⟨i, hi, he⟩ := List.mem_iff_getElem.1 hm
          exact h10 i hi (by rw [List.getElem?_append_left hi, List.getElem?_eq_getElem hi, he])
        · intro c' r' hc' e
          apply Classical.byContradiction
          intro hn
          refine hf c'.length (List.length_pos_iff.2 hc') (by omega) ?_
          rw [e]
          exact at_append _ _ _
        · rw [sliceTo_run h1]
          exact h1.cut
    | _ => rw [ht] at hs; cases hs
  | _ => rw [hs] at hr; cases hr

/-- The parser of link data reads a target that has no bar. -/
def ReadsData (env : Env) (ld : P LinkData) : Prop :=
  ∀ s s' c d, View s c → 10 ∉ c → c!"|" ∉ c → ld s = .ok s' d →
    d.desc = none ∧ d.props = none ∧ ∃ m, TargetRead env c d.uri m

theorem linkDescription_reads {ld : P LinkData} (hld : ReadsData env ld) {d : Description}
    (h : View s c) (h10 : 10 ∉ c) (hr : linkDescriptionOf ld s = .ok s' d) :
    ∃ w l q, c = w ++ q ∧ s' = adv s w.length ∧ DescRead env c (some d) l q := by
  unfold linkDescriptionOf at hr
  obtain ⟨s1, o, h1, hr⟩ := bind_inv hr
  obtain ⟨y, rfl, rfl, -⟩ := tag_inv h h1
  have v1 : View (adv s 1) y := h.adv
  obtain ⟨o, s2, h2, hr⟩ := mapParser_inv hr
  obtain ⟨x, q, rfl, e, hs⟩ := takeLineUntil_view (pat := b!"|") ⟨by simp, by simp, 124, [], rfl, by decide⟩ v1
  simp only [List.length_cons, List.length_nil, Nat.zero_add] at h2
  rw [e] at h2
  cases h2
  have hup := hs.upTo (by simpa using h10)
  refine ⟨c!"|" :: x, ?_⟩
  rcases alt_inv hr with hr | ⟨-, hr⟩
  · obtain ⟨z, hz, rfl⟩ := map_inv hr
    obtain ⟨hz, -⟩ := located_inv hz
    obtain ⟨o, s3, h3, h4⟩ := mapParser_inv hz
    obtain ⟨b, l, rfl, hb, hb10, hsb, vo⟩ := surround_reads v1.cut (by simp) h3
    have hbar : c!"|" ∉ b := by
      intro hm
      obtain ⟨i, hi, he⟩ := List.mem_iff_getElem.1 hm
      have := hup.clear b!"|" (by simp) (b!"{{" ++ b.take i) (b.drop (i + 1) ++ (b!"}}" ++ l) ++ q) (by
        have := List.take_append_drop i b
        rw [List.drop_eq_getElem_cons hi, he] at this
        conv => lhs; rw [← this]
        simp)
      simp at this
      omega
    obtain ⟨e1, e2, m, hm⟩ := hld _ _ _ _ vo hb10 hbar h4
    refine ⟨m ++ l, q, by simp, by simp [Nat.add_comm], ?_⟩
    rw [e1, e2]
    exact .transclusion hup rfl hb hsb hm
  · obtain ⟨z, hz, rfl⟩ := map_inv hr
    unfold rest at hz
    cases hz
    rw [v1.cut.rem]
    exact ⟨[], q, by simp, by simp [Nat.add_comm], .text hup⟩

theorem optDescription_reads {ld : P LinkData} (hld : ReadsData env ld) {d : Option Description}
    (h : View s c) (h10 : 10 ∉ c) (hr : opt (linkDescriptionOf ld) s = .ok s' d) :
    ∃ w l q, c = w ++ q ∧ s' = adv s w.length ∧ DescRead env c d l q := by
  rcases opt_inv hr with ⟨b, hb, rfl⟩ | ⟨he, hs', rfl⟩
  · exact linkDescription_reads hld h h10 hb
  · refine ⟨[], [], c, rfl, hs', .none ?_⟩
    intro hb
    cases c with
    | nil => simp at hb
    | cons a y =>
      simp at hb
      subst hb
      unfold linkDescriptionOf at he
      rw [bind_ok (tag_run (w := b!"|") h)] at he
      have v1 : View (adv s 1) y := h.adv (w := b!"|")
      obtain ⟨x, q, rfl, e, hs⟩ := takeLineUntil_view (pat := b!"|") ⟨by simp, by simp, 124, [], rfl, by decide⟩ v1
      simp only [List.length_cons, List.length_nil, Nat.zero_add] at he
      unfold mapParser at he
      rw [e] at he
      simp only at he
      unfold alt P.map rest at he
      revert he
      cases transclusionOf ld (cut (adv s 1) x.length) <;> simp

theorem linkPair_reads {p : Str × Str} (h : View s x) (h10 : 10 ∉ x) (hr : linkPair s = .ok s' p) :
    ∃ q, PropHere p.1 p.2 x q ∧ s' = adv s (pairText p).length := by
  unfold linkPair separatedPair at hr
  obtain ⟨s1, k, h0, hr⟩ := bind_inv hr
  obtain ⟨o, h1, rfl⟩ := strOf_inv h0
  obtain ⟨k, y, rfl, hk, rfl, rfl, hs⟩ := takeLineUntil1_inv (pat := b!"=") ⟨by simp, by simp, 61, [], rfl, by decide⟩ h h1
  obtain ⟨s2, o2, h2, hr⟩ := bind_inv hr
  obtain ⟨z, rfl, rfl, -⟩ := tag_inv h.adv h2
  obtain ⟨s3, v, h30, hr⟩ := bind_inv hr
  cases hr
  obtain ⟨o3, h3, rfl⟩ := strOf_inv h30
  unfold delimited at h3
  obtain ⟨s4, o4, h4, h3⟩ := bind_inv h3
  have v2 := h.adv.adv
  obtain ⟨z, rfl, rfl, -⟩ := tag_inv v2 h4
  have v3 := v2.adv
  obtain ⟨s5, o5, h5, h3⟩ := bind_inv h3
  obtain ⟨v, q, rfl, e, hs2⟩ := takeLineUntil_view (pat := b!"\"") ⟨by simp, by simp, 34, [], rfl, by decide⟩ v3
  rw [e] at h5
  cases h5
  obtain ⟨s6, o6, h6, h3⟩ := bind_inv h3
  obtain ⟨q, rfl, rfl, -⟩ := tag_inv v3.adv h6
  cases h3
  have nk : c!"=" ∉ k := hs.notMem (by simp)
  have nv : c!"\"" ∉ v := hs2.notMem (by simp)
  rw [h.cut.rem, v3.cut.rem]
  refine ⟨q, ⟨by simp [pairText], hk, nk, nv⟩, ?_⟩
  simp only [pairText, adv_adv]
  congr 1
  simp
  omega

theorem space1_inv {o : Span} (h : View s t) (ht : space1 s = .ok s' o) :
    ∃ w r, t = w ++ r ∧ w ≠ [] ∧ AllBlank w ∧ (∀ x, r.head? = some x → x ≠ 32 ∧ x ≠ 9) ∧
      s' = adv s w.length := by
  obtain ⟨w, r, rfl, hw, hr⟩ := while_exists isSpace t
  unfold space1 at ht
  by_cases hn : w = []
  · subst hn
    rw [takeWhile1_run_err (by simpa using h) hr] at ht
    cases ht
  · rw [takeWhile1_run h hn hw hr] at ht
    cases ht
    refine ⟨w, r, rfl, hn, AllBlank.iff.2 hw, fun x hx => ?_, rfl⟩
    have := isSpace_false.1 (hr x hx)
    exact ⟨fun e => this (.inl e), fun e => this (.inr e)⟩

theorem blanks_unique {a b u v : Str} (ha : AllBlank a) (hb : AllBlank b)
    (hu : ∀ x, u.head? = some x → x ≠ 32 ∧ x ≠ 9) (hv : ∀ x, v.head? = some x → x ≠ 32 ∧ x ≠ 9)
    (e : a ++ u = b ++ v) : a = b ∧ u = v := by
  have key : ∀ {a b u v : Str}, AllBlank b → (∀ x, u.head? = some x → x ≠ 32 ∧ x ≠ 9) →
      (∃ w, b = a ++ w ∧ u = w ++ v) → a = b ∧ u = v := by
    rintro a b u v hb hu ⟨w, rfl, rfl⟩
    cases w with
    | nil => simp
    | cons y w =>
      have h1 := hu y rfl
      have h2 := hb y (by simp)
      omega
  rcases List.append_eq_append_iff.1 e with ⟨w, h1, h2⟩ | ⟨w, h1, h2⟩
  · exact key hb hu ⟨w, h1, h2⟩
  · have := key ha hv ⟨w, h1, h2⟩
    exact ⟨this.1.symm, this.2.symm⟩

theorem PropHere.run {k v q : Str} (h : View s x) (h10 : 10 ∉ x) (hp : PropHere k v x q) :
    linkPair s = .ok (adv s (pairText (k, v)).length) (k, v) := by
  obtain ⟨rfl, h1, h2, h3⟩ := hp
  simp [pairText] at h10
  exact linkPair_reads_pair h h1 h10.1 h2 h10.2.1 h3

theorem sepLoop_reads (n : Nat) : ∀ {s s' : Span} {x k v q : Str} {ps : List (Str × Str)}, View s q → 10 ∉ q →
    PropHere k v x q → sepLoop space1 linkPair n s = .ok s' ps →
    ∃ q' w, q = w ++ q' ∧ s' = adv s w.length ∧ PairsRead x ((k, v) :: ps) q' := by
  induction n with
  | zero => intro s s' x k v q ps _ _ _ h; cases h
  | succ n ih =>
    intro s s' x k v q ps h h10 hp hr
    unfold sepLoop at hr
    cases hs : space1 s with
    | err =>
      rw [hs] at hr
      cases hr
      refine ⟨q, [], rfl, rfl, .last hp ?_⟩
      rintro sp y k' v' q' hn hb hy - rfl
      rw [space1_run h hn (AllBlank.iff.1 hb) (fun x hx => isSpace_false.2 (by have := hy x hx; omega))] at hs
      cases hs
    | ok s1 o =>
      obtain ⟨sp, y, rfl, hn, hb, hy, rfl⟩ := space1_inv h hs
      rw [hs] at hr
      simp only at hr
      split at hr
      · cases hr
      have v1 := h.adv
      have h10' : 10 ∉ y := by simp at h10; exact h10.2
      cases hq : linkPair (adv s sp.length) with
      | err =>
        rw [hq] at hr
        cases hr
        refine ⟨sp ++ y, [], rfl, rfl, .last hp ?_⟩
        intro sp' y' k' v' q' hn' hb' hy' hp' e
        obtain ⟨rfl, rfl⟩ := blanks_unique hb hb' hy hy' e
        rw [hp'.run v1 h10'] at hq
        cases hq
      | ok s2 p =>
        rw [hq] at hr
        simp only at hr
        obtain ⟨q2, hp2, rfl⟩ := linkPair_reads v1 h10' hq
        cases hl : sepLoop space1 linkPair n (adv (adv s sp.length) (pairText p).length) with
        | ok s3 qs =>
          rw [hl] at hr
          cases hr
          have v2 : View (adv (adv s sp.length) (pairText p).length) q2 := by
            have := hp2.1
            rw [this] at v1
            exact v1.adv
          obtain ⟨q', w, rfl, e, hx⟩ := ih v2 (by have := hp2.1; rw [this] at h10'; simp at h10'; simp [h10']) hp2 hl
          refine ⟨q', sp ++ (pairText p ++ w), by rw [hp2.1]; simp, ?_, .more hp hn hb hx⟩
          rw [e]
          simp [Nat.add_assoc]
        | _ => rw [hl] at hr; cases hr
      | _ => rw [hq] at hr; cases hr
    | _ => rw [hs] at hr; cases hr

theorem sepLoop_ne_err (n : Nat) : ∀ {s : Span} {q : Str}, View s q → 10 ∉ q → sepLoop space1 linkPair n s ≠ .err := by
  induction n with
  | zero => intro s q _ _ h; cases h
  | succ n ih =>
    intro s q h h10 hr
    unfold sepLoop at hr
    cases hs : space1 s with
    | ok s1 o =>
      obtain ⟨sp, y, rfl, hn, hb, hy, rfl⟩ := space1_inv h hs
      rw [hs] at hr
      simp only at hr
      split at hr
      · rename_i e
        have h1 := congrArg Span.start e
        have h2 := List.length_pos_iff.2 hn
        simp only [adv_start] at h1
        omega
      have v1 := h.adv
      have h10' : 10 ∉ y := by simp at h10; exact h10.2
      cases hq : linkPair (adv s sp.length) with
      | ok s2 p =>
        rw [hq] at hr
        simp only at hr
        obtain ⟨q2, hp2, rfl⟩ := linkPair_reads v1 h10' hq
        have v2 : View (adv (adv s sp.length) (pairText p).length) q2 := by
          have := hp2.1
          rw [this] at v1
          exact v1.adv
        have := ih v2 (by have := hp2.1; rw [this] at h10'; simp at h10'; simp [h10'])
        revert hr this
        cases sepLoop space1 linkPair n (adv (adv s sp.length) (pairText p).length) <;> simp
      | _ => rw [hq] at hr; cases hr
    | _ => rw [hs] at hr; cases hr

theorem lastValues_collect (ps : List (Str × Str)) : LastValues ps (Map.collect ps) := by
  intro k v
  rw [Map.mem_collect, List.find?_eq_some_iff_append]
  constructor
  · rintro ⟨-, a, b, e, h⟩
    refine ⟨b.reverse, a.reverse, ?_, ?_⟩
    · have := congrArg List.reverse e
      simpa using this
    · intro p hp
      simpa using h p (by simpa using hp)
  · rintro ⟨a, b, rfl, h⟩
    refine ⟨by simp, b.reverse, a.reverse, by simp, ?_⟩
    intro p hp
    simpa using h p (by simpa using hp)

theorem optProperties_reads {m : Option Map} (h : View s c) (h10 : 10 ∉ c) (hr : opt linkProperties s = .ok s' m) :
    ∃ w q, c = w ++ q ∧ s' = adv s w.length ∧ PropsRead c m q := by
  rcases opt_inv hr with ⟨b, hb, rfl⟩ | ⟨he, hs', rfl⟩
  · unfold linkProperties at hb
    obtain ⟨s1, o, h1, hb⟩ := bind_inv hb
    obtain ⟨y, rfl, rfl, -⟩ := tag_inv h h1
    have v1 : View (adv s 1) y := h.adv
    have h10' : 10 ∉ y := by simpa using h10
    obtain ⟨ps, hps, rfl⟩ := map_inv hb
    obtain ⟨s2, p, h2, hps⟩ := bind_inv (p := linkPair) hps
    obtain ⟨q, hp, rfl⟩ := linkPair_reads v1 h10' h2
    obtain ⟨s3, qs, h3, hps⟩ := bind_inv hps
    cases hps
    have v2 := v1
    rw [hp.1] at v2
    have h10q : 10 ∉ q := by rw [hp.1] at h10'; simp at h10'; simp [h10']
    obtain ⟨q', w, e, e', hx⟩ := sepLoop_reads _ v2.adv h10q hp h3
    refine ⟨c!"|" :: (pairText p ++ w), q', ?_, ?_, .some hx (lastValues_collect _)⟩
    · rw [hp.1, e]; simp
    · rw [e', adv_adv]
      show adv (adv s 1) _ = _
      rw [adv_adv]
      congr 1
      rw [show pairText (p.1, p.2) = pairText p from rfl]
      simp
      omega
  · refine ⟨[], c, rfl, hs', .none ?_⟩
    rintro x k v q hp rfl
    have v1 : View (adv s 1) x := h.adv (w := b!"|")
    have h10' : 10 ∉ x := by simpa using h10
    have e1 := hp.run v1 h10'
    have v2 : View (adv (adv s 1) (pairText (k, v)).length) q := by
      have := v1; rw [hp.1] at this; exact this.adv
    have h10q : 10 ∉ q := by have := h10'; rw [hp.1] at this; simp at this; simp [this]
    have e2 : sepTail space1 linkPair (adv (adv s 1) (pairText (k, v)).length) ≠ .err :=
      sepLoop_ne_err _ v2 h10q
    unfold linkProperties at he
    rw [bind_ok (tag_run (w := b!"|") h)] at he
    have he' : P.map (P.bind linkPair fun a => P.bind (sepTail space1 linkPair) fun as => P.pure (a :: as))
      Map.collect (adv s 1) = .err := he
    simp only [P.map, P.bind, e1] at he'
    revert he' e2
    generalize sepTail space1 linkPair (adv (adv s 1) (pairText (k, v)).length) = z
    cases z <;> simp [P.pure]

theorem DataRead.plain {d : LinkData} {lost : Str} (h : DataRead env c d lost) (hb : c!"|" ∉ c) :
    d.desc = none ∧ d.props = none ∧ ∃ m, TargetRead env c d.uri m := by
  obtain ⟨r, l, q, q', g1, g2, g3, -⟩ := h
  have hr : c!"|" ∉ r := by
    obtain ⟨t, -, g, -⟩ := g1
    have := g.eq
    intro hm
    exact hb (by rw [this]; simp [hm])
  revert g2 g3
  generalize d.desc = dd
  generalize d.props = dp
  intro g2 g3
  cases g2 with
  | none _ =>
    cases g3 with
    | none _ => exact ⟨rfl, rfl, _, g1⟩
    | some _ _ => simp at hr
  | text _ => simp at hr
  | transclusion _ _ _ _ _ => simp at hr

theorem linkDataF_reads (n : Nat) : ∀ {s s' : Span} {c : Str} {d : LinkData}, View s c → 10 ∉ c →
    linkDataF env n s = .ok s' d → ∃ lost, DataRead env c d lost := by
  induction n with
  | zero => intro s s' c d _ _ h; cases h
  | succ n ih =>
    intro s s' c d h h10 hr
    unfold linkDataF at hr
    obtain ⟨s1, u, h1, hr⟩ := bind_inv hr
    obtain ⟨t, r, rfl, rfl, ht⟩ := linkUriRef_reads h h10 h1
    have h10r : 10 ∉ r := by simp at h10; exact h10.2
    obtain ⟨s2, ds, h2, hr⟩ := bind_inv hr
    obtain ⟨w, l, q, e, rfl, hd⟩ := optDescription_reads (env := env) (ld := linkDataF env n)
      (fun s s' c d hv hc hb hrun => (ih hv hc hrun).elim fun _ h => h.plain hb) h.adv h10r h2
    subst e
    obtain ⟨s3, ps, h3, hr⟩ := bind_inv hr
    obtain ⟨w', q', rfl, rfl, hp⟩ := optProperties_reads h.adv.adv (by simp at h10r; simp [h10r]) h3
    cases hr
    exact ⟨_, _, l, _, q', ht, hd, hp, rfl⟩

theorem linkData_readsData : ReadsData env (linkData env) := by
  intro s s' c d hv hc hb hr
  obtain ⟨_, h⟩ := linkDataF_reads _ hv hc hr
  exact h.plain hb

theorem ref_reads {u : Uri} {d : Option Description} {s1 : Span} (h : View s c) (h10 : 10 ∉ c)
    (h1 : linkUriRef env s = .ok s1 u) (h2 : opt (linkDescription env) s1 = .ok s' d) :
    ∃ lost, RefRead env c ⟨u, d, none⟩ lost := by
  obtain ⟨t, r, rfl, rfl, ht⟩ := linkUriRef_reads h h10 h1
  have h10r : 10 ∉ r := by simp at h10; exact h10.2
  obtain ⟨w, l, q, -, -, hd⟩ := optDescription_reads linkData_readsData h.adv h10r h2
  exact ⟨_, rfl, r, l, q, ht, hd, rfl⟩

theorem digitsVal_spec (ds : Str) : ∀ acc n, digitsVal acc ds = some n →
    (∀ b ∈ ds, 48 ≤ b ∧ b ≤ 57) ∧ n = ds.foldl (fun n b => n * 10 + (b - 48)) acc := by
  induction ds with
  | nil => intro acc n h; cases h; simp
  | cons b ds ih =>
    intro acc n h
    unfold digitsVal at h
    split at h
    · rename_i hb
      obtain ⟨h1, h2⟩ := ih _ _ h
      simp [isDigit] at hb
      refine ⟨?_, by simpa using h2⟩
      intro x hx
      rcases List.mem_cons.1 hx with rfl | hx
      · exact hb
      · exact h1 x hx
    · cases h

theorem parseU32_spec {n : Str} {i : Nat} (h : parseU32 n = some i) : NumberText n i := by
  have key : ∀ ds : Str, (if ds.isEmpty then none
      else match digitsVal 0 ds with
      | some n => if n < 4294967296 then some n else none
      | none => none) = some i → (n = ds ∨ n = c!"+" :: ds) → NumberText n i := by
    intro ds h hn
    split at h
    · cases h
    rename_i he
    cases hd : digitsVal 0 ds with
    | none => rw [hd] at h; cases h
    | some m =>
      rw [hd] at h
      simp only at h
      split at h
      · cases h
        obtain ⟨h1, h2⟩ := digitsVal_spec _ _ _ hd
        exact ⟨ds, hn, by rintro rfl; simp at he, h1, h2, by omega⟩
      · cases h
  unfold parseU32 at h
  split at h
  · exact key _ h (.inr rfl)
  · exact key _ h (.inl rfl)

theorem prefixed_reads {lft : Str} {o : Span} (h : View s c)
    (hr : delimited (tag lft) (takeLineUntil1 b!":") (tag b!":") s = .ok s' o) :
    ∃ n r, c = lft ++ (n ++ (c!":" :: r)) ∧ n ≠ [] ∧ c!":" ∉ n ∧ View s' r ∧ o.asRemaining = n := by
  unfold delimited at hr
  obtain ⟨s1, o1, h1, hr⟩ := bind_inv hr
  obtain ⟨y, rfl, rfl, -⟩ := tag_inv h h1
  obtain ⟨s2, o2, h2, hr⟩ := bind_inv hr
  obtain ⟨n, y, rfl, hn, rfl, rfl, hs⟩ := takeLineUntil1_inv (pat := b!":") ⟨by simp, by simp, 58, [], rfl, by decide⟩ h.adv h2
  obtain ⟨s3, o3, h3, hr⟩ := bind_inv hr
  obtain ⟨r, rfl, rfl, -⟩ := tag_inv h.adv.adv h3
  cases hr
  exact ⟨n, r, rfl, hn, hs.notMem (by simp), h.adv.adv.adv, h.adv.cut.rem⟩

theorem fragment_uri (a : Str) (an : Anchor) (h : Anchor.fromUriFragment a = some an) :
    diaryUriText (some an) = anchorUri a ∧ (a = [] ∨ a.head? = some c!"#") := by
  have key : ∀ b : Str, splitOn c!"#" b ≠ [] ∧
      joinWith b!"%23" (splitOn c!"#" b) = b.flatMap fun x => if x = c!"#" then b!"%23" else [x] := by
    intro b
    induction b with
    | nil => simp [splitOn, joinWith]
    | cons x b ih =>
      obtain ⟨h1, h2⟩ := ih
      obtain ⟨p, ps, hp⟩ := List.exists_cons_of_ne_nil h1
      by_cases hx : x = c!"#"
      · subst hx
        rw [hp] at h2
        simp [splitOn, hp, joinWith, ← h2]
      · rw [hp] at h2
        simp only [splitOn, if_neg hx, hp, List.flatMap_cons, ← h2]
        cases ps <;> simp [joinWith]
  unfold Anchor.fromUriFragment at h
  cases a with
  | nil => simp [splitOn] at h; subst h; simp [diaryUriText, Anchor.toEncodedUriFragment, anchorUri]
  | cons x b =>
    obtain ⟨h1, h2⟩ := key b
    obtain ⟨p, ps, hp⟩ := List.exists_cons_of_ne_nil h1
    by_cases hx : x = c!"#"
    · subst hx
      simp [splitOn] at h
      subst h
      simp only [diaryUriText, Anchor.toEncodedUriFragment, anchorUri]
      rw [← h2, hp]
      simp
    · simp [splitOn, hx, hp] at h

theorem body_reads {l : Link} (hraw : ∀ d, l ≠ .raw d) (h10 : 10 ∉ c) (h : BodyRead env c l) :
    ∃ lost, LinkReads env c lost l := by
  obtain ⟨o, o', h1, h2, h3, hr⟩ := h
  have v : View o c := ⟨h1, h2, h3⟩
  cases l with
  | raw d => exact absurd rfl (hraw d)
  | wiki d =>
    obtain ⟨d', hd, e⟩ := map_inv hr
    cases e
    exact linkDataF_reads _ v h10 hd
  | transclusion d =>
    obtain ⟨d', hd, e⟩ := map_inv hr
    cases e
    exact linkDataF_reads _ v h10 hd
  | indexed i d =>
    obtain ⟨s1, i', h1, hr⟩ := bind_inv hr
    obtain ⟨o1, h1, hi⟩ := mapOpt_inv h1
    obtain ⟨n, r, rfl, hn, hc, v1, e⟩ := prefixed_reads v h1
    obtain ⟨s2, u, h2, hr⟩ := bind_inv hr
    obtain ⟨s3, ds, h3, hr⟩ := bind_inv hr
    cases hr
    obtain ⟨lost, hl⟩ := ref_reads v1 (by simp at h10; simp [h10]) h2 h3
    rw [e] at hi
    exact ⟨lost, n, r, rfl, hc, parseU32_spec hi, hl⟩
  | named n d =>
    obtain ⟨s1, n', h1, hr⟩ := bind_inv hr
    obtain ⟨o1, h1', rfl⟩ := strOf_inv h1
    obtain ⟨n, r, rfl, hn, hc, v1, e⟩ := prefixed_reads v h1'
    obtain ⟨s2, u, h2, hr⟩ := bind_inv hr
    obtain ⟨s3, ds, h3, hr⟩ := bind_inv hr
    cases hr
    obtain ⟨lost, hl⟩ := ref_reads v1 (by simp at h10; simp [h10]) h2 h3
    rw [e]
    exact ⟨lost, r, rfl, hn, hc, hl⟩
  | diary dt d =>
    obtain ⟨s1, _, h1, hr⟩ := bind_inv hr
    obtain ⟨y, rfl, rfl, -⟩ := tag_inv v h1
    have v1 := v.adv
    have h10y : 10 ∉ y := by simp at h10; simp [h10]
    obtain ⟨s2, date, h2, hr⟩ := bind_inv hr
    obtain ⟨o2, h2, hdate⟩ := mapOpt_inv h2
    obtain ⟨h2, hne⟩ := verify_inv h2
    obtain ⟨t, z, rfl, e, hs⟩ := takeLineUntil2_view (p1 := b!"|") (p2 := b!"#") (by simp) (by simp) v1
    rw [e] at h2
    cases h2
    rw [v1.cut.isEmpty] at hne
    rw [v1.cut.rem] at hdate
    have v2 := v1.adv
    have h10z : 10 ∉ z := by simp at h10y; exact h10y.2
    obtain ⟨s3, an, h3, hr⟩ := bind_inv hr
    obtain ⟨s4, ds, h4, hrn⟩ := bind_inv hr
    unfold newDiaryLink at hrn
    have key : ∃ a r, z = a ++ r ∧ s3 = adv (adv (adv o b!"diary:".length) t.length) a.length ∧
        (a = [] ∨ a.head? = some c!"#") ∧ c!"|" ∉ a ∧ (r = [] ∨ r.head? = some c!"|") ∧
        diaryUriText an = anchorUri a := by
      obtain ⟨a, r, rfl, ea, hsa⟩ := takeLineUntil_view (pat := b!"|") ⟨by simp, by simp, 124, [], rfl, by decide⟩ v2
      have hup := hsa.upTo h10z
      have hstop : r = [] ∨ r.head? = some c!"|" := by
        rcases hup.stop with h | ⟨p, hp, q, rfl⟩
        · exact .inl h
        · simp at hp; subst hp; exact .inr rfl
      rcases opt_inv h3 with ⟨b, hb, rfl⟩ | ⟨he, hs', rfl⟩
      · obtain ⟨o3, h5, h6⟩ := mapOpt_inv hb
        rw [ea] at h5
        cases h5
        rw [v2.cut.rem] at h6
        obtain ⟨g1, g2⟩ := fragment_uri a b h6
        exact ⟨a, r, rfl, rfl, g2, hsa.notMem (by simp), hstop, g1⟩
      · exfalso
        have hhd : a = [] ∨ a.head? = some c!"#" := by
          rcases (hs.upTo h10y).stop with h | ⟨p, hp, q, hq⟩
          · simp at h; exact .inl h.1
          · cases a with
            | nil => exact .inl rfl
            | cons x a =>
              simp at hp
              rcases hp with rfl | rfl
              · simp at hq
                have := hsa.notMem (b := c!"|") (by simp)
                simp [← hq.1] at this
              · simp at hq
                simp [← hq.1]
        unfold linkAnchor mapOpt at he
        rw [ea] at he
        simp only [v2.cut.rem] at he
        rcases hhd with rfl | hh
        · simp [Anchor.fromUriFragment, splitOn] at he
        · cases a with
          | nil => simp at hh
          | cons x a =>
            simp at hh
            subst hh
            simp [Anchor.fromUriFragment, splitOn] at he
    obtain ⟨a, r, rfl, rfl, ha, hab, hrb, hau⟩ := key
    obtain ⟨w, l, q, e, -, hd⟩ := optDescription_reads linkData_readsData v2.adv
      (by simp at h10z; simp [h10z]) h4
    rw [hau] at hrn
    cases hu : env.uri (anchorUri a) with
    | none => rw [hu] at hrn; cases hrn
    | some u =>
      rw [hu] at hrn
      cases hrn
      exact ⟨_, rfl, t, a, r, l, q, rfl, by rintro rfl; simp at hne, hs.notMem (by simp), hs.notMem (by simp),
        hdate, ha, hab, hrb, hu, hd, rfl⟩

end Vw
