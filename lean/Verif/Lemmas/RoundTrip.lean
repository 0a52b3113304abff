import Verif.Lemmas.ReadPage
import Verif.Lemmas.VwEqual
import Verif.Spec.RoundTrip

/-!
# Reading back blocks without inline content
-/

namespace Vw

open P Scan Fm

variable {C : Ctx} {s s' : Span} {t w r : Str} {k : Nat}

/-! ## Infixes -/

theorem infix_split {p a b : Str} {c : Byte} (h : p <:+: a ++ c :: b) (hc : c ∉ p) :
    p <:+: a ∨ p <:+: b := by
  obtain ⟨x, y, e⟩ := h
  rw [List.append_eq_append_iff] at e
  rcases e with ⟨u, e1, e2⟩ | ⟨u, e1, e2⟩
  · exact .inl ⟨x, u, e1.symm⟩
  · cases u with
    | nil => exact .inl ⟨x, [], by simpa using e1⟩
    | cons d u =>
      simp only [List.cons_append, List.cons.injEq] at e2
      obtain ⟨rfl, rfl⟩ := e2
      rw [List.append_eq_append_iff] at e1
      rcases e1 with ⟨v, -, f2⟩ | ⟨v, -, f2⟩
      · exact absurd (by rw [f2]; simp) hc
      · cases v with
        | nil => simp at f2; exact absurd (by rw [← f2]; simp) hc
        | cons d' v =>
          simp at f2
          exact .inr ⟨v, y, by rw [f2.2]⟩

theorem NoTerm.append {a b : Str} {c : Byte} (ha : NoTerm a) (hc : c ≠ 58) (hb : NoTerm b) :
    NoTerm (a ++ c :: b) := by
  intro h
  rcases infix_split h (by simpa using fun h => hc (by omega)) with h | h
  · exact ha h
  · exact hb h

theorem NoTerm.cons {b : Str} {c : Byte} (hc : c ≠ 58) (hb : NoTerm b) : NoTerm (c :: b) :=
  NoTerm.append (a := []) (by intro h; simpa using h.length_le) hc hb

theorem NoTerm.nil : NoTerm [] := by intro h; simpa using h.length_le

theorem noTerm_pairs {m : Map} (hm : ∀ p ∈ m, NoTerm p.1 ∧ NoTerm p.2) (b : Bool) :
    NoTerm (pairsText b m) := by
  induction m generalizing b with
  | nil => exact .nil
  | cons p m ih =>
    obtain ⟨k, v⟩ := p
    obtain ⟨h1, h2⟩ := hm (k, v) (by simp)
    have key : NoTerm (k ++ (b!"=\"" ++ (v ++ (b!"\"" ++ pairsText true m)))) :=
      NoTerm.append h1 (by decide) (.cons (by decide)
        (NoTerm.append h2 (by decide) (ih (fun p hp => hm p (by simp [hp])) true)))
    cases b with
    | true => exact .cons (by decide) key
    | false => exact key

/-! ## The texts of blocks -/

/-- The text of a block without inline content. -/
def leafText (L : OutLib) : Block → Str
  | .divider => b!"----\n"
  | .code lang md ls => b!"{{{" ++ (lang.getD [] ++ (pairsText lang.isSome (sortedMap md) ++
      10 :: (ls.flatMap (· ++ b!"\n") ++ b!"}}}\n")))
  | .math ls en => b!"{{$" ++ (envText en ++ 10 :: (ls.flatMap (· ++ b!"\n") ++ b!"}}$\n"))
  | .placeholder (.title v) => b!"%title " ++ (v ++ b!"\n")
  | .placeholder (.template v) => b!"%template " ++ (v ++ b!"\n")
  | .placeholder .noHtml => b!"%nohtml\n"
  | .placeholder (.date d) => b!"%date " ++ (L.dateStr d ++ b!"\n")
  | .placeholder (.other n v) => b!"%" ++ (n ++ (b!" " ++ (v ++ b!"\n")))
  | _ => []

theorem write_plain (x c : Str) (i : Nat) : write x ⟨c, i, false⟩ = ⟨c ++ x, i, false⟩ := rfl

theorem writeIndent_zero (cfg : VwCfg) (c : Str) : writeIndent cfg ⟨c, 0, false⟩ = ⟨c, 0, false⟩ := by
  unfold writeIndent
  split <;> rfl

theorem rawLines_zero (cfg : VwCfg) (ls : List Str) (c : Str) :
    rawLinesFmt cfg ls ⟨c, 0, false⟩ = ⟨c ++ ls.flatMap (· ++ b!"\n"), 0, false⟩ := by
  induction ls generalizing c with
  | nil => simp [rawLinesFmt]
  | cons l ls ih =>
    rw [rawLinesFmt, writeIndent_zero, write_plain, write_plain, ih]
    simp

theorem leaf_text {L : OutLib} {env : Env} {b : Block} (cfg : VwCfg) (h : LeafOk L env b) :
    b.toVimwiki L cfg = some (leafText L b) := by
  cases b with
  | divider => rfl
  | code lang md ls =>
    simp only [Block.toVimwiki, Block.fmt, Fm.new, codeFmt, Option.map_some, Option.some.injEq]
    rw [writeIndent_zero, write_plain, write_plain, (writes_pairs _ _).plain _ rfl, write_plain,
      rawLines_zero, writeIndent_zero, write_plain]
    simp [leafText]
  | math ls en =>
    simp only [Block.toVimwiki, Block.fmt, Fm.new, mathFmt, Option.map_some, Option.some.injEq]
    rw [writeIndent_zero, write_plain, write_plain, write_plain,
      rawLines_zero, writeIndent_zero, write_plain]
    cases en <;> simp [leafText, envText]
  | placeholder p =>
    cases p <;> simp [Block.toVimwiki, Block.fmt, Fm.new, placeholderFmt, write_plain, leafText]
  | _ => exact h.elim

/-! ## Maps -/

theorem collect_perm {ps : Map} (h : DistinctKeys ps) : (Map.collect ps).Perm ps := by
  suffices key : ∀ (ps m : Map), DistinctKeys (ps ++ m) →
      (ps.foldl (fun m e => Map.insert m e.1 e.2) m).Perm (ps ++ m) by
    simpa [Map.collect] using key ps [] (by simpa using h)
  intro ps
  induction ps with
  | nil => intro m _; exact List.Perm.refl _
  | cons p ps ih =>
    intro m hd
    have hins : Map.insert m p.1 p.2 = p :: m := by
      unfold Map.insert
      rw [List.filter_eq_self.2]
      intro q hq
      simp only [DistinctKeys, List.cons_append, List.map_cons, List.nodup_cons] at hd
      have : q.1 ≠ p.1 := fun e => hd.1 (by rw [← e]; exact List.mem_map.2 ⟨q, by simp [hq], rfl⟩)
      simpa using this
    rw [List.foldl_cons, hins]
    have hp : (ps ++ p :: m).Perm (p :: ps ++ m) := List.perm_middle
    refine (ih (p :: m) ?_).trans hp
    exact (hp.map _).nodup_iff.2 hd

theorem mapEq_of_perm {m m' : Map} (hd : DistinctKeys m') (h : m.Perm m') :
    mapEq (fun x y => decide (x = y)) m m' = true := by
  rw [mapEq_iff]
  exact ⟨h.length_eq, fun k v hm => ⟨v, lookup_of_mem hd (h.subset hm), by simp⟩⟩

/-! ## Code blocks -/

theorem pairsText_true (ps : Map) : pairsText true ps = headTail ps [] := by
  induction ps with
  | nil => rfl
  | cons p ps ih =>
    obtain ⟨k, v⟩ := p
    rw [pairsText, ih]
    simp [headTail, pairText]

theorem pairsText_false (p : Str × Str) (ps : Map) :
    pairsText false (p :: ps) = pairText p ++ ps.flatMap (fun p => 32 :: pairText p) := by
  obtain ⟨k, v⟩ := p
  rw [pairsText, pairsText_true]
  simp [headTail, pairText]

/-- The opening line of a block with metadata but no language. -/
theorem codeStart_pairs_run {p : Str × Str} {ps : Map}
    (h : View s (b!"{{{" ++ (pairText p ++ (ps.flatMap (fun p => 32 :: pairText p) ++ 10 :: r))))
    (hp : ∀ q ∈ p :: ps, PairOk q) (hk : 32 ∉ p.1) :
    codeBlockStart s = .ok (adv s (3 + (pairText p ++ ps.flatMap (fun p => 32 :: pairText p)).length + 1))
      (0, none, Map.collect (p :: ps)) := by
  have hr : EolHere (10 :: r) := .inr (.inl ⟨r, rfl⟩)
  have hpp := hp p (by simp)
  have v1 : View (adv s 3) _ := View.adv h
  have hpt : ∀ q : Str × Str, PairOk q → 10 ∉ pairText q ∧ (pairText q).getLast? = some c!"\"" := by
    intro q hq
    refine ⟨?_, by rw [pairText, List.getLast?_append]; rfl⟩
    simp [pairText, hq.2.1, hq.2.2.2.2.1]
  have h10 : 10 ∉ pairText p ++ ps.flatMap (fun p => 32 :: pairText p) := by
    simp only [List.mem_append, List.mem_flatMap, List.mem_cons, not_or]
    refine ⟨(hpt p hpp).1, ?_⟩
    rintro ⟨q, hq, h | h⟩
    · cases h
    · exact (hpt q (hp q (by simp [hq]))).1 h
  have hlast : (pairText p ++ ps.flatMap (fun p => 32 :: pairText p)).getLast? ≠ some 13 := by
    clear h v1 h10
    have key : ∀ (ps : Map) (u : Str), (∀ q ∈ ps, PairOk q) → u.getLast? = some c!"\"" →
        (u ++ ps.flatMap (fun p => 32 :: pairText p)).getLast? = some c!"\"" := by
      intro ps
      induction ps with
      | nil => intro u _ hu; simpa using hu
      | cons q ps ih =>
        intro u hq hu
        rw [List.flatMap_cons, ← List.append_assoc]
        refine ih _ (fun x hx => hq x (by simp [hx])) ?_
        rw [List.getLast?_append, List.getLast?_cons, (hpt q (hq q (by simp))).2]
        rfl
    rw [key ps _ (fun q hq => hp q (by simp [hq])) (hpt p hpp).2]
    decide
  have hls : LineSplit (pairText p ++ ps.flatMap (fun p => 32 :: pairText p)) (10 :: r) :=
    hr.lineSplit h10 hlast
  have v1' : View (adv s 3) ((pairText p ++ ps.flatMap (fun p => 32 :: pairText p)) ++ 10 :: r) := by
    simpa using v1
  have tl : opt (strOf (verify (takeLineUntil1 b!" ") (fun s => !s.asRemaining.contains c!"=")))
      (adv s 3) = .ok (adv s 3) none := by
    have hin : ∀ u : Str, (∃ q, pairText p ++ q = u) → u.contains c!"=" = true := by
      rintro _ ⟨q, rfl⟩
      simp [pairText]
    by_cases h32 : 32 ∈ pairText p ++ ps.flatMap (fun p => 32 :: pairText p)
    · obtain ⟨a, b, e, ha⟩ := List.eq_append_cons_of_mem h32
      have hane : a ≠ [] ∧ c!"=" ∈ a := by
        obtain ⟨k, v⟩ := p
        simp only [pairText, List.append_assoc] at e
        rw [List.append_eq_append_iff] at e
        rcases e with ⟨u, e1, e2⟩ | ⟨u, e1, e2⟩
        · cases u with
          | nil => simp at e2
          | cons d u =>
            simp at e2
            refine ⟨by rw [e1]; simp, ?_⟩
            rw [e1, e2.1]; simp
        · cases u with
          | nil => simp at e2
          | cons d u =>
            simp at e2
            exact absurd (by rw [e1, ← e2.1]; simp) hk
      have va : View (adv s 3) (a ++ 32 :: (b ++ 10 :: r)) := by
        have := v1'
        rw [e] at this
        simpa using this
      have h1 := takeLineUntil1_run va (fun h => h10 (by rw [e]; simp [h])) ha (by decide) hane.1
      have h2 := verify_ok (f := fun s => !s.asRemaining.contains c!"=") h1
      rw [(View.cut va).rem, if_neg (by simpa using hane.2)] at h2
      exact opt_er (strOf_er h2)
    · have h1 := takeLineUntil1_run_eol v1' hls h32 (by decide)
      rw [if_neg (by
        intro e
        have := congrArg List.length e
        simp [pairText] at this)] at h1
      have h2 := verify_ok (f := fun s => !s.asRemaining.contains c!"=") h1
      rw [(View.cut v1').rem, if_neg (by
        rw [hin _ ⟨_, rfl⟩]; decide)] at h2
      exact opt_er (strOf_er h2)
  unfold codeBlockStart
  rw [bind_ok (indentSize_run (w := []) h (by simp [AllBlank]) (by simp))]
  simp only [List.length_nil, adv_zero]
  rw [bind_ok (tag_run h), bind_ok (show opt _ (adv s (List.length b!"{{{")) = _ from tl)]
  have hne : ∀ x, (pairText p ++ (ps.flatMap (fun p => 32 :: pairText p) ++ 10 :: r)).head? = some x →
      isSpace x = false := by
    intro x hx
    apply isSpace_false.2
    apply hpp.2.2.2.1
    unfold pairText at hx
    have := hpp.1
    cases hk : p.1 with
    | nil => exact absurd hk this
    | cons y k => rw [hk] at hx; simpa using hx
  rw [bind_ok (space0_run (w := []) v1 (by simp) hne)]
  simp only [List.length_nil, adv_zero]
  have v5 := View.adv v1
  have v6 := View.adv v5
  have hsl := sepLoop_pairs_run hr (ws := []) (by simp [AllBlank]) ps
    ((adv (adv s 3) (pairText p).length).remainingLen + 1) _ (by
      have := v5.remLen
      have h3 := len_le_pairs ps
      rw [List.length_append] at this
      have h4 : (adv (adv s 3) (pairText p).length).remainingLen = _ := this
      omega) (fun q hq => hp q (by simp [hq])) v5
  have hsl : sepTail space1 codePair (adv (adv s 3) (pairText p).length) = _ := hsl
  have : separatedList0 space1 codePair (adv s 3) = .ok (adv (adv (adv s
      3) (pairText p).length) (ps.flatMap (fun p => 32 :: pairText p)).length) (p :: ps) := by
    unfold separatedList0
    rw [codePair_run v1 hpp]
    simp only
    rw [map_ok hsl]
  refine (bind_ok (p := separatedList0 space1 codePair) this).trans ?_
  rw [bind_ok (space0_run (w := []) v6 (by simp) hr.head)]
  simp only [List.length_nil, adv_zero]
  obtain ⟨n, hn, -, -, -, he⟩ := eol_run v6 hr
  have hn : endOfLineOrInput (adv (adv (adv s 3) (pairText p).length)
    (ps.flatMap (fun p => 32 :: pairText p)).length) = _ := hn
  rw [bind_ok hn, he]
  simp only [P.pure, adv_adv]
  exact ok_congr (by simp [lineLen]; omega)

theorem dedent_zero (ls : List Str) : ls.map (dedent 0) = ls := by
  induction ls with
  | nil => rfl
  | cons l ls ih => rw [List.map_cons, ih]; simp [dedent]

theorem codeBlock_of_start {lang : Option Str} {md : Map} {N : Nat} {ls : List Str} {hd : Str}
    (h : View s (hd ++ 10 :: (ls.flatMap (· ++ b!"\n") ++ (b!"}}}" ++ 10 :: r))))
    (hs : codeBlockStart s = .ok (adv s (hd.length + 1)) (0, lang, md))
    (hl : FenceLines b!"}}}" ls) (hN : N = (hd ++ 10 :: (ls.flatMap (· ++ b!"\n") ++ b!"}}}\n")).length) :
    ∃ x, codeBlock s = .ok (adv s N) x ∧ x.inner = .code lang md ls := by
  have hv : View (adv s (hd.length + 1)) (ls.flatMap (· ++ b!"\n") ++ (b!"}}}" ++ 10 :: r)) := by
    have : View s ((hd ++ [10]) ++ (ls.flatMap (· ++ b!"\n") ++ (b!"}}}" ++ 10 :: r))) := by
      simpa using h
    simpa using View.adv this
  have hrun := fencedTail_run (ws2 := []) (ws3 := []) (mk := fun y ls => Block.code y.1 y.2 ls) (by decide)
    (by decide) (by decide) hs (AtBol.next h) h hv (fun l hl' => ⟨(hl l hl').1.1, (hl l hl').1.2, (hl l hl').2⟩)
    (.inl rfl) (by simp [AllBlank]) (by simp [AllBlank]) (.inr (.inl ⟨r, rfl⟩))
  refine ⟨_, hrun.trans (ok_congr ?_), ?_⟩
  · rw [hN]; simp [lineLen]; omega
  · simp [dedent_zero]

theorem codeBlock_leaf {lang : Option Str} {md : Map} {ls : List Str} {L : OutLib}
    (h : View s (leafText L (.code lang md ls) ++ r)) (hh : CodeHeadOk lang md) (hl : FenceLines b!"}}}" ls) :
    ∃ x md', codeBlock s = .ok (adv s (leafText L (.code lang md ls)).length) x ∧
      x.inner = .code lang md' ls ∧ mapEq (fun x y => decide (x = y)) md' md = true := by
  obtain ⟨h1, h2, h3⟩ := hh
  have hperm : (sortedMap md).Perm md := List.mergeSort_perm _ _
  have hds : DistinctKeys (sortedMap md) := (hperm.map _).nodup_iff.2 h2
  have hmap : mapEq (fun x y => decide (x = y)) (Map.collect (sortedMap md)) md = true :=
    mapEq_of_perm h2 ((collect_perm hds).trans hperm)
  have hp : ∀ p ∈ sortedMap md, PairOk p := fun p hp => (h3 p (hperm.subset hp)).1
  have hstart : codeBlockStart s = .ok (adv s ((b!"{{{" ++ (lang.getD [] ++
      pairsText lang.isSome (sortedMap md))).length + 1)) (0, lang, Map.collect (sortedMap md)) := by
    have gen : pairsText lang.isSome (sortedMap md) = headTail (sortedMap md) [] →
        codeBlockStart s = .ok (adv s ((b!"{{{" ++ (lang.getD [] ++
          pairsText lang.isSome (sortedMap md))).length + 1)) (0, lang, Map.collect (sortedMap md)) := by
      intro e
      have h' : View s ([] ++ (b!"{{{" ++ (lang.getD [] ++ (headTail (sortedMap md) [] ++ 10 ::
          (ls.flatMap (· ++ b!"\n") ++ b!"}}}\n" ++ r))))) := by
        simpa [leafText, e] using h
      have := codeStart_run h' (by simp [AllBlank]) (by simp [AllBlank]) (.inl rfl) (by
        intro l hl
        obtain ⟨a1, a2, a3, a4, -⟩ := h1 l hl
        exact ⟨a1, a2.1, a3, a4, a2.2⟩) hp
      rw [this, e]
      exact ok_congr (by simp; omega)
    cases lang with
    | some l => exact gen (pairsText_true _)
    | none =>
      cases hm : sortedMap md with
      | nil => rw [hm] at gen; exact gen rfl
      | cons p ps =>
        have h' := h
        simp only [leafText, hm] at h'
        rw [show (none : Option Str).isSome = false from rfl, pairsText_false] at h'
        have := codeStart_pairs_run (s := s) (p := p) (ps := ps)
          (r := ls.flatMap (· ++ b!"\n") ++ b!"}}}\n" ++ r) (by simpa using h')
          (by rw [← hm]; exact hp) ((h3 p (hperm.subset (by rw [hm]; simp))).2.1 rfl)
        rw [show (none : Option Str).isSome = false from rfl, pairsText_false, this]
        exact ok_congr (by simp; omega)
  obtain ⟨x, hx1, hx2⟩ := codeBlock_of_start (r := r) (N := (leafText L (.code lang md ls)).length)
    (by simpa [leafText] using h) hstart hl (by simp [leafText])
  exact ⟨x, _, hx1, hx2, hmap⟩

theorem mathBlock_leaf {en : Option Str} {ls : List Str} {L : OutLib}
    (h : View s (leafText L (.math ls en) ++ r))
    (he : ∀ e, en = some e → e ≠ [] ∧ 10 ∉ e ∧ c!"%" ∉ e ∧ NoTerm e) (hl : FenceLines b!"}}$" ls) :
    ∃ x, mathBlock s = .ok (adv s (leafText L (.math ls en)).length) x ∧ x.inner = .math ls en := by
  obtain ⟨x, h1, h2⟩ := math_run (s := s) (ws1 := []) (ws := []) (ws2 := []) (ws3 := []) (raw := ls)
    (en := en) (r := 10 :: r) (by simpa [leafText] using h) (by simp [AllBlank]) (by simp [AllBlank])
    (fun e h' => ⟨(he e h').1, (he e h').2.1, (he e h').2.2.1⟩)
    (fun l hl' => ⟨(hl l hl').1.1, (hl l hl').1.2, (hl l hl').2⟩) (.inl rfl) (by simp [AllBlank])
    (by simp [AllBlank]) (.inr (.inl ⟨r, rfl⟩))
  refine ⟨x, h1.trans (ok_congr ?_), ?_⟩
  · simp [leafText, lineLen]; omega
  · rw [h2]; simp [dedent_zero]

theorem placeholder_leaf {p : Placeholder} {L : OutLib} {env : Env} (hb : AtBol s)
    (h : View s (leafText L (.placeholder p) ++ r)) (hp : PlaceholderOk L env p) :
    ∃ x, placeholder env s = .ok (adv s (leafText L (.placeholder p)).length) x ∧
      x.inner = .placeholder p := by
  have head : ∀ {v : Str}, ValueOk v → ∀ x, (v ++ 10 :: r).head? = some x → ¬ (x = 32 ∨ x = 9) := by
    intro v hv x hx
    cases v with
    | nil => obtain ⟨b, hb, -⟩ := hv.2.2.2; simp at hb
    | cons y v => exact hv.2.2.1 x (by simpa using hx)
  have split : ∀ {v : Str}, RestOfLine v → LineSplit v (10 :: r) := fun h =>
    ⟨h.1, .inr (.inl ⟨r, rfl, h.2⟩)⟩
  have blank : AllBlank b!" " := by simp [AllBlank]
  cases p with
  | title v =>
    obtain ⟨x, h1, h2⟩ := (placeholder_title_run env hb (ws := b!" ") (v := v) (r := 10 :: r)
      (by simpa [leafText] using h) (by decide) blank (head hp) (split hp.1)).1 hp.2.2.2
    exact ⟨x, h1.trans (ok_congr (by simp [leafText, lineLen]; omega)), h2⟩
  | template v =>
    obtain ⟨x, h1, h2⟩ := (placeholder_template_run env hb (ws := b!" ") (v := v) (r := 10 :: r)
      (by simpa [leafText] using h) (by decide) blank (head hp) (split hp.1)).1 hp.2.2.2
    exact ⟨x, h1.trans (ok_congr (by simp [leafText, lineLen]; omega)), h2⟩
  | noHtml =>
    obtain ⟨x, h1, h2⟩ := placeholder_nohtml_run env hb (ws := []) (r := 10 :: r)
      (by simpa [leafText] using h) (by simp [AllBlank]) (.inr (.inl ⟨r, rfl⟩))
    exact ⟨x, h1.trans (ok_congr (by simp [leafText, lineLen])), h2⟩
  | date d =>
    obtain ⟨p1, p2, p3, p4, p5⟩ := hp
    obtain ⟨x, h1, h2⟩ := placeholder_date_run env (d := d) hb (ws := b!" ") (v := L.dateStr d) (r := 10 :: r)
      (by simpa [leafText] using h) (by decide) blank (by
        intro x hx
        cases hv : L.dateStr d with
        | nil => exact absurd hv p4
        | cons y v => rw [hv] at hx; exact p5 x (by rw [hv]; simpa using hx)) (split p2) p1
    exact ⟨x, h1.trans (ok_congr (by simp [leafText, lineLen]; omega)), h2⟩
  | other n v =>
    obtain ⟨x, h1, h2⟩ := (placeholder_other_run env hp.1 hb (ws := b!" ") (v := v) (r := 10 :: r)
      (by simpa [leafText] using h) (by decide) blank (head hp.2.2) (split hp.2.2.1)).1 hp.2.2.2.2.2
    exact ⟨x, h1.trans (ok_congr (by simp [leafText, lineLen]; omega)), h2⟩

/-! ## Blocks and pages -/

theorem leaf_last {L : OutLib} {env : Env} {b : Block} (h : LeafOk L env b) :
    (leafText L b).getLast? = some 10 := by
  have key : ∀ u : Str, (u ++ b!"\n").getLast? = some 10 := fun u => by
    rw [List.getLast?_append]; rfl
  cases b with
  | divider => rfl
  | code lang md ls =>
    have := key (b!"{{{" ++ (lang.getD [] ++ (pairsText lang.isSome (sortedMap md) ++
      10 :: (ls.flatMap (· ++ b!"\n") ++ b!"}}}"))))
    simpa [leafText] using this
  | math ls en =>
    have := key (b!"{{$" ++ (envText en ++ 10 :: (ls.flatMap (· ++ b!"\n") ++ b!"}}$")))
    simpa [leafText] using this
  | placeholder p =>
    cases p with
    | noHtml => rfl
    | title v => have := key (b!"%title " ++ v); simpa [leafText] using this
    | template v => have := key (b!"%template " ++ v); simpa [leafText] using this
    | date d => have := key (b!"%date " ++ L.dateStr d); simpa [leafText] using this
    | other n v => have := key (b!"%" ++ (n ++ (b!" " ++ v))); simpa [leafText] using this
  | _ => exact h.elim

theorem leaf_head {L : OutLib} {env : Env} {b : Block} (h : LeafOk L env b) (r : Str) :
    ∃ c u, leafText L b ++ r = c :: u ∧ (c = c!"{" ∨ c = c!"%" ∨ c = c!"-") ∧
      ¬ b!"- " <+: leafText L b ++ r := by
  cases b with
  | divider => exact ⟨_, _, rfl, .inr (.inr rfl), by simp [leafText]⟩
  | code lang md ls => exact ⟨_, _, rfl, .inl rfl, by simp [leafText]⟩
  | math ls en => exact ⟨_, _, rfl, .inl rfl, by simp [leafText]⟩
  | placeholder p =>
    cases p <;> exact ⟨_, _, rfl, .inr (.inl rfl), by simp [leafText]⟩
  | _ => exact h.elim

theorem leaf_line {L : OutLib} {env : Env} {b : Block} (h : LeafOk L env b) (r : Str) :
    NoTerm (lineOf (leafText L b ++ r)) := by
  have key : ∀ {w q : Str}, leafText L b ++ r = w ++ 10 :: q → 10 ∉ w → NoTerm w →
      NoTerm (lineOf (leafText L b ++ r)) := by
    intro w q e h1 h2
    rw [e, lineOf_append h1]
    exact h2
  cases b with
  | divider => exact key (w := b!"----") (q := r) rfl (by decide) (by unfold NoTerm; decide)
  | code lang md ls =>
    obtain ⟨⟨h1, -, h3⟩, -⟩ := h
    have hperm : (sortedMap md).Perm md := List.mergeSort_perm _ _
    refine key (w := b!"{{{" ++ (lang.getD [] ++ pairsText lang.isSome (sortedMap md)))
      (q := ls.flatMap (· ++ b!"\n") ++ b!"}}}\n" ++ r) (by simp [leafText]) ?_ ?_
    · have hp : ∀ (m : Map) (b : Bool), (∀ p ∈ m, PairOk p) → 10 ∉ pairsText b m := by
        intro m
        induction m with
        | nil => intro b _; simp [pairsText]
        | cons p m ih =>
          intro b hp
          obtain ⟨k, v⟩ := p
          have := hp (k, v) (by simp)
          have ih' := ih true fun q hq => hp q (by simp [hq])
          cases b <;> simp [pairsText, this.2.1, this.2.2.2.2.1, ih']
      have hl : 10 ∉ lang.getD [] := by
        cases lang with
        | none => simp
        | some l => exact (h1 l rfl).2.1.1
      have := hp (sortedMap md) lang.isSome fun p hp => (h3 p (hperm.subset hp)).1
      simp [hl, this]
    · have hpt := noTerm_pairs (m := sortedMap md) (fun p hp => (h3 p (hperm.subset hp)).2.2)
      refine .cons (by decide) (.cons (by decide) (.cons (by decide) ?_))
      cases lang with
      | none => exact hpt _
      | some l =>
        have hl := (h1 l rfl).2.2.2.2
        cases hm : sortedMap md with
        | nil => simpa [pairsText] using hl
        | cons p ps =>
          have := hpt true
          rw [hm] at this
          obtain ⟨k, v⟩ := p
          simp only [pairsText, if_true] at this
          simp only [Option.getD_some, Option.isSome_some, pairsText, if_true]
          refine NoTerm.append hl (by decide) ?_
          intro hi
          obtain ⟨a, b, e⟩ := hi
          exact this ⟨32 :: a, b, congrArg (32 :: ·) e⟩
  | math ls en =>
    obtain ⟨h1, -⟩ := h
    refine key (w := b!"{{$" ++ envText en) (q := ls.flatMap (· ++ b!"\n") ++ b!"}}$\n" ++ r)
      (by simp [leafText]) ?_ ?_
    · cases en with
      | none => simp [envText]
      | some e => simp [envText, (h1 e rfl).2.1]
    · refine .cons (by decide) (.cons (by decide) (.cons (by decide) ?_))
      cases en with
      | none => exact .nil
      | some e => exact .cons (by decide) (NoTerm.append (h1 e rfl).2.2.2 (by decide) .nil)
  | placeholder p =>
    have word : ∀ {u v : Str}, NoTerm u → NoTerm v → NoTerm (u ++ 32 :: v) := fun a b =>
      NoTerm.append a (by decide) b
    cases p with
    | noHtml => exact key (w := b!"%nohtml") (q := r) rfl (by decide) (by unfold NoTerm; decide)
    | title v =>
      exact key (w := b!"%title" ++ 32 :: v) (q := r) (by simp [leafText])
        (by have := h.1.1; simp [this]) (word (by unfold NoTerm; decide) h.2.1)
    | template v =>
      exact key (w := b!"%template" ++ 32 :: v) (q := r) (by simp [leafText])
        (by have := h.1.1; simp [this]) (word (by unfold NoTerm; decide) h.2.1)
    | date d =>
      exact key (w := b!"%date" ++ 32 :: L.dateStr d) (q := r) (by simp [leafText])
        (by have := h.2.1.1; simp [this]) (word (by unfold NoTerm; decide) h.2.2.1)
    | other n v =>
      refine key (w := (b!"%" ++ n) ++ 32 :: v) (q := r) (by simp [leafText])
        ?_ (word (.cons (by decide) h.2.1) h.2.2.2.1)
      have h1 := h.2.2.1.1
      have h2 : 10 ∉ n := fun hn => (h.1.2.1 10 hn).1 rfl
      simp [h1, h2]
  | _ => exact h.elim

theorem leaf_reads {L : OutLib} {ue : Uri → Uri → Bool} {b : Block} (h : LeafOk L C.env b) (rest : Str) :
    Reads C (leafText L b) rest (fun x => Block.eqv false ue x b = true) := by
  refine ⟨leaf_last h, fun s hb hi _ hv => ?_⟩
  obtain ⟨c, u, e, hc, hp⟩ := leaf_head h rest
  have hv' := hv
  rw [e] at hv'
  refine ⟨blankLine_run_err hv' (by omega), fun s' x ht => ?_⟩
  have hleaf := topLevel_leaf hi hv (by
    rw [e]
    rcases hc with rfl | rfl | rfl
    · exact .inl rfl
    · exact .inr (.inl rfl)
    · exact .inr (.inr rfl)) hp (leaf_line h rest) ht
  have no : ∀ p : Str, p ≠ [] → (∀ y, p.head? = some y → y ≠ c) → ¬ Begins (leafText L b ++ rest) p :=
    fun p h1 h2 hp => h2 c (hp.head (by rw [e]; rfl) (by omega) h1) rfl
  have begins : ∀ p : Str, Begins (leafText L b ++ rest) p → p <+: leafText L b ++ rest := by
    rintro p ⟨ws, q, he, hws⟩
    cases ws with
    | nil => exact ⟨q, he.symm⟩
    | cons y ws =>
      rw [e] at he
      cases he
      have := hws c (by simp)
      omega
  cases b with
  | divider =>
    obtain ⟨N, hN, hrun⟩ := divider_run hb hv ⟨4, 10 :: rest, by decide, rfl, .inr (.inl ⟨rest, rfl⟩)⟩
    cases e
    rcases hleaf with hk | ⟨-, hk | ⟨-, hk | ⟨hk, -⟩⟩⟩
    · exact absurd (code_begins hv hk) (no _ (by decide) (by intro y hy; simp at hy; omega))
    · exact absurd (math_begins hv hk) (no _ (by decide) (by intro y hy; simp at hy; omega))
    · rw [hrun] at hk
      cases hk
      refine ⟨?_, rfl⟩
      rw [hN]; rfl
    · rw [hk] at hrun; cases hrun
  | code lang md ls =>
    obtain ⟨y, md', hrun, h2, h3⟩ := codeBlock_leaf hv h.1 h.2
    rcases hleaf with hk | ⟨hk, -⟩
    · rw [hrun] at hk
      cases hk
      refine ⟨rfl, ?_⟩
      rw [h2]
      simp [Block.eqv, h3]
    · rw [hk] at hrun; cases hrun
  | math ls en =>
    obtain ⟨y, hrun, h2⟩ := mathBlock_leaf hv h.1 h.2
    rcases hleaf with hk | ⟨-, hk | ⟨hk, -⟩⟩
    · have := begins _ (code_begins hv hk)
      simp [leafText] at this
    · rw [hrun] at hk
      cases hk
      refine ⟨rfl, ?_⟩
      rw [h2]
      simp [Block.eqv]
    · rw [hk] at hrun; cases hrun
  | placeholder p =>
    obtain ⟨y, hrun, h2⟩ := placeholder_leaf hb hv h
    have hcp : c = c!"%" := by
      cases p <;> (cases e; rfl)
    subst hcp
    rcases hleaf with hk | ⟨-, hk | ⟨-, hk | ⟨-, hk | ⟨hk, -⟩⟩⟩⟩
    · exact absurd (code_begins hv hk) (no _ (by decide) (by intro y hy; simp at hy; omega))
    · exact absurd (math_begins hv hk) (no _ (by decide) (by intro y hy; simp at hy; omega))
    · obtain ⟨n, q, hn, he, -⟩ := (divider_inv hv hk).1
      obtain ⟨m, rfl⟩ : ∃ m, n = m + 1 := ⟨n - 1, by omega⟩
      rw [e] at he
      simp [List.replicate_succ] at he
    · rw [hrun] at hk
      cases hk
      refine ⟨rfl, ?_⟩
      rw [h2]
      simp [Block.eqv]
    · rw [hk] at hrun; cases hrun
  | _ => exact h.elim

/-- The blocks with their texts and what must be read. -/
def wanted (ue : Uri → Uri → Bool) (txt : Block → Str) (xs : List (Located Block)) :
    List (Str × (Block → Prop)) :=
  xs.map fun y => (txt y.inner, fun x => Block.eqv false ue x y.inner = true)

theorem fits_eqvs {ue : Uri → Uri → Bool} {txt : Block → Str} :
    ∀ {xs ys : List (Located Block)}, Fits xs (wanted ue txt ys) → Block.eqvs false ue xs ys = true
  | [], [], _ => rfl
  | [], _ :: _, h => h.elim
  | _ :: _, [], h => h.elim
  | ⟨x, _⟩ :: xs, ⟨y, _⟩ :: ys, h => by
    have h1 : Block.eqv false ue x y = true := h.1
    have h2 := fits_eqvs (xs := xs) (ys := ys) h.2
    simp [Block.eqvs, h1, h2]

theorem elementTexts_of {L : OutLib} {cfg : VwCfg} {txt : Block → Str} {xs : List (Located Block)}
    (h : ∀ x ∈ xs, x.inner.toVimwiki L cfg = some (txt x.inner)) :
    elementTexts L cfg xs = some (xs.map fun x => txt x.inner) := by
  induction xs with
  | nil => rfl
  | cons x xs ih =>
    rw [elementTexts, h x (by simp), ih fun y hy => h y (by simp [hy])]
    rfl

/-- A page all of whose blocks are read back is read back. -/
theorem page_round_trip {L : OutLib} {cfg : VwCfg} {env : Env} {ue : Uri → Uri → Bool}
    (hI : ValidUtf8 cfg.indentStr) (p : Page) {txt : Block → Str}
    (ht : ∀ x ∈ p.elements, x.inner.toVimwiki L cfg = some (txt x.inner))
    (hs : ∀ x ∈ p.elements, x.inner.Solid L cfg)
    (hn : ∀ x ∈ p.elements, (txt x.inner).getLast? = some 10)
    (hr : ∀ text, ReadsAll (Ctx.ofText env text) (if cfg.separate then b!"\n" else []) (wanted ue txt p.elements)) :
    ∃ text, p.toVimwiki L cfg = some text ∧
      ∀ s pg, parsePage env text = .ok s pg → pg.same ue p = true := by
  have h1 := page_concat L cfg hI p.elements hs (.inr fun x hx t e => by
    rw [ht x hx] at e
    cases e
    exact .inr (hn x hx)) Whole.nil rfl
  rw [elementTexts_of ht] at h1
  refine ⟨_, h1, fun s pg hp => fits_eqvs (txt := txt) ?_⟩
  refine page_reads (sep := if cfg.separate then b!"\n" else []) ?_ (hr _) ?_ hp
  · cases cfg.separate
    · exact .inl rfl
    · exact .inr rfl
  · simp [wanted, List.map_map, Function.comp_def]

theorem leaves_round_trip {L : OutLib} {cfg : VwCfg} {env : Env} {ue : Uri → Uri → Bool}
    (hI : ValidUtf8 cfg.indentStr) (p : Page) (h : ∀ x ∈ p.elements, LeafOk L env x.inner) :
    ∃ text, p.toVimwiki L cfg = some text ∧
      ∀ s pg, parsePage env text = .ok s pg → pg.same ue p = true := by
  refine page_round_trip hI p (txt := leafText L) (fun x hx => leaf_text cfg (h x hx)) ?_
    (fun x hx => leaf_last (h x hx)) ?_
  · intro x hx
    have := h x hx
    cases hb : x.inner <;> rw [hb] at this <;> first | trivial | exact this.elim
  · intro text
    generalize p.elements = xs at h
    induction xs with
    | nil => trivial
    | cons x xs ih => exact ⟨leaf_reads (h x (by simp)) _, ih fun y hy => h y (by simp [hy])⟩

end Vw
