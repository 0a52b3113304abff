import Verif.Props.InText
import Verif.Props.RoundTrip
import Verif.Lemmas.Found

/-!
# What is written in a row is found there (C114)
-/

namespace Vw

/-- If code, a formula, a comment, a keyword, a link in brackets, a transclusion, tags, an address or a
decoration that does not begin with code or a formula is written in a row of elements, then the row has this
element there, or it begins inside of another element that is not text. -/
theorem C114_found_partial {env : Env} {text : Str} {s : Span} {pg : Page} (hs : env.SchemeSound)
    (h : parsePage env text = .ok s pg) {xs : Inlines} (hr : pg.Row xs) {w z : Located Inline}
    (hw : w ∈ xs) (hz : z ∈ xs) {i : Nat} (hi : w.region.offset ≤ i) {f : Inline → Nat → Prop}
    (hf : WrittenAt env text i (z.region.offset + z.region.len) f) :
    ∃ x ∈ xs, (x.region.offset = i ∧ f x.inner x.region.len) ∨
      (x.region.offset < i ∧ i < x.region.offset + x.region.len ∧ ∀ t, x.inner ≠ .text t) := by
  obtain ⟨d, a, b, hT⟩ := page_row h hr
  have hzhi : z.region.offset + z.region.len ≤ text.length := (hT.piece z hz).hi
  have hzb := hT.ends z hz
  obtain ⟨k, hbg, hk⟩ := hf.begins hs hzhi
  obtain ⟨x, hx, h1, h2, h3⟩ := hT.cover (i := i + k)
    (Nat.le_trans (hT.starts w hw) (by omega)) hz hbg.lt
  have hnt : ∀ t, x.inner ≠ .text t := fun t ht => C113_text_partial h hr hx hz ht h1 h2 hbg
  have hp := hT.piece x hx
  have hq := hT.quiets x hx
  refine ⟨x, hx, ?_⟩
  rcases Nat.lt_or_ge x.region.offset i with hlt | hge
  · exact .inr ⟨hlt, by omega, hnt⟩
  rcases Nat.lt_or_ge i x.region.offset with hgt | hle
  · exfalso
    rcases hk with rfl | ⟨j, sc, k1, k2, rfl, k4, k5, k6⟩
    · omega
    refine no_lead_in k4 k5 hgt h1 k1 k2 (hp.lead (C := Ctx.ofText env text) hs (sub_prefix (by omega) h3)) hnt ?_
    intro ts ets
    rcases hp.what with hpl | ⟨_, _, e, _⟩
    · rw [ets] at hpl
      rcases hpl.2.1 with h0 | ⟨v, hv, hws⟩
      · omega
      · refine k6 v (mem_sub.2 ⟨x.region.offset - 1, by omega, by omega, hv⟩) ?_
        unfold WsByte
        unfold isAsciiWs at hws
        simp only [Bool.or_eq_true, beq_iff_eq, decide_eq_true_eq] at hws
        omega
    · rw [ets] at e; cases e
  have ei : x.region.offset = i := by omega
  refine .inl ⟨ei, ?_⟩
  have hhi : x.region.offset + x.region.len ≤ text.length := hp.hi
  have hpre : sub text x.region.offset (x.region.offset + x.region.len) <+:
      sub text i (z.region.offset + z.region.len) := by
    rw [← ei, ← sub_append text x.region.offset _ _ (by omega) h3]
    exact List.prefix_append ..
  have hl := hp.lead (C := Ctx.ofText env text) hs hpre
  have hwhat := hp.what
  have key : ∀ {L R c c' : Str}, BracketOk (Ctx.ofText env text) x.region.offset (x.region.offset + x.region.len) L R c' →
      R ≠ [] → BodyHere L R c (sub text i (z.region.offset + z.region.len)) →
      c' = c ∧ x.region.len = c.length + (L.length + R.length) := by
    intro L R c c' hb hR hc
    rw [← ei] at hc
    obtain ⟨e1, e2⟩ := body_same hb h3 (by omega) hhi hR hc
    exact ⟨e1, by omega⟩
  generalize x.inner = y at *
  cases hf with
  | @code c hc =>
    have hh : (sub text i (z.region.offset + z.region.len)).head? = some c!"`" := by
      obtain ⟨q, e, -⟩ := hc; rw [e]; rfl
    cases y with
    | text t => exact (hnt t rfl).elim
    | code c' =>
      rcases hwhat with hb | ⟨_, _, e, _⟩
      · obtain ⟨e1, e2⟩ := key hb (by simp) hc
        exact ⟨by rw [e1], by simpa using e2⟩
      · cases e
    | keyword k => have := lead_keyword hl hh; omega
    | decorated k ys => rw [show _ = _ from hl] at hh; cases k <;> simp [Deco.delim] at hh
    | link l =>
      cases l with
      | raw d => have := lead_raw hl hh; simp [lowerByte] at this
      | _ => rw [show _ = _ from hl] at hh; simp at hh
    | _ => rw [show _ = _ from hl] at hh; simp at hh
  | @math c hc hd =>
    have hh : (sub text i (z.region.offset + z.region.len)).head? = some c!"$" := by
      obtain ⟨q, e, -⟩ := hc; rw [e]; rfl
    cases y with
    | text t => exact (hnt t rfl).elim
    | math c' =>
      rcases hwhat with hb | ⟨_, _, e, _⟩
      · obtain ⟨e1, e2⟩ := key hb.1 (by simp) hc
        exact ⟨by rw [e1], by simpa using e2⟩
      · cases e
    | keyword k => have := lead_keyword hl hh; omega
    | decorated k ys => rw [show _ = _ from hl] at hh; cases k <;> simp [Deco.delim] at hh
    | link l =>
      cases l with
      | raw d => have := lead_raw hl hh; simp [lowerByte] at this
      | _ => rw [show _ = _ from hl] at hh; simp at hh
    | _ => rw [show _ = _ from hl] at hh; simp at hh
  | comment hc =>
    have hh := head_of_lead (x := c!"%") hc rfl
    cases y with
    | text t => exact (hnt t rfl).elim
    | comment c => exact ⟨c, rfl⟩
    | keyword k => have := lead_keyword hl hh; omega
    | decorated k ys => rw [show _ = _ from hl] at hh; cases k <;> simp [Deco.delim] at hh
    | link l =>
      cases l with
      | raw d => have := lead_raw hl hh; simp [lowerByte] at this
      | _ => rw [show _ = _ from hl] at hh; simp at hh
    | _ => rw [show _ = _ from hl] at hh; simp at hh
  | @keyword k hk =>
    have hh : ∃ v, (sub text i (z.region.offset + z.region.len)).head? = some v ∧ 65 ≤ v ∧ v ≤ 90 := by
      obtain ⟨q, e⟩ := hk
      rw [← e]
      cases k <;> exact ⟨_, rfl, by decide, by decide⟩
    obtain ⟨v, hh, hv1, hv2⟩ := hh
    cases y with
    | text t => exact (hnt t rfl).elim
    | keyword k' =>
      have ek := keyword_of_prefix hl hk
      subst ek
      refine ⟨rfl, ?_⟩
      rcases hwhat with hb | ⟨_, _, e, _⟩
      · have := congrArg List.length (show sub text _ _ = _ from hb)
        rw [sub_length _ _ _ hhi] at this
        have e2 : k'.bytes = k'.display := by cases k' <;> rfl
        rw [← e2]
        omega
      · cases e
    | decorated k ys =>
      rw [show _ = _ from hl] at hh
      cases k <;> simp [Deco.delim] at hh <;> omega
    | link l =>
      cases l with
      | raw d => exact (lead_raw_keyword hl hk).elim
      | _ => rw [show _ = _ from hl] at hh; simp at hh; omega
    | _ => rw [show _ = _ from hl] at hh; simp at hh; omega
  | @wiki c hc ht =>
    have hh : (sub text i (z.region.offset + z.region.len)).head? = some c!"[" := by
      obtain ⟨q, e, -⟩ := hc; rw [e]; rfl
    cases y with
    | text t => exact (hnt t rfl).elim
    | keyword k => have := lead_keyword hl hh; omega
    | decorated k ys => rw [show _ = _ from hl] at hh; cases k <;> simp [Deco.delim] at hh
    | link l =>
      have hbr : l.Bracketed ∧ ∃ c', BracketOk (Ctx.ofText env text) x.region.offset
          (x.region.offset + x.region.len) b!"[[" b!"]]" c' := by
        rcases hwhat with hb | ⟨_, _, e, _⟩
        · cases l with
          | raw d => have := lead_raw hl hh; simp [lowerByte] at this
          | transclusion d => rw [show _ = _ from hl] at hh; simp at hh
          | wiki d => exact ⟨trivial, hb.1.imp fun _ h => h.1⟩
          | indexed n d => exact ⟨trivial, hb.1.imp fun _ h => h.1⟩
          | named n d => exact ⟨trivial, hb.1.imp fun _ h => h.1⟩
          | diary n d => exact ⟨trivial, hb.1.imp fun _ h => h.1⟩
        · cases e
      obtain ⟨hl1, c', hb⟩ := hbr
      exact ⟨⟨l, rfl, hl1⟩, by simpa using (key hb (by simp) hc).2⟩
    | _ => rw [show _ = _ from hl] at hh; simp at hh
  | @transclusion c hc ht =>
    have hh : (sub text i (z.region.offset + z.region.len)).head? = some c!"{" := by
      obtain ⟨q, e, -⟩ := hc; rw [e]; rfl
    cases y with
    | text t => exact (hnt t rfl).elim
    | keyword k => have := lead_keyword hl hh; omega
    | decorated k ys => rw [show _ = _ from hl] at hh; cases k <;> simp [Deco.delim] at hh
    | link l =>
      cases l with
      | raw d => have := lead_raw hl hh; simp [lowerByte] at this
      | transclusion d =>
        rcases hwhat with hb | ⟨_, _, e, _⟩
        · obtain ⟨⟨c', hb, -⟩, -⟩ := hb
          exact ⟨⟨d, rfl⟩, by simpa using (key hb (by simp) hc).2⟩
        · cases e
      | _ => rw [show _ = _ from hl] at hh; simp at hh
    | _ => rw [show _ = _ from hl] at hh; simp at hh
  | @deco k c hc hm =>
    have hne : k.delim ≠ [] := by cases k <;> simp [Deco.delim]
    have hh : (sub text i (z.region.offset + z.region.len)).head? = k.delim.head? := by
      obtain ⟨q, e, -⟩ := hc; rw [e]; cases k <;> rfl
    cases y with
    | text t => exact (hnt t rfl).elim
    | keyword k' =>
      have := lead_keyword hl (hh.trans (show k.delim.head? = some (k.delim.head hne) by cases k <;> rfl))
      cases k <;> simp [Deco.delim] at this
    | decorated k' ys =>
      have ek : k = k' := by
        rw [show _ = _ from hl] at hh
        cases k <;> cases k' <;> first | rfl | simp [Deco.delim] at hh
      subst ek
      rcases hwhat with hb | ⟨_, _, e, _, c', hb⟩
      · exact hb.elim
      · cases e
        refine ⟨⟨ys, rfl⟩, ?_⟩
        have := (key hb hne hc).2
        omega
    | link l =>
      cases l with
      | raw d =>
        have := lead_raw hl (hh.trans (show k.delim.head? = some (k.delim.head hne) by cases k <;> rfl))
        cases k <;> simp [Deco.delim, lowerByte] at this
      | _ => rw [show _ = _ from hl] at hh; cases k <;> simp [Deco.delim] at hh
    | _ => rw [show _ = _ from hl] at hh; cases k <;> simp [Deco.delim] at hh
  | @tags j ts hj e1 hts ht hw hr =>
    have hij : i ≤ j := by
      rcases Nat.lt_or_ge j i with h' | h'
      · rw [show sub text i j = [] by simp [sub]; omega] at e1; simp at e1
      · exact h'
    have hh : (sub text i (z.region.offset + z.region.len)).head? = some c!":" := by
      rw [← sub_append text i j _ hij hj, e1]
      rfl
    cases y with
    | text t => exact (hnt t rfl).elim
    | tags ts' =>
      obtain ⟨e, d', s', r, q1, q2, q3, q4⟩ := hq
      replace q2 : e ≤ text.length := q2
      rw [ei] at q3
      have hv : View ⟨text, i, e, d'⟩ (b!":" ++ ts.flatMap (· ++ b!":") ++ sub text j e) := by
        rw [← e1, sub_append _ _ _ _ hij (by omega)]
        exact sub_take_view (by omega) q2
      have hrun := tags_run hv (show lastWord (List.take i text) = [] from lastWord_take (by omega) hw) hts ht (by
        intro v hv
        refine hr v ?_
        rw [List.head?_eq_getElem?, sub_getElem?, Nat.add_zero] at hv
        split at hv
        · exact hv
        · cases hv)
      rw [show tags ⟨text, i, e, d'⟩ = _ from q3] at hrun
      rw [← e1, sub_length _ _ _ (by omega)] at hrun
      cases hrun
      refine ⟨rfl, ?_⟩
      simp only [adv_start] at q4
      omega
    | keyword k => have := lead_keyword hl hh; omega
    | decorated k ys => rw [show _ = _ from hl] at hh; cases k <;> simp [Deco.delim] at hh
    | link l =>
      cases l with
      | raw d => have := lead_raw hl hh; simp [lowerByte] at this
      | _ => rw [show _ = _ from hl] at hh; simp at hh
    | _ => rw [show _ = _ from hl] at hh; simp at hh
  | @raw j u sc hj hjb hw hno hend hu hsc hm =>
    have hsp : (sc ++ b!":") <+: (sub text i (z.region.offset + z.region.len)).map lowerByte :=
      (hs _ _ _ hu hsc hm).trans ((sub_prefix (by omega) hjb).map lowerByte)
    have hraw : ∃ d, y = .link (.raw d) := by
      apply Classical.byContradiction
      intro hno
      by_cases hg : ∃ ts, y = .tags ts
      · obtain ⟨ts, rfl⟩ := hg
        obtain ⟨v, hv⟩ : ∃ v, sub text i (z.region.offset + z.region.len) = c!":" :: v := by
          cases hu : sub text i (z.region.offset + z.region.len) with
          | nil => rw [show _ = _ from hu] at hl; cases hl
          | cons v w => rw [show _ = _ from hu] at hl; cases hl; exact ⟨w, rfl⟩
        rw [hv] at hsp
        obtain ⟨q, e⟩ := hsp
        simp only [linkSchemes, List.mem_cons, List.not_mem_nil, or_false] at hm
        rcases hm with rfl | rfl | rfl | rfl | rfl | rfl <;> simp [lowerByte] at e
      · obtain ⟨l, hl1, hl2, hl3⟩ := hl.leads hnt (fun ts e => hg ⟨ts, e⟩)
        obtain ⟨f1, f2⟩ := leads_near sc hm l (hl3 fun d e => hno ⟨d, e⟩)
        exact prefix_either hl2 hsp f1 f2
    obtain ⟨d0, rfl⟩ := hraw
    obtain ⟨e, d', s', r, q1, q2, q3, q4⟩ := hq
    rw [ei] at q3
    have hrun := uriRef_at (env := env) (text := text) (d := d') (e := e) hj (by omega) q2 hno hend hu
    unfold rawLink at q3
    obtain ⟨u', hm1, hm2⟩ := map_inv (located_inv q3).1
    have hm3 := (verify_inv hm1).1
    rw [show uriRef env ⟨text, i, e, d'⟩ = _ from hm3, sub_length _ _ _ (by omega)] at hrun
    cases hrun
    refine ⟨hm2, ?_⟩
    rw [adv_start] at q4
    simp only at q4
    omega

set_option maxRecDepth 20000 in
/-- A line with code, a keyword and bold text around a link: the elements are at 4, 8 and 13, and the link
is inside of the bold text. -/
example : ∃ s pg, parsePage demo b!"see `x` TODO *[[f]]* g\n" = .ok s pg ∧
    ((pg.blocks.flatMap fun y => y.inner.rows).map fun xs => xs.map fun x => (x.region.offset, x.region.len)) =
      [[(0, 4), (4, 3), (7, 1), (8, 4), (12, 1), (13, 7), (20, 2)]] :=
  page_test (text := b!"see `x` TODO *[[f]]* g\n")
    (fun pg => ((pg.blocks.flatMap fun y => y.inner.rows).map fun xs => xs.map fun x => (x.region.offset, x.region.len)) =
      [[(0, 4), (4, 3), (7, 1), (8, 4), (12, 1), (13, 7), (20, 2)]]) (by decide +kernel)

/-- They are written there. -/
example : (∃ f, WrittenAt demo b!"see `x` TODO *[[f]]* g\n" 4 22 f ∧ f (.code b!"x") 3) ∧
    (∃ f, WrittenAt demo b!"see `x` TODO *[[f]]* g\n" 8 22 f ∧ f (.keyword .todo) 4) ∧
    (∃ f, WrittenAt demo b!"see `x` TODO *[[f]]* g\n" 13 22 f ∧ f (.decorated .bold []) 7) ∧
    (∃ f, WrittenAt demo b!"see `x` TODO *[[f]]* g\n" 14 22 f) := by
  refine ⟨⟨_, .code (c := b!"x") ⟨b!" TODO *[[f]]* g", by decide, by simp, by decide, by decide, ?_⟩, rfl, rfl⟩,
    ⟨_, .keyword (k := .todo) (by decide), rfl, rfl⟩,
    ⟨_, .deco (k := .bold) (c := b!"[[f]]") ⟨b!" g", by decide, by simp, by decide, by decide, ?_⟩ ?_, ⟨_, rfl⟩, rfl⟩,
    ⟨_, .wiki (c := b!"f") ⟨b!"* g", by decide, by simp, by decide, by decide, ?_⟩
      ⟨b!"f", [], by decide, .inl rfl, by simp, by decide, by decide, by decide, by decide⟩⟩⟩
  · intro c' _ hne _
    exact List.length_pos_iff.2 hne
  · intro c' r' hne e
    match c', hne, e with
    | [a], _, e => simp [Deco.delim] at e
    | [a, b], _, e => simp [Deco.delim] at e
    | [a, b, c], _, e => simp [Deco.delim] at e
    | [a, b, c, d], _, e => simp [Deco.delim] at e
    | a :: b :: c :: d :: f :: g, _, _ => simp
  · rintro (⟨c, r, _, e⟩ | ⟨c, r, _, e⟩) <;> simp at e
  · intro c' _ hne _
    exact List.length_pos_iff.2 hne

/-- So are an address and tags. -/
example : (∃ f, WrittenAt demo b!"at http://y :a:b:\n" 3 17 f ∧
      f (.link (.raw ⟨⟨some b!"http", none, false, [b!"//y"], none, none⟩, none, none⟩)) 8) ∧
    (∃ f, WrittenAt demo b!"at http://y :a:b:\n" 12 17 f ∧ f (.tags [b!"a", b!"b"]) 5) := by
  refine ⟨⟨_, .raw (j := 11) (u := ⟨some b!"http", none, false, [b!"//y"], none, none⟩) (sc := b!"http")
      (by decide) (by decide) ?_ (by decide) ?_ (by decide) rfl (by decide), rfl, rfl⟩,
    ⟨_, .tags (j := 17) (ts := [b!"a", b!"b"]) (by decide) (by decide) (by simp) (by decide) ?_ ?_, rfl, rfl⟩⟩
  · intro x _ hx
    simp at hx
    subst hx
    decide
  · intro x hx
    simp at hx
    exact .inl hx.symm
  · intro x _ hx
    simp at hx
    subst hx
    decide
  · intro x hx
    simp at hx
    subst hx
    decide

set_option maxRecDepth 20000 in
/-- The row has them. -/
example : ∃ s pg, parsePage demo b!"at http://y :a:b:\n" = .ok s pg ∧
    ((pg.blocks.flatMap fun y => y.inner.rows).map fun xs => xs.map fun x => (x.region.offset, x.region.len)) =
      [[(0, 3), (3, 8), (11, 1), (12, 5)]] :=
  page_test (text := b!"at http://y :a:b:\n")
    (fun pg => ((pg.blocks.flatMap fun y => y.inner.rows).map fun xs => xs.map fun x => (x.region.offset, x.region.len)) =
      [[(0, 3), (3, 8), (11, 1), (12, 5)]]) (by decide +kernel)

set_option maxRecDepth 20000 in
/-- Bold text around code is written at the beginning of this line, but the row begins with a text. -/
theorem C114_violated : ∃ (text : Str) (s : Span) (pg : Page) (xs : Inlines) (z : Located Inline) (c : Str),
    parsePage demo text = .ok s pg ∧ pg.Row xs ∧ z ∈ xs ∧
      BodyHere b!"*" b!"*" c (sub text 0 (z.region.offset + z.region.len)) ∧
      ∀ x ∈ xs, ∀ ys, x.inner ≠ .decorated .bold ys := by
  obtain ⟨s, pg, h, h2⟩ := page_test (text := b!"*`a`*") (fun pg =>
    (pg.blocks.flatMap fun y => y.inner.rows).map
      (fun xs => xs.map fun x => (x.region.offset, x.region.len, match x.inner with
        | .text _ => 0
        | .code _ => 1
        | _ => 2)) =
      [[(0, 1, 0), (1, 3, 1), (4, 1, 0)]]) (by decide +kernel)
  cases hl : pg.blocks.flatMap fun y => y.inner.rows with
  | nil => rw [hl] at h2; cases h2
  | cons xs l =>
    have hm : xs ∈ pg.blocks.flatMap fun y => y.inner.rows := by rw [hl]; simp
    rw [hl] at h2
    simp only [List.map_cons, List.cons.injEq] at h2
    have h3 := h2.1
    have hlen : xs.length = 3 := by simpa using congrArg List.length h3
    obtain ⟨x, y, z, rfl⟩ : ∃ x y z, xs = [x, y, z] := by
      match xs, hlen with
      | [x, y, z], _ => exact ⟨x, y, z, rfl⟩
    · simp only [List.map_cons, List.map_nil, List.cons.injEq, Prod.mk.injEq, and_true] at h3
      obtain ⟨⟨x1, -, x3⟩, ⟨-, -, y3⟩, z1, z2, z3⟩ := h3
      refine ⟨_, s, pg, _, z, b!"`a`", h, .inl (List.mem_flatMap.1 hm), by simp, ⟨[], ?_, by simp, by simp,
        by decide, ?_⟩, ?_⟩
      · rw [z1, z2]; decide
      · intro c' r' hne e
        match c', hne, e with
        | [a], _, e => simp at e
        | [a, b], _, e => simp at e
        | a :: b :: c :: d, _, _ => simp
      · intro v hv ys e
        simp only [List.mem_cons, List.not_mem_nil, or_false] at hv
        rcases hv with rfl | rfl | rfl
        · rw [e] at x3; cases x3
        · rw [e] at y3; cases y3
        · rw [e] at z3; cases z3

end Vw
