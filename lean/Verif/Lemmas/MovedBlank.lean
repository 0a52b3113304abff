import Verif.Lemmas.MovedPage
import Verif.Lemmas.ReadPage
import Verif.Lemmas.DefsRun
import Verif.Lemmas.Placeholder
import Verif.Spec.Pieces

/-!
# Blank lines before a text
-/

namespace Vw
open P Scan

variable {α : Type} {env : Env} {s : Span}

/-- A blank line is read with its terminator. -/
theorem blankLine_reads {bs eol r : Str} (hb : AtBol s) (hv : View s (bs ++ eol ++ r)) (hw : AllBlank bs)
    (he : eol = b!"\n" ∨ eol = b!"\r\n") : ∃ o, blankLine s = .ok (adv s (bs ++ eol).length) o := by
  have hsp : ∀ x ∈ bs, isSpace x = true := fun x hx => by rcases hw x hx with e | e <;> rw [e] <;> rfl
  have hr : ∀ x, (eol ++ r).head? = some x → isSpace x = false := by
    rcases he with e | e <;> subst e <;> intro x hx <;> cases hx <;> rfl
  rw [List.append_assoc] at hv
  have hv2 := View.adv hv
  unfold blankLine preceded alt
  rw [bind_ok (bol_run hb)]
  by_cases h0 : bs = []
  · subst h0
    have h1 : terminated space1 endOfLineOrInput s = .err := bind_er (space1_er hv hr)
    rw [h1]
    simp only
    unfold terminated
    rw [bind_ok (space0_run hv hsp hr)]
    simp only [List.length_nil, adv_zero, List.nil_append] at hv2 ⊢
    rcases he with e | e <;> subst e
    · rw [bind_ok (lineEnding_run_n hv2)]; exact ⟨_, rfl⟩
    · rw [bind_ok (lineEnding_run_rn hv2)]; exact ⟨_, rfl⟩
  · obtain ⟨n, h2, _, _, _, hn⟩ := eol_run hv2 (by
      rcases he with e | e <;> subst e
      · exact .inr (.inl ⟨r, rfl⟩)
      · exact .inr (.inr ⟨r, rfl⟩))
    have h1 : terminated space1 endOfLineOrInput s = .ok (adv s (bs ++ eol).length) (cut s bs.length) := by
      unfold terminated
      rw [bind_ok (space1_run hv h0 hsp hr), bind_ok h2, hn]
      rcases he with e | e <;> subst e <;> simp [lineLen, P.pure]
    rw [h1]
    exact ⟨_, rfl⟩

/-- Rounds that yield nothing are put in front of the others. -/
def Res.skipped (j : Nat) : Res (List (Option α)) → Res (List (Option α))
  | .ok s xs => .ok s (List.replicate j none ++ xs)
  | r => r

theorem blank_rounds {a : Str} (ha : BlankLines a) : ∀ {s : Span} {u : Str}, AtBol s → View s (a ++ u) →
    ∃ j, j ≤ a.length ∧ AtBol (adv s a.length) ∧
      ∀ n, many0Loop (maybeBlock env) (n + j) s = (many0Loop (maybeBlock env) n (adv s a.length)).skipped j := by
  induction ha with
  | nil =>
    intro s u hb _
    refine ⟨0, Nat.le_refl _, hb, fun n => ?_⟩
    simp only [Nat.add_zero, List.length_nil, adv_zero]
    cases many0Loop (maybeBlock env) n s <;> rfl
  | @cons bs eol rest hw he _ ih =>
    intro s u hb hv
    have hv1 : View s ((bs ++ eol) ++ (rest ++ u)) := by simpa using hv
    obtain ⟨o, ho⟩ := blankLine_reads (r := rest ++ u) hb hv1 hw he
    have hb1 : AtBol (adv s (bs ++ eol).length) := AtBol.after hv1 (by
      rcases he with e | e <;> subst e <;> simp)
    obtain ⟨j, hj, hb2, hl⟩ := ih hb1 (View.adv hv1)
    have hlen : 0 < (bs ++ eol).length := by
      rcases he with e | e <;> subst e <;> simp
    have e1 : adv (adv s (bs ++ eol).length) rest.length = adv s (bs ++ eol ++ rest).length := by
      rw [adv_adv, ← List.length_append]
    refine ⟨j + 1, by rw [List.length_append]; omega, by rw [← e1]; exact hb2, fun n => ?_⟩
    rw [← e1, ← Nat.add_assoc]
    conv => lhs; unfold many0Loop
    have hm : maybeBlock env s = .ok (adv s (bs ++ eol).length) none := by
      unfold maybeBlock alt P.value P.map
      rw [ho]
    rw [hm]
    simp only
    rw [if_neg, hl n]
    · cases many0Loop (maybeBlock env) n (adv (adv s (bs ++ eol).length) rest.length) with
      | ok s' xs => simp [Res.skipped, List.replicate_succ]
      | err => rfl
      | panic => rfl
      | diverge => rfl
    · intro e
      have := congrArg Span.start e
      have e2 : (adv s (bs ++ eol).length).start = s.start + (bs ++ eol).length := rfl
      omega

/-- What parsing a page is, from the rounds. -/
theorem parsePage_eq (env : Env) (text : Str) : parsePage env text =
    match many0Loop (maybeBlock env) (text.length + 1) (Span.ofStr text) with
    | .ok s es => if s.remainingLen = 0 then .ok s ⟨es.filterMap id⟩ else .err
    | .err => .err
    | .panic r => .panic r
    | .diverge => .diverge := by
  have hl : (Span.ofStr text).remainingLen = text.length := by rw [remainingLen_eq]; simp [Span.ofStr]
  unfold parsePage page P.map allConsuming many0
  rw [hl]
  cases many0Loop (maybeBlock env) (text.length + 1) (Span.ofStr text) with
  | ok s es =>
    by_cases h : s.remainingLen = 0 <;> simp [h]
  | err => rfl
  | panic => rfl
  | diverge => rfl

theorem rounds_end (env : Env) (text : Str) :
    many0Loop (maybeBlock env) (text.length + 1) (Span.ofStr text) ≠ .diverge := by
  intro h
  have h1 := parsePage_eq env text
  rw [h] at h1
  have h2 := parsePage_ok env text
  rw [h1] at h2
  exact h2

/-- Outcomes that differ by `k` bytes. -/
inductive Res.MovedBy (k : Nat) : Res Page → Res Page → Prop
  | ok {s t : Span} {pg : Page} : MovedBy k (.ok s pg) (.ok t (pg.moved k))
  | err : MovedBy k .err .err
  | panic {r : Reason} : MovedBy k (.panic r) (.panic r)
  | diverge : MovedBy k .diverge .diverge

/-- Blank lines before a text move it. -/
theorem parsePage_blank {a u : Str} (ha : BlankLines a) (hu : u ≠ []) :
    (parsePage env u).MovedBy a.length (parsePage env (a ++ u)) := by
  have hv : View (Span.ofStr (a ++ u)) (a ++ u) := View.ofStr _
  obtain ⟨j, hj, hb, hl⟩ := blank_rounds (env := env) ha (AtBol.ofStr _) hv
  have hlast : a = [] ∨ a.getLast? = some 10 := by
    rcases hb with h | h
    · refine .inl (List.length_eq_zero_iff.1 ?_)
      have e2 : (adv (Span.ofStr (a ++ u)) a.length).start = 0 + a.length := rfl
      omega
    · refine .inr ?_
      rw [← h]
      simp [adv, Span.ofStr, Span.asConsumed]
  let M : Mv := ⟨a, u, hlast, hu⟩
  have hs : adv (Span.ofStr (a ++ u)) a.length = ⟨M.pre ++ M.text, M.k, (M.pre ++ M.text).length, 0⟩ := by
    simp [adv, Span.ofStr, M, Mv.k]
  have h2 := Mv.Par.many0Loop (Mv.Par.maybeBlock (M := M) (env := env)) (u.length + 1 + (a.length - j)) _ _ M.rel_start
  rw [← hs] at h2
  have h3 := hl (u.length + 1 + (a.length - j))
  have e : u.length + 1 + (a.length - j) + j = (a ++ u).length + 1 := by rw [List.length_append]; omega
  rw [e] at h3
  have h4 := many0Loop_more (u.length + 1) _ (rounds_end env u) (u.length + 1 + (a.length - j)) (by omega)
  rw [parsePage_eq env u, parsePage_eq env (a ++ u), h3, ← h4]
  generalize hx : many0Loop (maybeBlock env) (u.length + 1 + (a.length - j)) (Span.ofStr u) = x
  generalize hy : many0Loop (maybeBlock env) (u.length + 1 + (a.length - j)) (adv (Span.ofStr (a ++ u)) a.length) = y
  replace h2 : M.Two (Mv.All (Mv.Opt (M.Loc M.Blk))) x y := by rw [← hx, ← hy]; exact h2
  cases h2 with
  | @ok s' t' es es' hr hall =>
    simp only [Res.skipped]
    have hk := hr.len
    rw [hk]
    split
    · have hel := hall.elements
      have : (List.replicate j none ++ es').filterMap id = Block.allMoved a.length (es.filterMap id) := by
        rw [List.filterMap_append, hel]
        have : (List.replicate j (none : Option (Located Block))).filterMap id = [] := by
          rw [List.filterMap_eq_nil_iff]
          intro z hz
          rw [List.eq_of_mem_replicate hz]
          rfl
        rw [this]
        rfl
      rw [this]
      exact .ok (pg := ⟨es.filterMap id⟩)
    · exact .err
  | err => exact .err
  | panic => exact .panic
  | diverge => exact .diverge

end Vw
