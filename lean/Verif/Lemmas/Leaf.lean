import Verif.Lemmas.Placeholder
import Verif.Lemmas.RunPage

/-!
# Forward runs of the blocks without inline content
-/

namespace Vw

open P Scan

variable {C : Ctx} {s s' : Span} {t w r : Str} {k : Nat}

/-! ## The first line -/

/-- The first line of a text. -/
def lineOf (t : Str) : Str := t.takeWhile (· != 10)

theorem lineOf_append (h : 10 ∉ w) : lineOf (w ++ 10 :: r) = w := by
  unfold lineOf
  rw [List.takeWhile_append_of_pos]
  · simp
  · intro x hx
    have : x ≠ 10 := fun e => h (e ▸ hx)
    simpa using this

theorem infix_lineOf {u : Str} (h : t = w ++ u ++ r) (hw : 10 ∉ w) (hu : 10 ∉ u) : u <:+: lineOf t := by
  subst h
  refine ⟨w, lineOf r, ?_⟩
  unfold lineOf
  rw [List.takeWhile_append_of_pos]
  intro x hx
  have : x ≠ 10 := by
    rintro rfl
    rcases List.mem_append.1 hx with h | h
    · exact hw h
    · exact hu h
  simpa using this

/-- Blocks that begin with `{`, `%` or `-` and have no `::` in their first line. -/
theorem topLevel_leaf {x : Located Block} (hi : C.In 2 s) (hv : View s t)
    (hc : t.head? = some c!"{" ∨ t.head? = some c!"%" ∨ t.head? = some c!"-")
    (h2 : ¬ b!"- " <+: t) (hl : ¬ b!"::" <:+: lineOf t) (h : topLevel C.env s = .ok s' x) :
    codeBlock s = .ok s' x ∨ (codeBlock s = .err ∧
    (mathBlock s = .ok s' x ∨ (mathBlock s = .err ∧
    (divider s = .ok s' x ∨ (divider s = .err ∧
    (placeholder C.env s = .ok s' x ∨ (placeholder C.env s = .err ∧
      paragraph C.env s = .ok s' x))))))) := by
  obtain ⟨c, hhead, hcc⟩ : ∃ c : Byte, t.head? = some c ∧ (c = c!"{" ∨ c = c!"%" ∨ c = c!"-") := by
    rcases hc with h | h | h
    · exact ⟨_, h, .inl rfl⟩
    · exact ⟨_, h, .inr (.inl rfl)⟩
    · exact ⟨_, h, .inr (.inr rfl)⟩
  have hb : ¬ (c = 32 ∨ c = 9) := by omega
  have no : ∀ p : Str, p ≠ [] → (∀ y, p.head? = some y → y ≠ c) → ¬ Begins t p :=
    fun p h1 h2 hp => h2 c (hp.head hhead hb h1) rfl
  rcases topLevel_inv h with hk | ⟨-, hk | ⟨-, hk | ⟨-, hk | ⟨-, hk | ⟨h5, hk | ⟨h6, hk | ⟨-, hk⟩⟩⟩⟩⟩⟩⟩
  · obtain ⟨_, _, _, _, hf, -⟩ := header_inv (k := 1) hi hv hk
    exact absurd hf.begins (no _ (by decide) (by intro y hy; simp at hy; omega))
  · exfalso
    obtain ⟨w, q, he, hw⟩ := defs_begins hv hk
    exact hl (infix_lineOf (he.trans (List.append_assoc _ _ _).symm) hw (by decide))
  · exfalso
    rcases list_begins (k := 1) hi hv hk with hb | hb | hb | ⟨d, hd, hb⟩
    · obtain ⟨ws, q, he, hws⟩ := hb
      cases ws with
      | nil => exact h2 ⟨q, he.symm⟩
      | cons y ws =>
        rw [he] at hhead
        cases hhead
        exact absurd (hws _ (List.mem_cons_self)) ‹_›
    · exact no _ (by decide) (by intro y hy; simp at hy; omega) hb
    · exact no _ (by decide) (by intro y hy; simp at hy; omega) hb
    · refine no _ (by simp) ?_ hb
      intro y hy
      simp at hy
      subst hy
      rintro rfl
      rcases hcc with rfl | rfl | rfl <;> simp [isDigit, isLower, isUpper] at hd
  · exact absurd (table_begins hv hk) (no _ (by decide) (by intro y hy; simp at hy; omega))
  · exact .inl hk
  · exact .inr ⟨h5, .inl hk⟩
  · exfalso
    rcases quote_begins hv hk with hb | ⟨w, q, he, hw, hl⟩
    · exact no _ (by decide) (by intro y hy; simp at hy; omega) hb
    · cases w with
      | nil => simp at hl
      | cons y w =>
        rw [he] at hhead
        cases hhead
        exact absurd (hw _ (List.mem_cons_self)) hb
  · exact .inr ⟨h5, .inr ⟨h6, hk⟩⟩

/-! ## Blank lines -/

theorem blankLine_run (hb : AtBol s) (hv : View s (10 :: r)) : ∃ o, blankLine s = .ok (adv s 1) o := by
  unfold blankLine
  unfold preceded
  rw [bind_ok (bol_run hb)]
  have h1 : space1 s = .err := by
    unfold space1 takeWhile1
    rw [hv.rem, List.takeWhile_cons_of_neg (by simp [isSpace])]
    rfl
  have h0 := space0_run (w := []) hv (by simp) (by simp [isSpace])
  refine ⟨cut s 0, ?_⟩
  unfold alt
  rw [show terminated space1 endOfLineOrInput s = .err from bind_er h1]
  simp only
  unfold terminated
  rw [bind_ok h0]
  simp only [List.length_nil, adv_zero]
  rw [bind_ok (lineEnding_run_n hv)]
  rfl

theorem blankLine_run_err {c : Byte} (hv : View s (c :: r)) (hc : c ≠ 32 ∧ c ≠ 9 ∧ c ≠ 10 ∧ c ≠ 13) :
    blankLine s = .err := by
  have hs : isSpace c = false := isSpace_false.2 (by omega)
  have h1 : space1 s = .err := by
    unfold space1 takeWhile1
    rw [hv.rem, List.takeWhile_cons_of_neg (by simp [hs])]
    rfl
  have h0 := space0_run (w := []) hv (by simp) (by simpa using hs)
  unfold blankLine preceded
  cases hb : beginningOfLine s with
  | ok s1 x =>
    rw [bind_ok hb]
    have : s1 = s := by
      unfold beginningOfLine at hb
      split at hb
      · exact (Res.ok.inj hb).1.symm
      · cases hb
    subst this
    unfold alt
    rw [show terminated space1 endOfLineOrInput s1 = .err from bind_er h1]
    simp only
    unfold terminated
    rw [bind_ok h0]
    simp only [List.length_nil, adv_zero]
    have : lineEnding s1 = .err := by
      unfold lineEnding alt
      rw [tag_run_err (w := b!"\n") hv, tag_run_err (w := b!"\r\n") hv]
      · rintro ⟨t, e⟩; cases e; omega
      · rintro ⟨t, e⟩; cases e; omega
    rw [bind_er this]
  | err => rw [bind_er hb]
  | panic p => unfold beginningOfLine at hb; split at hb <;> cases hb
  | diverge => unfold beginningOfLine at hb; split at hb <;> cases hb

end Vw
