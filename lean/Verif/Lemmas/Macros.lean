import Verif.Model.Macros
import Verif.Spec.Macros
import Verif.Lemmas.Uri
import Verif.Lemmas.Utf8
import Verif.Lemmas.Elements
import Verif.Lemmas.Run

/-!
# The text given to a macro
-/

namespace Vw

/-! ## Lines -/

theorem strLines_cons {b : Byte} {r : Str} (h10 : b ≠ 10) (h13 : b = 13 → r.head? ≠ some 10) :
    strLines (b :: r) = match strLines r with | [] => [[b]] | l :: ls => (b :: l) :: ls := by
  rw [strLines.eq_def]
  split
  · next h => simp at h
  · next h => simp at h; exact absurd h.1 h10
  · next h => simp at h; exact absurd (by rw [h.2]; rfl) (h13 h.1)
  · next h => simp at h; obtain ⟨rfl, rfl⟩ := h; rfl

theorem strLines_line {l : Str} (h : 10 ∉ l) (hne : l ≠ []) : strLines l = [l] := by
  induction l with
  | nil => exact absurd rfl hne
  | cons b l ih =>
    simp only [List.mem_cons, not_or] at h
    rw [strLines_cons (fun e => h.1 e.symm) (by
      intro _ hh
      cases l with
      | nil => simp at hh
      | cons a l => simp at hh; subst hh; simp at h)]
    cases l with
    | nil => rfl
    | cons a l => rw [ih h.2 (by simp)]

theorem strLines_lf {l s : Str} (h : 10 ∉ l) (h13 : ¬ [13] <:+ l) :
    strLines (l ++ 10 :: s) = l :: strLines s := by
  induction l with
  | nil => rfl
  | cons b l ih =>
    simp only [List.mem_cons, not_or] at h
    rw [List.cons_append, strLines_cons (fun e => h.1 e.symm) (by
      intro e hh
      cases l with
      | nil => subst e; exact h13 (List.suffix_refl _)
      | cons a l => simp at hh; subst hh; simp at h)]
    rw [ih h.2 (fun hs => h13 (hs.trans (List.suffix_cons _ _)))]

theorem strLines_crlf {l s : Str} (h : 10 ∉ l) : strLines (l ++ 13 :: 10 :: s) = l :: strLines s := by
  induction l with
  | nil => rfl
  | cons b l ih =>
    simp only [List.mem_cons, not_or] at h
    rw [List.cons_append, strLines_cons (fun e => h.1 e.symm) (by
      intro e hh
      cases l with
      | nil => simp at hh
      | cons a l => simp at hh; subst hh; simp at h)]
    rw [ih h.2]

theorem strLines_of {s : Str} {ls : List Str} (h : TextLines s ls) : strLines s = ls := by
  induction h with
  | nil => rfl
  | last h1 h2 => exact strLines_line h2 h1
  | lf h1 h2 _ ih => rw [strLines_lf h1 h2, ih]
  | crlf h1 _ ih => rw [strLines_crlf h1, ih]

theorem textLines_exists (s : Str) : ∃ ls, TextLines s ls := by
  by_cases h : 10 ∈ s
  · obtain ⟨w, r, rfl, hw⟩ := List.eq_append_cons_of_mem h
    obtain ⟨ls, hls⟩ := textLines_exists r
    by_cases h13 : [13] <:+ w
    · obtain ⟨w', rfl⟩ := h13
      refine ⟨w' :: ls, ?_⟩
      rw [List.append_assoc]
      exact .crlf (fun h => hw (by simp [h])) hls
    · exact ⟨w :: ls, .lf hw h13 hls⟩
  · cases s with
    | nil => exact ⟨[], .nil⟩
    | cons b s => exact ⟨[b :: s], .last (by simp) h⟩
termination_by s.length
decreasing_by subst_vars; simp; omega

theorem textLines_iff {s : Str} {ls : List Str} : TextLines s ls ↔ strLines s = ls := by
  refine ⟨strLines_of, fun h => ?_⟩
  obtain ⟨ls', h'⟩ := textLines_exists s
  rw [← h, strLines_of h']; exact h'

theorem textLines_nil {s : Str} (h : TextLines s []) : s = [] := by cases h; rfl

theorem textLines_utf8 {s : Str} {ls : List Str} (h : TextLines s ls) : ValidUtf8 s → ∀ l ∈ ls, ValidUtf8 l := by
  have cut : ∀ (l : Str) (b : Byte) (r : Str), b < 128 → ValidUtf8 (l ++ b :: r) → ValidUtf8 l ∧ ValidUtf8 (b :: r) := by
    intro l b r hb hv
    have hbd : Bdry (l ++ b :: r) l.length := by
      intro c hc
      simp at hc; subst hc
      intro h; have := h.1; omega
    have h1 := hv.take hbd
    have h2 := hv.drop hbd
    simp at h1 h2
    exact ⟨h1, h2⟩
  have tl : ∀ (b : Byte) (r : Str), b < 128 → ValidUtf8 (b :: r) → ValidUtf8 r := by
    intro b r hb hv
    cases hv with
    | one _ h => exact h
    | two h => omega
    | three h => omega
    | four h => omega
  induction h with
  | nil => intro _ l hl; simp at hl
  | last h1 h2 => intro hv l hl; simp at hl; subst hl; exact hv
  | lf h1 h2 _ ih =>
    intro hv l hl
    obtain ⟨ha, hb⟩ := cut _ _ _ (by omega) hv
    rcases List.mem_cons.1 hl with rfl | hl
    · exact ha
    · exact ih (tl _ _ (by omega) hb) l hl
  | crlf h1 _ ih =>
    intro hv l hl
    obtain ⟨ha, hb⟩ := cut _ _ _ (by omega) hv
    rcases List.mem_cons.1 hl with rfl | hl
    · exact ha
    · exact ih (tl _ _ (by omega) (tl _ _ (by omega) hb)) l hl

theorem validUtf8_drop_ascii {w r : Str} (h : ∀ b ∈ w, b < 128) (hv : ValidUtf8 (w ++ r)) : ValidUtf8 r := by
  induction w with
  | nil => exact hv
  | cons a w ih =>
    have ha := h a (by simp)
    rw [List.cons_append] at hv
    generalize hx : w ++ r = x at hv
    cases hv with
    | one _ hv => exact ih (fun b hb => h b (by simp [hb])) (by rw [hx]; exact hv)
    | two h => omega
    | three h => omega
    | four h => omega

/-! ## Literals -/

theorem trim_printable {a z : Byte} {m : Str} (ha : 32 < a ∧ a < 128) (hz : 32 < z ∧ z < 128) :
    trim (a :: m ++ [z]) = a :: m ++ [z] := by
  unfold trim trimStart
  have h := leadingWs_run .nil (wsCharLen_printable (r := m ++ [z]) ha)
  simp only [List.nil_append, List.length_nil] at h
  rw [List.cons_append, h, List.drop_zero, ← List.cons_append]
  exact trimEnd_run hz .nil

theorem betweenQuotes_run {p c q : Str} (hp : c!"\"" ∉ p) (hq : c!"\"" ∉ q) :
    betweenQuotes (p ++ c!"\"" :: c ++ c!"\"" :: q) = .ok c := by
  unfold betweenQuotes
  have hp' : ∀ x ∈ p, (x == c!"\"") = false := by
    intro x hx; simp; rintro rfl; exact hp hx
  have hq' : ∀ x ∈ q, (x == c!"\"") = false := by
    intro x hx; simp; rintro rfl; exact hq hx
  have h1 : memchr (· == c!"\"") (p ++ c!"\"" :: c ++ c!"\"" :: q) = some p.length := by
    rw [List.append_assoc, List.cons_append]
    exact memchr_run hp' (by simp)
  have h2 : memrchr (· == c!"\"") (p ++ c!"\"" :: c ++ c!"\"" :: q) = some (p ++ c!"\"" :: c).length := by
    have := memrchr_some (p := (· == c!"\"")) (q := p ++ c!"\"" :: c) (c := c!"\"") hq' (by simp)
    rw [← this]; simp
  rw [h1, h2]
  simp only
  rw [if_pos (by simp)]
  congr 1
  rw [List.take_left]
  simp

theorem literal_parts {src c : Str} (h : Literal src c) :
    trim src = src ∧ looksLikeLiteral src = true ∧ betweenQuotes src = .ok c := by
  have nq : ∀ n, c!"\"" ∉ List.replicate n c!"#" := by
    intro n hm
    have := List.eq_of_mem_replicate hm
    exact absurd this (by decide)
  have last : ∀ (p : Str) (n : Nat), ∃ m z, p ++ b!"\"" ++ List.replicate n c!"#" = m ++ [z] ∧ 32 < z ∧ z < 128 ∧ p <+: m := by
    intro p n
    cases n with
    | zero => exact ⟨p, c!"\"", by simp, by decide, by decide, List.prefix_refl _⟩
    | succ n =>
      refine ⟨p ++ b!"\"" ++ List.replicate n c!"#", c!"#", ?_, by decide, by decide, ?_⟩
      · simp [List.replicate_succ']
      · rw [List.append_assoc]; exact List.prefix_append _ _
  cases h with
  | plain =>
    refine ⟨?_, by simp [looksLikeLiteral, List.isPrefixOf], ?_⟩
    · exact trim_printable (a := c!"\"") (by decide) (by decide)
    · have := betweenQuotes_run (p := []) (c := c) (q := []) (by simp) (by simp)
      simpa using this
  | bytes =>
    refine ⟨?_, by simp [looksLikeLiteral, List.isPrefixOf], ?_⟩
    · exact trim_printable (a := c!"b") (m := c!"\"" :: c) (by decide) (by decide)
    · have := betweenQuotes_run (p := b!"b") (c := c) (q := []) (by decide) (by simp)
      simpa using this
  | raw n =>
    refine ⟨?_, by simp [looksLikeLiteral, List.isPrefixOf], ?_⟩
    · obtain ⟨m, z, hm, h1, h2, hp⟩ := last (b!"r" ++ List.replicate n c!"#" ++ b!"\"" ++ c) n
      rw [hm]
      obtain ⟨t, rfl⟩ := hp
      exact trim_printable (a := c!"r") (m := List.replicate n c!"#" ++ b!"\"" ++ c ++ t) (by decide) ⟨h1, h2⟩
    · have := betweenQuotes_run (p := b!"r" ++ List.replicate n c!"#") (c := c) (q := List.replicate n c!"#")
        (by simp only [List.mem_append, not_or]; exact ⟨by decide, nq n⟩) (nq n)
      rw [← this]; simp
  | rawBytes n =>
    refine ⟨?_, by simp [looksLikeLiteral, List.isPrefixOf], ?_⟩
    · obtain ⟨m, z, hm, h1, h2, hp⟩ := last (b!"br" ++ List.replicate n c!"#" ++ b!"\"" ++ c) n
      rw [hm]
      obtain ⟨t, rfl⟩ := hp
      exact trim_printable (a := c!"b") (m := b!"r" ++ List.replicate n c!"#" ++ b!"\"" ++ c ++ t) (by decide) ⟨h1, h2⟩
    · have := betweenQuotes_run (p := b!"br" ++ List.replicate n c!"#") (c := c) (q := List.replicate n c!"#")
        (by simp only [List.mem_append, not_or]; exact ⟨by decide, nq n⟩) (nq n)
      rw [← this]; simp

/-! ## Blank lines -/

theorem isBlankLine_iff {l : Str} : isBlankLine l = true ↔ WsText l := by
  unfold isBlankLine
  rw [List.isEmpty_iff]
  constructor
  · intro h
    obtain ⟨u, w, hu, hw, hs⟩ := trim_spec l
    rw [h, List.append_nil] at hs
    rw [hs]; exact hu.append hw
  · intro h
    unfold trim trimStart
    rw [leadingWs_all.2 h, List.drop_length]; rfl

theorem moveBack_spec (ls : List Str) (e : Nat) : moveBack ls e ≤ e ∧
    (∀ i, moveBack ls e < i → i ≤ e → ∃ l, ls[i]? = some l ∧ WsText l) ∧
    (moveBack ls e = 0 ∨ ∀ l, ls[moveBack ls e]? = some l → ¬ WsText l) := by
  induction e with
  | zero => exact ⟨Nat.le_refl _, by intro i h1 h2; simp [moveBack] at h1; omega, .inl rfl⟩
  | succ e ih =>
    simp only [moveBack]
    cases hl : ls[e + 1]? with
    | none =>
      simp
      exact ⟨by intro i h1 h2; omega, by simp [hl]⟩
    | some l =>
      simp only [Option.map_some, Option.getD_some]
      by_cases hb : isBlankLine l = true
      · rw [if_pos hb]
        refine ⟨Nat.le_succ_of_le ih.1, ?_, ih.2.2⟩
        intro i h1 h2
        by_cases hi : i = e + 1
        · subst hi; exact ⟨l, hl, isBlankLine_iff.1 hb⟩
        · exact ih.2.1 i h1 (by omega)
      · rw [if_neg hb]
        refine ⟨Nat.le_refl _, by intro i h1 h2; omega, .inr ?_⟩
        intro l' h'
        rw [hl] at h'; cases h'
        exact fun h => hb (isBlankLine_iff.2 h)

theorem moveForward_spec (ls : List Str) (e : Nat) (n s : Nat) (hn : e + 1 ≤ n + s) (he : e < ls.length) (hs : s ≤ e + 1) :
    s ≤ moveForward ls e n s ∧ moveForward ls e n s ≤ e + 1 ∧
    (∀ i, s ≤ i → i < moveForward ls e n s → ∃ l, ls[i]? = some l ∧ WsText l) ∧
    (moveForward ls e n s ≤ e → ∃ l, ls[moveForward ls e n s]? = some l ∧ ¬ WsText l) := by
  induction n generalizing s with
  | zero =>
    exact ⟨Nat.le_refl _, by simp [moveForward]; omega, by intro i h1 h2; simp [moveForward] at h2; omega,
      by intro h; simp [moveForward] at h; omega⟩
  | succ n ih =>
    simp only [moveForward]
    by_cases hse : s ≤ e
    · have hl : ls[s]? = some (ls[s]'(by omega)) := List.getElem?_eq_getElem (by omega)
      rw [hl]
      simp only [Option.map_some, Option.getD_some]
      by_cases hb : isBlankLine (ls[s]'(by omega)) = true
      · rw [if_pos ⟨hse, hb⟩]
        have := ih (s + 1) (by omega) (by omega)
        refine ⟨by omega, this.2.1, ?_, this.2.2.2⟩
        intro i h1 h2
        by_cases hi : i = s
        · subst hi; exact ⟨_, hl, isBlankLine_iff.1 hb⟩
        · exact this.2.2.1 i (by omega) h2
      · rw [if_neg (fun h => hb h.2)]
        exact ⟨Nat.le_refl _, hs, by intro i h1 h2; omega, fun _ => ⟨_, hl, fun h => hb (isBlankLine_iff.2 h)⟩⟩
    · rw [if_neg (fun h => hse h.1)]
      exact ⟨Nat.le_refl _, hs, by intro i h1 h2; omega, by intro h; omega⟩

theorem dropBlankEnds_cases (ls : List Str) (hne : ls ≠ []) :
    (∃ body, dropBlankEnds ls = .ok body ∧ WithoutBlankEnds ls body) ∨
    (dropBlankEnds ls = .error .reject ∧ ∀ l ∈ ls, WsText l) := by
  unfold dropBlankEnds
  rw [if_neg (by simpa [List.isEmpty_iff] using hne)]
  have hlen : 0 < ls.length := by
    cases ls with
    | nil => exact absurd rfl hne
    | cons => simp
  obtain ⟨b1, b2, b3⟩ := moveBack_spec ls (ls.length - 1)
  generalize moveBack ls (ls.length - 1) = e at *
  obtain ⟨f1, f2, f3, f4⟩ := moveForward_spec ls e ls.length 0 (by omega) (by omega) (by omega)
  simp only
  generalize moveForward ls e ls.length 0 = s at *
  by_cases hse : s ≤ e
  · rw [if_pos hse]
    left
    refine ⟨_, rfl, ls.take s, ls.drop (e + 1), ?_, ?_, ?_, ?_, ?_⟩
    · have h1 : ls.take s ++ (ls.take (e + 1)).drop s = ls.take (e + 1) := by
        conv => rhs; rw [← List.take_append_drop s (ls.take (e + 1))]
        rw [List.take_take, Nat.min_eq_left (by omega)]
      rw [h1, List.take_append_drop]
    · intro l hl
      obtain ⟨i, hi, rfl⟩ := List.getElem_of_mem hl
      simp at hi
      obtain ⟨l', h1, h2⟩ := f3 i (by omega) (by omega)
      rw [List.getElem_take]
      rw [List.getElem?_eq_getElem (by omega)] at h1
      cases h1; exact h2
    · intro l hl
      obtain ⟨i, hi, rfl⟩ := List.getElem_of_mem hl
      simp at hi
      obtain ⟨l', h1, h2⟩ := b2 (e + 1 + i) (by omega) (by omega)
      rw [List.getElem_drop]
      rw [List.getElem?_eq_getElem (by omega)] at h1
      cases h1; exact h2
    · obtain ⟨l, h1, h2⟩ := f4 hse
      refine ⟨l, ?_, h2⟩
      rw [List.head?_drop, List.getElem?_take_of_lt (by omega)]
      exact h1
    · have hee : ls[e]? = some (ls[e]'(by omega)) := List.getElem?_eq_getElem (by omega)
      refine ⟨ls[e]'(by omega), ?_, ?_⟩
      · rw [List.getLast?_drop, if_neg (by simp; omega)]
        rw [List.getLast?_eq_getElem?, List.length_take, Nat.min_eq_left (by omega)]
        rw [List.getElem?_take_of_lt (by omega)]
        exact hee
      · rcases b3 with h0 | h0
        · obtain ⟨l, h1, h2⟩ := f4 hse
          have : s = e := by omega
          rw [this, hee] at h1; cases h1; exact h2
        · exact h0 _ hee
  · rw [if_neg hse]
    right
    refine ⟨rfl, ?_⟩
    intro l hl
    obtain ⟨i, hi, rfl⟩ := List.getElem_of_mem hl
    by_cases hie : i ≤ e
    · obtain ⟨l', h1, h2⟩ := f3 i (by omega) (by omega)
      rw [List.getElem?_eq_getElem hi] at h1
      cases h1; exact h2
    · obtain ⟨l', h1, h2⟩ := b2 i (by omega) (by omega)
      rw [List.getElem?_eq_getElem hi] at h1
      cases h1; exact h2

/-- Leaving out the blank lines at both ends has one result. -/
theorem withoutBlankEnds_unique {ls a b : List Str} (ha : WithoutBlankEnds ls a) (hb : WithoutBlankEnds ls b) : a = b := by
  have key : ∀ (p q x y : List Str), p ++ x = q ++ y → (∀ l ∈ p, WsText l) → (∀ l ∈ q, WsText l) →
      (∃ l, x.head? = some l ∧ ¬ WsText l) → (∃ l, y.head? = some l ∧ ¬ WsText l) → x = y := by
    intro p
    induction p with
    | nil =>
      intro q x y h _ hq hx _
      cases q with
      | nil => simpa using h
      | cons l q =>
        obtain ⟨l', h1, h2⟩ := hx
        simp at h; subst h; simp at h1; subst h1
        exact absurd (hq _ (by simp)) h2
    | cons l p ih =>
      intro q x y h hp hq hx hy
      cases q with
      | nil =>
        obtain ⟨l', h1, h2⟩ := hy
        simp at h; subst h; simp at h1; subst h1
        exact absurd (hp _ (by simp)) h2
      | cons l' q =>
        simp at h
        exact ih q x y h.2 (fun l hl => hp l (by simp [hl])) (fun l hl => hq l (by simp [hl])) hx hy
  obtain ⟨p, q, h1, hp, hq, ha1, ha2⟩ := ha
  obtain ⟨p', q', h1', hp', hq', hb1, hb2⟩ := hb
  have hd : ∀ (x y : List Str), (∃ l, x.head? = some l ∧ ¬ WsText l) → ∃ l, (x ++ y).head? = some l ∧ ¬ WsText l := by
    rintro x y ⟨l, h, h'⟩
    refine ⟨l, ?_, h'⟩
    cases x with
    | nil => simp at h
    | cons => simpa using h
  have e1 : a ++ q = b ++ q' := by
    apply key p p' _ _ _ hp hp' (hd _ _ ha1) (hd _ _ hb1)
    rw [← List.append_assoc, ← h1, h1', List.append_assoc]
  have e2 : a.reverse = b.reverse := by
    have lh : ∀ x : List Str, (∃ l, x.getLast? = some l ∧ ¬ WsText l) → ∃ l, x.reverse.head? = some l ∧ ¬ WsText l := by
      rintro x ⟨l, h, h'⟩; exact ⟨l, by simpa using h, h'⟩
    apply key q.reverse q'.reverse _ _ _ (by simpa using hq) (by simpa using hq') (lh _ ha2) (lh _ hb2)
    have := congrArg List.reverse e1
    simpa using this
  exact List.reverse_inj.1 e2

theorem dropBlankEnds_iff {ls body : List Str} (h : WithoutBlankEnds ls body) : dropBlankEnds ls = .ok body := by
  have hne : ls ≠ [] := by
    rintro rfl
    obtain ⟨p, q, h1, -, -, ⟨l, h2, -⟩, -⟩ := h
    simp at h1
    rw [h1.2.1] at h2; simp at h2
  rcases dropBlankEnds_cases ls hne with ⟨b, h1, h2⟩ | ⟨-, h2⟩
  · rw [h1, withoutBlankEnds_unique h h2]
  · exfalso
    obtain ⟨p, q, rfl, -, -, ⟨l, h3, h4⟩, -⟩ := h
    apply h4; apply h2
    have := List.mem_of_mem_head? h3
    simp [this]

/-! ## Indentation -/

theorem noWsHead_iff {r : Str} : (∀ a b, r = a ++ b → WsText a → a = []) ↔ wsCharLen r = 0 := by
  constructor
  · intro h
    apply Classical.byContradiction
    intro hn
    obtain ⟨c, r', hc, rfl, -⟩ := wsCharLen_inv _ hn
    have := h c r' rfl ⟨[c], by simpa using hc, by simp⟩
    have := wsChars_len hc
    simp_all
  · rintro h a b rfl ⟨cs, h1, rfl⟩
    cases cs with
    | nil => rfl
    | cons c cs =>
      have hc := h1 c (by simp)
      simp only [List.flatten_cons, List.append_assoc] at h
      rw [wsCharLen_char hc] at h
      have := wsChars_len hc
      omega

theorem indent_iff {l : Str} {n : Nat} : Indent l n ↔ leadingWs l = n := by
  constructor
  · rintro ⟨w, r, rfl, hw, rfl, hr⟩
    exact leadingWs_run hw (noWsHead_iff.1 hr)
  · rintro rfl
    obtain ⟨w, r, h1, h2, h3, h4⟩ := leadingWsF_spec l.length l
    exact ⟨w, r, h1, h2, h3.symm, noWsHead_iff.2 (h4 (Nat.le_refl _))⟩

theorem fold_min (xs : List Nat) (m : Nat) :
    let r := xs.foldl (fun acc x => if x < acc then x else acc) m
    r ≤ m ∧ (∀ x ∈ xs, r ≤ x) ∧ (r = m ∨ r ∈ xs) := by
  induction xs generalizing m with
  | nil => simp
  | cons x xs ih =>
    simp only [List.foldl_cons]
    obtain ⟨h1, h2, h3⟩ := ih (if x < m then x else m)
    generalize xs.foldl (fun acc x => if x < acc then x else acc) (if x < m then x else m) = r at *
    split at h1
    · next hx =>
      rw [if_pos hx] at h3
      refine ⟨by omega, ?_, ?_⟩
      · intro y hy
        rcases List.mem_cons.1 hy with rfl | hy
        · exact h1
        · exact h2 y hy
      · rcases h3 with h | h
        · right; simp [h]
        · right; simp [h]
    · next hx =>
      rw [if_neg hx] at h3
      refine ⟨h1, ?_, ?_⟩
      · intro y hy
        rcases List.mem_cons.1 hy with rfl | hy
        · omega
        · exact h2 y hy
      · rcases h3 with h | h
        · left; exact h
        · right; simp [h]

theorem minIndent_least {ls : List Str} (hne : ls ≠ []) (hl : ∀ l ∈ ls, l.length < 2 ^ 64 - 1) :
    LeastIndent (fun _ => True) ls (minIndent ls) := by
  obtain ⟨h1, h2, h3⟩ := fold_min (ls.map leadingWs) (usizeEnd - 1)
  unfold minIndent
  generalize (ls.map leadingWs).foldl (fun acc x => if x < acc then x else acc) (usizeEnd - 1) = r at *
  constructor
  · intro l hm _
    exact ⟨_, indent_iff.2 rfl, h2 _ (List.mem_map.2 ⟨l, hm, rfl⟩)⟩
  · rcases h3 with h | h
    · exfalso
      match ls, hne with
      | l :: ls, _ =>
        have a := h2 (leadingWs l) (by simp)
        have b := leadingWs_le l
        have c := hl l (by simp)
        rw [h, usizeEnd] at a
        omega
    · obtain ⟨l, hm, he⟩ := List.mem_map.1 h
      exact ⟨l, hm, trivial, indent_iff.2 he⟩

theorem leastIndent_unique {P : Str → Prop} {ls : List Str} {a b : Nat} (ha : LeastIndent P ls a)
    (hb : LeastIndent P ls b) : a = b := by
  obtain ⟨a1, l, hl, hP, hi⟩ := ha
  obtain ⟨b1, l', hl', hP', hi'⟩ := hb
  obtain ⟨n, h1, h2⟩ := a1 l' hl' hP'
  obtain ⟨m, h3, h4⟩ := b1 l hl hP
  rw [indent_iff] at *
  omega

theorem joinLines_eq (ls : List Str) : joinLines ls = List.intercalate [10] ls := by
  induction ls with
  | nil => rfl
  | cons l ls ih =>
    cases ls with
    | nil => simp [joinLines, List.intercalate]
    | cons l' ls =>
      rw [joinLines, ih]
      · simp [List.intercalate]
      · simp

theorem sliceFrom_ok {n : Nat} {l : Str} (h : n ≤ l.length) (hc : n = 0 ∨ ¬ WithinChar n l) :
    sliceFrom n l = .ok (l.drop n) := by
  unfold sliceFrom
  rw [if_pos]
  refine ⟨h, ?_⟩
  unfold isCharBoundary
  rcases hc with rfl | hc
  · simp
  · cases hb : l[n]? with
    | none =>
      rw [List.getElem?_eq_none_iff] at hb
      have : n = l.length := by omega
      simp [this]
    | some b =>
      have : ¬ (128 ≤ b ∧ b < 192) := fun h => hc ⟨b, hb, h⟩
      simp
      right
      omega

theorem sliceFrom_panic {n : Nat} {l : Str} (h0 : n ≠ 0) (hc : WithinChar n l) :
    sliceFrom n l = .error .panic := by
  unfold sliceFrom
  rw [if_neg]
  rintro ⟨h, hb⟩
  obtain ⟨b, h1, h2⟩ := hc
  unfold isCharBoundary at hb
  rw [h1] at hb
  have : n < l.length := by
    apply Classical.byContradiction; intro hn
    rw [List.getElem?_eq_none (by omega)] at h1; cases h1
  simp [h0] at hb
  omega

theorem mapM_except_ok {α β ε} {f : α → Except ε β} {g : α → β} {l : List α} (h : ∀ x ∈ l, f x = .ok (g x)) :
    l.mapM f = .ok (l.map g) := by
  induction l with
  | nil => rfl
  | cons x l ih =>
    rw [List.mapM_cons, h x (by simp), ih (fun y hy => h y (by simp [hy]))]
    rfl

theorem mapM_except_err {α β ε} {f : α → Except ε β} {e : ε} {l : List α}
    (h : ∀ x ∈ l, f x = .error e ∨ ∃ y, f x = .ok y) (hx : ∃ x ∈ l, f x = .error e) :
    l.mapM f = .error e := by
  induction l with
  | nil => obtain ⟨x, hx, -⟩ := hx; simp at hx
  | cons x l ih =>
    rw [List.mapM_cons]
    rcases h x (by simp) with he | ⟨y, he⟩
    · rw [he]; rfl
    · rw [he]
      obtain ⟨z, hz, hze⟩ := hx
      have hzl : z ∈ l := by
        rcases List.mem_cons.1 hz with rfl | h'
        · rw [he] at hze; cases hze
        · exact h'
      rw [show (Except.ok y >>= fun y => l.mapM f >>= fun ys => pure (y :: ys)) = (l.mapM f >>= fun ys => pure (y :: ys)) from rfl]
      rw [ih (fun w hw => h w (by simp [hw])) ⟨z, hzl, hze⟩]
      rfl

theorem leastIndent_le {ls : List Str} {k : Nat} (h : LeastIndent (fun _ => True) ls k) :
    ∀ l ∈ ls, k ≤ leadingWs l := by
  intro l hl
  obtain ⟨n, h1, h2⟩ := h.1 l hl trivial
  rw [indent_iff] at h1; omega

theorem inputToString_literal {src c : Str} (raw : Bool) (h : Literal src c) :
    inputToString raw src = (dropBlankEnds (strLines c)).bind fun ls =>
      if raw then .ok (joinLines ls) else (ls.mapM (sliceFrom (minIndent ls))).map joinLines := by
  obtain ⟨h1, h2, h3⟩ := literal_parts h
  unfold inputToString
  simp only [h1, h2, h3]
  rfl

theorem literal_length {src c : Str} (h : Literal src c) : c.length + 2 ≤ src.length := by
  cases h <;> simp <;> omega

theorem textLines_length {s : Str} {ls : List Str} (h : TextLines s ls) : ∀ l ∈ ls, l.length ≤ s.length := by
  induction h with
  | nil => simp
  | last => simp
  | lf _ _ _ ih =>
    intro l hl
    rcases List.mem_cons.1 hl with rfl | hl
    · simp
    · have := ih l hl; simp; omega
  | crlf _ _ ih =>
    intro l hl
    rcases List.mem_cons.1 hl with rfl | hl
    · simp
    · have := ih l hl; simp; omega

end Vw
