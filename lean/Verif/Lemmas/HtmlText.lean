import Verif.Spec.Html
import Verif.Lemmas.Uri

/-! # Lemmas on escaping, words and replacing -/

namespace Vw

/-! ## Escaping -/

theorem escapeByte_noMarkup (b : Byte) : NoMarkup (escapeByte b) := by
  simp only [escapeByte]
  repeat' split
  all_goals first
    | (intro x hx
       simp only [List.mem_cons, List.not_mem_nil, or_false] at hx
       omega)

theorem escapeHtml_noMarkup (s : Str) : NoMarkup (escapeHtml s) := by
  intro b hb
  obtain ⟨x, _, hx⟩ := List.mem_flatMap.1 hb
  exact escapeByte_noMarkup x b hx

theorem unescape_cons {b : Byte} (hb : b ≠ c!"&") (r : Str) : unescape (b :: r) = b :: unescape r := by
  rw [unescape]
  all_goals intros; simp_all

theorem unescape_escapeByte (b : Byte) (r : Str) : unescape (escapeByte b ++ r) = b :: unescape r := by
  simp only [escapeByte]
  repeat' split
  all_goals first
    | (subst b; rfl)
    | exact unescape_cons (by assumption) r

theorem unescape_escapeHtml (s : Str) : unescape (escapeHtml s) = s := by
  induction s with
  | nil => rfl
  | cons b s ih =>
    simp only [escapeHtml, List.flatMap_cons] at ih ⊢
    rw [unescape_escapeByte, ih]

theorem escapeHtml_append (s t : Str) : escapeHtml (s ++ t) = escapeHtml s ++ escapeHtml t := by
  simp [escapeHtml]

/-! ## Words -/

/-- No whitespace character starts anywhere in the text. -/
theorem noWs_iff (s : Str) : NoWs s ↔ ∀ a t, s = a ++ t → wsCharLen t = 0 := by
  constructor
  · intro h a t e
    by_cases ht : wsCharLen t = 0
    · exact ht
    · obtain ⟨c, r, hc, rfl, _⟩ := wsCharLen_inv t ht
      exact absurd hc (h a c r (by rw [e, List.append_assoc]))
  · intro h a w b e hw
    have := h a (w ++ b) (by rw [e, List.append_assoc])
    rw [wsCharLen_char hw] at this
    have := wsChars_len hw
    omega

theorem noWs_before {w c r : Str}
    (h : ∀ a t, w = a ++ t → t ≠ [] → wsCharLen (t ++ (c ++ r)) = 0) : NoWs w := by
  intro a x b e hx
  have h1 := h a (x ++ b) (by rw [e, List.append_assoc]) (by
    have := wsChars_len hx
    intro he
    simp at he
    rw [he.1] at this
    simp at this)
  rw [List.append_assoc, wsCharLen_char hx] at h1
  have := wsChars_len hx
  omega

theorem splitWsF_words (n : Nat) : ∀ (cur s : Str), s.length ≤ n →
    (∀ a t, cur.reverse = a ++ t → t ≠ [] → wsCharLen (t ++ s) = 0) →
    Words (cur.reverse ++ s) ((splitWsF n cur s).filter fun w => !w.isEmpty) := by
  have base : ∀ cur : Str, (∀ a t, cur.reverse = a ++ t → t ≠ [] → wsCharLen (t ++ []) = 0) →
      Words (cur.reverse ++ []) ([cur.reverse].filter fun w => !w.isEmpty) := by
    intro cur h
    have hn : NoWs cur.reverse := noWs_before (c := []) (r := []) h
    rw [List.append_nil]
    cases hc : cur.reverse with
    | nil => exact .nil
    | cons b bs =>
      rw [hc] at hn
      exact .word hn (by simp)
  induction n with
  | zero =>
    intro cur s hs h
    have : s = [] := by simpa using hs
    subst this
    exact base cur h
  | succ n ih =>
    intro cur s hs h
    cases s with
    | nil => exact base cur h
    | cons b bs =>
      simp only [splitWsF]
      by_cases hw : wsCharLen (b :: bs) = 0
      · rw [if_pos hw]
        have := ih (b :: cur) bs (by simpa using hs) (by
          intro a t e ht
          rw [List.reverse_cons] at e
          rcases List.append_eq_append_iff.1 e with ⟨u, h1, h2⟩ | ⟨u, h1, h2⟩
          · cases u with
            | nil =>
              simp at h2
              rw [← h2]
              exact hw
            | cons y u =>
              simp only [List.cons_append, List.cons.injEq] at h2
              have h3 := List.nil_eq_append_iff.1 h2.2
              exact absurd h3.2 ht
          · cases u with
            | nil =>
              simp at h2
              rw [h2]
              exact hw
            | cons y u =>
              have := h a (y :: u) h1 (by simp)
              rw [h2, List.append_assoc]
              exact this)
        rw [List.reverse_cons, List.append_assoc] at this
        exact this
      · rw [if_neg hw]
        obtain ⟨c, r, hc, e, hl⟩ := wsCharLen_inv _ hw
        rw [hl, e, List.drop_left]
        rw [e] at h
        have hr := ih [] r (by
          have := wsChars_len hc
          have := congrArg List.length e
          simp at this hs
          omega) (by intro a t e ht; simp at e; exact absurd e.2 ht)
        have hn : NoWs cur.reverse := noWs_before h
        rw [List.reverse_nil, List.nil_append] at hr
        cases hcur : cur.reverse with
        | nil =>
          rw [List.filter_cons_of_neg (by simp), List.nil_append]
          exact .blank hc hr
        | cons y u =>
          rw [hcur] at hn
          rw [List.filter_cons_of_pos (by simp), ← List.append_assoc]
          exact .next hn (by simp) hc hr

theorem splitWs_words (s : Str) : Words s ((splitWs s).filter fun w => !w.isEmpty) :=
  splitWsF_words s.length [] s (Nat.le_refl _) (by intro a t e ht; simp at e; exact absurd e.2 ht)

theorem wsChars_bytes : ∀ c ∈ wsChars, (∀ b ∈ c.head?, b < 128 ∨ 192 ≤ b) ∧ ∀ b ∈ c.tail, 128 ≤ b ∧ b < 192 := by
  decide

/-- No whitespace character starts in a word that is followed by nothing or by
whitespace. -/
theorem noWs_after {w t a r : Str} (h : NoWs w) (hw : w = a ++ t) (ht : t ≠ [])
    (hr : r = [] ∨ ∃ c s, r = c ++ s ∧ WsChar c) : wsCharLen (t ++ r) = 0 := by
  by_cases hz : wsCharLen (t ++ r) = 0
  · exact hz
  · obtain ⟨c', r', hc', he, _⟩ := wsCharLen_inv _ hz
    rcases List.append_eq_append_iff.1 he with ⟨u, h1, h2⟩ | ⟨u, h1, h2⟩
    · cases u with
      | nil =>
        rw [List.append_nil] at h1
        exact absurd hc' (h a c' [] (by rw [hw, h1, List.append_nil]))
      | cons y u =>
        rcases hr with rfl | ⟨c, s, rfl, hc⟩
        · cases h2
        · cases t with
          | nil => exact absurd rfl ht
          | cons z t =>
            have hy := (wsChars_bytes c' hc').2 y (by rw [h1]; simp)
            cases c with
            | nil => have := wsChars_len hc; simp at this
            | cons x c =>
              simp only [List.cons_append, List.cons.injEq] at h2
              have hx := (wsChars_bytes _ hc).1 x (by simp)
              omega
    · exact absurd hc' (h a c' u (by rw [hw, h1, List.append_assoc]))

theorem splitWsF_word {w r : Str} (h : NoWs w) (hr : r = [] ∨ ∃ c s, r = c ++ s ∧ WsChar c) :
    ∀ (t a cur : Str) (n : Nat), w = a ++ t → (t ++ r).length ≤ n →
    splitWsF n cur (t ++ r) = splitWsF (n - t.length) (t.reverse ++ cur) r := by
  intro t
  induction t with
  | nil => intro a cur n _ _; rfl
  | cons b t ih =>
    intro a cur n hw hn
    cases n with
    | zero => simp at hn
    | succ n =>
      have h0 := noWs_after h hw (by simp) hr
      rw [List.cons_append] at h0
      simp only [List.cons_append, splitWsF, if_pos h0]
      rw [ih (a ++ [b]) (b :: cur) n (by rw [hw]; simp) (by simpa using hn)]
      simp

theorem splitWsF_blank {c s cur : Str} {n : Nat} (hc : WsChar c) (hn : (c ++ s).length ≤ n) :
    ∃ m, s.length ≤ m ∧ splitWsF n cur (c ++ s) = cur.reverse :: splitWsF m [] s := by
  have hl := wsChars_len hc
  cases n with
  | zero => rw [List.length_append] at hn; omega
  | succ n =>
    refine ⟨n, by rw [List.length_append] at hn; omega, ?_⟩
    cases c with
    | nil => simp at hl
    | cons b c =>
      have h1 := wsCharLen_char hc s
      simp only [List.cons_append] at h1
      simp only [List.cons_append, splitWsF]
      rw [if_neg (by rw [h1]; simp), h1]
      have := List.drop_left (l₁ := b :: c) (l₂ := s)
      rw [List.cons_append] at this
      rw [this]

theorem Words.splitWsF {s : Str} {ws : List Str} (h : Words s ws) : ∀ n, s.length ≤ n →
    ((splitWsF n [] s).filter fun w => !w.isEmpty) = ws := by
  have hnil : ∀ n cur, Vw.splitWsF n cur [] = [cur.reverse] := by
    intro n cur
    cases n <;> rfl
  induction h with
  | nil => intro n _; rw [hnil]; rfl
  | @word w h hne =>
    intro n hn
    have := splitWsF_word h (.inl rfl) w [] [] n rfl (by simpa using hn)
    rw [List.append_nil, hnil] at this
    rw [this]
    cases w with
    | nil => exact absurd rfl hne
    | cons b w => simp
  | blank hc _ ih =>
    intro n hn
    obtain ⟨m, hm, e⟩ := splitWsF_blank (cur := []) hc hn
    rw [e, List.filter_cons_of_neg (by simp)]
    exact ih m hm
  | @next w c s ws h hne hc _ ih =>
    intro n hn
    have := splitWsF_word h (.inr ⟨c, s, rfl, hc⟩) w [] [] n rfl (by rw [List.append_assoc] at hn; exact hn)
    rw [List.append_assoc, this]
    obtain ⟨m, hm, e⟩ := splitWsF_blank (s := s) (cur := w.reverse ++ []) (n := n - w.length) hc (by
      simp at hn ⊢; omega)
    rw [e, List.filter_cons_of_pos (by simpa using hne), ih m hm]
    simp

theorem Words.unique {s : Str} {ws ws' : List Str} (h : Words s ws) (h' : Words s ws') : ws = ws' := by
  rw [← h.splitWsF _ (Nat.le_refl _), h'.splitWsF _ (Nat.le_refl _)]

theorem Words.noWs {s : Str} {ws : List Str} (h : Words s ws) : ∀ w ∈ ws, NoWs w := by
  induction h with
  | nil => simp
  | word h _ => simpa using h
  | blank _ _ ih => exact ih
  | next h _ _ _ ih =>
    intro x hx
    rcases List.mem_cons.1 hx with rfl | hx
    · exact h
    · exact ih x hx

theorem Words.ne_nil {s : Str} {ws : List Str} (h : Words s ws) : ∀ w ∈ ws, w ≠ [] := by
  induction h with
  | nil => simp
  | word _ h => simpa using h
  | blank _ _ ih => exact ih
  | next _ h _ _ ih =>
    intro x hx
    rcases List.mem_cons.1 hx with rfl | hx
    · exact h
    · exact ih x hx

theorem wsChar_dash {w : Str} (h : WsChar w) : c!"-" ∉ w := by
  have : ∀ c ∈ wsChars, c!"-" ∉ c := by decide
  exact this w h

theorem noWs_dash {a b : Str} (ha : NoWs a) (hb : NoWs b) : NoWs (a ++ b!"-" ++ b) := by
  intro x w y e hw
  rw [List.append_assoc, List.append_assoc] at e
  rcases List.append_eq_append_iff.1 e with ⟨u, h1, h2⟩ | ⟨u, h1, h2⟩
  · rcases List.cons_eq_append_iff.1 h2 with ⟨h3, h4⟩ | ⟨v, h3, h4⟩
    · have : c!"-" ∈ w := by
        cases w with
        | nil => exact absurd (wsChars_len hw) (by simp)
        | cons z w => simp at h4; simp [h4.1]
      exact wsChar_dash hw this
    · exact hb v w y (by rw [List.append_assoc]; simpa using h4) hw
  · rcases List.append_eq_append_iff.1 h2 with ⟨v, h3, h4⟩ | ⟨v, h3, h4⟩
    · exact ha x w v (by rw [h1, h3, List.append_assoc]) hw
    · cases v with
      | nil => exact ha x w [] (by rw [h1, h3]; simp) hw
      | cons z v =>
        simp only [List.cons_append, List.nil_append, List.cons.injEq] at h4
        exact wsChar_dash hw (by rw [h3, ← h4.1]; simp)

theorem noWs_join {ws : List Str} (h : ∀ w ∈ ws, NoWs w) : NoWs (joinWith b!"-" ws) := by
  have hnil : NoWs [] := by
    intro a w b e hw
    have := wsChars_len hw
    have e := List.nil_eq_append_iff.1 e
    have e := List.append_eq_nil_iff.1 e.1
    rw [e.2] at this
    simp at this
  induction ws with
  | nil => exact hnil
  | cons a ws ih =>
    cases ws with
    | nil => exact h a (by simp)
    | cons b ws =>
      exact noWs_dash (h a (by simp)) (ih fun w hw => h w (by simp at hw ⊢; exact .inr hw))

/-- A run of bytes that are not printable in escaped text is there in the text. -/
theorem escapeHtml_prefix (c : Str) : ∀ (s r : Str), (∀ b ∈ c, b ≤ 32 ∨ 128 ≤ b) →
    escapeHtml s = c ++ r → ∃ r', s = c ++ r' := by
  induction c with
  | nil => intro s r _ _; exact ⟨s, rfl⟩
  | cons y c ih =>
    intro s r hb e
    cases s with
    | nil => cases e
    | cons x s =>
      have hy := hb y (by simp)
      simp only [escapeHtml, List.flatMap_cons] at e ih
      have hx : escapeByte x = [x] ∧ x = y := by
        simp only [escapeByte] at e ⊢
        repeat' split
        all_goals simp_all
        all_goals omega
      rw [hx.1] at e
      simp only [List.cons_append, List.nil_append, List.cons.injEq] at e
      obtain ⟨r', rfl⟩ := ih s r (fun b hm => hb b (by simp [hm])) e.2
      exact ⟨r', by rw [hx.2]; rfl⟩

theorem escapeByte_cases (b : Byte) :
    escapeByte b = [b] ∨ ∀ z ∈ escapeByte b, 33 ≤ z ∧ z < 127 := by
  simp only [escapeByte]
  repeat' split
  all_goals first
    | exact .inl rfl
    | (refine .inr ?_; decide)

theorem noWs_escape {s : Str} (h : NoWs s) : NoWs (escapeHtml s) := by
  rw [noWs_iff]
  induction s with
  | nil =>
    intro a t e
    have e := List.nil_eq_append_iff.1 e
    rw [e.2]; rfl
  | cons b s ih =>
    have hs : NoWs s := fun a w r e => h (b :: a) w r (by rw [e]; rfl)
    intro a t e
    simp only [escapeHtml, List.flatMap_cons] at e
    rcases List.append_eq_append_iff.1 e with ⟨u, h1, h2⟩ | ⟨u, h1, h2⟩
    · exact ih hs u t (by simp only [escapeHtml]; exact h2)
    · cases u with
      | nil =>
        simp only [List.nil_append] at h2
        exact ih hs [] t (by simp only [escapeHtml]; exact h2.symm)
      | cons y u =>
        by_cases ht : wsCharLen t = 0
        · exact ht
        · exfalso
          obtain ⟨c, r, hc, rfl, _⟩ := wsCharLen_inv t ht
          have hcb : ∀ b ∈ c, b ≤ 32 ∨ 128 ≤ b := fun b hm =>
            (WsText.cons hc WsText.nil).bytes b (by simp [hm])
          have hy : y ≤ 32 ∨ 128 ≤ y := by
            cases c with
            | nil => exact absurd (wsChars_len hc) (by simp)
            | cons z c =>
              simp only [List.cons_append, List.cons.injEq] at h2
              rw [← h2.1]
              exact hcb z (by simp)
          have hx : a = [] := by
            have hm : y ∈ escapeByte b := by rw [h1]; simp
            rcases escapeByte_cases b with hb | hb
            · rw [hb] at h1
              cases a with
              | nil => rfl
              | cons z a => simp at h1
            · have := hb y hm
              omega
          subst hx
          rw [List.nil_append] at h1
          have he : escapeHtml (b :: s) = c ++ r := by
            simp only [escapeHtml, List.flatMap_cons]
            rw [h1, h2]
          obtain ⟨r', hr'⟩ := escapeHtml_prefix c (b :: s) r hcb he
          exact h [] c r' (by rw [hr']; simp) hc

theorem normalizeId_noWs (lower : Str → Str) (s : Str) : NoWs (normalizeId lower s) :=
  noWs_escape (noWs_join (splitWs_words _).noWs)

/-! ## Replacing -/

theorem split_cons (pat : Str) (b : Byte) (s : Str) {ps : List Str} (hb : ¬ pat <+: b :: s)
    (h : SplitAt pat s ps) : ∃ p rest, ps = p :: rest ∧ SplitAt pat (b :: s) ((b :: p) :: rest) := by
  cases h with
  | last h =>
    refine ⟨s, [], rfl, .last ?_⟩
    intro hi
    rcases List.infix_cons_iff.1 hi with h1 | h1
    · exact hb h1
    · exact h h1
  | @next a s ps h hs =>
    refine ⟨a, ps, rfl, ?_⟩
    have := SplitAt.next (pat := pat) (a := b :: a) (s := s) (ps := ps) (by
      intro x y e
      cases x with
      | nil =>
        exfalso
        apply hb
        refine ⟨y ++ s, ?_⟩
        rw [List.nil_append] at e
        rw [← List.append_assoc, ← e]
        simp
      | cons z x =>
        simp only [List.cons_append, List.cons.injEq] at e
        rw [← e.1, h x y e.2]) hs
    simpa using this

theorem joinWith_cons_cons (sep : Str) (b : Byte) (p : Str) (rest : List Str) :
    joinWith sep ((b :: p) :: rest) = b :: joinWith sep (p :: rest) := by
  cases rest <;> simp [joinWith]

theorem replaceF_split {pat : Str} (to : Str) (hp : pat ≠ []) (n : Nat) : ∀ s : Str, s.length ≤ n →
    ∃ ps, SplitAt pat s ps ∧ replaceF pat to n s = joinWith to ps := by
  have hnil : ¬ pat <:+: [] := by simpa using hp
  induction n with
  | zero =>
    intro s hs
    have : s = [] := by simpa using hs
    subst this
    exact ⟨[[]], .last hnil, rfl⟩
  | succ n ih =>
    intro s hs
    cases s with
    | nil => exact ⟨[[]], .last hnil, rfl⟩
    | cons b bs =>
      simp only [replaceF]
      by_cases hx : pat <+: b :: bs
      · rw [if_pos (by simpa using hx)]
        obtain ⟨r, e⟩ := hx
        rw [← e, List.drop_left]
        have hl : 0 < pat.length := List.length_pos_iff.2 hp
        obtain ⟨ps, h1, h2⟩ := ih r (by
          have := congrArg List.length e
          simp at this hs
          omega)
        refine ⟨[] :: ps, ?_, ?_⟩
        · have := SplitAt.next (pat := pat) (a := []) (s := r) (ps := ps) (by
            intro x y e
            have := congrArg List.length e
            simp at this
            exact List.eq_nil_of_length_eq_zero (by omega)) h1
          simpa using this
        · rw [h2]
          cases ps with
          | nil => cases h1
          | cons p ps => simp [joinWith]
      · rw [if_neg (by simpa using hx)]
        obtain ⟨ps, h1, h2⟩ := ih bs (by simpa using hs)
        obtain ⟨p, rest, rfl, h3⟩ := split_cons pat b bs hx h1
        exact ⟨_, h3, by rw [h2, joinWith_cons_cons]⟩

theorem replace_split {pat : Str} (to s : Str) (hp : pat ≠ []) :
    ∃ ps, SplitAt pat s ps ∧ replace pat to s = joinWith to ps :=
  replaceF_split to hp s.length s (Nat.le_refl _)

/-- The pieces are determined by the text. -/
theorem SplitAt.unique {pat s : Str} {ps qs : List Str} (h : SplitAt pat s ps) (h' : SplitAt pat s qs) :
    ps = qs := by
  induction h generalizing qs with
  | last h =>
    cases h' with
    | last _ => rfl
    | @next a s ps _ _ => exact absurd ⟨a, s, rfl⟩ h
  | @next a s ps h hs ih =>
    generalize ht : a ++ pat ++ s = t at h'
    cases h' with
    | last h2 => exact absurd ⟨a, s, ht⟩ h2
    | @next b u rs h2 hu =>
      have key : a = b := by
        rw [List.append_assoc, List.append_assoc] at ht
        rcases List.append_eq_append_iff.1 ht with ⟨c, e1, e2⟩ | ⟨c, e1, e2⟩
        · rw [e1]
          have e3 : pat <+: c ++ pat := List.prefix_of_prefix_length_le ⟨s, rfl⟩
            ⟨u, by rw [e2, List.append_assoc]⟩ (by simp)
          obtain ⟨y, e3⟩ := e3
          exact (h2 a y (by rw [e1, List.append_assoc, ← e3, List.append_assoc])).trans e1
        · have e3 : pat <+: c ++ pat := List.prefix_of_prefix_length_le ⟨u, rfl⟩
            ⟨s, by rw [e2, List.append_assoc]⟩ (by simp)
          obtain ⟨y, e3⟩ := e3
          exact (h b y (by rw [e1, List.append_assoc, ← e3, List.append_assoc])).symm
      subst key
      rw [List.append_cancel_left ht] at ih
      rw [ih hu]

end Vw
