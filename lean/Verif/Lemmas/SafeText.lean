import Verif.Lemmas.PageRun

/-!
# Texts without special characters

Sufficient conditions for the assumptions about texts of the round trip theorems, used
in the examples beside them.
-/

namespace Vw

variable {w t rest : Str}

/-- The bytes with which inline elements begin, and line breaks. -/
def specials : Str := b!"%`$[{*_~^,:TDSFX\n\r"

theorem plain_of_head {c : Byte} {q : Str} (hc : c ∉ specials) : Plain w (c :: q) := by
  have head : ∀ p : Str, p ≠ [] → (∀ x, p.head? = some x → x ∈ specials) → ¬ p <+: c :: q := by
    rintro p hp h ⟨r, hr⟩
    cases p with
    | nil => exact hp rfl
    | cons a p =>
      simp at hr
      exact hc (hr.1 ▸ h a rfl)
  refine ⟨head _ (by decide) (by decide), ?_, ?_, ?_, ?_⟩
  · rintro p hp ⟨b, r, -, -, e⟩
    have : ∀ p ∈ markPairs, p.1 ≠ [] ∧ ∀ x, p.1.head? = some x → x ∈ specials := by decide
    obtain ⟨h1, h2⟩ := this p hp
    exact head p.1 h1 h2 ⟨_, e.symm⟩
  · rintro ⟨b, r, -, -, e⟩
    exact head b!":" (by decide) (by decide) ⟨_, e.symm⟩
  · intro k hk
    have : ∀ k ∈ keywords, k ≠ [] ∧ ∀ x, k.head? = some x → x ∈ specials := by decide
    exact head k (this k hk).1 (this k hk).2
  · intro h
    simp at h
    subst h
    exact absurd (by decide) hc

/-- No raw link begins with the text. -/
theorem no_scheme (h : ∀ c, t.head? = some c → lowerByte c ∉ b!"hflm") (hne : t ≠ []) : ¬ SchemeStart (t ++ rest) := by
  rintro ⟨sc, hsc, q, hq⟩
  cases t with
  | nil => exact hne rfl
  | cons c t =>
    have hs : ∀ sc ∈ linkSchemes, ∃ x, sc.head? = some x ∧ x ∈ b!"hflm" := by decide
    obtain ⟨x, h1, h2⟩ := hs sc hsc
    cases sc with
    | nil => cases h1
    | cons a sc =>
      simp at hq h1
      exact h c rfl (by rw [← hq.1, h1]; exact h2)

theorem no_scheme_end (h : c!":" ∉ t) : ¬ SchemeStart (t ++ []) := by
  rintro ⟨sc, hsc, q, hq⟩
  have : c!":" ∈ (t ++ []).map lowerByte := by rw [← hq]; simp
  rw [List.append_nil, List.mem_map] at this
  obtain ⟨b, hb, e⟩ := this
  unfold lowerByte at e
  split at e
  · simp at e; omega
  · exact h (e ▸ hb)

theorem textOk_safe (hne : t ≠ []) (ht : ∀ b ∈ t, b ∉ specials) (hs : ¬ SchemeStart (t ++ rest)) : TextOk w t rest := by
  refine ⟨hne, fun h => ht _ h (by decide), fun h => ht _ h (by decide), hs, fun u v e hv => ?_⟩
  cases v with
  | nil => exact absurd rfl hv
  | cons c v => exact plain_of_head (ht c (by rw [e]; simp))

theorem shortest_of_notMem {R c : Str} (hR : ∃ x p, R = x :: p ∧ x ∉ c) : ShortestBody R c [] := by
  obtain ⟨x, p, rfl, hx⟩ := hR
  intro c' r' hc' e
  apply Nat.le_of_not_lt
  intro hlt
  rcases List.append_eq_append_iff.1 e with ⟨as, e1, -⟩ | ⟨bs, e1, e2⟩
  · rw [e1, List.length_append] at hlt; omega
  · cases bs with
    | nil => simp at e1; rw [e1] at hlt; exact Nat.lt_irrefl _ hlt
    | cons b bs =>
      simp at e2
      exact hx (by rw [e1, ← e2.1]; simp)

theorem bodyOk_safe {R c : Str} (hne : c ≠ []) (hR : ∃ x p, R = x :: p ∧ x ∉ c) (h10 : 10 ∉ c) (hp : c!"%" ∉ c) : BodyOk R c :=
  ⟨hne, h10, shortest_of_notMem hR, fun ⟨u, v, e⟩ => hp (by rw [← e]; simp)⟩

/-- Bytes with which blocks begin. -/
def blockHeads : Str := b!"=|-*#{%>"

/-- Bytes of the beginnings of list items and of definition lists. -/
def blockBytes : Str := b!":.)"

/-- No block but a paragraph begins with the text, since it lacks the bytes for it. -/
structure SafeLine (t : Str) : Prop where
  head : ∀ b, t.head? = some b → b ∉ blockHeads
  mem : ∀ b ∈ t, b ∉ blockBytes

theorem prefix_bytes {ty : ItemType} {su : Suffix} (h : PrefixText ty su w) :
    (∃ b, w.head? = some b ∧ b ∈ blockHeads) ∨ ∃ b ∈ w, b ∈ blockBytes := by
  cases h with
  | hyphen => exact .inl ⟨c!"-", by decide, by decide⟩
  | asterisk => exact .inl ⟨c!"*", by decide, by decide⟩
  | pound => exact .inl ⟨c!"#", by decide, by decide⟩
  | period _ => exact .inr ⟨c!".", by simp, by decide⟩
  | paren _ => exact .inr ⟨c!")", by simp, by decide⟩

theorem noTerm_safe (h : c!":" ∉ t) : NoTermLine t := fun u v e => absurd (by rw [e]; simp) h

theorem head_of_prefix {b : Byte} (h : w <+: t) (hb : w.head? = some b) : t.head? = some b := by
  obtain ⟨r, rfl⟩ := h
  cases w with
  | nil => cases hb
  | cons a w => exact hb

theorem item_safe (h : SafeLine t) : ∀ ty su w, PrefixText ty su w → ¬ w <+: t := by
  rintro ty su w hw hp
  rcases prefix_bytes hw with ⟨b, h1, h2⟩ | ⟨b, h1, h2⟩
  · exact h.head b (head_of_prefix hp h1) h2
  · exact h.mem b (hp.subset h1) h2

theorem plainLine_safe (ht : SafeLine t) : PlainLine t := by
  have head : ∀ x ∈ blockHeads, t.head? ≠ some x := fun x hx e => ht.head x e hx
  have pre : ∀ x ∈ blockHeads, ∀ p : Str, ¬ (x :: p) <+: t :=
    fun x hx p h => head x hx (head_of_prefix h rfl)
  refine ⟨head _ (by decide), head _ (by decide), noTerm_safe fun h => ht.mem _ h (by decide), item_safe ht, pre _ (by decide) _, pre _ (by decide) _,
    pre _ (by decide) _, ?_, fun h => absurd h (head _ (by decide))⟩
  rintro ⟨n, r, hn, e, -⟩
  obtain ⟨m, rfl⟩ : ∃ m, n = m + 1 := ⟨n - 1, by omega⟩
  exact head c!"-" (by decide) (by rw [e, List.replicate_succ]; simp)

theorem term_safe (h : SafeLine t) (h10 : 10 ∉ t) : TermText t := by
  have hp := plainLine_safe h
  refine ⟨h10, ?_, ?_, hp.header, hp.table, hp.quote, hp.item⟩
  · rintro ⟨u, v, e⟩
    have h1 : t ++ b!":" = (u ++ b!":") ++ (b!":" ++ v) := by rw [← e]; simp
    rcases List.append_eq_append_iff.1 h1 with ⟨as, e1, e2⟩ | ⟨bs, e1, e2⟩
    · cases as with
      | nil => simp at e1; exact h.mem c!":" (by rw [← e1]; simp) (by decide)
      | cons a as => simp at e2
    · exact h.mem c!":" (by rw [e1]; simp) (by decide)
  · intro hpre
    exact h.head c!"%" (head_of_prefix hpre rfl) (by decide)

theorem ws_bytes (h : WsText t) : ∀ b ∈ t, b < 33 ∨ 127 ≤ b := by
  obtain ⟨cs, h1, rfl⟩ := h
  have hw : ∀ c ∈ wsChars, c ≠ [] ∧ ∀ b ∈ c, b < 33 ∨ 127 ≤ b := by decide
  intro b hb
  obtain ⟨c, h2, h3⟩ := List.mem_flatten.1 hb
  exact (hw c (h1 c h2)).2 b h3

/-- A text that begins and ends with a visible ASCII character. -/
theorem tight_safe (hne : t ≠ []) (h1 : ∀ b, t.head? = some b → 33 ≤ b ∧ b < 127)
    (h2 : ∀ b, t.getLast? = some b → 33 ≤ b ∧ b < 127) : Tight t := by
  refine ⟨hne, ?_, ?_⟩
  · rintro w r rfl hw
    cases w with
    | nil => rfl
    | cons a w =>
      have := ws_bytes hw a List.mem_cons_self
      have := h1 a rfl
      omega
  · rintro w r rfl hw
    rcases List.eq_nil_or_concat w with rfl | ⟨w', a, rfl⟩
    · rfl
    · have := ws_bytes hw a (by simp)
      have := h2 a (by simp)
      omega

end Vw
