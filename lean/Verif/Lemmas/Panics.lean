import Verif.Lemmas.Utf8
import Verif.Lemmas.BlocksB
import Verif.Lemmas.InlineErr
import Verif.Spec.Panics

/-!
# The conditions of panics in terms of the text
-/

namespace Vw

variable {env : Env} {text : Str}

theorem wsCharLen_wide {l : Str} (h : 2 ≤ wsCharLen l) : ∃ w ∈ wideBlanks, w <+: l := by
  unfold wsCharLen at h
  split at h
  · exact ⟨[0xC2, 0x85], by decide, _, rfl⟩
  · exact ⟨[0xC2, 0xA0], by decide, _, rfl⟩
  · exact ⟨[0xE1, 0x9A, 0x80], by decide, _, rfl⟩
  · rename_i c _
    split at h
    · rename_i hc
      refine ⟨[0xE2, 0x80, c], ?_, _, rfl⟩
      have : c = 0x80 ∨ c = 0x81 ∨ c = 0x82 ∨ c = 0x83 ∨ c = 0x84 ∨ c = 0x85 ∨ c = 0x86 ∨
          c = 0x87 ∨ c = 0x88 ∨ c = 0x89 ∨ c = 0x8A ∨ c = 0xA8 ∨ c = 0xA9 ∨ c = 0xAF := by omega
      rcases this with h | h | h | h | h | h | h | h | h | h | h | h | h | h <;> subst h <;> decide
    · omega
  · exact ⟨[0xE2, 0x81, 0x9F], by decide, _, rfl⟩
  · exact ⟨[0xE3, 0x80, 0x80], by decide, _, rfl⟩
  · split at h <;> omega
  · omega

theorem asciiWs_iff_wsByte {b : Byte} : isAsciiWs b = true ↔ WsByte b := by
  unfold isAsciiWs WsByte
  simp [or_assoc]

theorem fromWord_of {p : Nat} (h : p ≤ text.length)
    (hw : (Ctx.ofText env text).WordFrom p) : FromWord text (text.drop p) := by
  rcases hw with rfl | ⟨b, hb, hws⟩
  · exact .inl rfl
  · have hb : text[p - 1]? = some b := hb
    rcases Nat.eq_zero_or_pos p with rfl | h0
    · exact .inl rfl
    · refine .inr ⟨text.take (p - 1), b, ?_, asciiWs_iff_wsByte.1 hws⟩
      have hlt : p - 1 < text.length := by omega
      rw [List.getElem?_eq_getElem hlt] at hb
      cases hb
      have := List.drop_eq_getElem_cons hlt
      rw [show p - 1 + 1 = p by omega] at this
      rw [← this, List.take_append_drop]

/-- A panic that the proofs about the parsers allow needs something in the text. -/
theorem needs_of_allow {r : Reason} (h : (Ctx.ofText env text).Allow r) : PanicNeeds env text r := by
  cases r with
  | textUnderflow =>
    obtain ⟨p, q, hw, ⟨j, u, sc, hpj, hj, hu, hsc, hm⟩, hpq, hq, hno⟩ := h
    have hj : j ≤ text.length := hj
    have hq : text[q]? = some c!":" := hq
    have hql : q < text.length := (List.getElem?_eq_some_iff.1 hq).1
    refine ⟨text.drop p, fromWord_of (by omega) hw, ⟨sub text p j, u, sc, ?_, ?_, hu, hsc,
      by rw [← rawSchemes_eq]; exact hm⟩, sub text p q, text.drop (q + 1), ?_, ?_, ?_⟩
    · intro e
      have := sub_length text p j hj
      rw [e] at this
      simp at this
      omega
    · unfold sub
      rw [List.drop_take]
      exact List.take_prefix _ _
    · intro e
      have := sub_length text p q (by omega)
      rw [e] at this
      simp at this
      omega
    · have e : text.drop q = c!":" :: text.drop (q + 1) := by
        rw [List.drop_eq_getElem_cons hql]
        rw [List.getElem?_eq_getElem hql] at hq
        rw [Option.some.inj hq]
      rw [← e]
      unfold sub
      rw [List.drop_take]
      have := List.take_append_drop (q - p) (text.drop p)
      rw [List.drop_drop, show p + (q - p) = q by omega] at this
      exact this.symm
    · intro b hb hws
      obtain ⟨i, i1, i2, i3⟩ := mem_sub.1 hb
      have := hno i i1 i2 b i3
      rw [asciiWs_iff_wsByte.2 hws] at this
      cases this
  | dedentBoundary =>
    rcases h with ⟨i, hi⟩ | h
    · obtain ⟨w, hw, hp⟩ := wsCharLen_wide hi
      exact .inl ⟨w, hw, hp.isInfix.trans (List.drop_suffix _ _).isInfix⟩
    · exact .inr fun hv => h (ValidUtf8.utf8ish hv)
  | diaryUnwrap => exact h
  | depthOverflow =>
    have : 65535 ≤ text.length + 2 := h
    show 65533 ≤ text.length
    omega
  | offsetUnderflow => exact h

theorem Calm.no (hs : env.SchemeSound) (h : Calm env text) (r : Reason) :
    ¬ PanicNeeds env text r := by
  cases r with
  | textUnderflow =>
    rintro ⟨w, hw, ⟨l, u, sc, -, ⟨r, rfl⟩, hu, hsc, hm⟩, -⟩
    refine h.links _ hw ⟨sc, hm, ?_⟩
    rw [List.map_append]
    exact (hs l u sc hu hsc hm).trans (List.prefix_append _ _)
  | dedentBoundary =>
    rintro (⟨w, hw, hi⟩ | hv)
    · exact h.blanks w hw hi
    · exact hv h.utf8
  | diaryUnwrap => exact h.diary
  | depthOverflow =>
    intro (hl : 65533 ≤ text.length)
    have := h.short
    omega
  | offsetUnderflow => exact id

/-- The condition on links checked at every position. -/
theorem calm_links (h : ∀ i, i ≤ text.length → ∀ sc ∈ linkSchemes,
    ¬ (sc ++ b!":") <+: (text.drop i).map lowerByte) (w : Str) (hw : FromWord text w) :
    ¬ SchemeStart w := by
  rintro ⟨sc, hsc, hp⟩
  rcases hw with rfl | ⟨a, b, rfl, -⟩
  · exact h 0 (Nat.zero_le _) sc hsc hp
  · refine h (a.length + 1) (by simp) sc hsc ?_
    rw [← List.drop_drop, List.drop_left]
    exact hp

/-- ASCII text without a colon is calm. -/
theorem Calm.ascii (ha : ∀ b ∈ text, b < 128) (hc : c!":" ∉ text) (hl : text.length < 65533) :
    Calm env text := by
  refine ⟨.ascii ha, hl, ?_, ?_, fun h => hc (h.1.subset (by decide))⟩
  · intro w hw hi
    have : ∀ w ∈ wideBlanks, ∃ b ∈ w, 128 ≤ b := by decide
    obtain ⟨b, hb, h⟩ := this w hw
    have := ha b (hi.subset hb)
    omega
  · rintro w hw ⟨sc, hsc, hp⟩
    have h1 : c!":" ∈ w.map lowerByte := hp.subset (by simp)
    obtain ⟨b, hb, he⟩ := List.mem_map.1 h1
    have : b = c!":" := by
      unfold lowerByte at he
      split at he
      · have : b + 32 = 58 := he
        omega
      · exact he
    subst this
    rcases hw with rfl | ⟨a, x, rfl, -⟩
    · exact hc hb
    · exact hc (by simp [hb])

end Vw
