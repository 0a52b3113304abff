import Verif.Lemmas.Inline
import Verif.Spec.Apart
import Verif.Spec.Strings
import Verif.Spec.InlineText

/-!
# Decorations inside decorations
-/

namespace Vw

variable {C : Ctx}

theorem sub_len {s : Str} {a b : Nat} (hb : b ≤ s.length) : (sub s a b).length = b - a := by
  simp [sub]; omega

/-- Text between two delimiters does not hold the same delimiters around some text. -/
theorem BracketOk.noInner {a b a' b' : Nat} {D c c' : Str} (hD : D ≠ []) (h : BracketOk C a b D D c)
    (h' : BracketOk C a' b' D D c') (ha : a + D.length ≤ a') (hb : b' + D.length ≤ b)
    (hl : b ≤ C.inner.length) : False := by
  have hd : 0 < D.length := List.length_pos_iff.2 hD
  have hc' : 0 < c'.length := List.length_pos_iff.2 h'.ne
  have e1 := congrArg List.length h.eq
  have e2 := congrArg List.length h'.eq
  rw [sub_len (by omega)] at e1 e2
  simp only [List.length_append] at e1 e2
  refine h.first (b' - D.length - (a + D.length)) (by omega) (by omega) ?_
  have hcR : c ++ D = (C.inner.drop (a + D.length)).take (b - (a + D.length)) := by
    have := congrArg (List.drop D.length) h.eq
    rw [List.append_assoc, List.drop_left] at this
    refine this.symm.trans ?_
    rw [sub, List.drop_take, List.drop_take, List.drop_drop]
    congr 1; omega
  have hDR : D = (C.inner.drop (b' - D.length)).take D.length := by
    have := congrArg (List.drop (D.length + c'.length)) h'.eq
    rw [show D.length + c'.length = (D ++ c').length by simp, List.drop_left] at this
    refine this.symm.trans ?_
    rw [sub, List.drop_take, List.drop_take, List.drop_drop, List.length_append]
    congr 1
    · omega
    · congr 1; omega
  rw [hcR]
  unfold At
  rw [List.drop_take, List.drop_drop, List.take_take]
  conv => rhs; rw [hDR]
  congr 1
  · omega
  · congr 1; omega

theorem Tile.aparts {d a b : Nat} {xs : Inlines} (h : Tile C d a xs b) : ∀ ks : List Deco,
    (∀ k ∈ ks, ∃ a0 b0 c, BracketOk C a0 b0 k.delim k.delim c ∧ a0 + k.delim.length ≤ a ∧
      b + k.delim.length ≤ b0 ∧ b0 ≤ C.inner.length) → Inline.Aparts ks xs := by
  induction h with
  | nil => intro ks _; simp [Inline.Aparts]
  | @leaf d a n x xs b hn h1 h2 h3 hp ht _ _ ih =>
    intro ks hk
    refine ⟨?_, ih ks fun k hm => ?_⟩
    · cases x with
      | decorated => exact hp.elim
      | _ => simp [Inline.Apart]
    · obtain ⟨a0, b0, c, g1, g2, g3, g4⟩ := hk k hm
      exact ⟨a0, b0, c, g1, by omega, g3, g4⟩
  | @deco d a n kind ys e xs b hn h1 h2 h3 h4 h5 h6 _ h7 h8 ih1 ih2 =>
    intro ks hk
    have := h8.le
    have := h7.le
    refine ⟨⟨?_, ih1 _ ?_⟩, ih2 ks fun k hm => ?_⟩
    · intro hm
      obtain ⟨a0, b0, c, g1, g2, g3, g4⟩ := hk kind hm
      obtain ⟨c', h4⟩ := h4
      exact g1.noInner (by cases kind <;> simp [Deco.delim]) h4 g2 (by omega) g4
    · intro k hm
      rcases List.mem_cons.1 hm with rfl | hm
      · obtain ⟨c', h4⟩ := h4
        exact ⟨a, a + n, c', h4, Nat.le_refl _, h6, h3⟩
      · obtain ⟨a0, b0, c, g1, g2, g3, g4⟩ := hk k hm
        exact ⟨a0, b0, c, g1, by omega, by omega, g4⟩
    · obtain ⟨a0, b0, c, g1, g2, g3, g4⟩ := hk k hm
      exact ⟨a0, b0, c, g1, by omega, g3, g4⟩

mutual
theorem Inline.Apart.inside {ks : List Deco} {x : Inline} (h : Inline.Apart ks x) :
    ∀ y ∈ Inline.inside x, ∀ k zs, y.inner = .decorated k zs → k ∉ ks := by
  match x with
  | .decorated k cs =>
    intro y hy j zs e hm
    rw [Inline.Apart] at h
    exact Inline.Aparts.inside h.2 y hy j zs e (List.mem_cons_of_mem _ hm)
  | .text _ | .keyword _ | .link _ | .tags _ | .code _ | .math _ | .comment _ =>
    intro y hy; simp [Inline.inside] at hy
theorem Inline.Aparts.inside {ks : List Deco} {xs : List (Located Inline)} (h : Inline.Aparts ks xs) :
    ∀ y ∈ Inline.all xs, ∀ k zs, y.inner = .decorated k zs → k ∉ ks := by
  match xs with
  | [] => intro y hy; simp [Inline.all] at hy
  | ⟨x, r⟩ :: xs =>
    rw [Inline.Aparts] at h
    intro y hy k zs e
    simp only [Inline.all, List.mem_cons, List.mem_append] at hy
    rcases hy with rfl | hy | hy
    · simp only at e
      subst e
      exact (by simpa [Inline.Apart] using h.1 : _ ∧ _).1
    · exact Inline.Apart.inside h.1 y hy k zs e
    · exact Inline.Aparts.inside h.2 y hy k zs e
end

private theorem nodup_len_le {α : Type} [DecidableEq α] : ∀ {xs ys : List α}, xs.Nodup → (∀ x ∈ xs, x ∈ ys) → xs.length ≤ ys.length
  | [], _, _, _ => Nat.zero_le _
  | x :: xs, ys, hn, hs => by
    rw [List.nodup_cons] at hn
    have := nodup_len_le (xs := xs) (ys := ys.erase x) hn.2 fun y hy => by
      have hne : y ≠ x := by rintro rfl; exact hn.1 hy
      exact (List.mem_erase_of_ne hne).2 (hs y (by simp [hy]))
    rw [List.length_erase_of_mem (hs x (by simp))] at this
    have : 0 < ys.length := List.length_pos_of_mem (hs x (by simp))
    simp only [List.length_cons]; omega

theorem deco_nodup_le {ks : List Deco} (h : ks.Nodup) : ks.length ≤ 5 := by
  have : ks ⊆ [Deco.bold, .italic, .strikeout, .superscript, .subscript] := by
    intro k _; cases k <;> simp
  exact nodup_len_le h this

mutual
theorem Inline.Apart.nest_le {ks : List Deco} {x : Inline} (hk : ks.Nodup) (h : Inline.Apart ks x) :
    x.nest + ks.length ≤ 5 := by
  match x with
  | .decorated k cs =>
    rw [Inline.Apart] at h
    have := Inline.Aparts.nest_le (List.nodup_cons.2 ⟨h.1, hk⟩) h.2
    simp only [Inline.nest, List.length_cons] at *
    omega
  | .text _ | .keyword _ | .link _ | .tags _ | .code _ | .math _ | .comment _ =>
    have := deco_nodup_le hk
    simpa [Inline.nest] using this
theorem Inline.Aparts.nest_le {ks : List Deco} {xs : List (Located Inline)} (hk : ks.Nodup)
    (h : Inline.Aparts ks xs) : Inline.nestAll xs + ks.length ≤ 5 := by
  match xs with
  | [] => have := deco_nodup_le hk; simpa [Inline.nestAll] using this
  | ⟨x, r⟩ :: xs =>
    rw [Inline.Aparts] at h
    have h1 := Inline.Apart.nest_le hk h.1
    have h2 := Inline.Aparts.nest_le hk h.2
    simp only [Inline.nestAll]
    omega
end

end Vw
