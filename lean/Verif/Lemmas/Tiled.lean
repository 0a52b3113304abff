import Verif.Lemmas.Pieces

/-!
# Top-level elements tile the page
-/

namespace Vw

variable {C : Ctx}

theorem BlankLines.snoc {ls bs eol : Str} (h : BlankLines ls) (hb : ∀ x ∈ bs, x = 32 ∨ x = 9)
    (he : eol = b!"\n" ∨ eol = b!"\r\n") : BlankLines (ls ++ (bs ++ eol)) := by
  induction h with
  | nil => simpa using BlankLines.cons hb he .nil
  | cons h1 h2 _ ih =>
    rw [List.append_assoc]
    exact .cons h1 h2 ih

theorem blanks_sub {a b : Nat} (h : Blanks C a b) : ∀ x ∈ sub C.inner a b, x = 32 ∨ x = 9 := by
  intro x hx
  obtain ⟨i, i1, i2, i3⟩ := mem_sub.1 hx
  have := h i x i1 i2 i3
  simpa [isSpace] using this

theorem PageAt.nil_of_end {s s' : Span} {es : List (Option (Located Block))} (h : PageAt C s es s')
    (he : s.start = s.stop) : es = [] ∧ s' = s := by
  cases h with
  | nil => exact ⟨rfl, rfl⟩
  | blank h => have := h.lt; have := h.good.step.hi; omega
  | block _ _ h => have := h.lt; have := h.good.step.hi; omega

theorem PageAt.tiled {s s' : Span} {es : List (Option (Located Block))} (h : PageAt C s es s')
    (hend : s'.start = C.inner.length) (hstop : s.stop = C.inner.length) {a : Nat}
    (ha : a ≤ s.start) (hb : BlankLines (sub C.inner a s.start)) :
    Tiled C.inner a (es.filterMap id) := by
  induction h generalizing a with
  | @nil s =>
    refine .nil (by omega) ⟨_, [], hb, by simp, ?_⟩
    rw [← hend]; simp
  | @blank s s1 s2 xs h1 h2 ih =>
    obtain ⟨m, hm1, hm2, hm3⟩ := h1.blank
    have hs1 := h1.good.step.stop
    have hhi := h1.good.step.hi
    rcases hm3.eol with ⟨e1, e2⟩ | ⟨e1, _, e3⟩
    · simp only at e1
      have : s1.start = s1.stop := by rw [e2]; exact e1
      obtain ⟨e4, e5⟩ := h2.nil_of_end this
      subst e4
      refine .nil (by omega) ⟨_, sub C.inner s.start m, hb, blanks_sub hm2, ?_⟩
      rw [sub_append _ _ _ _ ha hm1, e1, hstop]
    · simp only at e1 e3
      refine ih hend (by omega) (by omega) ?_
      rw [← sub_append C.inner a s.start s1.start ha (by omega),
        ← sub_append C.inner s.start m s1.start hm1 (by omega)]
      exact hb.snoc (blanks_sub hm2) e3
  | @block s s1 s2 x xs _ _ h1 _ _ h2 ih =>
    have hs1 := h1.good.step.stop
    have hhi := h1.good.step.hi
    have hr := h1.region
    have ho : x.region.offset = s.start := by rw [hr]
    have hn : x.region.offset + x.region.len + (s1.start - (s.start + x.region.len)) = s1.start := by
      rcases h1.gap with e | ⟨e, _⟩ <;> omega
    refine .cons (n := s1.start - (s.start + x.region.len)) (by omega) (by rw [ho]; exact hb) h1.len
      (by omega) ?_ ?_
    · rcases h1.gap with e | ⟨e, hp, he⟩
      · exact .inl (by omega)
      · refine .inr ⟨hp, ?_⟩
        rw [hn, ho]
        exact he
    · rw [hn]
      refine ih hend (by omega) (Nat.le_refl _) ?_
      rw [sub_self]
      exact .nil

theorem parsePage_tiled {env : Env} {text : Str} {s' : Span} {pg : Page}
    (h : parsePage env text = .ok s' pg) : Tiled text 0 pg.elements := by
  obtain ⟨h1, es, h2, h3⟩ := ok_of_run (parsePage_ok env text) h
  rw [h2]
  exact h3.tiled h1 rfl (Nat.le_refl _) (by rw [show (Span.ofStr text).start = 0 from rfl, sub_self]; exact .nil)

end Vw
