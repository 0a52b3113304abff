import Verif.Lemmas.Leaf
import Verif.Spec.VimwikiOut

/-!
# Reading a page block by block
-/

namespace Vw

open P Scan

variable {C : Ctx} {s s' : Span} {t w r : Str} {k : Nat}

/-- At any beginning of a line, `t` followed by `rest` is read as one block with `Q`,
unless the parser panics. -/
def Reads (C : Ctx) (t rest : Str) (Q : Block → Prop) : Prop :=
  t.getLast? = some 10 ∧ ∀ s, AtBol s → C.In 2 s → s.depth = 0 → View s (t ++ rest) → blankLine s = .err ∧
    ∀ s' x, topLevel C.env s = .ok s' x → s' = adv s t.length ∧ Q x.inner

/-- The texts of blocks, each read when followed by the others. -/
def ReadsAll (C : Ctx) (sep : Str) : List (Str × (Block → Prop)) → Prop
  | [] => True
  | p :: l => Reads C p.1 (l.flatMap (sep ++ ·.1)) p.2 ∧ ReadsAll C sep l

/-- The blocks read have the properties listed. -/
def Fits : List (Located Block) → List (Str × (Block → Prop)) → Prop
  | [], [] => True
  | x :: xs, p :: l => p.2 x.inner ∧ Fits xs l
  | _, _ => False

theorem many0Loop_inv {α} {p : P α} {n : Nat} {xs : List α} (h : many0Loop p n s = .ok s' xs) :
    (p s = .err ∧ s' = s ∧ xs = []) ∨
      ∃ m s1 x ys, n = m + 1 ∧ p s = .ok s1 x ∧ xs = x :: ys ∧ many0Loop p m s1 = .ok s' ys := by
  cases n with
  | zero => cases h
  | succ m =>
    unfold many0Loop at h
    cases hp : p s with
    | ok s1 x =>
      rw [hp] at h
      simp only at h
      split at h
      · cases h
      · cases hm : many0Loop p m s1 with
        | ok s2 ys =>
          rw [hm] at h
          cases h
          exact .inr ⟨m, s1, x, ys, rfl, rfl, rfl, hm⟩
        | err => rw [hm] at h; cases h
        | panic _ => rw [hm] at h; cases h
        | diverge => rw [hm] at h; cases h
    | err => rw [hp] at h; cases h; exact .inl ⟨rfl, rfl, rfl⟩
    | panic _ => rw [hp] at h; cases h
    | diverge => rw [hp] at h; cases h

theorem AtBol.after (hv : View s (w ++ r)) (hw : w.getLast? = some 10) : AtBol (adv s w.length) := by
  obtain ⟨u, rfl⟩ : ∃ u, w = u ++ [10] := by
    refine ⟨w.dropLast, ?_⟩
    have hne : w ≠ [] := by rintro rfl; cases hw
    rw [List.getLast?_eq_some_getLast hne] at hw
    have := List.dropLast_concat_getLast hne
    rw [← this]
    simp at hw
    simp [hw]
  have : View s (u ++ 10 :: r) := by simpa using hv
  simpa using AtBol.next this

theorem maybeBlock_blank {env : Env} {o : Span} {x : Option (Located Block)} (h : blankLine s = .ok (adv s 1) o)
    (hm : maybeBlock env s = .ok s' x) : s' = adv s 1 ∧ x = none := by
  unfold maybeBlock alt at hm
  have : P.value (none : Option (Located Block)) blankLine s = .ok (adv s 1) none := by
    unfold P.value P.map
    rw [h]
  rw [this] at hm
  cases hm
  exact ⟨rfl, rfl⟩

theorem maybeBlock_block {env : Env} {x : Option (Located Block)} (h : blankLine s = .err)
    (hm : maybeBlock env s = .ok s' x) : ∃ y, x = some y ∧ topLevel env s = .ok s' y := by
  unfold maybeBlock alt at hm
  have : P.value (none : Option (Located Block)) blankLine s = .err := by
    unfold P.value P.map
    rw [h]
  rw [this] at hm
  simp only at hm
  obtain ⟨y, h1, h2⟩ := map_inv hm
  exact ⟨y, h2, h1⟩

/-- The outcome of the loop over the blocks of a page. -/
theorem readAll {sep : Str} (hsep : sep = [] ∨ sep = b!"\n") :
    ∀ (l : List (Str × (Block → Prop))) (n : Nat) (s s' : Span) (xs : List (Option (Located Block))),
      ReadsAll C sep l → AtBol s → C.In 2 s → s.depth = 0 →
      many0Loop (maybeBlock C.env) n s = .ok s' xs → s'.start = s'.stop →
      (View s (l.flatMap (sep ++ ·.1)) → Fits (xs.filterMap id) l) ∧
      (∀ p l', l = p :: l' → View s (p.1 ++ l'.flatMap (sep ++ ·.1)) → Fits (xs.filterMap id) l) := by
  intro l
  induction l with
  | nil =>
    intro n s s' xs _ hb hi hd hm he
    refine ⟨fun hv => ?_, fun p l' e => by cases e⟩
    rcases many0Loop_inv hm with ⟨-, -, rfl⟩ | ⟨m, s1, x, ys, rfl, hx, rfl, -⟩
    · trivial
    · exfalso
      have hlt := (maybeBlock_progress (k := 0) hi hx)
      have h1 := hv.len
      have h2 := hlt.1.step.stop
      have h3 := hlt.2.1
      have h4 := (ok_of_run (maybeBlock_ok (k := 0) hi) hx)
      have : s1.start ≤ s1.stop := (hi.good hlt.1).wf.le
      simp at h1
      omega
  | cons p l ih =>
    intro n s s' xs hr hb hi hd hm he
    have first : ∀ (n : Nat) (s : Span) (xs : List (Option (Located Block))), AtBol s → C.In 2 s → s.depth = 0 →
        many0Loop (maybeBlock C.env) n s = .ok s' xs →
        View s (p.1 ++ l.flatMap (sep ++ ·.1)) → Fits (xs.filterMap id) (p :: l) := by
      intro n s xs hb hi hd hm hv
      obtain ⟨⟨h10, h1⟩, h2⟩ := hr
      obtain ⟨hbl, h1⟩ := h1 s hb hi hd hv
      have hne : p.1 ≠ [] := by intro e; rw [e] at h10; cases h10
      rcases many0Loop_inv hm with ⟨he', rfl, rfl⟩ | ⟨m, s1, x, ys, rfl, hx, rfl, hm'⟩
      · exfalso
        have := hv.len
        have h0 := List.length_pos_iff.2 hne
        rw [List.length_append] at this
        omega
      · obtain ⟨y, rfl, hy⟩ := maybeBlock_block hbl hx
        obtain ⟨e, hq⟩ := h1 _ _ hy
        have hg := (maybeBlock_progress (k := 0) hi hx).1
        subst e
        refine ⟨hq, ?_⟩
        exact (ih m _ _ _ h2 (AtBol.after hv h10) (hi.good hg) hd hm' he).1 hv.adv
    refine ⟨fun hv => ?_, fun p' l' e hv => by cases e; exact first n s xs hb hi hd hm hv⟩
    rcases hsep with rfl | rfl
    · exact first n s xs hb hi hd hm (by simpa using hv)
    · have hv : View s ([10] ++ (p.1 ++ l.flatMap (b!"\n" ++ ·.1))) := by simpa using hv
      obtain ⟨o, hbl⟩ := blankLine_run hb hv
      rcases many0Loop_inv hm with ⟨he', rfl, rfl⟩ | ⟨m, s1, x, ys, rfl, hx, rfl, hm'⟩
      · exfalso
        have := hv.len
        rw [List.length_append] at this
        simp at this
        omega
      · obtain ⟨rfl, rfl⟩ := maybeBlock_blank hbl hx
        have hg := (maybeBlock_progress (k := 0) hi hx).1
        exact first m _ ys (AtBol.after hv rfl) (hi.good hg) hd hm' hv.adv

/-- A page of blocks that are read back. -/
theorem page_reads {env : Env} {text sep : Str} {pg : Page} (hsep : sep = [] ∨ sep = b!"\n")
    {l : List (Str × (Block → Prop))} (hl : ReadsAll (Ctx.ofText env text) sep l)
    (ht : text = joined sep (l.map (·.1))) (h : parsePage env text = .ok s' pg) :
    Fits pg.elements l := by
  unfold parsePage page at h
  obtain ⟨es, h1, rfl⟩ := map_inv h
  unfold allConsuming at h1
  cases hm : many0 (maybeBlock env) (Span.ofStr text) with
  | err => rw [hm] at h1; cases h1
  | panic _ => rw [hm] at h1; cases h1
  | diverge => rw [hm] at h1; cases h1
  | ok s2 es' =>
    rw [hm] at h1
    simp only at h1
    split at h1
    · next h0 =>
      cases h1
      have hi := Ctx.ofText_in env text
      have hend : s'.start = s'.stop := by
        have := ok_of_run (page_ok (C := Ctx.ofText env text) hi (.inr (.inl rfl))) h
        exact this.1
      have hm : many0Loop (maybeBlock (Ctx.ofText env text).env) _ (Span.ofStr text) = .ok s' es := hm
      have := readAll (C := Ctx.ofText env text) hsep l _ _ _ _ hl (AtBol.ofStr text) hi rfl hm hend
      have hv := View.ofStr text
      cases l with
      | nil =>
        refine this.1 ?_
        simp [joined] at ht
        subst ht
        exact hv
      | cons p l =>
        refine this.2 p l rfl ?_
        have key : ∀ (p : Str × (Block → Prop)) (l : List (Str × (Block → Prop))),
            joined sep ((p :: l).map (·.1)) = p.1 ++ l.flatMap (sep ++ ·.1) := by
          intro p l
          induction l generalizing p with
          | nil => simp [joined]
          | cons q l ih =>
            have := ih q
            simp only [List.map_cons] at this ⊢
            rw [joined, this, List.flatMap_cons, List.append_assoc]
            simp
        rw [← key, ← ht]
        exact hv
    · cases h1

end Vw
