import Verif.Spec.Wasm
import Verif.Lemmas.Children
import Verif.Lemmas.Table

/-!
# Lemmas about the JavaScript package
-/

namespace Vw

/-- The walks below the elements of a list, which leave them out. -/
theorem Walk.deeper {xs us : List (Located Element)} (h : Walk xs us) :
    ∃ vs, Walk (xs.flatMap fun x => x.inner.children) vs ∧ us.Perm (xs ++ vs) := by
  induction h with
  | nil => exact ⟨[], .nil, .refl _⟩
  | @cons x xs us zs h1 _ _ ih2 =>
    obtain ⟨vs, h3, h4⟩ := ih2
    refine ⟨us ++ vs, ?_, ?_⟩
    · rw [List.flatMap_cons]
      exact h1.append h3
    · rw [List.cons_append]
      refine .cons _ ?_
      refine (h4.append_left us).trans ?_
      rw [← List.append_assoc, ← List.append_assoc]
      exact (List.perm_append_comm).append_right vs

/-- Every walk has the same elements as the levels. -/
theorem Walk.levels : ∀ (n : Nat) {xs us : List (Located Element)}, us.length ≤ n → Walk xs us →
    ∃ ls, Levels xs ls ∧ us.Perm ls := by
  intro n
  induction n with
  | zero =>
    intro xs us hn h
    cases h with
    | nil => exact ⟨[], .nil, .refl _⟩
    | cons => simp at hn
  | succ n ih =>
    intro xs us hn h
    cases xs with
    | nil => cases h; exact ⟨[], .nil, .refl _⟩
    | cons x xs =>
      obtain ⟨vs, h1, h2⟩ := h.deeper
      have hl := h2.length_eq
      simp only [List.cons_append, List.length_cons, List.length_append] at hl
      obtain ⟨ls, h3, h4⟩ := ih (us := vs) (by omega) h1
      exact ⟨_, .cons (by simp) h3, h2.trans (h4.append_left _)⟩

/-- The queue empties its first elements and takes in their children. -/
theorem jsVisit_step (xs : List (Located Element)) : ∀ (fuel : Nat) (zs acc : List (Located Element)),
    jsVisit (xs.length + fuel) (xs ++ zs) acc = jsVisit fuel (zs ++ xs.flatMap fun x => x.inner.children) (acc ++ xs) := by
  induction xs with
  | nil => intro fuel zs acc; simp
  | cons x xs ih =>
    intro fuel zs acc
    rw [List.length_cons, show xs.length + 1 + fuel = (xs.length + fuel) + 1 by omega, List.cons_append, jsVisit,
      List.append_assoc, ih]
    simp [List.append_assoc]

theorem Levels.visit {xs ls : List (Located Element)} (h : Levels xs ls) : ∀ (fuel : Nat) (acc : List (Located Element)),
    ls.length ≤ fuel → jsVisit fuel xs acc = some (acc ++ ls) := by
  induction h with
  | nil => intro fuel acc _; simp [jsVisit]
  | @cons xs ys _ _ ih =>
    intro fuel acc hf
    rw [List.length_append] at hf
    obtain ⟨k, rfl⟩ : ∃ k, fuel = xs.length + k := ⟨fuel - xs.length, by omega⟩
    have := jsVisit_step xs k [] acc
    simp only [List.append_nil, List.nil_append] at this
    rw [this, ih k _ (by omega), List.append_assoc]

theorem Levels.unique {xs ls ms : List (Located Element)} (h : Levels xs ls) (h' : Levels xs ms) : ls = ms := by
  induction h generalizing ms with
  | nil => cases h' with
    | nil => rfl
    | cons h => exact absurd rfl h
  | cons hn _ ih => cases h' with
    | nil => exact absurd rfl hn
    | cons _ h2 => rw [ih h2]

/-! ## Tables -/

theorem rowCells_zipIdx (row : Nat) (xs : List (Located Cell)) : ∀ i,
    rowCells row i xs = (xs.zipIdx i).map fun e => ((⟨row, e.2⟩ : CellPos), e.1) := by
  induction xs with
  | nil => intro i; rfl
  | cons x xs ih => intro i; rw [rowCells, ih]; simp

theorem jsTable_eq (rows : List (Option (List (Option (Located Cell))))) (centered : Bool) :
    jsTable rows centered = Table.new (tableCells 0 (rows.map fun r => (r.getD []).filterMap id)) centered := by
  have : ∀ i, (rows.zipIdx i).flatMap (fun e => match e.1 with
      | some cells => jsRow e.2 cells
      | none => []) = tableCells i (rows.map fun r => (r.getD []).filterMap id) := by
    induction rows with
    | nil => intro i; rfl
    | cons r rows ih =>
      intro i
      rw [List.zipIdx_cons, List.flatMap_cons, ih, List.map_cons, tableCells, rowCells_zipIdx]
      cases r <;> rfl
  exact congrArg (Table.new · centered) (this 0)

theorem filterMap_getElem_noGap {α : Type} : ∀ (xs : List (Option α)) (c : Nat), NoGapBefore xs (c + 1) →
    (xs.filterMap id)[c]? = (xs[c]?).bind id
  | [], c, _ => by simp
  | none :: xs, c, h => absurd rfl (h 0 (by omega) none (by simp))
  | some x :: xs, 0, _ => by simp
  | some x :: xs, c + 1, h => by
    have := filterMap_getElem_noGap xs c (fun i hi y hy => h (i + 1) (by omega) y (by simpa using hy))
    simpa using this

end Vw
