import Verif.Spec.Html
import Verif.Lemmas.Uri

/-! # Lemmas on unique ids -/

namespace Vw
namespace IdCache

theorem get_filter (c : IdCache) (id k : Str) (h : k ≠ id) :
    get (c.filter fun e => e.1 ≠ id) k = c.get k := by
  induction c with
  | nil => rfl
  | cons e c ih =>
    obtain ⟨a, n⟩ := e
    by_cases ha : a = id
    · subst ha
      rw [List.filter_cons_of_neg (by simp), ih, get, if_neg (Ne.symm h)]
    · rw [List.filter_cons_of_pos (by simp [ha]), get, ih, get]

theorem get_insert (c : IdCache) (id k : Str) (n : Nat) :
    (c.insert id n).get k = if id = k then some n else c.get k := by
  by_cases h : id = k
  · simp [insert, get, h]
  · have := get_filter c id k (Ne.symm h)
    simp only [insert, get, h, if_false]
    exact this

theorem get_length (c : IdCache) (k : Str) (h : c.get k ≠ none) (m : Nat) :
    k.length ≤ (c.map fun e => e.1.length).foldl max m := by
  have hm : ∀ (l : List Nat) (m : Nat), m ≤ l.foldl max m := by
    intro l
    induction l with
    | nil => intro m; exact Nat.le_refl _
    | cons x xs ih => intro m; exact Nat.le_trans (Nat.le_max_left m x) (ih _)
  induction c generalizing m with
  | nil => simp [get] at h
  | cons e c ih =>
    obtain ⟨a, n⟩ := e
    simp only [List.map_cons, List.foldl_cons]
    by_cases ha : a = k
    · subst ha
      exact Nat.le_trans (Nat.le_max_right m _) (hm _ _)
    · simp only [get, ha, if_false] at h
      exact ih h _

theorem numbered_length (id : Str) (n : Nat) : id.length + 2 ≤ (numbered id n).length := by
  have := List.length_pos_iff.2 (decStr_ne_nil n)
  simp [numbered]
  omega

theorem numbered_ne (id : Str) (n : Nat) : numbered id n ≠ id := by
  intro h
  have := numbered_length id n
  rw [h] at this
  omega

theorem dash_cut {a b x y : Str} (hx : c!"-" ∉ x) (hy : c!"-" ∉ y)
    (h : a ++ b!"-" ++ x = b ++ b!"-" ++ y) : a = b ∧ x = y := by
  rw [List.append_assoc, List.append_assoc] at h
  rcases List.append_eq_append_iff.1 h with ⟨c, h1, h2⟩ | ⟨c, h1, h2⟩
  · cases c with
    | nil => simp at h1 h2; exact ⟨h1.symm, h2⟩
    | cons z c =>
      simp only [List.cons_append, List.nil_append, List.cons.injEq] at h2
      exact absurd (by rw [h2.2]; simp) hx
  · cases c with
    | nil => simp at h1 h2; exact ⟨h1, h2.symm⟩
    | cons z c =>
      simp only [List.cons_append, List.nil_append, List.cons.injEq] at h2
      exact absurd (by rw [h2.2]; simp) hy

theorem decStr_dash (n : Nat) : c!"-" ∉ decStr n := fun h => by
  have := decStr_digits n _ h
  omega

theorem numbered_inj {a b : Str} {m n : Nat} (h : numbered a m = numbered b n) : a = b ∧ m = n := by
  obtain ⟨h1, h2⟩ := dash_cut (decStr_dash m) (decStr_dash n) h
  refine ⟨h1, ?_⟩
  rw [← decStr_value m, h2, decStr_value]

theorem loop_some (c : IdCache) : ∀ (fuel : Nat) (id : Str),
    (c.map fun e => e.1.length).foldl max 0 + 2 ≤ id.length + fuel → 1 ≤ fuel →
    (loop fuel c id).isSome := by
  intro fuel
  induction fuel with
  | zero => intro id _ h; omega
  | succ fuel ih =>
    intro id hl _
    simp only [loop]
    cases hg : c.get id with
    | none => rfl
    | some count =>
      have hlen := get_length c id (by rw [hg]; simp) 0
      dsimp only
      cases hn : c.get (numbered id (count + 1)) with
      | none =>
        dsimp only
        obtain ⟨k, rfl⟩ : ∃ k, fuel = k + 1 := ⟨fuel - 1, by omega⟩
        have : (c.insert id (count + 1)).get (numbered id (count + 1)) = none := by
          rw [get_insert, if_neg (numbered_ne _ _).symm, hn]
        simp [loop, this]
      | some _ =>
        dsimp only
        have := numbered_length id 1
        exact ih _ (by omega) (by omega)

theorem loop_mono {n m : Nat} {c : IdCache} {id : Str} {r : Str × IdCache} (h : loop n c id = some r) (hm : n ≤ m) :
    loop m c id = some r := by
  induction n generalizing m c id with
  | zero => cases h
  | succ n ih =>
    cases m with
    | zero => omega
    | succ m =>
      simp only [loop] at h ⊢
      cases hg : c.get id with
      | none => rw [hg] at h; exact h
      | some count =>
        rw [hg] at h
        simp only at h ⊢
        cases hn : c.get (numbered id (count + 1)) with
        | none => rw [hn] at h; exact ih h (by omega)
        | some _ => rw [hn] at h; exact ih h (by omega)

theorem last_dash {s : Str} (h : c!"-" ∈ s) : ∃ u v, s = u ++ b!"-" ++ v ∧ c!"-" ∉ v := by
  induction s with
  | nil => cases h
  | cons b s ih =>
    by_cases hs : c!"-" ∈ s
    · obtain ⟨u, v, rfl, hv⟩ := ih hs
      exact ⟨b :: u, v, by simp, hv⟩
    · rcases List.mem_cons.1 h with rfl | h
      · exact ⟨[], s, by simp, hs⟩
      · exact absurd h hs

theorem unique_some (c : IdCache) (id : Str) : (c.unique id).isSome := by
  simp only [unique]
  cases c.get id with
  | none => rfl
  | some n => exact loop_some c _ id (by simp only [rounds]; omega) (by simp only [rounds]; omega)

/-- What the loop returns: a numbered key that is no key, with the number recorded unless
a key with that number exists. -/
theorem loop_spec (c : IdCache) : ∀ (fuel : Nat) (id o : Str) (c' : IdCache) (n : Nat),
    c.get id = some n → loop fuel c id = some (o, c') →
    c.get o = none ∧ ∃ k m, c.get k = some m ∧
      ((o = numbered k (m + 1) ∧ c' = c.insert k (m + 1)) ∨
       (o = numbered k 1 ∧ c' = c ∧ c.get (numbered k (m + 1)) ≠ none)) := by
  intro fuel
  induction fuel with
  | zero => intro id o c' n _ h; cases h
  | succ fuel ih =>
    intro id o c' n hg h
    simp only [loop, hg] at h
    cases hn : c.get (numbered id (n + 1)) with
    | some x =>
      rw [hn] at h
      dsimp only at h
      cases hi : c.get (numbered id 1) with
      | some y => exact ih _ _ _ _ hi h
      | none =>
        cases fuel with
        | zero => cases h
        | succ fuel =>
          simp only [loop, hi, Option.some.injEq, Prod.mk.injEq] at h
          exact ⟨by rw [← h.1]; exact hi, id, n, hg,
            .inr ⟨h.1.symm, h.2.symm, by rw [hn]; simp⟩⟩
    | none =>
      rw [hn] at h
      dsimp only at h
      have hx : (c.insert id (n + 1)).get (numbered id (n + 1)) = none := by
        rw [get_insert, if_neg (numbered_ne _ _).symm, hn]
      cases fuel with
      | zero => cases h
      | succ fuel =>
        simp only [loop, hx, Option.some.injEq, Prod.mk.injEq] at h
        exact ⟨by rw [← h.1]; exact hn, id, n, hg, .inl ⟨h.1.symm, h.2.symm⟩⟩

/-- What `ensure_unique_id` returns. -/
theorem unique_spec {c c' : IdCache} {id o : Str} (h : c.unique id = some (o, c')) :
    c.get o = none ∧
    ((c.get id = none ∧ o = id ∧ c' = c.insert id 0) ∨
     (c.get id ≠ none ∧ ∃ k m, c.get k = some m ∧
      ((o = numbered k (m + 1) ∧ c' = c.insert k (m + 1)) ∨
       (o = numbered k 1 ∧ c' = c ∧ c.get (numbered k (m + 1)) ≠ none)))) := by
  simp only [unique] at h
  cases hg : c.get id with
  | none =>
    simp only [hg, Option.some.injEq, Prod.mk.injEq] at h
    exact ⟨by rw [← h.1]; exact hg, .inl ⟨rfl, h.1.symm, h.2.symm⟩⟩
  | some n =>
    rw [hg] at h
    obtain ⟨h1, h2⟩ := loop_spec c _ id o c' n hg h
    exact ⟨h1, .inr ⟨by simp, h2⟩⟩

/-- The keys after a call are those before and the requested id. -/
theorem unique_keys {c c' : IdCache} {id o : Str} (h : c.unique id = some (o, c')) (k : Str) :
    c'.get k ≠ none ↔ c.get k ≠ none ∨ k = id := by
  obtain ⟨_, h2⟩ := unique_spec h
  rcases h2 with ⟨hg, _, rfl⟩ | ⟨hg, k', m, hk, ⟨_, rfl⟩ | ⟨_, rfl, _⟩⟩
  · rw [get_insert]
    by_cases e : id = k
    · simp [e]
    · simp [e, Ne.symm e]
  · rw [get_insert]
    by_cases e : k' = k
    · subst e; simp [hk]
    · by_cases e' : k = id
      · subst e'; simp [e, hg]
      · simp [e, e']
  · by_cases e' : k = id
    · subst e'; simp [hg]
    · simp [e']

end IdCache

open IdCache

/-- The keys after some calls are those before and the requested ids. -/
theorem Calls.keys {c c' : IdCache} {rs os : List Str} (h : Calls c rs os c') (k : Str) :
    c'.get k ≠ none ↔ c.get k ≠ none ∨ k ∈ rs := by
  induction h with
  | nil c => simp
  | cons h1 _ ih =>
    rw [ih, unique_keys h1]
    simp [or_assoc]

theorem Calls.exists (rs : List Str) : ∀ c, ∃ os c', Calls c rs os c' := by
  induction rs with
  | nil => intro c; exact ⟨[], c, .nil c⟩
  | cons r rs ih =>
    intro c
    obtain ⟨⟨o, c'⟩, h⟩ := Option.isSome_iff_exists.1 (unique_some c r)
    obtain ⟨os, c'', ht⟩ := ih c'
    exact ⟨o :: os, c'', .cons h ht⟩

theorem Calls.append {c c' c'' : IdCache} {rs os rs' os' : List Str} (h : Calls c rs os c')
    (h' : Calls c' rs' os' c'') : Calls c (rs ++ rs') (os ++ os') c'' := by
  induction h with
  | nil c => exact h'
  | cons h1 _ ih => exact .cons h1 (ih h')

/-- What has been returned so far: a key, or a number of a key up to its count. -/
def Returned (c : IdCache) (o : Str) : Prop :=
  c.get o ≠ none ∨ ∃ k n m, o = numbered k n ∧ c.get k = some m ∧ 1 ≤ n ∧ n ≤ m

/-- No key is another key with a number. -/
def PlainIds (c : IdCache) : Prop := ∀ k k' n, c.get k ≠ none → c.get k' ≠ none → 1 ≤ n → k ≠ numbered k' n

theorem Returned.mono {c c' : IdCache} {id o x : Str} (h : c.unique id = some (o, c'))
    (hx : Returned c x) : Returned c' x := by
  rcases hx with hx | ⟨k, n, m, rfl, hk, h1, hle⟩
  · exact .inl ((unique_keys h x).2 (.inl hx))
  · have := unique_spec h
    rcases this with ⟨_, ⟨hg, _, rfl⟩ | ⟨_, k', m', hk', ⟨_, rfl⟩ | ⟨_, rfl, _⟩⟩⟩
    · refine .inr ⟨k, n, m, rfl, ?_, h1, hle⟩
      rw [get_insert, if_neg]
      · exact hk
      · rintro rfl; rw [hg] at hk; cases hk
    · by_cases e : k' = k
      · subst e
        rw [hk] at hk'
        cases hk'
        exact .inr ⟨k', n, m + 1, rfl, by rw [get_insert, if_pos rfl], h1, by omega⟩
      · exact .inr ⟨k, n, m, rfl, by rw [get_insert, if_neg e]; exact hk, h1, hle⟩
    · exact .inr ⟨k, n, m, rfl, hk, h1, hle⟩

theorem unique_fresh {c c' : IdCache} {id o : Str} (hp : PlainIds c') (h : c.unique id = some (o, c')) :
    ¬ Returned c o ∧ Returned c' o := by
  obtain ⟨hno, h2⟩ := unique_spec h
  have hkeys := unique_keys h
  rcases h2 with ⟨hg, rfl, rfl⟩ | ⟨hg, k, m, hk, h3⟩
  · refine ⟨?_, .inl ((hkeys _).2 (.inr rfl))⟩
    rintro (hx | ⟨k, n, m, rfl, hk, h1, hle⟩)
    · exact hx hno
    · exact hp _ k n ((hkeys _).2 (.inr rfl)) ((hkeys k).2 (.inl (by rw [hk]; simp))) h1 rfl
  · have hkk : c'.get k ≠ none := (hkeys k).2 (.inl (by rw [hk]; simp))
    rcases h3 with ⟨rfl, rfl⟩ | ⟨rfl, rfl, hx⟩
    · refine ⟨?_, .inr ⟨k, m + 1, m + 1, rfl, by rw [get_insert, if_pos rfl], by omega, by omega⟩⟩
      rintro (hx | ⟨k', n, m', he, hk', h1, hle⟩)
      · exact hx hno
      · obtain ⟨rfl, rfl⟩ := numbered_inj he
        rw [hk] at hk'
        cases hk'
        omega
    · exact absurd rfl (hp _ k (m + 1) ((hkeys _).2 (.inl hx)) hkk (by omega))

theorem PlainIds.before {c c' : IdCache} {rs os : List Str} (h : Calls c rs os c') (hp : PlainIds c') :
    PlainIds c :=
  fun k k' n hk hk' => hp k k' n ((h.keys k).2 (.inl hk)) ((h.keys k').2 (.inl hk'))

theorem Returned.calls {c c' : IdCache} {rs os : List Str} (h : Calls c rs os c') {x : Str}
    (hx : Returned c x) : Returned c' x := by
  induction h with
  | nil c => exact hx
  | cons h1 _ ih => exact ih (hx.mono h1)

/-- Different results, none of them returned before. -/
theorem Calls.nodup {c c' : IdCache} {rs os : List Str} (h : Calls c rs os c') (hp : PlainIds c') :
    os.Nodup ∧ ∀ o ∈ os, ¬ Returned c o := by
  induction h with
  | nil c => simp
  | cons h1 ht ih =>
    obtain ⟨hn, ho⟩ := ih hp
    obtain ⟨hf, hr⟩ := unique_fresh (PlainIds.before ht hp) h1
    refine ⟨List.nodup_cons.2 ⟨fun hm => ho _ hm hr, hn⟩, ?_⟩
    intro o hm
    rcases List.mem_cons.1 hm with rfl | hm
    · exact hf
    · exact fun hx => ho o hm (hx.mono h1)

/-- No result was requested before. -/
theorem Calls.not_requested {c c' : IdCache} {rs os : List Str} (h : Calls c rs os c') :
    ∀ o ∈ os, c.get o = none := by
  induction h with
  | nil c => simp
  | cons h1 _ ih =>
    intro o hm
    rcases List.mem_cons.1 hm with rfl | hm
    · exact (unique_spec h1).1
    · cases hg : IdCache.get _ o with
      | none => rfl
      | some n =>
        have := ih o hm
        exact absurd this ((unique_keys h1 o).2 (.inl (by rw [hg]; simp)))

end Vw
