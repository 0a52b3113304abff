import Verif.Lemmas.Elements

/-!
# Lemmas about list items
-/

namespace Vw

/-! ## Alphabetic prefixes -/

/-- `wordValue` continued from a value. -/
def wordFrom (base v : Nat) (w : Str) : Nat := w.foldl (fun v b => v * 26 + (b - base + 1)) v

theorem wordValue_snoc (base : Nat) (w : Str) (x : Byte) :
    wordValue base (w ++ [x]) = wordValue base w * 26 + (x - base + 1) := by
  simp [wordValue]

theorem alphaLoop_value (base i : Nat) : wordValue base (alphaLoop base i).reverse = i + 1 := by
  induction i using Nat.strongRecOn with
  | ind i ih =>
    rw [alphaLoop]
    split
    · next h =>
      rw [List.reverse_cons, wordValue_snoc, ih _ (by omega)]
      omega
    · next h =>
      simp [wordValue]; omega

theorem alphaLoop_letters (base i : Nat) : ∀ b ∈ alphaLoop base i, base ≤ b ∧ b < base + 26 := by
  induction i using Nat.strongRecOn with
  | ind i ih =>
    rw [alphaLoop]
    split
    · next h =>
      intro b hb
      rcases List.mem_cons.1 hb with rfl | hb
      · omega
      · exact ih _ (by omega) b hb
    · intro b hb
      rw [List.mem_singleton] at hb
      omega

theorem alphaLoop_ne_nil (base i : Nat) : alphaLoop base i ≠ [] := by
  rw [alphaLoop]; split <;> simp

theorem wordFrom_lt {base : Nat} {s t : Str} (hl : s.length = t.length) {v v' : Nat} (h : v < v')
    (hs : ∀ b ∈ s, base ≤ b ∧ b < base + 26) (ht : ∀ b ∈ t, base ≤ b ∧ b < base + 26) :
    wordFrom base v s < wordFrom base v' t := by
  induction s generalizing t v v' with
  | nil =>
    cases t with
    | nil => simpa [wordFrom]
    | cons => simp at hl
  | cons a s ih =>
    cases t with
    | nil => simp at hl
    | cons b t =>
      have h1 := hs a (by simp)
      have h2 := ht b (by simp)
      show wordFrom base (v * 26 + (a - base + 1)) s < wordFrom base (v' * 26 + (b - base + 1)) t
      exact ih (by simpa using hl) (by omega) (fun x hx => hs x (by simp [hx])) (fun x hx => ht x (by simp [hx]))

theorem wordFrom_add {base : Nat} (v : Nat) (s : Str) :
    wordFrom base v s = v * 26 ^ s.length + wordFrom base 0 s := by
  induction s generalizing v with
  | nil => simp [wordFrom]
  | cons a s ih =>
    have e1 := ih (v * 26 + (a - base + 1))
    have e2 := ih (0 * 26 + (a - base + 1))
    simp only [wordFrom, List.foldl_cons, List.length_cons] at *
    rw [e1, e2, Nat.add_mul, Nat.pow_succ, Nat.mul_comm (26 ^ s.length) 26, ← Nat.mul_assoc,
      Nat.zero_mul, Nat.zero_add]
    omega

theorem wordValue_len {base : Nat} {s t : Str} (h : s.length < t.length)
    (hs : ∀ b ∈ s, base ≤ b ∧ b < base + 26) (ht : ∀ b ∈ t, base ≤ b ∧ b < base + 26) :
    wordValue base s < wordValue base t := by
  -- drop the extra letters at the front of `t`
  have : t = t.take (t.length - s.length) ++ t.drop (t.length - s.length) := by simp
  rw [this]
  show wordFrom base 0 s < wordFrom base 0 _
  unfold wordFrom
  rw [List.foldl_append]
  refine wordFrom_lt (by simp; omega) ?_ hs (fun b hb => ht b (List.mem_of_mem_drop hb))
  cases t with
  | nil => simp at h
  | cons a t =>
    have : (a :: t).length - s.length = t.length - s.length + 1 := by simp at h ⊢; omega
    rw [this, List.take_succ_cons, List.foldl_cons]
    generalize t.take (t.length - s.length) = u
    have := wordFrom_add (base := base) (0 * 26 + (a - base + 1)) u
    unfold wordFrom at this
    rw [this]
    have := Nat.pow_pos (n := u.length) (show 0 < 26 by decide)
    have := Nat.mul_pos (show 0 < 0 * 26 + (a - base + 1) by omega) this
    omega

theorem Before.lt {base : Nat} {u v : Str} (h : Before u v)
    (hu : ∀ b ∈ u, base ≤ b ∧ b < base + 26) (hv : ∀ b ∈ v, base ≤ b ∧ b < base + 26) :
    wordValue base u < wordValue base v := by
  rcases h with h | ⟨hl, p, a, b, s, t, rfl, rfl, hab⟩
  · exact wordValue_len h hu hv
  · unfold wordValue
    rw [List.foldl_append, List.foldl_append, List.foldl_cons, List.foldl_cons]
    have h1 := hu a (by simp)
    have h2 := hv b (by simp)
    exact wordFrom_lt (by simpa using hl) (by omega) (fun x hx => hu x (by simp [hx]))
      (fun x hx => hv x (by simp [hx]))

theorem before_total (u v : Str) : u = v ∨ Before u v ∨ Before v u := by
  rcases Nat.lt_trichotomy u.length v.length with h | h | h
  · exact .inr (.inl (.inl h))
  · have : ∀ u v : Str, u.length = v.length → u = v ∨
        ∃ p a b s t, u = p ++ a :: s ∧ v = p ++ b :: t ∧ a ≠ b := by
      intro u
      induction u with
      | nil => intro v h; cases v with
        | nil => exact .inl rfl
        | cons => simp at h
      | cons a u ih =>
        intro v h
        cases v with
        | nil => simp at h
        | cons b v =>
          by_cases hab : a = b
          · subst hab
            rcases ih v (by simpa using h) with rfl | ⟨p, x, y, s, t, rfl, rfl, hxy⟩
            · exact .inl rfl
            · exact .inr ⟨a :: p, x, y, s, t, rfl, rfl, hxy⟩
          · exact .inr ⟨[], a, b, u, v, rfl, rfl, hab⟩
    rcases this u v h with rfl | ⟨p, a, b, s, t, rfl, rfl, hab⟩
    · exact .inl rfl
    · rcases Nat.lt_or_gt_of_ne hab with hab | hab
      · exact .inr (.inl (.inr ⟨h, p, a, b, s, t, rfl, rfl, hab⟩))
      · exact .inr (.inr (.inr ⟨h.symm, p, b, a, t, s, rfl, rfl, hab⟩))
  · exact .inr (.inr (.inl h))

theorem wordValue_inj {base : Nat} {u v : Str} (hu : ∀ b ∈ u, base ≤ b ∧ b < base + 26)
    (hv : ∀ b ∈ v, base ≤ b ∧ b < base + 26) (h : wordValue base u = wordValue base v) : u = v := by
  rcases before_total u v with h' | h' | h'
  · exact h'
  · have := h'.lt hu hv; omega
  · have := h'.lt hv hu; omega

theorem wordValue_pos {base : Nat} {u : Str} (hn : u ≠ []) : 0 < wordValue base u := by
  obtain ⟨q, x, rfl⟩ : ∃ q x, u = q ++ [x] :=
    ⟨u.dropLast, u.getLast hn, (List.dropLast_concat_getLast hn).symm⟩
  rw [wordValue_snoc]; omega

theorem posToAlphabet_value (pos : Nat) (lower : Bool) :
    wordValue (if lower then 97 else 65) (posToAlphabet pos lower) = pos % 2 ^ 32 + 1 :=
  alphaLoop_value _ _

theorem posToAlphabet_letters (pos : Nat) (lower : Bool) :
    Letters (if lower then 97 else 65) (posToAlphabet pos lower) := by
  refine ⟨by simp [posToAlphabet, alphaLoop_ne_nil], ?_⟩
  intro b hb
  exact alphaLoop_letters _ _ b (by simpa [posToAlphabet] using hb)

/-! ## Roman prefixes -/

theorem romanValue_digits : ∀ a < 4, ∀ b < 10, ∀ c < 10, ∀ d < 10,
    romanValue (romanPlace c!"M" c!"M" c!"M" a ++ romanPlace c!"C" c!"D" c!"M" b ++
      romanPlace c!"X" c!"L" c!"C" c ++ romanPlace c!"I" c!"V" c!"X" d) =
      (1000 * a + 100 * b + 10 * c + d : Nat) := by decide +kernel

theorem romanValue_numeral (n : Nat) (h : n < 4000) : romanValue (romanNumeral n) = n := by
  have := romanValue_digits (n / 1000 % 10) (by omega) (n / 100 % 10) (by omega)
    (n / 10 % 10) (by omega) (n % 10) (by omega)
  unfold romanNumeral
  rw [this]
  congr 1
  omega

theorem romanNumeral_letters (n : Nat) : ∀ b ∈ romanNumeral n, b ∈ b!"IVXLCDM" := by
  have key : ∀ (x y z : Byte), x ∈ b!"IVXLCDM" → y ∈ b!"IVXLCDM" → z ∈ b!"IVXLCDM" → ∀ d : Nat,
      ∀ b ∈ romanPlace x y z d, b ∈ b!"IVXLCDM" := by
    intro x y z hx hy hz d b hb
    unfold romanPlace at hb
    split at hb <;> simp only [List.mem_cons, List.not_mem_nil, or_false] at hb <;>
      (first | (exact hb.elim) | (rcases hb with rfl | rfl | rfl | rfl <;> assumption) |
        (rcases hb with rfl | rfl | rfl <;> assumption) | (rcases hb with rfl | rfl <;> assumption) |
        (subst hb; assumption))
  intro b hb
  unfold romanNumeral at hb
  simp only [List.mem_append] at hb
  rcases hb with ((hb | hb) | hb) | hb <;> exact key _ _ _ (by decide) (by decide) (by decide) _ b hb

/-! ## Todo progress -/

section Progress

variable {rnd : Rat → Rat} {J : Rat → Nat → Prop} {K : Rat → Prop} {N : Nat}

/-- What an invariant of sums `J` and of progresses `K` must satisfy. -/
structure ProgressInv (rnd : Rat → Rat) (J : Rat → Nat → Prop) (K : Rat → Prop) (N : Nat) : Prop where
  zero : J 0 0
  add : ∀ s c p, J s c → K p → c + 1 ≤ N → J (rnd (s + p)) (c + 1)
  join : ∀ s c s' c', J s c → J s' c' → c + c' ≤ N → J (rnd (s + s')) (c + c')
  div : ∀ s c, J s c → 0 < c → c ≤ N → K (rnd (s / rnd c))

/-- The invariant on an accumulator of the outer fold that counts at most `n`. -/
def AccInv (J : Rat → Nat → Prop) (acc : Option (Rat × Nat)) (n : Nat) : Prop :=
  ∀ s c, acc = some (s, c) → J s c ∧ 0 < c ∧ c ≤ n

/-- Every item of a list that has a progress of its own satisfies `K`. -/
def LeafInv (K : Rat → Prop) (items : List (ItemF Block)) : Prop :=
  ∀ i ∈ items, ∀ p, Vw.todoProgress i.todo = some p → K p

theorem finish_inv (h : ProgressInv rnd J K N) {todo : Option Todo} {acc : Option (Rat × Nat)} {n : Nat}
    (ha : AccInv J acc n) (hn : n ≤ N) (ht : ∀ p, todoProgress todo = some p → K p) (p : Rat)
    (hp : finishProgress rnd todo acc = some p) : K p := by
  cases acc with
  | none => exact ht p hp
  | some x =>
    obtain ⟨s, c⟩ := x
    obtain ⟨h1, h2, h3⟩ := ha s c rfl
    simp only [finishProgress, Option.some.injEq] at hp
    rw [← hp]
    exact h.div s c h1 h2 (by omega)

theorem combine_inv (h : ProgressInv rnd J K N) {acc : Option (Rat × Nat)} {x : Rat × Nat} {n m : Nat}
    (ha : AccInv J acc n) (hx : J x.1 x.2) (hm : x.2 ≤ m) (hn : n + m ≤ N) :
    AccInv J (combine rnd acc x) (n + m) := by
  intro s c hc
  unfold combine at hc
  cases acc with
  | none =>
    simp only at hc
    split at hc
    · obtain rfl := Option.some.inj hc
      exact ⟨hx, by assumption, by simp at hm; omega⟩
    · cases hc
  | some y =>
    obtain ⟨s', c'⟩ := y
    obtain ⟨h1, h2, h3⟩ := ha s' c' rfl
    simp only at hc
    split at hc
    · have := Option.some.inj hc
      simp only [Prod.mk.injEq] at this
      obtain ⟨rfl, rfl⟩ := this
      exact ⟨h.join _ _ _ _ hx h1 (by omega), by assumption, by omega⟩
    · cases hc

theorem addItem_inv (h : ProgressInv rnd J K N) {acc : Rat × Nat} {q : Option Rat}
    (ha : J acc.1 acc.2) (hq : ∀ p, q = some p → K p) (hn : acc.2 + 1 ≤ N) :
    J (addItem rnd acc q).1 (addItem rnd acc q).2 ∧ (addItem rnd acc q).2 ≤ acc.2 + 1 := by
  cases q with
  | none => exact ⟨ha, by simp [addItem]⟩
  | some p => exact ⟨h.add _ _ _ ha (hq p rfl) hn, by simp [addItem]⟩

mutual
theorem progressStep_inv (h : ProgressInv rnd J K N) (acc : Option (Rat × Nat)) (n : Nat)
    (ha : AccInv J acc n) :
    ∀ b : Block, n + b.items.length ≤ N → LeafInv K b.items →
      AccInv J (b.progressStep rnd acc) (n + b.items.length)
  | .list xs, hn, hl => by
    simp only [Block.items] at hn hl
    have := progressItems_inv h (0, 0) h.zero xs (by simp; omega) hl
    simp only [Block.progressStep, Block.items]
    exact combine_inv h ha this.1 (by simpa using this.2) hn
  | .blockquote _, _, _ => ha
  | .code _ _ _, _, _ => ha
  | .defs _, _, _ => ha
  | .divider, _, _ => ha
  | .header _ _ _, _, _ => ha
  | .math _ _, _, _ => ha
  | .paragraph _, _, _ => ha
  | .placeholder _, _, _ => ha
  | .table _, _, _ => ha
theorem progressItems_inv (h : ProgressInv rnd J K N) (acc : Rat × Nat) (ha : J acc.1 acc.2) :
    ∀ xs : List (Located (ItemF Block)), acc.2 + (Block.itemsOf xs).length ≤ N →
      LeafInv K (Block.itemsOf xs) →
      J (Block.progressItems rnd acc xs).1 (Block.progressItems rnd acc xs).2 ∧
        (Block.progressItems rnd acc xs).2 ≤ acc.2 + (Block.itemsOf xs).length
  | [], _, _ => by simpa [Block.progressItems] using ha
  | ⟨⟨ty, su, po, cs, to⟩, r⟩ :: xs, hn, hl => by
    simp only [Block.itemsOf, List.cons_append, List.length_cons, List.length_append] at hn
    simp only [Block.itemsOf] at hl
    have h1 := progressContents_inv h none 0 (by intro s c h; cases h) cs (by omega)
      (fun i hi => hl i (by simp [hi]))
    have h2 := finish_inv h (todo := to) h1 (by omega) (fun p hp => hl ⟨ty, su, po, cs, to⟩ (by simp) p hp)
    have h3 := addItem_inv h ha h2 (by omega)
    have h4 := progressItems_inv h _ h3.1 xs (by have := h3.2; omega) (fun i hi => hl i (by simp [hi]))
    simp only [Block.progressItems, Block.itemsOf, List.cons_append, List.length_cons, List.length_append]
    exact ⟨h4.1, by have := h3.2; have := h4.2; omega⟩
theorem progressContents_inv (h : ProgressInv rnd J K N) (acc : Option (Rat × Nat)) (n : Nat)
    (ha : AccInv J acc n) :
    ∀ cs : List (Located Block), n + (Block.itemsIn cs).length ≤ N → LeafInv K (Block.itemsIn cs) →
      AccInv J (Block.progressContents rnd acc cs) (n + (Block.itemsIn cs).length)
  | [], _, _ => by simpa [Block.progressContents, Block.itemsIn] using ha
  | ⟨x, r⟩ :: xs, hn, hl => by
    simp only [Block.itemsIn, List.length_append] at hn hl
    have h1 := progressStep_inv h acc n ha x (by omega) (fun i hi => hl i (by simp [hi]))
    have h2 := progressContents_inv h _ _ h1 xs (by omega) (fun i hi => hl i (by simp [hi]))
    simp only [Block.progressContents, Block.itemsIn, List.length_append, ← Nat.add_assoc]
    exact h2
end

theorem todoProgress_inv (h : ProgressInv rnd J K N) (i : ItemF Block) (hn : i.tree.length ≤ N)
    (hl : LeafInv K i.tree) (p : Rat) (hp : i.todoProgress rnd = some p) : K p := by
  unfold ItemF.tree at hn hl
  simp at hn
  have h1 := progressContents_inv h none 0 (by intro s c h; cases h) i.contents (by omega)
    (fun j hj => hl j (by simp [hj]))
  exact finish_inv h h1 (by omega) (fun p hp => hl i (by simp) p hp) p hp

/-- Some item of a list has a progress of its own. -/
def SomeLeaf (items : List (ItemF Block)) : Prop := ∃ i ∈ items, (Vw.todoProgress i.todo).isSome = true

theorem SomeLeaf.append {a b : List (ItemF Block)} : SomeLeaf (a ++ b) ↔ SomeLeaf a ∨ SomeLeaf b := by
  unfold SomeLeaf
  constructor
  · rintro ⟨i, hi, h⟩
    rcases List.mem_append.1 hi with hi | hi
    · exact .inl ⟨i, hi, h⟩
    · exact .inr ⟨i, hi, h⟩
  · rintro (⟨i, hi, h⟩ | ⟨i, hi, h⟩)
    · exact ⟨i, by simp [hi], h⟩
    · exact ⟨i, by simp [hi], h⟩

theorem SomeLeaf.cons {i : ItemF Block} {b : List (ItemF Block)} :
    SomeLeaf (i :: b) ↔ (Vw.todoProgress i.todo).isSome = true ∨ SomeLeaf b := by
  simp [SomeLeaf]

theorem SomeLeaf.nil : ¬ SomeLeaf [] := by simp [SomeLeaf]

/-- The accumulator counts at least one item. -/
def AccPos (acc : Option (Rat × Nat)) : Prop := ∀ s c, acc = some (s, c) → 0 < c

theorem combine_some {acc : Option (Rat × Nat)} {x : Rat × Nat} (ha : AccPos acc) :
    AccPos (combine rnd acc x) ∧ ((combine rnd acc x).isSome = true ↔ acc.isSome = true ∨ 0 < x.2) := by
  unfold combine
  cases acc with
  | none =>
    simp only
    split
    · refine ⟨?_, by simp; assumption⟩
      intro s c h; obtain rfl := Option.some.inj h; assumption
    · refine ⟨?_, by simp; omega⟩
      intro s c h
      cases h
  | some y =>
    obtain ⟨s', c'⟩ := y
    have := ha s' c' rfl
    simp only
    have hp : x.2 + c' > 0 := by omega
    rw [if_pos hp]
    refine ⟨?_, by simp⟩
    intro s c h
    have := Option.some.inj h
    simp only [Prod.mk.injEq] at this
    omega

theorem finish_some {todo : Option Todo} {acc : Option (Rat × Nat)} :
    (finishProgress rnd todo acc).isSome = true ↔ acc.isSome = true ∨ (todoProgress todo).isSome = true := by
  cases acc with
  | none => simp [finishProgress]
  | some x => obtain ⟨s, c⟩ := x; simp [finishProgress]

mutual
theorem progressStep_some (rnd : Rat → Rat) (acc : Option (Rat × Nat)) (ha : AccPos acc) :
    ∀ b : Block, AccPos (b.progressStep rnd acc) ∧
      ((b.progressStep rnd acc).isSome = true ↔ acc.isSome = true ∨ SomeLeaf b.items)
  | .list xs => by
    have h1 := progressItems_some rnd (0, 0) xs
    have h2 := combine_some (rnd := rnd) (x := Block.progressItems rnd (0, 0) xs) ha
    simp only [Block.progressStep, Block.items]
    refine ⟨h2.1, h2.2.trans ?_⟩
    rw [h1]; simp
  | .blockquote _ => ⟨ha, by simp [Block.progressStep, Block.items, SomeLeaf.nil]⟩
  | .code _ _ _ => ⟨ha, by simp [Block.progressStep, Block.items, SomeLeaf.nil]⟩
  | .defs _ => ⟨ha, by simp [Block.progressStep, Block.items, SomeLeaf.nil]⟩
  | .divider => ⟨ha, by simp [Block.progressStep, Block.items, SomeLeaf.nil]⟩
  | .header _ _ _ => ⟨ha, by simp [Block.progressStep, Block.items, SomeLeaf.nil]⟩
  | .math _ _ => ⟨ha, by simp [Block.progressStep, Block.items, SomeLeaf.nil]⟩
  | .paragraph _ => ⟨ha, by simp [Block.progressStep, Block.items, SomeLeaf.nil]⟩
  | .placeholder _ => ⟨ha, by simp [Block.progressStep, Block.items, SomeLeaf.nil]⟩
  | .table _ => ⟨ha, by simp [Block.progressStep, Block.items, SomeLeaf.nil]⟩
theorem progressItems_some (rnd : Rat → Rat) (acc : Rat × Nat) :
    ∀ xs : List (Located (ItemF Block)),
      0 < (Block.progressItems rnd acc xs).2 ↔ 0 < acc.2 ∨ SomeLeaf (Block.itemsOf xs)
  | [] => by simp [Block.progressItems, Block.itemsOf, SomeLeaf.nil]
  | ⟨⟨ty, su, po, cs, to⟩, r⟩ :: xs => by
    have h1 := progressContents_some rnd none (by intro s c h; cases h) cs
    have h2 := finish_some (rnd := rnd) (todo := to) (acc := Block.progressContents rnd none cs)
    have h3 := progressItems_some rnd
      (addItem rnd acc (finishProgress rnd to (Block.progressContents rnd none cs))) xs
    simp only [Block.progressItems, Block.itemsOf]
    rw [h3, List.cons_append, SomeLeaf.cons, SomeLeaf.append]
    rw [h1.2] at h2
    have h4 : ∀ q : Option Rat, 0 < (addItem rnd acc q).2 ↔ 0 < acc.2 ∨ q.isSome = true := by
      intro q; cases q <;> simp [addItem]
    rw [h4, h2]
    simp
    grind
theorem progressContents_some (rnd : Rat → Rat) (acc : Option (Rat × Nat)) (ha : AccPos acc) :
    ∀ cs : List (Located Block), AccPos (Block.progressContents rnd acc cs) ∧
      ((Block.progressContents rnd acc cs).isSome = true ↔ acc.isSome = true ∨ SomeLeaf (Block.itemsIn cs))
  | [] => ⟨ha, by simp [Block.progressContents, Block.itemsIn, SomeLeaf.nil]⟩
  | ⟨x, r⟩ :: xs => by
    have h1 := progressStep_some rnd acc ha x
    have h2 := progressContents_some rnd _ h1.1 xs
    simp only [Block.progressContents, Block.itemsIn]
    refine ⟨h2.1, h2.2.trans ?_⟩
    rw [h1.2, SomeLeaf.append, or_assoc]
end

theorem todoProgress_some (i : ItemF Block) :
    (i.todoProgress rnd).isSome = true ↔ ∃ j ∈ i.tree, j.todo ≠ none ∧ j.todo ≠ some .rejected := by
  unfold ItemF.todoProgress
  rw [finish_some, (progressContents_some rnd none (by intro s c h; cases h) i.contents).2]
  have : ∀ t : Option Todo, (Vw.todoProgress t).isSome = true ↔ t ≠ none ∧ t ≠ some .rejected := by
    intro t
    rcases t with _ | t
    · simp [Vw.todoProgress]
    · cases t <;> simp [Vw.todoProgress]
  unfold ItemF.tree SomeLeaf
  simp [this, or_comm]

theorem Rounding.inv_range (h : Rounding rnd) :
    ProgressInv rnd (fun s c => 0 ≤ s ∧ s ≤ c) (fun p => 0 ≤ p ∧ p ≤ 1) (2 ^ 24) := by
  have h0 : rnd 0 = 0 := by simpa using h.exact 0 (by omega)
  have h1 : rnd 1 = 1 := by simpa using h.exact 1 (by omega)
  refine ⟨by simp, ?_, ?_, ?_⟩
  · intro s c p hs hp hc
    refine ⟨?_, ?_⟩
    · rw [← h0]; exact h.mono _ _ (by grind)
    · rw [← h.exact _ hc]; exact h.mono _ _ (by push_cast; grind)
  · intro s c s' c' hs hs' hc
    refine ⟨?_, ?_⟩
    · rw [← h0]; exact h.mono _ _ (by grind)
    · rw [← h.exact _ hc]; exact h.mono _ _ (by push_cast; grind)
  · intro s c hs hc hn
    rw [h.exact _ hn]
    have hc' : (0 : Rat) < c := by exact_mod_cast hc
    refine ⟨?_, ?_⟩
    · rw [← h0]; apply h.mono
      apply Rat.le_of_mul_le_mul_right _ hc'
      rw [Rat.div_mul_cancel (by grind)]; grind
    · rw [← h1]; apply h.mono
      apply Rat.le_of_mul_le_mul_right _ hc'
      rw [Rat.div_mul_cancel (by grind)]; grind

theorem Rounding.inv_one (h : Rounding rnd) :
    ProgressInv rnd (fun s c => s = c) (fun p => p = 1) (2 ^ 24) := by
  have h1 : rnd 1 = 1 := by simpa using h.exact 1 (by omega)
  refine ⟨by simp, ?_, ?_, ?_⟩
  · rintro s c p rfl rfl hc
    have := h.exact _ hc
    push_cast at this ⊢
    exact this
  · rintro s c s' c' rfl rfl hc
    have := h.exact _ hc
    push_cast at this ⊢
    exact this
  · rintro s c rfl hc hn
    rw [h.exact _ hn]
    have hc' : (c : Rat) ≠ 0 := by
      have : (0 : Rat) < c := by exact_mod_cast hc
      grind
    rw [Rat.div_def, Rat.mul_inv_cancel _ hc']
    exact h1

theorem Rounding.inv_zero (h : Rounding rnd) :
    ProgressInv rnd (fun s _ => s = 0) (fun p => p = 0) (2 ^ 24) := by
  have h0 : rnd 0 = 0 := by simpa using h.exact 0 (by omega)
  refine ⟨rfl, ?_, ?_, ?_⟩
  · rintro s c p rfl rfl _; simpa [Rat.add_zero] using h0
  · rintro s c s' c' rfl rfl _; simpa [Rat.add_zero] using h0
  · rintro s c rfl _ _; simpa [Rat.div_def] using h0

end Progress

end Vw
