import Verif.Lemmas.Placeholder
import Verif.Lemmas.Items
import Verif.Lemmas.Uri
import Verif.Spec.Demo

/-!
# Properties of functions on elements (C16, C17, C19, C24, C26, C27, C29-C32)
-/

namespace Vw

set_option maxRecDepth 20000

/-! ## C16 -/

/-- C16, what holds: a placeholder line with value `v` is recognised, with that
value, exactly if a byte of `v` other than the first is no blank. (C16 asks for any
byte.) -/
theorem C16_placeholder_value_partial (env : Env) (head ws v r : Str) (mk : Str → Placeholder)
    (hh : PlaceholderHead head mk) (hn : ws ≠ []) (hw : AllBlank ws)
    (hb : ∀ x, (v ++ r).head? = some x → ¬ (x = 32 ∨ x = 9)) (hl : LineSplit v r) :
    ((∃ b ∈ v.drop 1, ¬ (b = 32 ∨ b = 9)) →
      ∃ s x, placeholder env (Span.ofStr (head ++ (ws ++ (v ++ r)))) = .ok s x ∧
        x.inner = .placeholder (mk v)) ∧
    (¬ (∃ b ∈ v.drop 1, ¬ (b = 32 ∨ b = 9)) →
      placeholder env (Span.ofStr (head ++ (ws ++ (v ++ r)))) = .err) := by
  have hv := View.ofStr (head ++ (ws ++ (v ++ r)))
  have ha := AtBol.ofStr (head ++ (ws ++ (v ++ r)))
  have weaken : ∀ {ph n}, PlaceholderRun env (Span.ofStr (head ++ (ws ++ (v ++ r)))) v ph n →
      ((∃ b ∈ v.drop 1, ¬ (b = 32 ∨ b = 9)) →
        ∃ s x, placeholder env (Span.ofStr (head ++ (ws ++ (v ++ r)))) = .ok s x ∧
          x.inner = .placeholder ph) ∧
      (¬ (∃ b ∈ v.drop 1, ¬ (b = 32 ∨ b = 9)) →
        placeholder env (Span.ofStr (head ++ (ws ++ (v ++ r)))) = .err) := by
    intro ph n h
    exact ⟨fun e => have ⟨x, hx⟩ := h.1 e; ⟨_, x, hx⟩, h.2⟩
  cases hh with
  | title => exact weaken (placeholder_title_run env ha hv hn hw hb hl)
  | template => exact weaken (placeholder_template_run env ha hv hn hw hb hl)
  | other ho => exact weaken (placeholder_other_run env ho ha (by simpa using hv) hn hw hb hl)

example : PlaceholderHead b!"%foo" (.other b!"foo") ∧ AllBlank b!" \t" ∧
    LineSplit b!"a b" b!"\r\nc" ∧ ∃ b ∈ b!"a b".drop 1, ¬ (b = 32 ∨ b = 9) :=
  ⟨.other (name := b!"foo") ⟨by decide, by decide, by decide⟩, by simp [AllBlank],
    ⟨by decide, .inr (.inr ⟨_, rfl⟩)⟩, by decide⟩

/-- C16 does not hold: the value `x` is not blank, yet the line is no placeholder. -/
theorem C16_violated : placeholder demo (Span.ofStr b!"%title x") = .err :=
  (C16_placeholder_value_partial demo b!"%title" b!" " b!"x" [] _ .title (by decide) (by simp [AllBlank])
    (by decide) ⟨by decide, .inl rfl⟩).2 (by decide)

/-- C16: the blank test itself, on any well-formed span. -/
theorem C16_blank_test_partial (s : Span) (h : s.stop ≤ s.inner.length) :
    s.isOnlyWhitespace = true ↔ ∀ b ∈ s.asRemaining.drop 1, b = 32 ∨ b = 9 := by
  rw [isOnlyWhitespace_iff s h]
  simp only [isSpace_iff]

/-! ## C17 -/

/-- C17: the line of a position is one plus the number of line feeds before it. -/
theorem C17_line (s : Span) (h : s.start ≤ s.inner.length) :
    s.line = (s.inner.take s.start).count 10 + 1 := span_line s h

/-- C17: the column of a position is one plus the number of characters between it
and the last line feed before it (or the start of the text). -/
theorem C17_column (s : Span) (pre : Str) (cs : List Str)
    (h : s.inner.take s.start = pre ++ cs.flatten) (hp : pre = [] ∨ pre.getLast? = some 10)
    (hc : ∀ c ∈ cs, CharBytes c) (hn : 10 ∉ cs.flatten) : s.column = cs.length + 1 := by
  rw [span_column s h hn hp, numChars_chars cs hc]

/-- The position of `b` in `x\nαb`. -/
example : let s : Span := ⟨b!"x\nαb", 4, 5, 0⟩
    s.inner.take s.start = b!"x\n" ++ [b!"α"].flatten ∧ CharBytes b!"α" ∧ s.line = 2 ∧ s.column = 2 :=
  ⟨by decide, ⟨0xCE, [0xB1], rfl, by decide, by decide⟩, by decide, by decide⟩

/-! ## C19 -/

/-- C19: parsing the printed form of a cell position gives the position back. -/
theorem C19_print_parse (p : CellPos) (hr : p.row < 2 ^ 64) (hc : p.col < 2 ^ 64) :
    CellPos.parse p.display = some p :=
  (cellPos_parse_iff _ _).2 ⟨_, _, rfl, decStr_num _ hr, decStr_num _ hc⟩

/-- C19: a string is accepted exactly if it is two numbers separated by one comma;
each may have whitespace around it, a plus sign and leading zeros. -/
theorem C19_accepted (s : Str) (p : CellPos) :
    CellPos.parse s = some p ↔ ∃ r c, s = r ++ b!"," ++ c ∧ NumText r p.row ∧ NumText c p.col :=
  cellPos_parse_iff s p

example : CellPos.display ⟨10, 307⟩ = b!"10,307" ∧ CellPos.parse b!" 10,\t+0307" = some ⟨10, 307⟩ ∧
    CellPos.parse b!"1,2,3" = none ∧ CellPos.parse b!"1, -2" = none ∧
    CellPos.parse b!"1,18446744073709551616" = none := by decide +kernel

/-! ## C24 -/

/-- C24, what holds: for positions below 2^32 the alphabetic prefix is the word that
stands at that position in the order a, b, …, z, aa, ab, …; the prefixes are in that
order, and every word whose number is below 2^32 is the prefix of one position. -/
theorem C24_alphabet_partial (lower : Bool) (base : Nat) (hbase : base = if lower then 97 else 65) :
    (∀ pos < 2 ^ 32, Letters base (posToAlphabet pos lower) ∧
      wordValue base (posToAlphabet pos lower) = pos + 1) ∧
    (∀ p < 2 ^ 32, ∀ q < 2 ^ 32, p < q ↔ Before (posToAlphabet p lower) (posToAlphabet q lower)) ∧
    (∀ w, Letters base w → wordValue base w ≤ 2 ^ 32 → ∃ pos < 2 ^ 32, posToAlphabet pos lower = w ∧
      ∀ q < 2 ^ 32, posToAlphabet q lower = w → q = pos) := by
  subst hbase
  have hval : ∀ pos < 2 ^ 32, wordValue (if lower then 97 else 65) (posToAlphabet pos lower) = pos + 1 := by
    intro pos hp
    have := posToAlphabet_value pos lower
    rwa [Nat.mod_eq_of_lt hp] at this
  refine ⟨fun pos hp => ⟨posToAlphabet_letters pos lower, hval pos hp⟩, ?_, ?_⟩
  · intro p hp q hq
    have h1 := hval p hp
    have h2 := hval q hq
    have l1 := (posToAlphabet_letters p lower).2
    have l2 := (posToAlphabet_letters q lower).2
    constructor
    · intro h
      rcases before_total (posToAlphabet p lower) (posToAlphabet q lower) with e | e | e
      · rw [e] at h1; omega
      · exact e
      · have := e.lt l2 l1; omega
    · intro h
      have := h.lt l1 l2; omega
  · intro w hw hv
    have hpos := wordValue_pos (base := if lower then 97 else 65) hw.1
    refine ⟨wordValue (if lower then 97 else 65) w - 1, by omega, ?_, ?_⟩
    · apply wordValue_inj (posToAlphabet_letters _ lower).2 hw.2
      rw [hval _ (by omega)]; omega
    · intro q hq e
      have := hval q hq
      rw [e] at this; omega

example : posToAlphabet 701 true = b!"zz" ∧ posToAlphabet 702 false = b!"AAA" ∧
    wordValue 97 b!"zz" = 702 ∧ Before b!"zz" b!"aaa" :=
  ⟨by decide +kernel, by decide +kernel, by decide, .inl (by decide)⟩

/-- C24 does not hold beyond: positions are truncated to 32 bits. -/
theorem C24_violated : posToAlphabet (2 ^ 32) true = posToAlphabet 0 true := by decide +kernel

/-! ## C26 -/

/-- C26: the roman prefixes of the positions that stand for 1 to 3999 evaluate to
that number and use only roman digits. `rom` is the crate `numerals`, assumed to
print the standard numerals. -/
theorem C26_roman (rom : Int → Str) (hrom : ∀ n : Nat, 1 ≤ n → n < 4000 → rom n = romanNumeral n)
    (pos : Nat) (hp : pos + 1 < 4000) (suffix : Suffix) :
    (∃ w, ItemType.upperRoman.toPrefix rom pos suffix = w ++ suffix.text ∧ romanValue w = pos + 1 ∧
      ∀ b ∈ w, b ∈ b!"IVXLCDM") ∧
    (∃ w, ItemType.lowerRoman.toPrefix rom pos suffix = w ++ suffix.text ∧
      romanValue (w.map (· - 32)) = pos + 1 ∧ ∀ b ∈ w, b ∈ b!"ivxlcdm") := by
  have e : asI16 (pos + 1) = ((pos + 1 : Nat) : Int) := by
    unfold asI16
    rw [Nat.mod_eq_of_lt (by omega), if_pos (by omega)]
  have hr := hrom (pos + 1) (by omega) hp
  have hv := romanValue_numeral (pos + 1) hp
  have hl := romanNumeral_letters (pos + 1)
  have key : ∀ b ∈ b!"IVXLCDM", toLowerByte b - 32 = b ∧ toLowerByte b ∈ b!"ivxlcdm" := by decide
  refine ⟨⟨romanNumeral (pos + 1), ?_, by rw [hv]; simp, hl⟩,
    ⟨(romanNumeral (pos + 1)).map toLowerByte, ?_, ?_, ?_⟩⟩
  · simp only [ItemType.toPrefix]; rw [e, hr]
  · simp only [ItemType.toPrefix]; rw [e, hr]
  · rw [List.map_map]
    have : (romanNumeral (pos + 1)).map ((· - 32) ∘ toLowerByte) = romanNumeral (pos + 1) := by
      conv => rhs; rw [← List.map_id (romanNumeral (pos + 1))]
      apply List.map_congr_left
      intro b hb
      exact (key b (hl b hb)).1
    rw [this, hv]; simp
  · intro b hb
    obtain ⟨c, hc, rfl⟩ := List.mem_map.1 hb
    exact (key c (hl c hc)).2

example : ItemType.lowerRoman.toPrefix (fun n => romanNumeral n.toNat) 1993 .paren = b!"mcmxciv)" := by
  decide +kernel

/-! ## C27 -/

/-- C27, what holds: an item has a progress iff it or an item below it has a todo
state other than "rejected"; the progress is between 0 and 1; it is 1 if all these
states are "complete" and 0 if all are "incomplete". At most 2^24 items are assumed:
larger numbers are not exact in `f32`. -/
theorem C27_progress_partial (rnd : Rat → Rat) (hr : Rounding rnd) (i : ItemF Block)
    (hn : i.tree.length ≤ 2 ^ 24) :
    ((i.todoProgress rnd).isSome ↔ ∃ j ∈ i.tree, j.todo ≠ none ∧ j.todo ≠ some .rejected) ∧
    (∀ p, i.todoProgress rnd = some p → 0 ≤ p ∧ p ≤ 1) ∧
    ((∀ j ∈ i.tree, j.todo ∈ [none, some .rejected, some .complete]) →
      ∀ p, i.todoProgress rnd = some p → p = 1) ∧
    ((∀ j ∈ i.tree, j.todo ∈ [none, some .rejected, some .incomplete]) →
      ∀ p, i.todoProgress rnd = some p → p = 0) := by
  refine ⟨todoProgress_some i, ?_, ?_, ?_⟩
  · refine todoProgress_inv hr.inv_range i hn ?_
    intro j _ p hp
    rcases hj : j.todo with _ | t
    · rw [hj] at hp; cases hp
    · rw [hj] at hp
      cases t <;> simp [Vw.todoProgress] at hp <;> subst hp <;> decide +kernel
  · intro h
    refine todoProgress_inv hr.inv_one i hn ?_
    intro j hj p hp
    have := h j hj
    simp only [List.mem_cons, List.not_mem_nil, or_false] at this
    rcases this with e | e | e <;> rw [e] at hp <;> simp [Vw.todoProgress] at hp
    exact hp.symm
  · intro h
    refine todoProgress_inv hr.inv_zero i hn ?_
    intro j hj p hp
    have := h j hj
    simp only [List.mem_cons, List.not_mem_nil, or_false] at this
    rcases this with e | e | e <;> rw [e] at hp <;> simp [Vw.todoProgress] at hp
    exact hp.symm

/-- An item with two sub items, one complete and one half done, and a rejected one. -/
example : Rounding id ∧ ItemF.todoProgress id ⟨.hyphen, .none, 0, [⟨.list [
      ⟨⟨.hyphen, .none, 0, [], some .complete⟩, .new 0 0⟩,
      ⟨⟨.hyphen, .none, 1, [], some .rejected⟩, .new 0 0⟩,
      ⟨⟨.hyphen, .none, 2, [], some .partial2⟩, .new 0 0⟩], .new 0 0⟩], some .incomplete⟩ =
    some (3 / 4) :=
  ⟨⟨fun _ _ h => h, fun _ _ => rfl⟩, by decide +kernel⟩

theorem progressItems_exact (items : List (Located (ItemF Block))) : ∀ ps : List Rat,
    Block.progressItems id (ps.sum, ps.length) items =
      ((ps ++ (items.map (·.inner)).filterMap (ItemF.todoProgress id)).sum,
        (ps ++ (items.map (·.inner)).filterMap (ItemF.todoProgress id)).length) := by
  induction items with
  | nil => intro ps; simp [Block.progressItems]
  | cons x items ih =>
    obtain ⟨⟨ty, sf, pos, cs, todo⟩, r⟩ := x
    intro ps
    have e : finishProgress id todo (Block.progressContents id none cs) =
        ItemF.todoProgress id ⟨ty, sf, pos, cs, todo⟩ := rfl
    simp only [Block.progressItems, List.map_cons, e]
    cases hp : ItemF.todoProgress id ⟨ty, sf, pos, cs, todo⟩ with
    | none => simp only [addItem, List.filterMap_cons, hp]; exact ih ps
    | some p =>
      have h := ih (ps ++ [p])
      simp only [List.sum_append, List.length_append, List.length_cons, List.length_nil, List.append_assoc,
        List.singleton_append, List.sum_cons, List.sum_nil, Rat.add_zero, Nat.zero_add] at h
      simp only [addItem, List.filterMap_cons, hp, id]
      rw [h]
      simp [List.sum_append]

theorem progressContents_exact (cs : List (Located Block)) : ∀ ps : List Rat,
    Block.progressContents id (if ps = [] then none else some (ps.sum, ps.length)) cs =
      (let qs := ps ++ (cs.flatMap fun x => match x.inner with
          | .list items => items.map (·.inner)
          | _ => []).filterMap (ItemF.todoProgress id)
       if qs = [] then none else some (qs.sum, qs.length)) := by
  induction cs with
  | nil => intro ps; simp [Block.progressContents]
  | cons x cs ih =>
    intro ps
    obtain ⟨x, r⟩ := x
    cases x with
    | list items =>
      simp only [Block.progressContents, Block.progressStep, List.flatMap_cons, List.filterMap_append]
      have h0 := progressItems_exact items []
      simp only [List.sum_nil, List.length_nil, List.nil_append] at h0
      rw [h0]
      have : combine id (if ps = [] then none else some (ps.sum, ps.length))
          (((items.map (·.inner)).filterMap (ItemF.todoProgress id)).sum,
            ((items.map (·.inner)).filterMap (ItemF.todoProgress id)).length) =
          (let qs := ps ++ (items.map (·.inner)).filterMap (ItemF.todoProgress id)
           if qs = [] then none else some (qs.sum, qs.length)) := by
        generalize (items.map (·.inner)).filterMap (ItemF.todoProgress id) = qs
        cases ps with
        | nil => cases qs <;> simp [combine]
        | cons p ps =>
          simp [combine, List.sum_append]
          exact ⟨by omega, by grind, by omega⟩
      rw [this]
      dsimp only
      rw [ih, List.append_assoc]
    | _ => simp only [Block.progressContents, Block.progressStep, List.flatMap_cons, List.nil_append]; exact ih ps

/-- C27: in exact arithmetic the progress of an item is the mean of the progresses of the items of
the lists directly inside it, as far as they have one, and otherwise what its own todo state says in
quarters. -/
theorem C27_mean (i : ItemF Block) :
    i.todoProgress id =
      if i.subItems.filterMap (ItemF.todoProgress id) = [] then i.todo.bind fun t => t.quarters.map fun (q : Nat) => (q : Rat) / 4
      else some (mean (i.subItems.filterMap (ItemF.todoProgress id))) := by
  have h := progressContents_exact i.contents []
  simp only [if_true, List.nil_append] at h
  conv => lhs; unfold ItemF.todoProgress
  rw [h]
  change finishProgress id i.todo (if i.subItems.filterMap (ItemF.todoProgress id) = [] then none
    else some ((i.subItems.filterMap (ItemF.todoProgress id)).sum, (i.subItems.filterMap (ItemF.todoProgress id)).length)) = _
  split
  · simp only [finishProgress]
    cases i.todo with
    | none => rfl
    | some t => cases t <;> decide +kernel
  · rfl

/-- An item holding a list of `n` completed items. -/
def manyDone (n : Nat) : ItemF Block := ⟨.hyphen, .none, 0,
  [⟨.list (List.replicate n ⟨⟨.hyphen, .none, 0, [], some .complete⟩, .new 0 0⟩), .new 0 0⟩], none⟩

/-- C27 does not hold for larger lists: with the rounding of `f32` (to nearest, ties
to even, as the three values show) 2^24 + 2 completed items have progress below 1. -/
theorem C27_violated (rnd : Rat → Rat) (hr : Rounding rnd) (h1 : rnd (2 ^ 24 + 1) = 2 ^ 24)
    (h2 : rnd (2 ^ 24 + 2) = 2 ^ 24 + 2) (h3 : rnd (1 - 1 / 2 ^ 24) = 1 - 1 / 2 ^ 24)
    (n : Nat) (hn : n = 2 ^ 24 + 2) :
    (∀ j ∈ (manyDone n).tree, j.todo = none ∨ j.todo = some .complete) ∧
    ∃ p, (manyDone n).todoProgress rnd = some p ∧ p < 1 := by
  constructor
  · have : ∀ n, ∀ j ∈ Block.itemsOf (List.replicate n
        ⟨⟨.hyphen, .none, 0, [], some .complete⟩, .new 0 0⟩), j.todo = some .complete := by
      intro n
      induction n with
      | zero => simp [Block.itemsOf]
      | succ n ih =>
        intro j hj
        simp only [List.replicate_succ, Block.itemsOf, Block.itemsIn, List.cons_append,
          List.nil_append, List.mem_cons] at hj
        rcases hj with rfl | hj
        · rfl
        · exact ih j hj
    intro j hj
    simp only [ItemF.tree, manyDone, Block.itemsIn, Block.items, List.mem_cons, List.append_nil] at hj
    rcases hj with rfl | hj
    · exact .inl rfl
    · exact .inr (this _ j hj)
  · have step : ∀ k c : Nat, Block.progressItems rnd (((min c (2 ^ 24) : Nat) : Rat), c) (List.replicate k
        ⟨⟨.hyphen, .none, 0, [], some .complete⟩, .new 0 0⟩) = (((min (c + k) (2 ^ 24) : Nat) : Rat), c + k) := by
      intro k
      induction k with
      | zero => intro c; simp [Block.progressItems]
      | succ k ih =>
        intro c
        simp only [List.replicate_succ, Block.progressItems, Block.progressContents, finishProgress,
          Vw.todoProgress, addItem]
        have : rnd (((min c (2 ^ 24) : Nat) : Rat) + 1) = ((min (c + 1) (2 ^ 24) : Nat) : Rat) := by
          by_cases hc : c < 2 ^ 24
          · have := hr.exact (c + 1) (by omega)
            rw [Nat.min_eq_left (by omega), Nat.min_eq_left (by omega)]
            push_cast at this ⊢
            exact this
          · rw [Nat.min_eq_right (by omega), Nat.min_eq_right (by omega)]
            push_cast
            exact h1
        rw [this, ih (c + 1)]
        have e : c + 1 + k = c + (k + 1) := by omega
        rw [e]
    have h0 : ((0 : Rat), 0) = (((min 0 (2 ^ 24) : Nat) : Rat), 0) := by simp
    refine ⟨rnd ((2 ^ 24 : Rat) / (2 ^ 24 + 2)), ?_, ?_⟩
    · unfold ItemF.todoProgress manyDone
      simp only [Block.progressContents, Block.progressStep, combine]
      rw [h0, step]
      rw [if_pos (by omega)]
      simp only [finishProgress]
      have e2 : ((0 + n : Nat) : Rat) = 2 ^ 24 + 2 := by rw [hn]; push_cast; grind
      have e3 : ((min (0 + n) (2 ^ 24) : Nat) : Rat) = 2 ^ 24 := by
        rw [Nat.min_eq_right (by omega)]; push_cast; rfl
      rw [e2, e3, h2]
    · have : rnd ((2 ^ 24 : Rat) / (2 ^ 24 + 2)) ≤ 1 - 1 / 2 ^ 24 := by
        rw [← h3]
        apply hr.mono
        decide +kernel
      have h4 : (1 : Rat) - 1 / 2 ^ 24 < 1 := by decide +kernel
      grind

/-! ## C29 -/

/-- C29: the line groups of a blockquote are the maximal runs of its non-empty
lines, and there is only one way to cut lines into such runs. -/
theorem C29_line_groups (lines : List Str) (gs : List (List Str)) :
    lineGroups lines = gs ↔ LineRuns lines gs :=
  ⟨fun h => h ▸ lineGroups_runs lines, fun h => (lineGroups_runs lines).unique h⟩

example : LineRuns [[], b!"a", b!"b", [], [], b!"c"] [[b!"a", b!"b"], [b!"c"]] :=
  (C29_line_groups _ _).1 (by decide)

/-! ## C30 -/

/-- C30: an anchor whose parts contain no `#` is read back from its printed form, and
every fragment that is read is the printed form of the anchor. -/
theorem C30_display_round_trip (a : Anchor) :
    ((∀ p ∈ a, c!"#" ∉ p) → Anchor.fromUriFragment a.display = some a) ∧
    (∀ s, Anchor.fromUriFragment s = some a → a.display = s ∧ ∀ p ∈ a, c!"#" ∉ p) := by
  constructor
  · intro h
    unfold Anchor.display Anchor.fromUriFragment
    cases a with
    | nil => rfl
    | cons p ps =>
      rw [if_neg (by simp)]
      simp only [splitOn, if_true]
      rw [splitOn_join (by simp) h]; rfl
  · intro s hs
    unfold Anchor.fromUriFragment at hs
    have hj := join_splitOn c!"#" s
    have hc := splitOn_parts c!"#" s
    generalize splitOn c!"#" s = ps at hs hj hc
    match ps, hs with
    | p :: ps, hs =>
      simp only at hs
      split at hs
      · next hp =>
        simp at hp hs
        subst hp hs
        refine ⟨?_, fun q hq => hc q (by simp [hq])⟩
        unfold Anchor.display
        cases ps with
        | nil => simpa [joinWith] using hj
        | cons q ps => rw [if_neg (by simp), ← hj]; simp [joinWith]
      · cases hs

/-- C30: the anchor of a link whose fragment is the encoded form of `a` is `a`, if no
part of `a` contains `%23`; and the encoded form of the anchor of any link is its
fragment. -/
theorem C30_link_anchor (a : Anchor) (d : LinkData) :
    (a ≠ [] → (∀ p ∈ a, ¬ b!"%23" <:+: p) →
      (∀ f, a.toEncodedUriFragment = c!"#" :: f → d.uri.fragment = some f → d.toAnchor = some a)) ∧
    (∀ f, d.uri.fragment = some f → ∃ a', d.toAnchor = some a' ∧ a'.toEncodedUriFragment = c!"#" :: f) := by
  constructor
  · intro hn hp f hf hd
    unfold Anchor.toEncodedUriFragment at hf
    rw [if_neg (by simpa using hn)] at hf
    obtain rfl : joinWith b!"%23" a = f := by simpa using hf
    unfold LinkData.toAnchor
    rw [hd, Option.map_some, splitOn3_join hn hp]
  · intro f hd
    refine ⟨_, by unfold LinkData.toAnchor; rw [hd]; rfl, ?_⟩
    obtain ⟨h1, h2⟩ := splitOn3_join_inv f
    unfold Anchor.toEncodedUriFragment
    rw [if_neg (by simpa using h1), h2]

example : Anchor.display [b!"a", b!"b c"] = b!"#a#b c" ∧
    Anchor.toEncodedUriFragment [b!"a", b!"b%2"] = b!"#a%23b%2" ∧
    ∀ p ∈ [b!"a", b!"b%2"], ¬ b!"%23" <:+: p := by decide

/-! ## C31 -/

/-- C31: encoded URIs contain only printable ASCII without quotes, angle brackets
and backquotes, and at most one `#`; decoding them gives back a text without `%`. -/
theorem C31_encode_uri (s : Str) :
    (∀ b ∈ encodeUri s, 32 < b ∧ b < 127 ∧ b ∉ b!"\"<>`") ∧
    (encodeUri s).count c!"#" ≤ 1 ∧
    ((∀ b ∈ s, b < 256) → c!"%" ∉ s → percentDecode (encodeUri s) = s) := by
  have hp := percentEncode_plain s
  refine ⟨?_, ?_, encodeUri_decode⟩
  · intro b hb
    rcases replaceFirst_mem _ _ _ b hb with h | h
    · simp at h; subst h; decide
    · have := hp b h
      simp [mustEncode] at this ⊢
      omega
  · have := replaceFirst_count (pat := b!"%23") (to := b!"#") (c := c!"#") (s := percentEncode s)
      (fun h => by have := hp _ h; simp [mustEncode] at this)
    simpa [encodeUri] using this

/-- C31: encoding writes every other character as `%` and two upper case hexadecimal digits, and then
turns the first `%23` of the result back into `#`. -/
theorem C31_escapes (s : Str) (h : ∀ b ∈ s, b < 256) : ∃ e, PercentEncoded s e ∧
    ((¬ b!"%23" <:+: e ∧ encodeUri s = e) ∨
      ∃ a r, e = a ++ b!"%23" ++ r ∧ (∀ a' r', e = a' ++ b!"%23" ++ r' → a.length ≤ a'.length) ∧
        encodeUri s = a ++ b!"#" ++ r) :=
  ⟨_, percentEncode_encoded h, replaceFirst_spec _ _ (by decide) _⟩

/-- C31: decoding replaces `%` and two hexadecimal digits, upper or lower case, by the byte they stand
for and nothing else, from left to right. -/
theorem C31_decodes (s t : Str) : percentDecode s = t ↔ PercentDecoded s t :=
  ⟨fun h => h ▸ percentDecode_decoded s, fun h => (percentDecode_decoded s).unique h⟩

example : percentDecode b!"%4a%4A%%4g%2" = b!"JJ%%4g%2" := by decide

/-- A text with two `#`, a blank and a non-ASCII character. -/
example : encodeUri b!"a b#c#é" = b!"a%20b#c%23%C3%A9" ∧
    percentDecode b!"a%20b#c%23%C3%A9" = b!"a b#c#é" := by decide

/-! ## C32 -/

/-- C32, what holds: a region contains exactly the offsets from its own up to its
end, and the four kinds of ranges convert to regions that contain exactly their
members, as long as no end exceeds the largest `usize`. -/
theorem C32_regions_partial (a b x : Nat) (hb : b + 1 < 2 ^ 64) (ha : a < 2 ^ 64) :
    (∀ o l d, o + l < 2 ^ 64 → (Region.mk o l d).contains x = some (decide (o ≤ x ∧ x < o + l))) ∧
    (Region.ofRange a b).contains x = some (decide (a ≤ x ∧ x < b)) ∧
    (∃ r, Region.ofRangeInclusive a b = some r ∧ r.contains x = some (decide (a ≤ x ∧ x ≤ b))) ∧
    (Region.ofRangeTo b).contains x = some (decide (x < b)) ∧
    (∃ r, Region.ofRangeToInclusive b = some r ∧ r.contains x = some (decide (x ≤ b))) ∧
    (∀ r : Region, r.isEmpty = true ↔ r.len = 0) := by
  have key : ∀ o l d, o + l < 2 ^ 64 →
      (Region.mk o l d).contains x = some (decide (o ≤ x ∧ x < o + l)) := by
    intro o l d h
    unfold Region.contains usizeEnd
    simp only
    by_cases h1 : o ≤ x
    · rw [if_pos h1, if_pos h]; simp [h1]
    · rw [if_neg h1]; simp [h1]
  refine ⟨key, ?_, ?_, ?_, ?_, ?_⟩
  · unfold Region.ofRange Region.new
    rw [key _ _ _ (by split <;> omega)]
    congr 1; apply decide_eq_decide.2
    split <;> omega
  · unfold Region.ofRangeInclusive Region.new
    rw [if_pos (by unfold usizeEnd; omega)]
    refine ⟨_, rfl, ?_⟩
    rw [key _ _ _ (by split <;> omega)]
    congr 1; apply decide_eq_decide.2
    split <;> omega
  · unfold Region.ofRangeTo Region.new
    rw [key _ _ _ (by omega)]
    congr 1; apply decide_eq_decide.2; omega
  · unfold Region.ofRangeToInclusive Region.new
    rw [if_pos (by unfold usizeEnd; omega)]
    refine ⟨_, rfl, ?_⟩
    rw [key _ _ _ (by omega)]
    congr 1; apply decide_eq_decide.2; omega
  · intro r; simp [Region.isEmpty]

example : (Region.ofRange 3 7).contains 6 = some true ∧ (Region.ofRange 7 3).contains 7 = some false ∧
    (Region.ofRangeInclusive 3 7).bind (·.contains 7) = some true := by decide

/-- C32 does not hold at the limit: converting a range that includes the largest
`usize` overflows, and so does asking a region that ends beyond it. -/
theorem C32_violated : Region.ofRangeInclusive 0 (2 ^ 64 - 1) = none ∧
    Region.ofRangeToInclusive (2 ^ 64 - 1) = none ∧
    (Region.new (2 ^ 64 - 1) 1).contains (2 ^ 64 - 1) = none := by decide

end Vw
