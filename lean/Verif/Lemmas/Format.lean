import Verif.Lemmas.Macros

/-!
# Format texts
-/

namespace Vw

/-- The parts the regular expression finds in a part. -/
def FPart.pieces : FPart → List FPiece
  | .lit s => s.map .byte
  | .hole a spec => [.hole a.text (spec.map (c!":" :: ·))]

theorem braceText_flat {s : Str} (h1 : c!"{" ∉ s) (h2 : c!"}" ∉ s) : s.flatMap braceText = s := by
  induction s with
  | nil => rfl
  | cons b s ih =>
    simp only [List.mem_cons, not_or] at h1 h2
    rw [List.flatMap_cons, ih h1.2 h2.2, braceText, if_neg]
    · rfl
    · rintro (h | h)
      · exact h1.1 h.symm
      · exact h2.1 h.symm

theorem specEnd_run {s r : Str} (h1 : c!"}" ∉ s) (h2 : 10 ∉ s) : specEnd (s ++ c!"}" :: r) = some (s, r) := by
  induction s with
  | nil => rfl
  | cons b s ih =>
    simp only [List.mem_cons, not_or] at h1 h2
    rw [List.cons_append, specEnd.eq_def]
    split
    · next h => cases h
    · next h => cases h; exact absurd rfl h1.1
    · next h => cases h; exact absurd rfl h2.1
    · next h => cases h; rw [ih h1.2 h2.2]; rfl

theorem holeEnd_cons {b : Byte} {r : Str} (h1 : b ≠ c!"}") (h2 : b ≠ c!":") :
    holeEnd (b :: r) = (holeEnd r).map fun x => (b :: x.1, x.2.1, x.2.2) := by
  rw [holeEnd.eq_def]
  split
  · next h => cases h
  · next h => cases h; exact absurd rfl h1
  · next h => cases h; exact absurd rfl h2
  · next h => cases h; rfl

theorem holeEnd_run {a : Str} {spec : Option Str} {r : Str} (h1 : c!"}" ∉ a) (h2 : c!":" ∉ a)
    (hs : ∀ s ∈ spec, c!"}" ∉ s ∧ 10 ∉ s) :
    holeEnd (a ++ (spec.map (c!":" :: ·)).getD [] ++ c!"}" :: r) = some (a, spec.map (c!":" :: ·), r) := by
  induction a with
  | nil =>
    cases spec with
    | none => rfl
    | some s =>
      have := hs s rfl
      show (specEnd (s ++ c!"}" :: r)).map _ = _
      rw [specEnd_run this.1 this.2]
      rfl
  | cons b a ih =>
    simp only [List.mem_cons, not_or] at h1 h2
    rw [List.cons_append, List.cons_append, holeEnd_cons (fun h => h1.1 h.symm) (fun h => h2.1 h.symm),
      ih h1.2 h2.2]
    rfl

theorem FArg.ok_text {a : FArg} (h : a.Ok) : c!"{" ∉ a.text ∧ c!"}" ∉ a.text ∧ c!":" ∉ a.text := by
  cases a with
  | next => simp [FArg.text]
  | num ds =>
    refine ⟨?_, ?_, ?_⟩ <;>
    · intro hm
      have := h.2 _ hm
      omega
  | name s => exact ⟨h.2.1, h.2.2.1, h.2.2.2.1⟩

theorem fpiecesF_lit {s r : Str} (h : c!"{" ∉ s) (n : Nat) : fpiecesF (s.length + n) (s ++ r) = s.map .byte ++ fpiecesF n r := by
  induction s with
  | nil => simp
  | cons b s ih =>
    simp only [List.mem_cons, not_or] at h
    rw [List.length_cons, Nat.add_right_comm, List.cons_append, fpiecesF, if_neg (fun e => h.1 e.symm), ih h.2]
    rfl

theorem fpiecesF_parts {ps : List FPart} (h : ∀ p ∈ ps, p.Simple) (n : Nat) (hn : (formatText ps).length ≤ n) :
    fpiecesF n (formatText ps) = ps.flatMap FPart.pieces := by
  induction ps generalizing n with
  | nil => cases n <;> rfl
  | cons p ps ih =>
    have hp := h p (by simp)
    have hps := fun q hq => h q (List.mem_cons_of_mem _ hq)
    rw [formatText, List.flatMap_cons, ← formatText] at hn ⊢
    rw [List.flatMap_cons]
    rw [List.length_append] at hn
    cases p with
    | lit s =>
      simp only [FPart.text, braceText_flat hp.1 hp.2] at hn ⊢
      obtain ⟨m, rfl⟩ : ∃ m, n = s.length + m := ⟨n - s.length, by omega⟩
      rw [fpiecesF_lit hp.1, ih hps m (by omega)]
      rfl
    | hole a spec =>
      obtain ⟨h1, h2, h3⟩ := FArg.ok_text hp.1
      have hs : ∀ s ∈ spec, c!"}" ∉ s ∧ 10 ∉ s := fun s hm => ⟨(hp.2 s hm).2.1, (hp.2 s hm).2.2.1⟩
      have e : FPart.text (.hole a spec) ++ formatText ps =
          c!"{" :: (a.text ++ (spec.map (c!":" :: ·)).getD [] ++ c!"}" :: formatText ps) := by
        simp [FPart.text]
      rw [e]
      have hl : (FPart.text (.hole a spec)).length ≥ 1 := by simp [FPart.text]
      obtain ⟨m, rfl⟩ : ∃ m, n = m + 1 := ⟨n - 1, by omega⟩
      rw [fpiecesF, if_pos rfl, holeEnd_run h2 h3 hs]
      simp only
      rw [ih hps m (by omega)]
      rfl

theorem fpieces_parts {ps : List FPart} (h : ∀ p ∈ ps, p.Simple) : fpieces (formatText ps) = ps.flatMap FPart.pieces :=
  fpiecesF_parts h _ (Nat.le_refl _)

/-! ## The first pass -/

/-- Numbers in place of empty placeholders. -/
def explicit : Nat → List FPart → List FPart
  | _, [] => []
  | n, .lit s :: ps => .lit s :: explicit n ps
  | n, .hole .next spec :: ps => .hole (.num (decStr n)) spec :: explicit (n + 1) ps
  | n, .hole (.num ds) spec :: ps => .hole (.num ds) spec :: explicit n ps
  | n, .hole (.name s) spec :: ps => .hole (.name s) spec :: explicit n ps

/-- The counter after a text. -/
def afterParts : Nat → List FPart → Nat
  | n, [] => n
  | n, .hole .next _ :: ps => afterParts (n + 1) ps
  | n, .lit _ :: ps => afterParts n ps
  | n, .hole (.num _) _ :: ps => afterParts n ps
  | n, .hole (.name _) _ :: ps => afterParts n ps

/-- The positions of a text without empty placeholders. -/
def numsOf (ps : List FPart) : List Nat :=
  ps.filterMap fun
    | .hole (.num ds) _ => if decValue ds < 2 ^ 64 then some (decValue ds) else none
    | _ => none

/-- The names of a text, too large numbers included. -/
def namesOf (ps : List FPart) : List Str :=
  ps.filterMap fun
    | .hole (.num ds) _ => if decValue ds < 2 ^ 64 then none else some ds
    | .hole (.name s) _ => some s
    | _ => none

theorem trim_digits {ds : Str} (hne : ds ≠ []) (h : ∀ b ∈ ds, 48 ≤ b ∧ b ≤ 57) : trim ds = ds := by
  have := trimText_run (u := []) (w := []) .nil .nil hne (fun b hb => by have := h b hb; omega)
  simpa using this

theorem trim_clean {s : Str} (h1 : ∀ w r, s = w ++ r → WsText w → w = []) (h2 : ∀ w r, s = r ++ w → WsText w → w = []) :
    trim s = s := by
  obtain ⟨u, w, hu, hw, hs⟩ := trim_spec s
  have : u = [] := h1 u (trim s ++ w) (by rw [← List.append_assoc]; exact hs) hu
  subst this
  have : w = [] := h2 w (trim s) (by simpa using hs) hw
  subst this
  simpa using hs.symm

theorem parseUsize_num {ds : Str} (hne : ds ≠ []) (h : ∀ b ∈ ds, 48 ≤ b ∧ b ≤ 57) :
    parseUsize ds = if decValue ds < 2 ^ 64 then some (decValue ds) else none := by
  split
  · next hl => exact (parseUsize_iff _ _).2 ⟨[], ds, rfl, .inl rfl, hne, h, rfl, hl⟩
  · next hl =>
    apply Classical.byContradiction
    intro hn
    obtain ⟨n, hn⟩ := Option.ne_none_iff_exists'.1 hn
    obtain ⟨sg, ds', h1, h2, h3, h4, h5, h6⟩ := (parseUsize_iff _ _).1 hn
    rcases h2 with rfl | rfl
    · simp at h1; subst h1; omega
    · subst h1
      have := h 43 (by simp)
      omega

theorem parseUsize_name {s : Str} (h : FormatName s) : parseUsize s = none := by
  apply Classical.byContradiction
  intro hn
  obtain ⟨n, hn⟩ := Option.ne_none_iff_exists'.1 hn
  obtain ⟨sg, ds', h1, h2, h3, h4, h5, h6⟩ := (parseUsize_iff _ _).1 hn
  obtain ⟨⟨a, r, rfl, ha, hp⟩, -⟩ := h
  rcases h2 with rfl | rfl
  · simp at h1
    match ds', h3 with
    | x :: ds', _ =>
      simp at h1
      exact ha (h1.1 ▸ h4 x (by simp))
  · simp at h1; exact hp h1.1

theorem firstPass_lit (st : FState) (s : Str) (ps : List FPiece) :
    firstPassAll st (s.map .byte ++ ps) = ((firstPassAll st ps).1, s ++ (firstPassAll st ps).2) := by
  induction s with
  | nil => rfl
  | cons b s ih =>
    rw [List.map_cons, List.cons_append, firstPassAll]
    simp only [firstPass, ih]
    simp

theorem formatName_trim {s : Str} (h : FormatName s) : trim s = s ∧ s ≠ [] := by
  obtain ⟨⟨a, r, rfl, -, -⟩, -, -, -, h1, h2⟩ := h
  exact ⟨trim_clean h1 h2, by simp⟩

theorem firstPass_num (st : FState) {ds : Str} (spec : Option Str) (h : (FArg.num ds).Ok) :
    firstPass st (.hole ds (spec.map (c!":" :: ·))) =
      (if decValue ds < 2 ^ 64 then { st with positions := insertPos (decValue ds) st.positions }
        else { st with names := insertName ds st.names }, (FPart.hole (.num ds) spec).text) := by
  unfold firstPass
  simp only [trim_digits h.1 h.2]
  rw [if_neg (by simpa [List.isEmpty_iff] using h.1), parseUsize_num h.1 h.2]
  by_cases hl : decValue ds < 2 ^ 64
  · simp only [if_pos hl]; rfl
  · simp only [if_neg hl]; rfl

theorem firstPass_name (st : FState) {s : Str} (spec : Option Str) (h : FormatName s) :
    firstPass st (.hole s (spec.map (c!":" :: ·))) =
      ({ st with names := insertName s st.names }, (FPart.hole (.name s) spec).text) := by
  obtain ⟨h1, h2⟩ := formatName_trim h
  unfold firstPass
  simp only [h1]
  rw [if_neg (by simpa [List.isEmpty_iff] using h2), parseUsize_name h]
  rfl

theorem explicit_simple {ps : List FPart} (h : ∀ p ∈ ps, p.Simple) (n : Nat) : ∀ p ∈ explicit n ps, p.Simple := by
  induction ps generalizing n with
  | nil => simp [explicit]
  | cons p ps ih =>
    have hp := h p (by simp)
    have hps := fun q hq => h q (List.mem_cons_of_mem _ hq)
    intro q hq
    match p, hp with
    | .lit s, hp =>
      simp only [explicit, List.mem_cons] at hq
      rcases hq with rfl | hq
      · exact hp
      · exact ih hps n q hq
    | .hole .next spec, hp =>
      simp only [explicit, List.mem_cons] at hq
      rcases hq with rfl | hq
      · exact ⟨⟨decStr_ne_nil n, decStr_digits n⟩, hp.2⟩
      · exact ih hps _ q hq
    | .hole (.num ds) spec, hp =>
      simp only [explicit, List.mem_cons] at hq
      rcases hq with rfl | hq
      · exact hp
      · exact ih hps n q hq
    | .hole (.name s) spec, hp =>
      simp only [explicit, List.mem_cons] at hq
      rcases hq with rfl | hq
      · exact hp
      · exact ih hps n q hq

theorem firstPass_parts {ps : List FPart} (h : ∀ p ∈ ps, p.Simple) (n : Nat) (P : List Nat) (N : List Str)
    (hn : n + ps.length < 2 ^ 64) :
    firstPassAll ⟨n, P, N⟩ (ps.flatMap FPart.pieces) =
      (⟨afterParts n ps, (numsOf (explicit n ps)).foldl (fun l p => insertPos p l) P,
        (namesOf (explicit n ps)).foldl (fun l s => insertName s l) N⟩, formatText (explicit n ps)) := by
  induction ps generalizing n P N with
  | nil => rfl
  | cons p ps ih =>
    have hp := h p (by simp)
    have hps := fun q hq => h q (List.mem_cons_of_mem _ hq)
    rw [List.length_cons] at hn
    rw [List.flatMap_cons]
    match p, hp with
    | .lit s, hp =>
      simp only [FPart.pieces, firstPass_lit, ih hps n P N (by omega)]
      simp only [afterParts, explicit, numsOf, namesOf, formatText, List.filterMap_cons, List.flatMap_cons]
      rw [FPart.text, braceText_flat hp.1 hp.2]
    | .hole .next spec, hp =>
      have hl : n < 2 ^ 64 := by omega
      simp only [FPart.pieces, List.cons_append, List.nil_append, firstPassAll]
      have e : firstPass ⟨n, P, N⟩ (.hole [] (spec.map (c!":" :: ·))) =
          (⟨n + 1, insertPos n P, N⟩, (FPart.hole (.num (decStr n)) spec).text) := by
        unfold firstPass; rfl
      rw [show (FArg.next).text = [] from rfl, e]
      simp only [ih hps (n + 1) _ _ (by omega)]
      simp only [afterParts, explicit, numsOf, namesOf, formatText, List.filterMap_cons, List.flatMap_cons,
        decStr_value, if_pos hl, List.foldl_cons]
    | .hole (.num ds) spec, hp =>
      simp only [FPart.pieces, List.cons_append, List.nil_append, firstPassAll]
      rw [show (FArg.num ds).text = ds from rfl, firstPass_num _ _ hp.1]
      by_cases hl : decValue ds < 2 ^ 64
      · simp only [if_pos hl]
        simp only [ih hps n _ _ (by omega)]
        simp only [afterParts, explicit, numsOf, namesOf, formatText, List.filterMap_cons, List.flatMap_cons,
          if_pos hl, List.foldl_cons]
      · simp only [if_neg hl]
        simp only [ih hps n _ _ (by omega)]
        simp only [afterParts, explicit, numsOf, namesOf, formatText, List.filterMap_cons, List.flatMap_cons,
          if_neg hl, List.foldl_cons]
    | .hole (.name s) spec, hp =>
      simp only [FPart.pieces, List.cons_append, List.nil_append, firstPassAll]
      rw [show (FArg.name s).text = s from rfl, firstPass_name _ _ hp.1]
      simp only [ih hps n _ _ (by omega)]
      simp only [afterParts, explicit, numsOf, namesOf, formatText, List.filterMap_cons, List.flatMap_cons,
        List.foldl_cons]

/-! ## Positions and names -/

theorem insertPos_mem {p x : Nat} {l : List Nat} : x ∈ insertPos p l ↔ x = p ∨ x ∈ l := by
  induction l with
  | nil => simp [insertPos]
  | cons q qs ih =>
    simp only [insertPos]
    split
    · simp
    · split
      · next h => subst h; simp
      · simp only [List.mem_cons, ih]
        constructor
        · rintro (h | h | h) <;> simp [h]
        · rintro (h | h | h) <;> simp [h]

theorem insertPos_sorted {p : Nat} {l : List Nat} (h : l.Pairwise (· < ·)) : (insertPos p l).Pairwise (· < ·) := by
  induction l with
  | nil => simp [insertPos]
  | cons q qs ih =>
    obtain ⟨h1, h2⟩ := List.pairwise_cons.1 h
    simp only [insertPos]
    split
    · next hlt =>
      refine List.pairwise_cons.2 ⟨?_, h⟩
      intro x hx
      rcases List.mem_cons.1 hx with rfl | hx
      · exact hlt
      · exact Nat.lt_trans hlt (h1 x hx)
    · split
      · exact h
      · refine List.pairwise_cons.2 ⟨?_, ih h2⟩
        intro x hx
        rcases insertPos_mem.1 hx with rfl | hx
        · omega
        · exact h1 x hx

theorem foldPos {xs : List Nat} {l : List Nat} (h : l.Pairwise (· < ·)) :
    (xs.foldl (fun l p => insertPos p l) l).Pairwise (· < ·) ∧
      ∀ x, x ∈ xs.foldl (fun l p => insertPos p l) l ↔ x ∈ l ∨ x ∈ xs := by
  induction xs generalizing l with
  | nil => simpa using h
  | cons y ys ih =>
    rw [List.foldl_cons]
    obtain ⟨h1, h2⟩ := ih (insertPos_sorted (p := y) h)
    refine ⟨h1, fun x => ?_⟩
    rw [h2, insertPos_mem, List.mem_cons]
    constructor
    · rintro ((h | h) | h) <;> simp [h]
    · rintro (h | h | h) <;> simp [h]

theorem foldNames {xs l : List Str} (h : l.Nodup) :
    (xs.foldl (fun l s => insertName s l) l).Nodup ∧
      ∀ x, x ∈ xs.foldl (fun l s => insertName s l) l ↔ x ∈ l ∨ x ∈ xs := by
  induction xs generalizing l with
  | nil => simpa using h
  | cons y ys ih =>
    rw [List.foldl_cons]
    have hn : (insertName y l).Nodup := by
      unfold insertName
      split
      · exact h
      · next hy =>
        rw [List.nodup_append]
        refine ⟨h, by simp, ?_⟩
        intro a ha b hb
        simp at hb
        rintro rfl
        exact hy (hb ▸ ha)
    have hm : ∀ x, x ∈ insertName y l ↔ x ∈ l ∨ x = y := by
      intro x
      unfold insertName
      split
      · next hy =>
        constructor
        · intro h; exact .inl h
        · rintro (h | rfl)
          · exact h
          · exact hy
      · simp
    obtain ⟨h1, h2⟩ := ih hn
    refine ⟨h1, fun x => ?_⟩
    rw [h2, hm, List.mem_cons]
    constructor
    · rintro ((h | h) | h) <;> simp [h]
    · rintro (h | h | h) <;> simp [h]

theorem pickPositional_spec {α} (args : List α) (ps : List Nat) :
    (∀ es, pickPositional args ps = .ok es → es.length = ps.length ∧ ∀ (i p : Nat), ps[i]? = some p → es[i]? = args[p]?) ∧
    ((∃ es, pickPositional args ps = .ok es) ↔ ∀ p ∈ ps, p < args.length) ∧
    ((¬ ∀ p ∈ ps, p < args.length) → pickPositional args ps = .error .reject) := by
  induction ps with
  | nil =>
    refine ⟨?_, ?_, ?_⟩
    · intro es h; cases h; simp
    · simp [pickPositional]
    · intro h; exact absurd (by simp) h
  | cons p ps ih =>
    obtain ⟨i1, i2, i3⟩ := ih
    simp only [pickPositional]
    by_cases hp : p < args.length
    · rw [List.getElem?_eq_getElem hp]
      simp only
      by_cases hps : ∀ q ∈ ps, q < args.length
      · obtain ⟨es, he⟩ := i2.2 hps
        rw [he]
        refine ⟨?_, ?_, ?_⟩
        · intro es' h
          cases h
          obtain ⟨h1, h2⟩ := i1 es he
          refine ⟨by simp [h1], ?_⟩
          intro i q hq
          cases i with
          | zero => simp at hq; subst hq; simp [hp]
          | succ i => simp at hq ⊢; exact h2 i q hq
        · constructor
          · intro _ q hq
            rcases List.mem_cons.1 hq with rfl | hq
            · exact hp
            · exact hps q hq
          · intro _; exact ⟨_, rfl⟩
        · intro h
          exfalso; apply h
          intro q hq
          rcases List.mem_cons.1 hq with rfl | hq
          · exact hp
          · exact hps q hq
      · rw [i3 hps]
        refine ⟨?_, ?_, fun _ => rfl⟩
        · intro es h; cases h
        · constructor
          · rintro ⟨es, h⟩; cases h
          · intro h; exact absurd (fun q hq => h q (List.mem_cons_of_mem _ hq)) hps
    · rw [List.getElem?_eq_none (by omega)]
      refine ⟨?_, ?_, fun _ => rfl⟩
      · intro es h; cases h
      · constructor
        · rintro ⟨es, h⟩; cases h
        · intro h; exact absurd (h p (by simp)) hp

theorem pickNamed_spec {α} (args : List (Str × α)) (ns : List Str) :
    (∀ es, pickNamed args ns = .ok es → es.map (·.1) = ns ∧
      ∀ s ∈ ns, es.find? (fun e => e.1 = s) = args.find? (fun e => e.1 = s)) ∧
    ((∃ es, pickNamed args ns = .ok es) ↔ ∀ s ∈ ns, ∃ e ∈ args, e.1 = s) ∧
    ((¬ ∀ s ∈ ns, ∃ e ∈ args, e.1 = s) → pickNamed args ns = .error .reject) := by
  induction ns with
  | nil =>
    refine ⟨?_, ?_, ?_⟩
    · intro es h; cases h; simp
    · simp [pickNamed]
    · intro h; exact absurd (by simp) h
  | cons n ns ih =>
    obtain ⟨i1, i2, i3⟩ := ih
    simp only [pickNamed]
    cases hf : args.find? (fun e => e.1 = n) with
    | some e =>
      have hen : e.1 = n := by simpa using List.find?_some hf
      have hmem : ∃ e ∈ args, e.1 = n := ⟨e, List.mem_of_find?_eq_some hf, hen⟩
      simp only
      by_cases hns : ∀ s ∈ ns, ∃ e ∈ args, e.1 = s
      · obtain ⟨es, he⟩ := i2.2 hns
        rw [he]
        have hall : ∀ s ∈ n :: ns, ∃ e ∈ args, e.1 = s := by
          intro s hs
          rcases List.mem_cons.1 hs with rfl | hs
          · exact hmem
          · exact hns s hs
        refine ⟨?_, ⟨fun _ => hall, fun _ => ⟨_, rfl⟩⟩, fun h => absurd hall h⟩
        intro es' h
        cases h
        obtain ⟨h1, h2⟩ := i1 es he
        refine ⟨by simp [h1, hen], ?_⟩
        intro s hs
        by_cases hsn : s = n
        · subst hsn; simp [hen, hf]
        · rcases List.mem_cons.1 hs with h' | hs
          · exact absurd h' hsn
          · rw [List.find?_cons_of_neg (by simp [hen]; exact fun h => hsn h.symm)]
            exact h2 s hs
      · rw [i3 hns]
        refine ⟨?_, ?_, fun _ => rfl⟩
        · intro es h; cases h
        · constructor
          · rintro ⟨es, h⟩; cases h
          · intro h; exact absurd (fun q hq => h q (List.mem_cons_of_mem _ hq)) hns
    | none =>
      have hno : ¬ ∃ e ∈ args, e.1 = n := by
        rintro ⟨e, h1, h2⟩
        have := List.find?_eq_none.1 hf e h1
        simp at this
        exact this h2
      refine ⟨?_, ?_, fun _ => rfl⟩
      · intro es h; cases h
      · constructor
        · rintro ⟨es, h⟩; cases h
        · intro h; exact absurd (h n (by simp)) hno

theorem idxOf?_mem {P : List Nat} {k : Nat} (h : k ∈ P) : P.idxOf? k = some (P.idxOf k) := by
  induction P with
  | nil => simp at h
  | cons q P ih =>
    rw [List.idxOf?_cons, List.idxOf_cons]
    by_cases hq : q = k
    · simp [hq]
    · have : k ∈ P := by
        rcases List.mem_cons.1 h with rfl | h
        · exact absurd rfl hq
        · exact h
      have hq' : (q == k) = false := by simpa using hq
      simp [hq', ih this]

/-! ## The second pass -/

/-- The positions replaced by their indexes. -/
def renumber (P : List Nat) : List FPart → List FPart
  | [] => []
  | .lit s :: ps => .lit s :: renumber P ps
  | .hole .next spec :: ps => .hole .next spec :: renumber P ps
  | .hole (.num ds) spec :: ps => .hole (.num (decStr (P.idxOf (decValue ds)))) spec :: renumber P ps
  | .hole (.name s) spec :: ps => .hole (.name s) spec :: renumber P ps

theorem secondPass_lit (P : List Nat) (s : Str) (ps : List FPiece) :
    secondPassAll P (s.map .byte ++ ps) = (secondPassAll P ps).map (s ++ ·) := by
  induction s with
  | nil =>
    rw [List.map_nil, List.nil_append]
    cases secondPassAll P ps <;> rfl
  | cons b s ih =>
    rw [List.map_cons, List.cons_append, secondPassAll, ih]
    cases secondPassAll P ps <;> rfl

/-- A text without empty placeholders. -/
def NoNext (ps : List FPart) : Prop := ∀ spec, FPart.hole .next spec ∉ ps

theorem explicit_noNext (n : Nat) (ps : List FPart) : NoNext (explicit n ps) := by
  intro spec
  induction ps generalizing n with
  | nil => simp [explicit]
  | cons p ps ih =>
    match p with
    | .lit s => simp [explicit, ih]
    | .hole .next sp => simp [explicit, ih]
    | .hole (.num ds) sp => simp [explicit, ih]
    | .hole (.name s) sp => simp [explicit, ih]

theorem secondPass_parts {P : List Nat} {ps : List FPart} (h : ∀ p ∈ ps, p.Simple) (hn : NoNext ps)
    (hP : ∀ ds spec, FPart.hole (.num ds) spec ∈ ps → decValue ds < 2 ^ 64 ∧ decValue ds ∈ P) :
    secondPassAll P (ps.flatMap FPart.pieces) = .ok (formatText (renumber P ps)) := by
  induction ps with
  | nil => rfl
  | cons p ps ih =>
    have hp := h p (by simp)
    have ih := ih (fun q hq => h q (List.mem_cons_of_mem _ hq)) (fun sp hm => hn sp (List.mem_cons_of_mem _ hm))
      (fun ds sp hm => hP ds sp (List.mem_cons_of_mem _ hm))
    rw [List.flatMap_cons]
    match p, hp with
    | .lit s, hp =>
      rw [FPart.pieces, secondPass_lit, ih]
      simp only [renumber, formatText, List.flatMap_cons, FPart.text]
      rw [braceText_flat hp.1 hp.2]; rfl
    | .hole .next spec, hp => exact absurd (by simp) (hn spec)
    | .hole (.num ds) spec, hp =>
      obtain ⟨h1, h2⟩ := hP ds spec (by simp)
      simp only [FPart.pieces, List.cons_append, List.nil_append, secondPassAll, ih]
      have e : secondPass P (.hole ds (spec.map (c!":" :: ·))) =
          .ok (FPart.hole (.num (decStr (P.idxOf (decValue ds)))) spec).text := by
        unfold secondPass
        simp only [trim_digits hp.1.1 hp.1.2, parseUsize_num hp.1.1 hp.1.2, if_pos h1]
        rw [idxOf?_mem h2]
        rfl
      rw [show (FArg.num ds).text = ds from rfl, e]
      rfl
    | .hole (.name s) spec, hp =>
      simp only [FPart.pieces, List.cons_append, List.nil_append, secondPassAll, ih]
      have e : secondPass P (.hole s (spec.map (c!":" :: ·))) = .ok (FPart.hole (.name s) spec).text := by
        unfold secondPass
        simp only [(formatName_trim hp.1).1, parseUsize_name hp.1]
        rfl
      rw [show (FArg.name s).text = s from rfl, e]
      rfl

theorem renumber_simple {P : List Nat} {ps : List FPart} (h : ∀ p ∈ ps, p.Simple) : ∀ p ∈ renumber P ps, p.Simple := by
  induction ps with
  | nil => simp [renumber]
  | cons p ps ih =>
    have hp := h p (by simp)
    have ih := ih (fun q hq => h q (List.mem_cons_of_mem _ hq))
    intro q hq
    match p, hp with
    | .lit s, hp =>
      rcases List.mem_cons.1 hq with rfl | hq
      · exact hp
      · exact ih q hq
    | .hole .next spec, hp =>
      rcases List.mem_cons.1 hq with rfl | hq
      · exact hp
      · exact ih q hq
    | .hole (.num ds) spec, hp =>
      rcases List.mem_cons.1 hq with rfl | hq
      · exact ⟨⟨decStr_ne_nil _, decStr_digits _⟩, hp.2⟩
      · exact ih q hq
    | .hole (.name s) spec, hp =>
      rcases List.mem_cons.1 hq with rfl | hq
      · exact hp
      · exact ih q hq

/-! ## Meanings -/

theorem formatMeaning_explicit {α} (pos : List α) (named : List (Str × α)) (n m : Nat) (ps : List FPart) :
    formatMeaning pos named n ps =
      (formatMeaning pos named m (explicit n ps)).map fun r => (r.1, afterParts n ps) := by
  induction ps generalizing n with
  | nil => rfl
  | cons p ps ih =>
    match p with
    | .lit s =>
      simp only [formatMeaning, explicit, afterParts, ih n]
      cases formatMeaning pos named m (explicit n ps) <;> rfl
    | .hole .next spec =>
      simp only [formatMeaning, explicit, afterParts, FArg.pick, decStr_value]
      cases pos[n]? with
      | none => rfl
      | some e =>
        simp only [Option.map_some, Option.bind_some, ih (n + 1)]
        cases formatMeaning pos named m (explicit (n + 1) ps) <;> rfl
    | .hole (.num ds) spec =>
      simp only [formatMeaning, explicit, afterParts, FArg.pick]
      cases pos[decValue ds]? with
      | none => rfl
      | some e =>
        simp only [Option.map_some, Option.bind_some, ih n]
        cases formatMeaning pos named m (explicit n ps) <;> rfl
    | .hole (.name s) spec =>
      simp only [formatMeaning, explicit, afterParts, FArg.pick]
      cases named.find? fun e => e.1 = s with
      | none => rfl
      | some e =>
        simp only [Option.map_some, Option.bind_some, ih n]
        cases formatMeaning pos named m (explicit n ps) <;> rfl

/-- A text without empty placeholders has a meaning if all its arguments are there, and the
meaning depends on these only. -/
theorem formatMeaning_noNext {α} {pos : List α} {named : List (Str × α)} {n : Nat} {ps : List FPart}
    (hn : NoNext ps) :
    (∃ r, formatMeaning pos named n ps = some r) ↔
      (∀ ds spec, FPart.hole (.num ds) spec ∈ ps → decValue ds < pos.length) ∧
      ∀ s spec, FPart.hole (.name s) spec ∈ ps → ∃ e ∈ named, e.1 = s := by
  induction ps with
  | nil => simp [formatMeaning]
  | cons p ps ih =>
    have ih := ih (fun sp hm => hn sp (List.mem_cons_of_mem _ hm))
    match p with
    | .lit s =>
      simp only [formatMeaning, List.mem_cons]
      rw [show (∃ r, (formatMeaning pos named n ps).map (fun r => (FOut.lit s :: r.1, r.2)) = some r) ↔
        ∃ r, formatMeaning pos named n ps = some r by
          cases formatMeaning pos named n ps <;> simp]
      rw [ih]
      simp
    | .hole .next spec => exact absurd (by simp) (hn spec)
    | .hole (.num ds) spec =>
      simp only [formatMeaning, FArg.pick]
      by_cases hd : decValue ds < pos.length
      · rw [List.getElem?_eq_getElem hd]
        simp only [Option.map_some, Option.bind_some]
        rw [show (∃ r, (formatMeaning pos named n ps).map (fun r => (FOut.arg (pos[decValue ds]) spec :: r.1, r.2)) = some r) ↔
          ∃ r, formatMeaning pos named n ps = some r by
            cases formatMeaning pos named n ps <;> simp]
        rw [ih]
        constructor
        · rintro ⟨h1, h2⟩
          refine ⟨?_, ?_⟩
          · intro ds' sp hm
            rcases List.mem_cons.1 hm with h | hm
            · cases h; exact hd
            · exact h1 ds' sp hm
          · intro s sp hm
            rcases List.mem_cons.1 hm with h | hm
            · cases h
            · exact h2 s sp hm
        · rintro ⟨h1, h2⟩
          exact ⟨fun ds' sp hm => h1 ds' sp (List.mem_cons_of_mem _ hm), fun s sp hm => h2 s sp (List.mem_cons_of_mem _ hm)⟩
      · rw [List.getElem?_eq_none (by omega)]
        constructor
        · rintro ⟨r, h⟩; simp at h
        · rintro ⟨h1, -⟩; exact absurd (h1 ds spec (by simp)) hd
    | .hole (.name s) spec =>
      simp only [formatMeaning, FArg.pick]
      cases hf : named.find? fun e => e.1 = s with
      | some e =>
        have he : ∃ e ∈ named, e.1 = s := ⟨e, List.mem_of_find?_eq_some hf, by simpa using List.find?_some hf⟩
        simp only [Option.map_some, Option.bind_some]
        rw [show (∃ r, (formatMeaning pos named n ps).map (fun r => (FOut.arg e.2 spec :: r.1, r.2)) = some r) ↔
          ∃ r, formatMeaning pos named n ps = some r by
            cases formatMeaning pos named n ps <;> simp]
        rw [ih]
        constructor
        · rintro ⟨h1, h2⟩
          refine ⟨?_, ?_⟩
          · intro ds' sp hm
            rcases List.mem_cons.1 hm with h | hm
            · cases h
            · exact h1 ds' sp hm
          · intro s' sp hm
            rcases List.mem_cons.1 hm with h | hm
            · cases h; exact he
            · exact h2 s' sp hm
        · rintro ⟨h1, h2⟩
          exact ⟨fun ds' sp hm => h1 ds' sp (List.mem_cons_of_mem _ hm), fun s sp hm => h2 s sp (List.mem_cons_of_mem _ hm)⟩
      | none =>
        constructor
        · rintro ⟨r, h⟩; simp at h
        · rintro ⟨-, h2⟩
          obtain ⟨e, h3, h4⟩ := h2 s spec (by simp)
          have := List.find?_eq_none.1 hf e h3
          simp at this
          exact absurd h4 this

theorem formatMeaning_renumber {α} {pos pos' : List α} {named named' : List (Str × α)} {P : List Nat} {n : Nat} {ps : List FPart}
    (hn : NoNext ps)
    (h1 : ∀ ds spec, FPart.hole (.num ds) spec ∈ ps → pos'[P.idxOf (decValue ds)]? = pos[decValue ds]?)
    (h2 : ∀ s spec, FPart.hole (.name s) spec ∈ ps →
      named'.find? (fun e => e.1 = s) = named.find? (fun e => e.1 = s)) :
    formatMeaning pos' named' n (renumber P ps) = formatMeaning pos named n ps := by
  induction ps with
  | nil => rfl
  | cons p ps ih =>
    have ih := ih (fun sp hm => hn sp (List.mem_cons_of_mem _ hm))
      (fun ds sp hm => h1 ds sp (List.mem_cons_of_mem _ hm)) (fun s sp hm => h2 s sp (List.mem_cons_of_mem _ hm))
    match p with
    | .lit s => simp only [renumber, formatMeaning, ih]
    | .hole .next spec => exact absurd (by simp) (hn spec)
    | .hole (.num ds) spec =>
      simp only [renumber, formatMeaning, FArg.pick, decStr_value, h1 ds spec (by simp)]
      cases pos[decValue ds]? with
      | none => rfl
      | some e => simp only [Option.map_some, Option.bind_some, ih]
    | .hole (.name s) spec =>
      simp only [renumber, formatMeaning, FArg.pick, h2 s spec (by simp)]
      cases named.find? fun e => e.1 = s with
      | none => rfl
      | some e => simp only [Option.map_some, Option.bind_some, ih]

theorem formatMeaning_counter {α} {pos : List α} {named : List (Str × α)} {n m : Nat} {ps : List FPart} {r}
    (hn : NoNext ps) (h : formatMeaning pos named n ps = some (r, m)) : m = n := by
  induction ps generalizing r with
  | nil => simp [formatMeaning] at h; exact h.2.symm
  | cons p ps ih =>
    have ih := @ih
    match p with
    | .lit s =>
      simp only [formatMeaning, Option.map_eq_some_iff] at h
      obtain ⟨⟨r', m'⟩, h1, h2⟩ := h
      simp at h2
      rw [h2.2] at h1
      exact ih (fun sp hm => hn sp (List.mem_cons_of_mem _ hm)) h1
    | .hole .next spec => exact absurd (by simp) (hn spec)
    | .hole (.num ds) spec =>
      simp only [formatMeaning, FArg.pick, Option.bind_eq_some_iff, Option.map_eq_some_iff] at h
      obtain ⟨⟨e, k⟩, ⟨e', -, h0⟩, ⟨r', m'⟩, h1, h2⟩ := h
      simp at h0 h2
      rw [h2.2, ← h0.2] at h1
      exact ih (fun sp hm => hn sp (List.mem_cons_of_mem _ hm)) h1
    | .hole (.name s) spec =>
      simp only [formatMeaning, FArg.pick, Option.bind_eq_some_iff, Option.map_eq_some_iff] at h
      obtain ⟨⟨e, k⟩, ⟨e', -, h0⟩, ⟨r', m'⟩, h1, h2⟩ := h
      simp at h0 h2
      rw [h2.2, ← h0.2] at h1
      exact ih (fun sp hm => hn sp (List.mem_cons_of_mem _ hm)) h1

theorem numsOf_mem {ps : List FPart} {k : Nat} :
    k ∈ numsOf ps ↔ ∃ ds spec, FPart.hole (.num ds) spec ∈ ps ∧ decValue ds = k ∧ k < 2 ^ 64 := by
  unfold numsOf
  rw [List.mem_filterMap]
  constructor
  · rintro ⟨p, hp, h⟩
    match p, hp, h with
    | .hole (.num ds) spec, hp, h =>
      simp only at h
      split at h
      · next hl => cases h; exact ⟨ds, spec, hp, rfl, hl⟩
      · cases h
  · rintro ⟨ds, spec, hp, rfl, hl⟩
    exact ⟨_, hp, by simp [hl]⟩

theorem namesOf_mem {ps : List FPart} {s : Str} :
    s ∈ namesOf ps ↔ (∃ spec, FPart.hole (.name s) spec ∈ ps) ∨
      ∃ spec, FPart.hole (.num s) spec ∈ ps ∧ 2 ^ 64 ≤ decValue s := by
  unfold namesOf
  rw [List.mem_filterMap]
  constructor
  · rintro ⟨p, hp, h⟩
    match p, hp, h with
    | .hole (.num ds) spec, hp, h =>
      simp only at h
      split at h
      · cases h
      · next hl => cases h; exact .inr ⟨spec, hp, by omega⟩
    | .hole (.name s) spec, hp, h => cases h; exact .inl ⟨spec, hp⟩
  · rintro (⟨spec, hp⟩ | ⟨spec, hp, hl⟩)
    · exact ⟨_, hp, rfl⟩
    · exact ⟨_, hp, by simp; omega⟩

theorem mem_renumber_num {P : List Nat} {ps : List FPart} {ds : Str} {spec : Option Str}
    (h : FPart.hole (.num ds) spec ∈ ps) : FPart.hole (.num (decStr (P.idxOf (decValue ds)))) spec ∈ renumber P ps := by
  induction ps with
  | nil => simp at h
  | cons p ps ih =>
    rcases List.mem_cons.1 h with rfl | h
    · simp [renumber]
    · have := ih h
      match p with
      | .lit s => simp [renumber, this]
      | .hole .next sp => simp [renumber, this]
      | .hole (.num _) sp => simp [renumber, this]
      | .hole (.name _) sp => simp [renumber, this]

theorem mem_renumber_name {P : List Nat} {ps : List FPart} {s : Str} {spec : Option Str}
    (h : FPart.hole (.name s) spec ∈ ps) : FPart.hole (.name s) spec ∈ renumber P ps := by
  induction ps with
  | nil => simp at h
  | cons p ps ih =>
    rcases List.mem_cons.1 h with rfl | h
    · simp [renumber]
    · have := ih h
      match p with
      | .lit s => simp [renumber, this]
      | .hole .next sp => simp [renumber, this]
      | .hole (.num _) sp => simp [renumber, this]
      | .hole (.name _) sp => simp [renumber, this]

end Vw
