import Verif.Lemmas.VwTable
import Verif.Lemmas.Equality

/-!
# Equal elements are written alike
-/

namespace Vw

open Table Fm

/-! ## Maps -/

theorem str_le_trans {a b c : Str} (h1 : a ≤ b) (h2 : b ≤ c) : a ≤ c := List.le_trans h1 h2

/-- Sorting by distinct keys does not depend on the order before. -/
theorem sortedMap_perm {m m' : Map} (hd : DistinctKeys m) (hp : m.Perm m') :
    sortedMap m = sortedMap m' := by
  unfold sortedMap
  have ht : ∀ a b c : Str × Str, keyLe a b = true → keyLe b c = true → keyLe a c = true := by
    intro a b c h1 h2
    simp only [keyLe, decide_eq_true_eq] at *
    exact List.le_trans h1 h2
  have htot : ∀ a b : Str × Str, (keyLe a b || keyLe b a) = true := by
    intro a b
    simp only [keyLe, Bool.or_eq_true, decide_eq_true_eq]
    exact List.le_total ..
  refine List.Perm.eq_of_pairwise ?_ (List.pairwise_mergeSort ht htot m)
    (List.pairwise_mergeSort ht htot m')
    ((List.mergeSort_perm _ _).trans (hp.trans (List.mergeSort_perm _ _).symm))
  intro a b ha hb h1 h2
  simp only [keyLe, decide_eq_true_eq] at h1 h2
  have hk : a.1 = b.1 := List.le_antisymm h1 h2
  have ha := (List.mergeSort_perm _ _).mem_iff.1 ha
  have hb := hp.mem_iff.2 ((List.mergeSort_perm _ _).mem_iff.1 hb)
  obtain ⟨k, v⟩ := a
  obtain ⟨k', v'⟩ := b
  cases hk
  have e1 := lookup_of_mem hd ha
  have e2 := lookup_of_mem hd hb
  rw [e1] at e2
  cases e2
  rfl

theorem mapEq_perm {m m' : Map} (hd : DistinctKeys m) (hd' : DistinctKeys m')
    (h : mapEq (fun x y => decide (x = y)) m m' = true) : m.Perm m' := by
  have n0 : ∀ {m : Map}, DistinctKeys m → m.Nodup := by
    intro m h
    exact List.Pairwise.imp (fun h e => h (by rw [e])) (List.pairwise_map.1 h)
  have n1 := n0 hd
  have n2 := n0 hd'
  rw [List.perm_ext_iff_of_nodup n1 n2]
  have sub : ∀ {m m' : Map}, mapEq (fun x y => decide (x = y)) m m' = true → ∀ e ∈ m, e ∈ m' := by
    intro m m' h e he
    obtain ⟨v', h1, h2⟩ := (mapEq_iff.1 h).2 e.1 e.2 he
    have := lookup_mem h1
    rw [← of_decide_eq_true h2] at this
    exact this
  have h' := ((Laws.map (κ := Str) (Laws.dec (α := Str)))).symm m m' ⟨hd, by simp⟩ ⟨hd', by simp⟩ h
  exact fun e => ⟨sub h e, sub h' e⟩

theorem sortedMap_eq {m m' : Map} (hd : DistinctKeys m) (hd' : DistinctKeys m')
    (h : mapEq (fun x y => decide (x = y)) m m' = true) : sortedMap m = sortedMap m' :=
  sortedMap_perm hd (mapEq_perm hd hd' h)

theorem writeProps_eq {p p' : Option Map} (hp : PropsValid p) (hp' : PropsValid p')
    (h : propsEq p p' = true) (b : Bool) : writeProps b p = writeProps b p' := by
  cases p with
  | none => cases p' with
    | none => rfl
    | some m' => simp [propsEq, optEq] at h
  | some m => cases p' with
    | none => simp [propsEq, optEq] at h
    | some m' =>
      funext f
      simp only [writeProps, sortedMap_eq (hp m rfl) (hp' m' rfl) (by simpa [propsEq, optEq] using h)]

/-! ## Inline elements -/

/-- Equal URIs have the same text and fragment. -/
def SameUri (L : OutLib) (ue : Uri → Uri → Bool) : Prop :=
  ∀ u v, ue u v = true → L.uriStr u = L.uriStr v ∧ u.fragment = v.fragment

set_option linter.unusedSectionVars false

section
variable {L : OutLib} {cfg : VwCfg} {ue : Uri → Uri → Bool} (hu : SameUri L ue)
include hu

theorem decodedUri_eq {u v : Uri} (h : ue u v = true) : decodedUri L u = decodedUri L v := by
  simp [decodedUri, (hu u v h).1]

theorem description_same : ∀ d d' : Description, d.Valid → d'.Valid → d.eqv ue d' = true →
    d.fmt L = d'.fmt L
  | .text s, .text t, _, _, h => by
    simp only [Description.eqv, decide_eq_true_eq] at h; rw [h]
  | .transclusion u none p, .transclusion u' none p', h1, h2, h => by
    simp only [Description.eqv, Bool.and_eq_true] at h
    funext f
    simp only [Description.fmt, decodedUri_eq hu h.1, writeProps_eq h1 h2 h.2]
  | .transclusion u (some d) p, .transclusion u' (some d') p', h1, h2, h => by
    simp only [Description.eqv, Bool.and_eq_true] at h
    funext f
    simp only [Description.fmt, decodedUri_eq hu h.1.1, writeProps_eq h1.2 h2.2 h.2,
      description_same d d' h1.1 h2.1 h.1.2]
  | .text s, .transclusion .., _, _, h => by simp [Description.eqv] at h
  | .transclusion _ none _, .text .., _, _, h => by simp [Description.eqv] at h
  | .transclusion _ (some _) _, .text .., _, _, h => by simp [Description.eqv] at h
  | .transclusion _ none _, .transclusion _ (some _) _, _, _, h => by simp [Description.eqv] at h
  | .transclusion _ (some _) _, .transclusion _ none _, _, _, h => by simp [Description.eqv] at h

theorem desc_same {d d' : Option Description} (hd : ∀ x, d = some x → x.Valid)
    (hd' : ∀ x, d' = some x → x.Valid) (h : optEq (Description.eqv ue) d d' = true) :
    descFmt L d = descFmt L d' ∧ d.isSome = d'.isSome := by
  cases d with
  | none => cases d' with
    | none => exact ⟨rfl, rfl⟩
    | some _ => simp [optEq] at h
  | some x => cases d' with
    | none => simp [optEq] at h
    | some y =>
      refine ⟨?_, rfl⟩
      funext f
      simp only [descFmt, description_same hu x y (hd x rfl) (hd' y rfl) (by simpa [optEq] using h)]

theorem linkData_same {d d' : LinkData} (hd : d.Valid) (hd' : d'.Valid) (h : d.eqv ue d' = true) :
    decodedUri L d.uri = decodedUri L d'.uri ∧ L.uriStr d.uri = L.uriStr d'.uri ∧
    d.toAnchor = d'.toAnchor ∧
    descFmt L d.desc = descFmt L d'.desc ∧ d.desc.isSome = d'.desc.isSome ∧
    ∀ b, writeProps b d.props = writeProps b d'.props := by
  simp only [LinkData.eqv, Bool.and_eq_true] at h
  obtain ⟨e1, e2⟩ := desc_same hu hd.1 hd'.1 h.1.2
  exact ⟨decodedUri_eq hu h.1.1, (hu _ _ h.1.1).1, by simp [LinkData.toAnchor, (hu _ _ h.1.1).2],
    e1, e2, writeProps_eq hd.2 hd'.2 h.2⟩

theorem link_same : ∀ l l' : Link, l.Valid → l'.Valid → l.eqv ue l' = true → l.fmt L = l'.fmt L := by
  intro l l' h1 h2 h
  cases l <;> cases l' <;> simp [Link.eqv] at h
  · obtain ⟨a, -, -, b, -⟩ := linkData_same hu h1 h2 h
    funext f; simp only [Link.fmt, a, b]
  · obtain ⟨a, -, -, b, -⟩ := linkData_same hu h1 h2 h.2
    funext f; simp only [Link.fmt, a, b, h.1]
  · obtain ⟨a, -, -, b, -⟩ := linkData_same hu h1 h2 h.2
    funext f; simp only [Link.fmt, a, b, h.1]
  · obtain ⟨a, -, c, b, -⟩ := linkData_same hu h1 h2 h.2
    funext f; simp only [Link.fmt, c, b, h.1]
  · obtain ⟨-, a, -⟩ := linkData_same hu h1 h2 h
    funext f; simp only [Link.fmt, a]
  · obtain ⟨a, -, -, b, c, d⟩ := linkData_same hu h1 h2 h
    funext f; simp only [Link.fmt, a, b, c, d]

mutual
theorem inline_same : ∀ x y : Inline, x.Valid → y.Valid → x.eqv false ue y = true →
    x.fmt L cfg = y.fmt L cfg
  | .text _, y, _, _ => by cases y <;> simp +contextual [Inline.eqv]
  | .decorated k xs, .decorated k' ys, h1, h2 => fun h => by
    simp only [Inline.eqv, Bool.and_eq_true, decide_eq_true_eq] at h
    funext f
    simp only [Inline.fmt, h.1, inlines_same xs ys h1 h2 h.2]
  | .keyword _, y, _, _ => by cases y <;> simp +contextual [Inline.eqv]
  | .link l, .link l', h1, h2 => fun h => by
    funext f
    simp only [Inline.fmt, link_same hu l l' h1 h2 (by simpa [Inline.eqv] using h)]
  | .tags _, y, _, _ => by cases y <;> simp +contextual [Inline.eqv]
  | .code _, y, _, _ => by cases y <;> simp +contextual [Inline.eqv]
  | .math _, y, _, _ => by cases y <;> simp +contextual [Inline.eqv]
  | .comment _, y, _, _ => by cases y <;> simp +contextual [Inline.eqv]
  | .decorated .., .text _, _, _ | .decorated .., .keyword _, _, _ | .decorated .., .link _, _, _
  | .decorated .., .tags _, _, _ | .decorated .., .code _, _, _ | .decorated .., .math _, _, _
  | .decorated .., .comment _, _, _ => fun h => by simp [Inline.eqv] at h
  | .link _, .text _, _, _ | .link _, .keyword _, _, _ | .link _, .decorated .., _, _
  | .link _, .tags _, _, _ | .link _, .code _, _, _ | .link _, .math _, _, _
  | .link _, .comment _, _, _ => fun h => by simp [Inline.eqv] at h
theorem inlines_same : ∀ xs ys : List (Located Inline), Inline.Valids xs → Inline.Valids ys →
    Inline.eqvs false ue xs ys = true → Inline.fmtAll L cfg xs = Inline.fmtAll L cfg ys
  | [], [], _, _ => fun _ => rfl
  | ⟨x, _⟩ :: xs, ⟨y, _⟩ :: ys, h1, h2 => fun h => by
    simp only [Inline.eqvs, Bool.and_eq_true] at h
    funext f
    simp only [Inline.fmtAll, inline_same x y h1.1 h2.1 h.1.1, inlines_same xs ys h1.2 h2.2 h.2]
  | [], _ :: _, _, _ => fun h => by simp [Inline.eqvs] at h
  | _ :: _, [], _, _ => fun h => by simp [Inline.eqvs] at h
end

end

/-! ## Tables -/

/-- A table with distinct positions and right counts is one that `Table::new` builds. -/
theorem Table.Valid.built {t : Table} (h : t.Valid) : t.Built := by
  obtain ⟨h1, -, h3, h4⟩ := h
  have hc : ∀ l acc : List (CellPos × Located Cell), DistinctKeys (l.reverse ++ acc) →
      l.foldl (fun m e => e :: m.filter (fun x => x.1 ≠ e.1)) acc = l.reverse ++ acc := by
    intro l
    induction l with
    | nil => intro acc _; rfl
    | cons e l ih =>
      intro acc hd
      rw [List.foldl_cons, List.reverse_cons, List.append_assoc]
      rw [List.reverse_cons, List.append_assoc] at hd
      have hd2 : DistinctKeys ([e] ++ acc) := by
        unfold DistinctKeys at hd ⊢
        rw [List.map_append] at hd
        exact (List.nodup_append.1 hd).2.1
      have hf : acc.filter (fun x => x.1 ≠ e.1) = acc := by
        rw [List.filter_eq_self]
        intro x hx
        simp only [DistinctKeys, List.cons_append, List.nil_append, List.map_cons, List.nodup_cons,
          List.mem_map, not_exists, not_and] at hd2
        simpa using hd2.1 x hx
      rw [hf]
      exact ih (e :: acc) hd
  have hcol : collect t.cells.reverse = t.cells := by
    have := hc t.cells.reverse [] (by simpa using h1)
    simpa [collect] using this
  have fold : ∀ (g : CellPos → Nat) (l : List (CellPos × Located Cell)) (n : Nat),
      CountOf (l.map fun e => g e.1) n → (l.map (·.1)).foldl (fun acc p => max acc (g p + 1)) 0 = n := by
    intro g l n hn
    have aux : ∀ (l : List (CellPos × Located Cell)) (a : Nat),
        (∀ e ∈ l, g e.1 + 1 ≤ (l.map (·.1)).foldl (fun acc p => max acc (g p + 1)) a) ∧
        a ≤ (l.map (·.1)).foldl (fun acc p => max acc (g p + 1)) a ∧
        ((l.map (·.1)).foldl (fun acc p => max acc (g p + 1)) a = a ∨
          ∃ e ∈ l, (l.map (·.1)).foldl (fun acc p => max acc (g p + 1)) a = g e.1 + 1) := by
      intro l
      induction l with
      | nil => intro a; simp
      | cons e l ih =>
        intro a
        obtain ⟨i1, i2, i3⟩ := ih (max a (g e.1 + 1))
        simp only [List.map_cons, List.foldl_cons]
        refine ⟨?_, by omega, ?_⟩
        · intro x hx
          rcases List.mem_cons.1 hx with rfl | hx
          · omega
          · exact i1 x hx
        · rcases i3 with i3 | ⟨x, hx, i3⟩
          · by_cases h : a ≤ g e.1 + 1
            · exact .inr ⟨e, by simp, by rw [i3]; omega⟩
            · exact .inl (by rw [i3]; omega)
          · exact .inr ⟨x, by simp [hx], i3⟩
    obtain ⟨a1, a2, a3⟩ := aux l 0
    obtain ⟨n1, n2⟩ := hn
    apply Nat.le_antisymm
    · rcases a3 with a3 | ⟨e, he, a3⟩
      · omega
      · rw [a3]
        have := n1 (g e.1) (List.mem_map.2 ⟨e, he, rfl⟩)
        omega
    · rcases n2 with n2 | ⟨i, hi, n2⟩
      · omega
      · obtain ⟨e, he, rfl⟩ := List.mem_map.1 hi
        have := a1 e he
        omega
  refine ⟨t.cells.reverse, t.centered, t.centered, ?_⟩
  obtain ⟨cells, rc, cc, ce⟩ := t
  simp only [Table.new, hcol]
  dsimp only at *
  rw [fold (·.row) cells rc h3, fold (·.col) cells cc h4]

/-- What the output depends on in a cell. -/
def cellSig (L : OutLib) (cfg : VwCfg) (f : Fm) : Cell → Option Str × Option Align
  | .align a => (none, some a)
  | x => (cellText L cfg f x, none)

theorem cellText_sig (L : OutLib) (cfg : VwCfg) (f : Fm) (x : Cell) :
    cellText L cfg f x = (cellSig L cfg f x).1 := by
  cases x with
  | align a => rfl
  | content _ => rfl
  | span _ => rfl

theorem alignNeed_sig (L : OutLib) (cfg : VwCfg) (f : Fm) (x : Cell) :
    alignNeed x = ((cellSig L cfg f x).2.map fun a => alignNeed (.align a)).getD 0 := by
  cases x with
  | align a => rfl
  | content _ => rfl
  | span _ => rfl

theorem writeDivider_sig (L : OutLib) (cfg : VwCfg) (f : Fm) (n : Nat) (x : Option Cell) :
    writeDivider n x = writeDivider n ((x.bind fun x => (cellSig L cfg f x).2).map Cell.align) := by
  cases x with
  | none => rfl
  | some x => cases x with
    | align a => rfl
    | content _ => rfl
    | span _ => rfl

theorem leading_map {α β} (g : α → β) (l : List (Option α)) :
    (leading l).map g = leading (l.map (Option.map g)) := by
  induction l with
  | nil => rfl
  | cons x l ih => cases x <;> simp [leading, ih]

/-- Two tables of the same size with cells of the same output at each position. -/
def SameCells (L : OutLib) (cfg : VwCfg) (f : Fm) (t t' : Table) : Prop :=
  t.rowCnt = t'.rowCnt ∧ t.colCnt = t'.colCnt ∧ t.centered = t'.centered ∧
  ∀ r c, (t.getCell r c).map (fun x => cellSig L cfg f x.inner) =
    (t'.getCell r c).map (fun x => cellSig L cfg f x.inner)

theorem fixedCells_listed {L : OutLib} {cfg : VwCfg} {f : Fm} {t : Table} (ht : t.Built) :
    fixedCells L cfg f t = (leading ((posRows t.colCnt 0 t.rowCnt).map fun p =>
      (t.getCell p.row p.col).map fun x => (p, cellSig L cfg f x.inner))).filterMap fun e =>
      e.2.1.map fun s => (e.1, padCell cfg s) := by
  unfold fixedCells
  rw [ht.cells_pos.drain]
  · have : (leading ((posRows t.colCnt 0 t.rowCnt).map fun p =>
      (t.getCell p.row p.col).map fun x => (p, cellSig L cfg f x.inner))) =
      t.listed.map fun e => (e.1, cellSig L cfg f e.2.inner) := by
      unfold listed
      rw [leading_map, List.map_map]
      congr 2
      funext p
      simp [Function.comp_def]
    rw [this, List.filterMap_map]
    simp only [Function.comp_def, cellText_sig]
  · unfold listed
    have h1 := leading_length ((posRows t.colCnt 0 t.rowCnt).map fun p =>
      (t.getCell p.row p.col).map fun x => (p, x))
    rw [List.length_map, posRows_length] at h1
    exact Nat.lt_succ_of_le h1

theorem minAlign_same {L : OutLib} {cfg : VwCfg} {f : Fm} {t t' : Table} (ht : t.Built) (ht' : t'.Built)
    (h : SameCells L cfg f t t') (c : Nat) : minAlign t c = minAlign t' c := by
  obtain ⟨l, hy, hl, hf⟩ := ht.column c
  obtain ⟨l', hy', hl', hf'⟩ := ht'.column c
  have key : l.map (fun x => cellSig L cfg f x.inner) = l'.map (fun x => cellSig L cfg f x.inner) := by
    have hle : l.length = l'.length := by
      rcases Nat.lt_trichotomy l.length l'.length with hlt | he | hlt
      · have h1 := h.2.2.2 l.length c
        rw [hf _ (Nat.le_refl _), hf' _ (by omega), List.getElem?_eq_none (Nat.le_refl _),
          List.getElem?_eq_getElem hlt] at h1
        cases h1
      · exact he
      · have h1 := h.2.2.2 l'.length c
        rw [hf _ (by omega), hf' _ (Nat.le_refl _), List.getElem?_eq_getElem hlt,
          List.getElem?_eq_none (Nat.le_refl _)] at h1
        cases h1
    apply List.ext_getElem?
    intro j
    rw [List.getElem?_map, List.getElem?_map]
    by_cases hj : j ≤ l.length
    · rw [← hf j hj, ← hf' j (by omega)]
      exact h.2.2.2 j c
    · rw [List.getElem?_eq_none (by omega), List.getElem?_eq_none (by omega)]
  unfold minAlign
  rw [hy.drain _ (by omega), hy'.drain _ (by omega)]
  have e : ∀ l : List (Located Cell), (l.map fun c => alignNeed c.inner) =
      (l.map (fun x => cellSig L cfg f x.inner)).map fun s =>
        (s.2.map fun a => alignNeed (.align a)).getD 0 := by
    intro l
    rw [List.map_map]
    congr 1
    funext x
    exact alignNeed_sig ..
  rw [e, e, key]

theorem writeCells_same {L : OutLib} {cfg : VwCfg} {f : Fm} {t t' : Table} (ht : t.Built) (ht' : t'.Built)
    (h : SameCells L cfg f t t') (fx : List (CellPos × Str)) (r : Nat) (ks : List Nat) :
    writeCells t fx r ks = writeCells t' fx r ks := by
  induction ks with
  | nil => rfl
  | cons k ks ih =>
    funext g
    have hw : columnWidth t fx k = columnWidth t' fx k := by
      simp only [columnWidth, minAlign_same ht ht' h]
    have hb : writeBody t fx r k = writeBody t' fx r k := by
      funext g
      unfold writeBody
      rw [hw]
      cases lookupFixed fx ⟨r, k⟩ with
      | some s => rfl
      | none =>
        dsimp only
        have e : ((t.getCell r k).map Located.inner).bind (fun x => (cellSig L cfg f x).2) =
            ((t'.getCell r k).map Located.inner).bind (fun x => (cellSig L cfg f x).2) := by
          have := h.2.2.2 r k
          cases h1 : t.getCell r k <;> cases h2 : t'.getCell r k <;> rw [h1, h2] at this
          · cases this
          · cases this
          · simp only [Option.map_some, Option.some.injEq, Option.bind_some] at this ⊢
            rw [this]
        rw [writeDivider_sig L cfg f, e, ← writeDivider_sig L cfg f]
    simp only [writeCells, writeCell, hb, ih]

theorem table_same {L : OutLib} {cfg : VwCfg} {f : Fm} {t t' : Table} (ht : t.Built) (ht' : t'.Built)
    (h : SameCells L cfg f t t') : t.fmt L cfg f = t'.fmt L cfg f := by
  have hfx : fixedCells L cfg f t = fixedCells L cfg f t' := by
    rw [fixedCells_listed ht, fixedCells_listed ht', h.1, h.2.1]
    congr 3
    funext p
    have := h.2.2.2 p.row p.col
    cases h1 : t.getCell p.row p.col <;> cases h2 : t'.getCell p.row p.col <;> rw [h1, h2] at this <;>
      simp at this ⊢
    exact this
  have hr : ∀ rs, writeRows cfg t (fixedCells L cfg f t') rs =
      writeRows cfg t' (fixedCells L cfg f t') rs := by
    intro rs
    induction rs with
    | nil => rfl
    | cons r rs ih =>
      funext g
      simp only [writeRows, writeCells_same ht ht' h, ih, h.2.2.1, h.2.1]
  unfold Table.fmt
  rw [hfx, h.1, hr]

/-- Related values at each key. -/
theorem mapEq_lookup {κ υ : Type} [DecidableEq κ] {r : υ → υ → Bool} {m m' : List (κ × υ)}
    (hd : DistinctKeys m) (h : mapEq r m m' = true) (k : κ) :
    optEq r (lookup m k) (lookup m' k) = true := by
  have hk := mapEq_keys hd h k
  cases h1 : lookup m k with
  | some v =>
    obtain ⟨v', h2, h3⟩ := (mapEq_iff.1 h).2 k v (lookup_mem h1)
    rw [h2]; exact h3
  | none =>
    cases h2 : lookup m' k with
    | none => rfl
    | some v' =>
      obtain ⟨⟨k', v⟩, h3, rfl⟩ := List.mem_map.1 (hk.2 (List.mem_map.2 ⟨_, lookup_mem h2, rfl⟩))
      rw [lookup_of_mem hd h3] at h1
      cases h1

section
variable {L : OutLib} {cfg : VwCfg} {ue : Uri → Uri → Bool} (hu : SameUri L ue)
include hu

theorem sameCells_of_eqv (f : Fm) {t t' : Table} (hv : t.Valid) (hv' : t'.Valid)
    (h : t.eqv false ue t' = true) : SameCells L cfg f t t' := by
  simp only [Table.eqv, Bool.and_eq_true, decide_eq_true_eq, Bool.false_or] at h
  refine ⟨h.2.1, h.2.2, h.1.1, fun r c => ?_⟩
  have hl := mapEq_lookup hv.1 h.1.2 ⟨r, c⟩
  unfold getCell
  rw [lookupCell_eq, lookupCell_eq]
  cases h1 : lookup t.cells ⟨r, c⟩ <;> cases h2 : lookup t'.cells ⟨r, c⟩ <;> rw [h1, h2] at hl
  · cases hl
  · cases hl
  · next x y =>
    simp only [Option.map_some, Option.some.injEq]
    simp only [optEq, locEq, Bool.and_eq_true] at hl
    have vx := hv.2.1 _ (lookup_mem h1)
    have vy := hv'.2.1 _ (lookup_mem h2)
    obtain ⟨x, _⟩ := x
    obtain ⟨y, _⟩ := y
    cases x <;> cases y <;> simp [Cell.eqv] at hl
    · simp only [cellSig, cellText]
      rw [inlines_same hu _ _ vx vy hl]
    · rw [hl]
    · rw [hl]

theorem paragraph_same : ∀ ls ls' : List Inlines, (∀ r ∈ ls, Inline.Valids r) →
    (∀ r ∈ ls', Inline.Valids r) → vecEq (Inline.eqvs false ue) ls ls' = true →
    paragraphFmt L cfg ls = paragraphFmt L cfg ls'
  | [], [], _, _, _ => rfl
  | l :: ls, l' :: ls', h1, h2, h => by
    simp only [vecEq, Bool.and_eq_true] at h
    funext f
    simp only [paragraphFmt, inlines_same hu l l' (h1 l (by simp)) (h2 l' (by simp)) h.1,
      paragraph_same ls ls' (fun r hr => h1 r (by simp [hr])) (fun r hr => h2 r (by simp [hr])) h.2]
  | [], _ :: _, _, _, h => by simp [vecEq] at h
  | _ :: _, [], _, _, h => by simp [vecEq] at h

theorem defs_same : ∀ (ds ds' : List (Located Inlines)) (b : Bool), (∀ r ∈ ds, Inline.Valids r.inner) →
    (∀ r ∈ ds', Inline.Valids r.inner) → vecEq (locEq false (Inline.eqvs false ue)) ds ds' = true →
    defsFmt L cfg b ds = defsFmt L cfg b ds'
  | [], [], _, _, _, _ => rfl
  | ⟨l, _⟩ :: ls, ⟨l', _⟩ :: ls', b, h1, h2, h => by
    simp only [vecEq, locEq, Bool.and_eq_true] at h
    funext f
    simp only [defsFmt, inlines_same hu l l' (h1 _ List.mem_cons_self) (h2 _ List.mem_cons_self) h.1.1,
      defs_same ls ls' false (fun r hr => h1 r (by simp [hr])) (fun r hr => h2 r (by simp [hr])) h.2]
  | [], _ :: _, _, _, _, h => by simp [vecEq] at h
  | _ :: _, [], _, _, _, h => by simp [vecEq] at h

theorem defList_same : ∀ (xs ys : List (Located TermDefs)), (∀ r ∈ xs, r.inner.Valid) →
    (∀ r ∈ ys, r.inner.Valid) → vecEq (locEq false (TermDefs.eqv false ue)) xs ys = true →
    defListFmt L cfg xs = defListFmt L cfg ys
  | [], [], _, _, _ => rfl
  | ⟨⟨tm, ds⟩, _⟩ :: xs, ⟨⟨tm', ds'⟩, _⟩ :: ys, h1, h2, h => by
    simp only [vecEq, locEq, TermDefs.eqv, Bool.and_eq_true] at h
    have v1 := h1 _ List.mem_cons_self
    have v2 := h2 _ List.mem_cons_self
    have he : ds.inner.isEmpty = ds'.inner.isEmpty := by
      have := h.1.1.2.1
      cases hx : ds.inner <;> cases hy : ds'.inner <;> rw [hx, hy] at this <;> simp [vecEq] at this ⊢
    funext f
    simp only [defListFmt, inlines_same hu tm.inner tm'.inner v1.1 v2.1 h.1.1.1.1, he,
      defs_same hu ds.inner ds'.inner true v1.2 v2.2 h.1.1.2.1,
      defList_same xs ys (fun r hr => h1 r (by simp [hr])) (fun r hr => h2 r (by simp [hr])) h.2]
  | [], _ :: _, _, _, h => by simp [vecEq] at h
  | _ :: _, [], _, _, h => by simp [vecEq] at h

mutual
theorem block_same : ∀ x y : Block, x.Valid → y.Valid → x.eqv false ue y = true →
    x.fmt L cfg = y.fmt L cfg
  | .blockquote _, y, _, _ => by cases y <;> simp +contextual [Block.eqv]
  | .code l m ls, y, h1, h2 => fun h => by
    cases y <;> simp [Block.eqv] at h
    obtain ⟨⟨rfl, h⟩, rfl⟩ := h
    funext f
    simp only [Block.fmt, codeFmt, sortedMap_eq h1 h2 h]
  | .defs xs, y, h1, h2 => fun h => by
    cases y <;> simp [Block.eqv] at h
    funext f
    simp only [Block.fmt, defList_same hu _ _ h1 h2 h]
  | .divider, y, _, _ => by cases y <;> simp [Block.eqv]
  | .header c n b, y, h1, h2 => fun h => by
    cases y <;> simp [Block.eqv] at h
    obtain ⟨⟨rfl, rfl⟩, h⟩ := h
    funext f
    simp only [Block.fmt, headerFmt, inlines_same hu _ _ h1 h2 h]
  | .list xs, .list ys, h1, h2 => fun h => by
    funext f
    simp only [Block.fmt, items_same xs ys h1 h2 (by simpa [Block.eqv] using h)]
  | .math _ _, y, _, _ => by cases y <;> simp +contextual [Block.eqv]
  | .paragraph ls, y, h1, h2 => fun h => by
    cases y <;> simp [Block.eqv] at h
    funext f
    simp only [Block.fmt, paragraph_same hu _ _ h1 h2 h]
  | .placeholder _, y, _, _ => by cases y <;> simp +contextual [Block.eqv]
  | .table t, y, h1, h2 => fun h => by
    cases y <;> simp [Block.eqv] at h
    funext f
    exact table_same h1.built h2.built (sameCells_of_eqv hu f h1 h2 h)
  | .list _, .blockquote _, _, _ | .list _, .code .., _, _ | .list _, .defs _, _, _
  | .list _, .divider, _, _ | .list _, .header .., _, _ | .list _, .math .., _, _
  | .list _, .paragraph _, _, _ | .list _, .placeholder _, _, _ | .list _, .table _, _, _ =>
    fun h => by simp [Block.eqv] at h
theorem items_same : ∀ xs ys : List (Located (ItemF Block)), Block.ValidItems xs →
    Block.ValidItems ys → Block.eqvItems false ue xs ys = true →
    Block.fmtItems L cfg xs = Block.fmtItems L cfg ys
  | [], [], _, _ => fun _ => rfl
  | ⟨⟨ty, su, pos, cs, td⟩, _⟩ :: xs, ⟨⟨ty', su', pos', cs', td'⟩, _⟩ :: ys, h1, h2 => fun h => by
    simp only [Block.eqvItems, Bool.and_eq_true, decide_eq_true_eq] at h
    obtain ⟨⟨⟨⟨⟨⟨rfl, rfl⟩, rfl⟩, h3⟩, rfl⟩, -⟩, h4⟩ := h
    have he : cs.isEmpty = cs'.isEmpty := by
      cases cs <;> cases cs' <;> simp [Block.eqvs] at h3 ⊢
    funext f
    simp only [Block.fmtItems, contents_same cs cs' h1.1 h2.1 h3, he, items_same xs ys h1.2 h2.2 h4]
  | [], _ :: _, _, _ => fun h => by simp [Block.eqvItems] at h
  | _ :: _, [], _, _ => fun h => by simp [Block.eqvItems] at h
theorem contents_same : ∀ xs ys : List (Located Block), Block.Valids xs → Block.Valids ys →
    Block.eqvs false ue xs ys = true → Block.fmtContents L cfg xs = Block.fmtContents L cfg ys
  | [], [], _, _ => fun _ => rfl
  | ⟨x, _⟩ :: xs, ⟨y, _⟩ :: ys, h1, h2 => fun h => by
    simp only [Block.eqvs, Bool.and_eq_true] at h
    funext f
    simp only [Block.fmtContents, block_same x y h1.1 h2.1 h.1.1, contents_same xs ys h1.2 h2.2 h.2]
  | [], _ :: _, _, _ => fun h => by simp [Block.eqvs] at h
  | _ :: _, [], _, _ => fun h => by simp [Block.eqvs] at h
end

theorem page_same : ∀ xs ys : List (Located Block), Block.Valids xs → Block.Valids ys →
    Block.eqvs false ue xs ys = true → pageFmt L cfg xs = pageFmt L cfg ys
  | [], [], _, _ => fun _ => rfl
  | [⟨x, _⟩], [⟨y, _⟩], h1, h2 => fun h => by
    simp only [Block.eqvs, Bool.and_eq_true] at h
    funext f
    simp only [pageFmt, block_same hu x y h1.1 h2.1 h.1.1]
  | ⟨x, _⟩ :: x2 :: xs, ⟨y, _⟩ :: y2 :: ys, h1, h2 => fun h => by
    rw [Block.eqvs, Bool.and_eq_true, Bool.and_eq_true] at h
    funext f
    simp only [pageFmt, block_same hu x y h1.1 h2.1 h.1.1,
      page_same (x2 :: xs) (y2 :: ys) h1.2 h2.2 h.2]
  | [], _ :: _, _, _ => fun h => by simp [Block.eqvs] at h
  | _ :: _, [], _, _ => fun h => by simp [Block.eqvs] at h
  | [_], _ :: _ :: _, _, _ => fun h => by simp [Block.eqvs] at h
  | _ :: _ :: _, [_], _, _ => fun h => by simp [Block.eqvs] at h

end

end Vw

namespace Vw

open Fm

/-! ## Pages element by element -/

theorem bol_true_append {c t : Str} (hc : bol c = true) (ht : t = [] ∨ t.getLast? = some 10) :
    bol (c ++ t) = true := by
  rcases ht with rfl | ht
  · simpa using hc
  · unfold bol
    rw [List.getLast?_append, ht]
    simp

theorem joined_cons (sep t : Str) {ts : List Str} (h : ts ≠ []) :
    joined sep (t :: ts) = t ++ (sep ++ joined sep ts) := by
  cases ts with
  | nil => exact absurd rfl h
  | cons u us => rfl

/-- The formatter at the beginning of a line appends the texts of the elements. -/
theorem page_concat (L : OutLib) (cfg : VwCfg) (hI : ValidUtf8 cfg.indentStr)
    (xs : List (Located Block)) (hs : ∀ x ∈ xs, x.inner.Solid L cfg)
    (hc : cfg.separate = true ∨ ∀ x ∈ xs, ∀ t, x.inner.toVimwiki L cfg = some t →
      t = [] ∨ t.getLast? = some 10)
    {c : Str} (hw : Whole c) (hb : bol c = true) :
    (pageFmt L cfg xs ⟨c, 0, false⟩).map (·.content) =
      (elementTexts L cfg xs).map fun ts =>
        c ++ joined (if cfg.separate then b!"\n" else []) ts := by
  induction xs generalizing c with
  | nil => simp [pageFmt, elementTexts, joined]
  | cons x xs ih =>
    obtain ⟨x, reg⟩ := x
    obtain ⟨T, hE, hT⟩ := puts_block L cfg hI x (hs ⟨x, reg⟩ (by simp))
    have ht : x.toVimwiki L cfg = T 0 true := by
      unfold Block.toVimwiki
      have := hT 0 [] Whole.nil
      rw [Fm.new, this, Option.map_map]
      show Option.map _ (T 0 true) = _
      cases T 0 true <;> rfl
    have hx := hT 0 c hw
    rw [hb] at hx
    rw [elementTexts, ht]
    cases xs with
    | nil =>
      simp only [pageFmt, hx, elementTexts]
      cases T 0 true <;> simp [joined]
    | cons y ys =>
      simp only [pageFmt, hx]
      cases htt : T 0 true with
      | none => rfl
      | some t =>
        simp only [Option.map_some, Option.bind_some, writeIf_eq]
        have hcl : Whole (c ++ t) := hw.append (hE 0 true t htt)
        have key : Whole (c ++ t ++ (if cfg.separate then b!"\n" else [])) ∧
            bol (c ++ t ++ (if cfg.separate then b!"\n" else [])) = true := by
          by_cases hsep : cfg.separate = true
          · rw [if_pos hsep]
            exact ⟨hcl.append (.inr ⟨10, by omega, rfl⟩), by simp [bol]⟩
          · rw [if_neg hsep, List.append_nil]
            refine ⟨hcl, bol_true_append hb ?_⟩
            exact (hc.resolve_left hsep) ⟨x, reg⟩ (by simp) t (by rw [ht, htt])
        have := ih (fun x hx => hs x (by simp [hx]))
          (hc.imp_right fun h x hx => h x (by simp [hx])) key.1 key.2
        have hne : ∀ ts, elementTexts L cfg (y :: ys) = some ts → ts ≠ [] := by
          intro ts hts
          rw [elementTexts, Option.bind_eq_some_iff] at hts
          obtain ⟨u, -, hts⟩ := hts
          rw [Option.map_eq_some_iff] at hts
          obtain ⟨v, -, rfl⟩ := hts
          simp
        rw [this, Option.map_map]
        cases he : elementTexts L cfg (y :: ys) with
        | none => rfl
        | some ts => simp [joined_cons _ _ (hne ts he)]

/-! ## Elements other than lists end with a line break -/

/-- The state is unchanged or a line break was written last. -/
def EndsNl (f g : Fm) : Prop := g.skip = false ∧ (g = f ∨ g.content.getLast? = some 10)

theorem EndsNl.nl {f g h : Fm} (hg : Keeps [] f g) (hf : f.skip = false)
    (hh : EndsNl (Fm.write b!"\n" g) h) : EndsNl f h := by
  have hs : g.skip = false := by
    cases e : g.skip with
    | false => rfl
    | true => rw [hg.2.1 e] at hf; cases hf
  refine ⟨hh.1, .inr ?_⟩
  rcases hh.2 with rfl | h
  · simp [Fm.write, hs]
  · exact h

theorem EndsNl.line {f g : Fm} (hg : Keeps [] f g) (hf : f.skip = false) (s : Str)
    (hs : s.getLast? = some 10) : EndsNl f (Fm.write s g) := by
  have hs' : g.skip = false := by
    cases e : g.skip with
    | false => rfl
    | true => rw [hg.2.1 e] at hf; cases hf
  refine ⟨by simp [Fm.write, hs'], .inr ?_⟩
  simp [Fm.write, hs', List.getLast?_append, hs]

theorem skip_nl {f g : Fm} (hg : Keeps [] f g) (hf : f.skip = false) :
    (Fm.write b!"\n" g).skip = false := (EndsNl.line hg hf b!"\n" rfl).1

theorem nl_last {f g : Fm} (hg : Keeps [] f g) (hf : f.skip = false) :
    (Fm.write b!"\n" g).content.getLast? = some 10 := by
  have hs' : g.skip = false := by
    cases e : g.skip with
    | false => rfl
    | true => rw [hg.2.1 e] at hf; cases hf
  simp [Fm.write, hs']

theorem Trimmed.nil : Trimmed [] := ⟨Whole.nil, by decide⟩

theorem quote_ends (cfg : VwCfg) (ls : List Str) (f : Fm) (hf : f.skip = false) :
    EndsNl f (quoteFmt cfg ls f) := by
  induction ls generalizing f with
  | nil => exact ⟨hf, .inl rfl⟩
  | cons l ls ih =>
    have hk := (((Keeps.refl [] f).indent cfg).write
      (if cfg.preferIndentedQuote then b!"    " else b!"> ")).trimIf Trimmed.nil cfg.trimQuote (.write l)
    exact EndsNl.nl hk hf (ih _ (skip_nl hk hf))

theorem paragraph_ends (L : OutLib) (cfg : VwCfg) (ls : List Inlines) (f : Fm) (hf : f.skip = false) :
    EndsNl f (paragraphFmt L cfg ls f) := by
  induction ls generalizing f with
  | nil => exact ⟨hf, .inl rfl⟩
  | cons l ls ih =>
    have hk := ((Keeps.refl [] f).indent cfg).trimIf Trimmed.nil cfg.trimParagraph
      (writes_inlines L cfg l)
    exact EndsNl.nl hk hf (ih _ (skip_nl hk hf))

theorem defs_ends (L : OutLib) (cfg : VwCfg) (ds : List (Located Inlines)) (b : Bool) (f : Fm)
    (hf : f.skip = false) : EndsNl f (defsFmt L cfg b ds f) ∧
      (ds ≠ [] → (defsFmt L cfg b ds f).content.getLast? = some 10) := by
  induction ds generalizing f b with
  | nil => exact ⟨⟨hf, .inl rfl⟩, fun h => absurd rfl h⟩
  | cons x ds ih =>
    obtain ⟨x, reg⟩ := x
    have hk : Keeps [] f (andTrimIf cfg.trimDefs (Inline.fmtAll L cfg x)
      (if b && !cfg.termAlone then Fm.write b!" " f
       else Fm.write b!":: " (writeIndent cfg f))) := by
      refine Keeps.trimIf Trimmed.nil _ (writes_inlines L cfg x) ?_
      split
      · exact (Keeps.refl [] f).write _
      · exact ((Keeps.refl [] f).indent cfg).write _
    obtain ⟨h1, h2⟩ := ih false _ (skip_nl hk hf)
    have := EndsNl.nl hk hf h1
    refine ⟨this, fun _ => ?_⟩
    rcases h1.2 with h | h
    · simp only [defsFmt, h]
      exact nl_last hk hf
    · exact h

theorem defList_ends (L : OutLib) (cfg : VwCfg) (xs : List (Located TermDefs)) (f : Fm)
    (hf : f.skip = false) : EndsNl f (defListFmt L cfg xs f) := by
  induction xs generalizing f with
  | nil => exact ⟨hf, .inl rfl⟩
  | cons x xs ih =>
    obtain ⟨⟨term, ds⟩, reg⟩ := x
    have hk := (((Keeps.refl [] f).indent cfg).trimIf Trimmed.nil cfg.trimTerms
      (writes_inlines L cfg term.inner)).write b!"::"
    have hs : ∀ g, Keeps [] f g → g.skip = false := by
      intro g hg
      cases e : g.skip with
      | false => rfl
      | true => rw [hg.2.1 e] at hf; cases hf
    have hk2 := hk.writeIf (cfg.termAlone || ds.inner.isEmpty) b!"\n"
    obtain ⟨h1, h2⟩ := defs_ends L cfg ds.inner true _ (hs _ hk2)
    have h3 := ih _ h1.1
    refine ⟨h3.1, .inr ?_⟩
    rcases h3.2 with h | h
    · simp only [defListFmt]
      rw [h]
      cases hd : ds.inner with
      | nil =>
        simp only [defsFmt, List.isEmpty_nil, Bool.or_true, Fm.writeIf, if_true]
        exact nl_last hk hf
      | cons d ds' =>
        have := h2 (by rw [hd]; simp)
        rw [hd] at this
        exact this
    · exact h

/-- Elements other than lists write nothing or end with a line break. -/
theorem block_ends (L : OutLib) (cfg : VwCfg) (b : Block) (hb : ∀ xs, b ≠ .list xs) {f g : Fm}
    (hf : f.skip = false) (h : b.fmt L cfg f = some g) : EndsNl f g := by
  cases b with
  | blockquote ls => cases h; exact quote_ends cfg ls f hf
  | code lang md ls =>
    cases h
    refine EndsNl.line ?_ hf _ rfl
    exact (keeps_rawLines cfg ls (Keeps.write _ (((((Keeps.refl [] f).indent cfg).write _).write _).trans
      (Keeps.writes (writes_pairs _ _) _)))).indent cfg
  | defs xs => cases h; exact defList_ends L cfg xs f hf
  | divider => cases h; exact EndsNl.line (Keeps.refl [] f) hf _ rfl
  | header c level centered =>
    cases h
    refine EndsNl.line ?_ hf _ rfl
    exact (((((((Keeps.refl [] f).writeIf _ _).writeN _ _).writeIf _ _).trimIf Trimmed.nil _
      (writes_inlines L cfg c)).writeIf _ _).writeN _ _)
  | list xs => exact absurd rfl (hb xs)
  | math ls env =>
    cases h
    refine EndsNl.line ?_ hf _ rfl
    exact (keeps_rawLines cfg ls (Keeps.write _ ((((Keeps.refl [] f).indent cfg).write _).write _))).indent cfg
  | paragraph ls => cases h; exact paragraph_ends L cfg ls f hf
  | placeholder p =>
    cases h
    cases p
    · exact EndsNl.line (((Keeps.refl [] f).write _).write _) hf _ rfl
    · exact EndsNl.line (Keeps.refl [] f) hf _ rfl
    · exact EndsNl.line (((Keeps.refl [] f).write _).write _) hf _ rfl
    · exact EndsNl.line (((Keeps.refl [] f).write _).write _) hf _ rfl
    · exact EndsNl.line (((((Keeps.refl [] f).write _).write _).write _).write _) hf _ rfl
  | table t =>
    obtain ⟨c, i, sk⟩ := f
    dsimp only at hf
    subst hf
    simp only [Block.fmt, table_eq, Option.map_eq_some_iff] at h
    obtain ⟨rows, -, rfl⟩ := h
    have key : ∀ b, rowLines cfg t.centered i b rows = [] ∨
        (rowLines cfg t.centered i b rows).getLast? = some 10 := by
      induction rows with
      | nil => intro b; exact .inl rfl
      | cons r rows ih =>
        intro b
        refine .inr ?_
        rcases ih true with h | h
        · simp [rowLines, h, rowLine, List.getLast?_append]
          rw [← List.cons_append, List.getLast?_append]; rfl
        · simp [rowLines, h, List.getLast?_append]
    refine ⟨rfl, ?_⟩
    rcases key (bol c) with h | h
    · exact .inl (by rw [h]; simp)
    · exact .inr (by simp [List.getLast?_append, h])

theorem closed_of_not_list (L : OutLib) (cfg : VwCfg) (b : Block) (hb : ∀ xs, b ≠ .list xs) {t : Str}
    (h : b.toVimwiki L cfg = some t) : t = [] ∨ t.getLast? = some 10 := by
  unfold Block.toVimwiki at h
  rw [Option.map_eq_some_iff] at h
  obtain ⟨g, h, rfl⟩ := h
  rcases (block_ends L cfg b hb rfl h).2 with h | h
  · exact .inl (by rw [h]; rfl)
  · exact .inr h

end Vw
