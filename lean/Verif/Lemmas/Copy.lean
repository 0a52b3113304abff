import Verif.Spec.Copy
import Verif.Lemmas.Equality
import Verif.Lemmas.RoundTrip

/-!
# Lemmas about copies
-/

namespace Vw

variable {ue : Uri → Uri → Bool} {K : CopyLib} (hK : K.Sound ue) (st : Bool)

section
include hK

theorem CopyLib.Sound.distinct {m : Map} (h : DistinctKeys m) : DistinctKeys (K.order m) :=
  ((hK.order m).map _).nodup_iff.2 h

theorem copy_props {p : Option Map} (h : PropsValid p) : propsEq (p.map K.order) p = true ∧ PropsValid (p.map K.order) := by
  cases p with
  | none => exact ⟨rfl, fun _ h => by cases h⟩
  | some m => exact ⟨mapEq_of_perm (h m rfl) (hK.order m), fun m' hm => by cases hm; exact hK.distinct (h m rfl)⟩

theorem copy_desc : ∀ d : Description, d.Valid → (d.copy K).eqv ue d = true ∧ (d.copy K).Valid
  | .text s, _ => by simp [Description.copy, Description.eqv, Description.Valid]
  | .transclusion u none p, h => by
    simp only [Description.Valid] at h
    simp [Description.copy, Description.eqv, Description.Valid, hK.uri u, copy_props hK h]
  | .transclusion u (some d) p, h => by
    simp only [Description.Valid] at h
    simp [Description.copy, Description.eqv, Description.Valid, hK.uri u, copy_props hK h.2, copy_desc d h.1]

theorem copy_data {x : LinkData} (h : x.Valid) : (x.copy K).eqv ue x = true ∧ (x.copy K).Valid := by
  obtain ⟨u, d, p⟩ := x
  have hp := copy_props hK h.2
  cases d with
  | none => simp [LinkData.copy, LinkData.eqv, optEq, hK.uri u, hp.1, LinkData.Valid, hp.2]
  | some d =>
    have hd := copy_desc hK d (h.1 d rfl)
    simp [LinkData.copy, LinkData.eqv, optEq, hK.uri u, hp.1, LinkData.Valid, hp.2, hd]

theorem copy_link (l : Link) (h : l.Valid) : (l.copy K).eqv ue l = true ∧ (l.copy K).Valid := by
  cases l <;> simp only [Link.copy, Link.eqv, Link.Valid, decide_true, Bool.true_and] <;> exact copy_data hK h

mutual
theorem copy_inline : ∀ x : Inline, x.Valid → Inline.eqv st ue (x.copy K) x = true ∧ (x.copy K).Valid
  | .text _, _ => by simp [Inline.copy, Inline.eqv, Inline.Valid]
  | .decorated k xs, h => by
    simp only [Inline.Valid] at h
    have := copy_inlines xs h
    simp [Inline.copy, Inline.eqv, Inline.Valid, this]
  | .keyword _, _ => by simp [Inline.copy, Inline.eqv, Inline.Valid]
  | .link l, h => by
    simp only [Inline.Valid] at h
    simp [Inline.copy, Inline.eqv, Inline.Valid, copy_link hK l h]
  | .tags _, _ => by simp [Inline.copy, Inline.eqv, Inline.Valid]
  | .code _, _ => by simp [Inline.copy, Inline.eqv, Inline.Valid]
  | .math _, _ => by simp [Inline.copy, Inline.eqv, Inline.Valid]
  | .comment _, _ => by simp [Inline.copy, Inline.eqv, Inline.Valid]
theorem copy_inlines : ∀ xs : List (Located Inline), Inline.Valids xs →
    Inline.eqvs st ue (Inline.copies K xs) xs = true ∧ Inline.Valids (Inline.copies K xs)
  | [], _ => by simp [Inline.copies, Inline.eqvs, Inline.Valids]
  | ⟨x, r⟩ :: xs, h => by
    simp only [Inline.Valids] at h
    have h1 := copy_inline x h.1
    have h2 := copy_inlines xs h.2
    simp [Inline.copies, Inline.eqvs, Inline.Valids, h1, h2]
end

theorem copy_cell (c : Cell) (h : c.Valid) : Cell.eqv st ue (c.copy K) c = true ∧ (c.copy K).Valid := by
  cases c with
  | content c => exact copy_inlines hK st c h
  | span _ => simp [Cell.copy, Cell.eqv, Cell.Valid]
  | align _ => simp [Cell.copy, Cell.eqv, Cell.Valid]

theorem copy_table (t : Table) (h : t.Valid) : (t.copy K).eqv st ue t = true ∧ (t.copy K).Valid := by
  obtain ⟨h1, h2, h3, h4⟩ := h
  have hp := hK.cellOrder (t.cells.map fun e => (e.1, e.2.map (Cell.copy K)))
  have hkeys : (K.cellOrder (t.cells.map fun e => (e.1, e.2.map (Cell.copy K)))).map (·.1) |>.Perm (t.cells.map (·.1)) := by
    have := hp.map (·.1)
    rwa [List.map_map] at this
  have hrow := hkeys.map (·.row)
  have hcol := hkeys.map (·.col)
  rw [List.map_map, List.map_map] at hrow hcol
  refine ⟨?_, ?_, ?_, ?_, ?_⟩
  · simp only [Table.copy, Table.eqv, decide_true, Bool.true_and, Bool.and_self, Bool.or_true, Bool.and_true]
    rw [mapEq_iff]
    refine ⟨by rw [hp.length_eq, List.length_map], fun k v hm => ?_⟩
    obtain ⟨e, he, heq⟩ := List.mem_map.1 (hp.subset hm)
    cases heq
    refine ⟨e.2, lookup_of_mem h1 he, ?_⟩
    simp [locEq, Located.map, copy_cell hK st e.2.inner (h2 e he)]
  · exact hkeys.nodup_iff.2 h1
  · intro e he
    obtain ⟨e', he', heq⟩ := List.mem_map.1 (hp.subset he)
    cases heq
    exact (copy_cell hK st e'.2.inner (h2 e' he')).2
  · exact ⟨fun i hi => h3.1 i (hrow.subset hi), h3.2.imp id fun ⟨i, hi, e⟩ => ⟨i, hrow.symm.subset hi, e⟩⟩
  · exact ⟨fun i hi => h4.1 i (hcol.subset hi), h4.2.imp id fun ⟨i, hi, e⟩ => ⟨i, hcol.symm.subset hi, e⟩⟩

omit hK in
theorem vecEq_map {α : Type} {r : α → α → Bool} {f : α → α} : ∀ {xs : List α}, (∀ x ∈ xs, r (f x) x = true) →
    vecEq r (xs.map f) xs = true
  | [], _ => rfl
  | x :: xs, h => by
    rw [List.map_cons, vecEq, h x (by simp), vecEq_map fun y hy => h y (by simp [hy])]
    rfl

theorem copy_termDefs (x : TermDefs) (h : x.Valid) : (x.copy K).eqv st ue x = true ∧ (x.copy K).Valid := by
  have h1 := copy_inlines hK st x.term.inner h.1
  refine ⟨?_, h1.2, ?_⟩
  · simp only [TermDefs.eqv, TermDefs.copy, locEq, Located.map, h1.1, decide_true, Bool.or_true, Bool.and_true, Bool.true_and]
    refine vecEq_map fun d hd => ?_
    simp [locEq, Located.map, copy_inlines hK st d.inner (h.2 d hd)]
  · intro d hd
    obtain ⟨e, he, rfl⟩ := List.mem_map.1 hd
    exact (copy_inlines hK st e.inner (h.2 e he)).2

mutual
theorem copy_block : ∀ x : Block, x.Valid → Block.eqv st ue (x.copy K) x = true ∧ (x.copy K).Valid
  | .blockquote _, _ => by simp [Block.copy, Block.eqv, Block.Valid]
  | .code l m ls, h => by
    simp only [Block.Valid] at h
    simp [Block.copy, Block.eqv, Block.Valid, hK.distinct h, mapEq_of_perm h (hK.order m)]
  | .defs xs, h => by
    simp only [Block.Valid] at h
    refine ⟨?_, ?_⟩
    · simp only [Block.copy, Block.eqv]
      refine vecEq_map fun x hx => ?_
      simp [locEq, Located.map, copy_termDefs hK st x.inner (h x hx)]
    · simp only [Block.copy, Block.Valid]
      intro x hx
      obtain ⟨y, hy, rfl⟩ := List.mem_map.1 hx
      exact (copy_termDefs hK st y.inner (h y hy)).2
  | .divider, _ => by simp [Block.copy, Block.eqv, Block.Valid]
  | .header c n b, h => by
    simp only [Block.Valid] at h
    simp [Block.copy, Block.eqv, Block.Valid, copy_inlines hK st c h]
  | .list xs, h => by
    simp only [Block.Valid] at h
    simp [Block.copy, Block.eqv, Block.Valid, copy_items xs h]
  | .math _ _, _ => by simp [Block.copy, Block.eqv, Block.Valid]
  | .paragraph rs, h => by
    simp only [Block.Valid] at h
    refine ⟨?_, ?_⟩
    · simp only [Block.copy, Block.eqv]
      exact vecEq_map fun r hr => (copy_inlines hK st r (h r hr)).1
    · simp only [Block.copy, Block.Valid]
      intro r hr
      obtain ⟨y, hy, rfl⟩ := List.mem_map.1 hr
      exact (copy_inlines hK st y (h y hy)).2
  | .placeholder _, _ => by simp [Block.copy, Block.eqv, Block.Valid]
  | .table t, h => by
    simp only [Block.Valid] at h
    simpa [Block.copy, Block.eqv, Block.Valid] using copy_table hK st t h
theorem copy_items : ∀ xs : List (Located (ItemF Block)), Block.ValidItems xs →
    Block.eqvItems st ue (Block.copyItems K xs) xs = true ∧ Block.ValidItems (Block.copyItems K xs)
  | [], _ => by simp [Block.copyItems, Block.eqvItems, Block.ValidItems]
  | ⟨⟨ty, su, pos, cs, td⟩, r⟩ :: xs, h => by
    simp only [Block.ValidItems] at h
    have h1 := copy_blocks cs h.1
    have h2 := copy_items xs h.2
    simp [Block.copyItems, Block.eqvItems, Block.ValidItems, h1, h2]
theorem copy_blocks : ∀ xs : List (Located Block), Block.Valids xs →
    Block.eqvs st ue (Block.copies K xs) xs = true ∧ Block.Valids (Block.copies K xs)
  | [], _ => by simp [Block.copies, Block.eqvs, Block.Valids]
  | ⟨x, r⟩ :: xs, h => by
    simp only [Block.Valids] at h
    have h1 := copy_block x h.1
    have h2 := copy_blocks xs h.2
    simp [Block.copies, Block.eqvs, Block.Valids, h1, h2]
end

end
end Vw
