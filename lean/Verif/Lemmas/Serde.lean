import Verif.Spec.Serde
import Verif.Lemmas.Json
import Verif.Lemmas.Always
import Verif.Model.Equality

/-!
# Lemmas about pages as JSON
-/

namespace Vw
open Json

namespace Json

theorem depth_tag (s : Str) : (tag s).depth = 1 := by simp [tag, depth, depthFields]

theorem depth_tagged (s : Str) (d : Json) : (tagged s d).depth = d.depth + 1 := by simp [tagged, depth, depthFields]

theorem readTagged_tag (s : Str) : readTagged (tag s) = some (s, none) := by
  simp [readTagged, tag, asObj, field, field?, asStr]

theorem readTagged_tagged (s : Str) (d : Json) : readTagged (tagged s d) = some (s, some d) := by
  simp [readTagged, tagged, asObj, field, field?, asStr]

theorem readRegion_region (r : Region) : readRegion (region r) = some r := by
  simp [readRegion, region, asObj, readField, field, asNum]

theorem readLocated_located {α : Type} (f : Json → Option α) (fs : List (Str × Json)) (r : Region)
    (h : ∀ e ∈ fs, e.1 ≠ b!"region") :
    readLocated f (located (.obj fs) r) = (f (.obj fs)).map fun x => ⟨x, r⟩ := by
  have e1 : fs.filter (fun e => decide (e.1 = b!"region")) = [] := by
    rw [List.filter_eq_nil_iff]; simpa using h
  have e2 : fs.filter (fun e => decide (e.1 ≠ b!"region")) = fs := by
    rw [List.filter_eq_self]; simpa using h
  simp only [readLocated, located, asObj, Option.bind_some, readField, field, List.filter_append, e1, e2, List.nil_append]
  simp [readRegion_region]

theorem depth_located (fs : List (Str × Json)) (r : Region) : (Json.obj fs).depth ≤ (located (.obj fs) r).depth := by
  have : ∀ (xs ys : List (Str × Json)), depthFields xs ≤ depthFields (xs ++ ys) := by
    intro xs ys
    induction xs with
    | nil => simp [depthFields]
    | cons x xs ih => obtain ⟨k, x⟩ := x; simp only [List.cons_append, depthFields]; omega
  simp only [located, depth]
  have := this fs [(b!"region", region r)]
  omega

theorem readEach_strs (xs : List Str) : readEach asStr (xs.map .str) = some xs := by
  induction xs with
  | nil => rfl
  | cons x xs ih => simp [readEach, asStr, ih]

theorem readArr_strs (xs : List Str) : readArr asStr (strs xs) = some xs := by
  simp [readArr, strs, asArr, readEach_strs]

theorem depths_le {n : Nat} : ∀ {xs : List Json}, depths xs ≤ n → ∀ x ∈ xs, x.depth ≤ n
  | [], _, _, h => by simp at h
  | y :: xs, h, x, hx => by
    simp only [depths] at h
    rcases List.mem_cons.1 hx with rfl | hx
    · omega
    · exact depths_le (by omega) x hx

theorem readEach_map {α β : Type} {f : Json → Option β} {g : α → Json} {h : α → β} :
    ∀ xs : List α, (∀ x ∈ xs, f (g x) = some (h x)) → readEach f (xs.map g) = some (xs.map h)
  | [], _ => rfl
  | x :: xs, hx => by
    simp [readEach, hx x (by simp), readEach_map xs fun y hy => hx y (by simp [hy])]

theorem keepLast_distinct {κ ν : Type} [DecidableEq κ] : ∀ {m : List (κ × ν)}, DistinctKeys m → keepLast m = m
  | [], _ => rfl
  | e :: r, h => by
    have h' : e.1 ∉ r.map (·.1) ∧ (r.map (·.1)).Nodup := by simpa [DistinctKeys] using h
    have : (r.map (·.1)).contains e.1 = false := by simpa using h'.1
    simp only [keepLast, this]
    rw [keepLast_distinct (m := r) h'.2]
    rfl

theorem readMap_map (K : CopyLib) {m : Map} (h : DistinctKeys m) : readMap K (Json.map m) = some (K.order m) := by
  have e : ((m.map fun e => (e.1, Json.str e.2)).map (·.2)) = (m.map (·.2)).map Json.str := by simp
  have z : (m.map (·.1)).zip (m.map (·.2)) = m := by
    clear h e
    induction m with
    | nil => rfl
    | cons x m ih => simp [ih]
  simp only [readMap, Json.map, asObj, Option.bind_some]
  rw [e, readEach_strs]
  simp only [List.map_map, Function.comp_def, Option.map_some]
  rw [z, keepLast_distinct h]

theorem map_ne_null (m : Map) : Json.map m ≠ .null := by simp [Json.map]

theorem readOpt_opt {α β : Type} {f : Json → Option β} {g : α → Json} {h : α → β} {k : Str} {fs : List (Str × Json)}
    (x : Option α) (hk : field? k fs = some (some (opt g x))) (hn : ∀ a, g a ≠ .null) (hx : ∀ a ∈ x, f (g a) = some (h a)) :
    readOpt f k fs = some (x.map h) := by
  simp only [readOpt, hk, Option.bind_some]
  cases x with
  | none => rfl
  | some a =>
    simp only [opt, Option.map_some]
    have := hn a
    have h' := hx a rfl
    split <;> simp_all

end Json

variable {K : SerdeLib} (hK : K.Sound)

theorem readUnit_tag {α : Type} {name : α → Str} {all : List α} (x : α) (h : byName name all (name x) = some x) :
    readUnit name all (tag (name x)) = some x := by
  simp [readUnit, readTagged_tag, h]

theorem ItemType.back (t : ItemType) : ItemType.ofJson t.toJson = some t := by
  cases t <;> simp [ItemType.toJson, ItemType.ofJson, readTagged_tag, readTagged_tagged, orderedOf, asStr]

theorem Comment.back (c : Comment) : Comment.ofJson c.toJson = some c := by
  cases c <;> simp [Comment.toJson, Comment.ofJson, readTagged_tagged, asStr, readArr_strs]

section
include hK

theorem Placeholder.back (p : Placeholder) : Placeholder.ofJson K (p.toJson K) = some p := by
  cases p <;> simp [Placeholder.toJson, Placeholder.ofJson, readTagged_tag, readTagged_tagged, asStr, hK.date, asObj, readField, field]

theorem Description.toJson_ne (d : Description) : d.toJson K ≠ .null := by
  cases d with
  | text s => simp [Description.toJson, tagged]
  | transclusion u d p => cases d <;> simp [Description.toJson, tagged]

theorem Description.back : ∀ (d : Description) (n : Nat), d.Valid → (d.toJson K).depth ≤ n →
    Description.ofJson K n (d.toJson K) = some (d.copy K.toCopyLib)
  | .text s, n, _, hn => by
    simp only [Description.toJson, depth_tagged] at hn
    obtain ⟨n, rfl⟩ : ∃ m, n = m + 1 := ⟨n - 1, by omega⟩
    simp [Description.toJson, Description.ofJson, readTagged_tagged, asStr, Description.copy]
  | .transclusion u none p, n, hv, hn => by
    simp only [Description.toJson, depth_tagged] at hn
    obtain ⟨n, rfl⟩ : ∃ m, n = m + 1 := ⟨n - 1, by omega⟩
    simp only [Description.Valid] at hv
    simp only [Description.toJson, Description.ofJson, readTagged_tagged, Option.bind_some, asObj, Description.copy]
    rw [if_neg (by decide), if_pos trivial]
    rw [readOpt_opt (h := K.order) p (k := b!"properties") (g := Json.map) (by simp [field?]) map_ne_null
      (fun m hm => readMap_map K.toCopyLib (hv m (by simpa using hm)))]
    simp [readField, field, hK.uri, readOpt, field?]
  | .transclusion u (some d) p, n, hv, hn => by
    simp only [Description.toJson, depth_tagged] at hn
    obtain ⟨n, rfl⟩ : ∃ m, n = m + 1 := ⟨n - 1, by omega⟩
    simp only [Description.Valid] at hv
    have hd : (d.toJson K).depth ≤ n := by simp only [depth, depthFields] at hn; omega
    have ih := Description.back d n hv.1 hd
    simp only [Description.toJson, Description.ofJson, readTagged_tagged, Option.bind_some, asObj, Description.copy]
    rw [if_neg (by decide), if_pos trivial]
    rw [readOpt_opt (h := K.order) p (k := b!"properties") (g := Json.map) (by simp [field?]) map_ne_null
      (fun m hm => readMap_map K.toCopyLib (hv.2 m (by simpa using hm)))]
    rw [readOpt_opt (h := Description.copy K.toCopyLib) (some d) (k := b!"description") (g := Description.toJson K) (by simp [field?, opt])
      (Description.toJson_ne hK) (fun m hm => by simp only [Option.mem_def, Option.some.injEq] at hm; subst hm; exact ih)]
    simp [readField, field, hK.uri]

theorem LinkData.back (x : LinkData) (n : Nat) (hv : x.Valid) (hn : (x.toJson K).depth ≤ n) :
    LinkData.ofJson K n (x.toJson K) = some (x.copy K.toCopyLib) := by
  obtain ⟨u, d, p⟩ := x
  simp only [LinkData.toJson, LinkData.ofJson, Option.bind_some, asObj, LinkData.copy]
  rw [readOpt_opt (h := K.order) p (k := b!"properties") (g := Json.map) (by simp [field?]) map_ne_null
    (fun m hm => readMap_map K.toCopyLib (hv.2 m (by simpa using hm)))]
  rw [readOpt_opt (h := Description.copy K.toCopyLib) d (k := b!"description") (g := Description.toJson K) (by simp [field?])
    (Description.toJson_ne hK) (fun m hm => by
      have hm' : d = some m := by simpa using hm
      subst hm'
      refine Description.back hK m n (hv.1 m rfl) ?_
      simp only [LinkData.toJson, depth, depthFields, opt] at hn
      omega)]
  simp [readField, field, hK.uri]

theorem Link.back (l : Link) (n : Nat) (hv : l.Valid) (hn : (l.toJson K).depth ≤ n) :
    Link.ofJson K n (l.toJson K) = some (l.copy K.toCopyLib) := by
  have key : ∀ x : LinkData, x.Valid → (x.toJson K).depth ≤ n → LinkData.ofJson K n (x.toJson K) = some (x.copy K.toCopyLib) :=
    fun x h h' => LinkData.back hK x n h h'
  cases l <;> simp only [Link.Valid] at hv <;> simp only [Link.toJson, depth_tagged, depth, depthFields] at hn <;>
    simp [Link.toJson, Link.ofJson, readTagged_tagged, asObj, readField, field, key _ hv (by omega), asNum, asStr, hK.date, Link.copy]

omit hK in
theorem Inline.toJson_obj (x : Inline) : ∃ fs, x.toJson K = .obj fs ∧ ∀ e ∈ fs, e.1 ≠ b!"region" := by
  cases x <;> simp only [Inline.toJson, tagged] <;> exact ⟨_, rfl, by simp⟩

omit hK in
theorem readLocated_inline {α : Type} (f : Json → Option α) (x : Inline) (r : Region) :
    readLocated f (located (x.toJson K) r) = (f (x.toJson K)).map fun x => ⟨x, r⟩ := by
  obtain ⟨fs, e, h⟩ := x.toJson_obj (K := K)
  rw [e, readLocated_located f fs r h]

omit hK in
theorem depth_inline (x : Inline) (r : Region) : (x.toJson K).depth ≤ (located (x.toJson K) r).depth := by
  obtain ⟨fs, e, h⟩ := x.toJson_obj (K := K)
  rw [e]; exact depth_located fs r

omit hK in
theorem Deco.byName (k : Deco) : Vw.byName Deco.jsonName Deco.all k.jsonName = some k := by cases k <;> decide
omit hK in
theorem Keyword.byName (k : Keyword) : Vw.byName Keyword.jsonName Keyword.all k.jsonName = some k := by cases k <;> decide
omit hK in
theorem Suffix.byName (k : Suffix) : Vw.byName Suffix.jsonName Suffix.all k.jsonName = some k := by cases k <;> decide
omit hK in
theorem Todo.byName (k : Todo) : Vw.byName Todo.jsonName Todo.all k.jsonName = some k := by cases k <;> decide
omit hK in
theorem CellSpan.byName (k : CellSpan) : Vw.byName CellSpan.jsonName CellSpan.all k.jsonName = some k := by cases k <;> decide
omit hK in
theorem Align.byName (k : Align) : Vw.byName Align.jsonName Align.all k.jsonName = some k := by cases k <;> decide

omit hK in
theorem Inline.forDeco_copy (K : CopyLib) (x : Inline) (h : x.InDeco) : (x.copy K).forDeco = true := by
  cases x <;> simp_all [Inline.copy, Inline.forDeco, Inline.InDeco]

mutual
theorem inline_back : ∀ (x : Inline) (n : Nat), x.WF → (x.toJson K).depth ≤ n →
    Inline.ofJson K n (x.toJson K) = some (x.copy K.toCopyLib)
  | .text s, n, _, hn => by
    simp only [Inline.toJson, depth_tagged] at hn
    obtain ⟨n, rfl⟩ : ∃ m, n = m + 1 := ⟨n - 1, by omega⟩
    simp [Inline.toJson, Inline.ofJson, readTagged_tagged, asStr, Inline.copy]
  | .decorated k xs, n, hv, hn => by
    simp only [Inline.toJson, depth_tagged, depth] at hn
    obtain ⟨n, rfl⟩ : ∃ m, n = m + 1 := ⟨n - 1, by omega⟩
    simp only [Inline.WF] at hv
    have h1 := inlines_back_deco xs n hv.2.2 hv.2.1 (by omega)
    simp only [Inline.toJson, Inline.ofJson, readTagged_tagged, Option.bind_some, Inline.copy]
    simp [Deco.byName, readArr, asArr, h1]
  | .keyword k, n, _, hn => by
    simp only [Inline.toJson, depth_tagged] at hn
    obtain ⟨n, rfl⟩ : ∃ m, n = m + 1 := ⟨n - 1, by omega⟩
    simp [Inline.toJson, Inline.ofJson, readTagged_tagged, Inline.copy, readUnit_tag k k.byName]
  | .link l, n, hv, hn => by
    simp only [Inline.toJson, depth_tagged] at hn
    obtain ⟨n, rfl⟩ : ∃ m, n = m + 1 := ⟨n - 1, by omega⟩
    simp only [Inline.WF] at hv
    simp [Inline.toJson, Inline.ofJson, readTagged_tagged, Inline.copy, Link.back hK l n hv.valid (by omega)]
  | .tags ts, n, _, hn => by
    simp only [Inline.toJson, depth_tagged] at hn
    obtain ⟨n, rfl⟩ : ∃ m, n = m + 1 := ⟨n - 1, by omega⟩
    simp [Inline.toJson, Inline.ofJson, readTagged_tagged, Inline.copy, readArr_strs]
  | .code s, n, _, hn => by
    simp only [Inline.toJson, depth_tagged] at hn
    obtain ⟨n, rfl⟩ : ∃ m, n = m + 1 := ⟨n - 1, by omega⟩
    simp [Inline.toJson, Inline.ofJson, readTagged_tagged, asStr, Inline.copy]
  | .math s, n, _, hn => by
    simp only [Inline.toJson, depth_tagged] at hn
    obtain ⟨n, rfl⟩ : ∃ m, n = m + 1 := ⟨n - 1, by omega⟩
    simp [Inline.toJson, Inline.ofJson, readTagged_tagged, asStr, Inline.copy]
  | .comment c, n, _, hn => by
    simp only [Inline.toJson, depth_tagged] at hn
    obtain ⟨n, rfl⟩ : ∃ m, n = m + 1 := ⟨n - 1, by omega⟩
    simp [Inline.toJson, Inline.ofJson, readTagged_tagged, Inline.copy, Comment.back]
theorem inlines_back_deco : ∀ (xs : List (Located Inline)) (n : Nat), Inline.WFs xs → (∀ c ∈ xs, c.inner.InDeco) →
    depths (Inline.toJsons K xs) ≤ n →
    readEach (readLocated fun j => (Inline.ofJson K n j).filter Inline.forDeco) (Inline.toJsons K xs) = some (Inline.copies K.toCopyLib xs)
  | [], _, _, _, _ => rfl
  | ⟨x, r⟩ :: xs, n, hv, hd, hn => by
    simp only [Inline.toJsons, depths] at hn
    simp only [Inline.WFs] at hv
    have hx := inline_back x n hv.1 (Nat.le_trans (depth_inline x r) (by omega))
    have hxs := inlines_back_deco xs n hv.2 (fun c hc => hd c (by simp [hc])) (by omega)
    have hf := Inline.forDeco_copy K.toCopyLib x (hd ⟨x, r⟩ (by simp))
    simp only [Inline.toJsons, readEach, hxs, Inline.copies]
    rw [readLocated_inline]
    simp only [hx, Option.filter, hf, if_true, Option.map_some]
end

theorem inlines_back : ∀ (xs : List (Located Inline)) (n : Nat), Inline.WFs xs → depths (Inline.toJsons K xs) ≤ n →
    readEach (readLocated (Inline.ofJson K n)) (Inline.toJsons K xs) = some (Inline.copies K.toCopyLib xs)
  | [], _, _, _ => rfl
  | ⟨x, r⟩ :: xs, n, hv, hn => by
    simp only [Inline.toJsons, depths] at hn
    simp only [Inline.WFs] at hv
    have hx := inline_back hK x n hv.1 (Nat.le_trans (depth_inline x r) (by omega))
    have hxs := inlines_back xs n hv.2 (by omega)
    simp only [Inline.toJsons, readEach, readLocated_inline, hx, hxs, Inline.copies, Option.map_some]

theorem container_back (xs : Inlines) (n : Nat) (hv : Inline.WFs xs) (hn : (inlinesToJson K xs).depth ≤ n) :
    inlinesOfJson K n (inlinesToJson K xs) = some (Inline.copies K.toCopyLib xs) := by
  simp only [inlinesToJson, depth, depthFields] at hn
  have := inlines_back hK xs n hv (by omega)
  simp [inlinesToJson, inlinesOfJson, asObj, readField, field, readArr, asArr, this]

theorem Cell.back (c : Cell) (n : Nat) (hv : c.WF) (hn : (c.toJson K).depth ≤ n) :
    Cell.ofJson K n (c.toJson K) = some (c.copy K.toCopyLib) := by
  cases c with
  | content c =>
    simp only [Cell.toJson, depth_tagged] at hn
    simp [Cell.toJson, Cell.ofJson, readTagged_tagged, Cell.copy, container_back hK c n hv.2 (by omega)]
  | span s => simp [Cell.toJson, Cell.ofJson, readTagged_tagged, Cell.copy, readUnit_tag s s.byName]
  | align a => simp [Cell.toJson, Cell.ofJson, readTagged_tagged, Cell.copy, readUnit_tag a a.byName]

theorem Table.back (t : Table) (n : Nat) (hv : t.WF) (hn : (t.toJson K).depth ≤ n) :
    Table.ofJson K n (t.toJson K) = some (t.copy K.toCopyLib) := by
  simp only [Table.toJson, depth, depthFields] at hn
  have h1 : readEach (readCell K n) (t.cells.map fun e => .arr [e.1.toJson, located (e.2.inner.toJson K) e.2.region]) =
      some (t.cells.map fun e => (e.1, e.2.map (Cell.copy K.toCopyLib))) := by
    refine readEach_map _ fun e he => ?_
    have hd := depths_le (n := n) (xs := t.cells.map fun e => Json.arr [e.1.toJson, located (e.2.inner.toJson K) e.2.region])
      (by omega) _ (List.mem_map_of_mem he)
    obtain ⟨fs, ef, hf⟩ : ∃ fs, e.2.inner.toJson K = .obj fs ∧ ∀ e ∈ fs, e.1 ≠ b!"region" := by
      cases e.2.inner <;> simp only [Cell.toJson, tagged] <;> exact ⟨_, rfl, by simp⟩
    have hl := depth_located fs e.2.region
    simp only [depth, depths, ef] at hd hl
    have hc := Cell.back hK e.2.inner n (hv.cells e he) (by rw [ef]; simp only [depth]; omega)
    rw [ef] at hc
    simp only [readCell]
    rw [ef, readLocated_located _ fs _ hf, hc]
    obtain ⟨⟨a, b⟩, ⟨c, r⟩⟩ := e
    simp [CellPos.toJson, CellPos.ofJson, asObj, readField, field, asNum, Located.map]
  have h2 : keepLast (t.cells.map fun e => (e.1, e.2.map (Cell.copy K.toCopyLib))) = t.cells.map fun e => (e.1, e.2.map (Cell.copy K.toCopyLib)) := by
    refine keepLast_distinct ?_
    have := hv.distinct
    simpa [DistinctKeys, Function.comp_def] using this
  simp only [Table.toJson, Table.ofJson, asObj, Option.bind_some]
  simp [readField, field, readArr, asArr, h1, asNum, asBool, h2, Table.copy]

omit hK in
theorem Block.toJson_obj (x : Block) : ∃ fs, x.toJson K = .obj fs ∧ ∀ e ∈ fs, e.1 ≠ b!"region" := by
  cases x <;> simp only [Block.toJson, tagged] <;> exact ⟨_, rfl, by simp⟩

mutual
theorem block_back : ∀ (x : Block) (n : Nat), x.WF → x.hasDefs = false → (x.toJson K).depth ≤ n →
    Block.ofJson K n (x.toJson K) = some (x.copy K.toCopyLib)
  | .blockquote ls, n, _, _, hn => by
    simp only [Block.toJson, depth_tagged] at hn
    obtain ⟨n, rfl⟩ : ∃ m, n = m + 1 := ⟨n - 1, by omega⟩
    simp [Block.toJson, Block.ofJson, readTagged_tagged, asObj, readField, field, readArr_strs, Block.copy]
  | .code l m ls, n, hv, _, hn => by
    simp only [Block.toJson, depth_tagged] at hn
    obtain ⟨n, rfl⟩ : ∃ m, n = m + 1 := ⟨n - 1, by omega⟩
    simp only [Block.WF] at hv
    simp only [Block.toJson, Block.ofJson, readTagged_tagged, Option.bind_some, asObj, Block.copy]
    rw [if_neg (by decide), if_pos trivial]
    rw [readOpt_opt (h := id) l (k := b!"language") (g := Json.str) (by simp [field?]) (by simp) (fun m hm => rfl)]
    simp [readField, field, readArr_strs, readMap_map K.toCopyLib hv]
  | .defs xs, _, _, hd, _ => by simp [Block.hasDefs] at hd
  | .divider, n, _, _, hn => by
    simp only [Block.toJson, depth_tagged] at hn
    obtain ⟨n, rfl⟩ : ∃ m, n = m + 1 := ⟨n - 1, by omega⟩
    simp [Block.toJson, Block.ofJson, readTagged_tagged, Block.copy]
  | .header c l b, n, hv, _, hn => by
    simp only [Block.toJson, depth_tagged, depth, depthFields] at hn
    obtain ⟨n, rfl⟩ : ∃ m, n = m + 1 := ⟨n - 1, by omega⟩
    simp only [Block.WF] at hv
    simp [Block.toJson, Block.ofJson, readTagged_tagged, asObj, readField, field, Block.copy, asNum, asBool,
      container_back hK c n hv.2.2.2 (by omega)]
  | .list xs, n, hv, hd, hn => by
    simp only [Block.toJson, depth_tagged, depth, depthFields] at hn
    obtain ⟨n, rfl⟩ : ∃ m, n = m + 1 := ⟨n - 1, by omega⟩
    simp only [Block.WF] at hv
    simp only [Block.hasDefs] at hd
    simp [Block.toJson, Block.ofJson, readTagged_tagged, asObj, readField, field, Block.copy, readArr, asArr,
      items_back xs n hv.2 hd (by omega)]
  | .math ls e, n, _, _, hn => by
    simp only [Block.toJson, depth_tagged] at hn
    obtain ⟨n, rfl⟩ : ∃ m, n = m + 1 := ⟨n - 1, by omega⟩
    simp only [Block.toJson, Block.ofJson, readTagged_tagged, Option.bind_some, asObj, Block.copy]
    rw [readOpt_opt (h := id) e (k := b!"environment") (g := Json.str) (by simp [field?]) (by simp) (fun m hm => rfl)]
    simp [readField, field, readArr_strs]
  | .paragraph rs, n, hv, _, hn => by
    simp only [Block.toJson, depth_tagged, depth, depthFields] at hn
    obtain ⟨n, rfl⟩ : ∃ m, n = m + 1 := ⟨n - 1, by omega⟩
    simp only [Block.WF] at hv
    have h1 : readEach (inlinesOfJson K n) (rs.map (inlinesToJson K)) = some (rs.map (Inline.copies K.toCopyLib)) :=
      readEach_map _ fun r hr => container_back hK r n (hv.2 r hr).2
        (depths_le (n := n) (by omega) _ (List.mem_map_of_mem hr))
    simp [Block.toJson, Block.ofJson, readTagged_tagged, asObj, readField, field, Block.copy, readArr, asArr, h1]
  | .placeholder p, n, _, _, hn => by
    simp only [Block.toJson, depth_tagged] at hn
    obtain ⟨n, rfl⟩ : ∃ m, n = m + 1 := ⟨n - 1, by omega⟩
    simp [Block.toJson, Block.ofJson, readTagged_tagged, Block.copy, Placeholder.back hK]
  | .table t, n, hv, _, hn => by
    simp only [Block.toJson, depth_tagged] at hn
    obtain ⟨n, rfl⟩ : ∃ m, n = m + 1 := ⟨n - 1, by omega⟩
    simp only [Block.WF] at hv
    simp [Block.toJson, Block.ofJson, readTagged_tagged, Block.copy, Table.back hK t n hv (by omega)]
theorem items_back : ∀ (xs : List (Located (ItemF Block))) (n : Nat), Block.WFItems xs → Block.itemsHaveDefs xs = false →
    depths (Block.toJsonItems K xs) ≤ n →
    readEach (readLocated (itemOfJson (Block.ofJson K n))) (Block.toJsonItems K xs) = some (Block.copyItems K.toCopyLib xs)
  | [], _, _, _, _ => rfl
  | ⟨⟨ty, su, pos, cs, td⟩, r⟩ :: xs, n, hv, hd, hn => by
    simp only [Block.toJsonItems, depths] at hn
    simp only [Block.WFItems] at hv
    simp only [Block.itemsHaveDefs, Bool.or_eq_false_iff] at hd
    have hl := depth_located [(b!"ty", ty.toJson), (b!"suffix", tag su.jsonName), (b!"pos", .num pos),
      (b!"contents", .arr (Block.toJsons K cs)),
      (b!"attributes", .obj [(b!"todo_status", opt (fun t : Todo => tag t.jsonName) td)])] r
    simp only [depth, depthFields] at hl
    have h1 := blocks_back cs n hv.1.2.2 hd.1 (by omega)
    have h2 := items_back xs n hv.2 hd.2 (by omega)
    simp only [Block.toJsonItems, readEach, Block.copyItems, h2]
    rw [readLocated_located _ _ _ (by simp)]
    have h3 : readOpt (readUnit Todo.jsonName Todo.all) b!"todo_status" [(b!"todo_status", opt (fun t : Todo => tag t.jsonName) td)] = some td := by
      rw [readOpt_opt (h := id) td (g := fun t : Todo => tag t.jsonName) (by simp [field?]) (by simp [tag]) (fun t _ => readUnit_tag t t.byName)]
      simp
    simp only [itemOfJson, asObj, Option.bind_some]
    simp [readField, field, ItemType.back, readUnit_tag su su.byName, asNum, readArr, asArr, h1, asObj, h3]
theorem blocks_back : ∀ (xs : List (Located Block)) (n : Nat), Block.WFs xs → Block.anyDefs xs = false →
    depths (Block.toJsons K xs) ≤ n →
    readEach (readLocated (Block.ofJson K n)) (Block.toJsons K xs) = some (Block.copies K.toCopyLib xs)
  | [], _, _, _, _ => rfl
  | ⟨x, r⟩ :: xs, n, hv, hd, hn => by
    simp only [Block.toJsons, depths] at hn
    simp only [Block.WFs] at hv
    simp only [Block.anyDefs, Bool.or_eq_false_iff] at hd
    obtain ⟨fs, e, hf⟩ := x.toJson_obj (K := K)
    rw [e] at hn
    have hl := depth_located fs r
    have hx := block_back x n hv.1 hd.1 (by rw [e]; omega)
    have hxs := blocks_back xs n hv.2 hd.2 (by omega)
    rw [e] at hx
    simp only [Block.toJsons, readEach, Block.copies, hxs]
    rw [e, readLocated_located _ fs r hf, hx]
    rfl
end

theorem page_back (pg : Page) (n : Nat) (hv : pg.WF) (hd : pg.hasDefs = false) (hn : (pg.toJson K).depth ≤ n) :
    Page.ofJson K n (pg.toJson K) = some (pg.copy K.toCopyLib) := by
  simp only [Page.toJson, depth, depthFields] at hn
  have := blocks_back hK pg.elements n hv hd (by omega)
  simp [Page.toJson, Page.ofJson, asObj, readField, field, readArr, asArr, this, Page.copy]

/-! ## What is written completely -/

omit hK in
theorem complete_tag (s : Str) : (tag s).Complete = true := by simp [tag, Complete, CompleteFields]

omit hK in
theorem complete_tagged (s : Str) (d : Json) : (tagged s d).Complete = d.Complete := by simp [tagged, Complete, CompleteFields]

omit hK in
theorem complete_region (r : Region) : (region r).Complete = true := by simp [region, Complete, CompleteFields]

omit hK in
theorem complete_located (fs : List (Str × Json)) (r : Region) : (located (.obj fs) r).Complete = (Json.obj fs).Complete := by
  have : ∀ xs : List (Str × Json), CompleteFields (xs ++ [(b!"region", region r)]) = CompleteFields xs := by
    intro xs
    induction xs with
    | nil => simp [CompleteFields, complete_region]
    | cons x xs ih => obtain ⟨k, x⟩ := x; simp [CompleteFields, ih]
  simp [located, Complete, this]

omit hK in
theorem completes_iff : ∀ xs : List Json, Completes xs = true ↔ ∀ x ∈ xs, x.Complete = true
  | [] => by simp [Completes]
  | x :: xs => by simp [Completes, completes_iff xs]

omit hK in
theorem complete_strs (xs : List Str) : (strs xs).Complete = true := by
  simp only [strs, Complete]
  rw [completes_iff]
  intro x hx
  obtain ⟨s, _, rfl⟩ := List.mem_map.1 hx
  simp [Complete]

omit hK in
theorem complete_map (m : Map) : (Json.map m).Complete = true := by
  simp only [Json.map, Complete]
  induction m with
  | nil => rfl
  | cons x m ih => simp [CompleteFields, Complete, ih]

omit hK in
theorem complete_opt {α : Type} {f : α → Json} {x : Option α} (h : ∀ a ∈ x, (f a).Complete = true) : (opt f x).Complete = true := by
  cases x with
  | none => simp [opt, Complete]
  | some a => exact h a rfl

theorem complete_desc : ∀ d : Description, (d.toJson K).Complete = true
  | .text s => by simp [Description.toJson, complete_tagged, Complete]
  | .transclusion u none p => by
    simp [Description.toJson, complete_tagged, Complete, CompleteFields, hK.uriDone, complete_opt fun a _ => complete_map a]
  | .transclusion u (some d) p => by
    simp [Description.toJson, complete_tagged, Complete, CompleteFields, hK.uriDone, complete_opt fun a _ => complete_map a,
      complete_desc d]

theorem complete_data (x : LinkData) : (x.toJson K).Complete = true := by
  simp [LinkData.toJson, Complete, CompleteFields, hK.uriDone, complete_opt fun a _ => complete_map a,
    complete_opt fun a _ => complete_desc hK a]

theorem complete_link (l : Link) : (l.toJson K).Complete = true := by
  cases l <;> simp [Link.toJson, complete_tagged, Complete, CompleteFields, complete_data hK, hK.dateDone]

omit hK in
theorem complete_comment (c : Comment) : c.toJson.Complete = true := by
  cases c <;> simp [Comment.toJson, complete_tagged, complete_strs, Complete]

mutual
theorem complete_inline : ∀ x : Inline, (x.toJson K).Complete = true
  | .text _ => by simp [Inline.toJson, complete_tagged, Complete]
  | .decorated _ xs => by simp [Inline.toJson, complete_tagged, Complete, complete_inlines xs]
  | .keyword _ => by simp [Inline.toJson, complete_tagged, complete_tag]
  | .link l => by simp [Inline.toJson, complete_tagged, complete_link hK l]
  | .tags _ => by simp [Inline.toJson, complete_tagged, complete_strs]
  | .code _ => by simp [Inline.toJson, complete_tagged, Complete]
  | .math _ => by simp [Inline.toJson, complete_tagged, Complete]
  | .comment c => by simp [Inline.toJson, complete_tagged, complete_comment]
theorem complete_inlines : ∀ xs : List (Located Inline), Completes (Inline.toJsons K xs) = true
  | [] => rfl
  | ⟨x, r⟩ :: xs => by
    have hx := complete_inline x
    obtain ⟨fs, e, _⟩ := x.toJson_obj (K := K)
    rw [e] at hx
    simp [Inline.toJsons, Completes, e, complete_located, hx, complete_inlines xs]
end

theorem complete_container (xs : Inlines) : (inlinesToJson K xs).Complete = true := by
  simp [inlinesToJson, Complete, CompleteFields, complete_inlines hK]

theorem complete_cell (c : Cell) (r : Region) : (located (c.toJson K) r).Complete = true := by
  cases c with
  | content c =>
    have := complete_tagged b!"content" (inlinesToJson K c)
    simp only [Cell.toJson, tagged] at this ⊢
    rw [complete_located, this, complete_container hK]
  | span s =>
    have := complete_tagged b!"span" (tag s.jsonName)
    simp only [Cell.toJson, tagged] at this ⊢
    rw [complete_located, this, complete_tag]
  | align s =>
    have := complete_tagged b!"align" (tag s.jsonName)
    simp only [Cell.toJson, tagged] at this ⊢
    rw [complete_located, this, complete_tag]

theorem complete_table (t : Table) : (t.toJson K).Complete = true := by
  have : Completes (t.cells.map fun e => .arr [e.1.toJson, located (e.2.inner.toJson K) e.2.region]) = true := by
    rw [completes_iff]
    intro x hx
    obtain ⟨e, _, rfl⟩ := List.mem_map.1 hx
    simp [Complete, Completes, CompleteFields, CellPos.toJson, complete_cell hK]
  simp [Table.toJson, Complete, CompleteFields, this]

omit hK in
/-- The definitions of a term are a sequence. -/
theorem complete_term (x : TermDefs) (r : Region) : (located (x.toJson K) r).Complete = false := by
  simp only [TermDefs.toJson]
  rw [complete_located]
  simp [Complete, CompleteFields, located]

omit hK in
theorem complete_item (ty : ItemType) : ty.toJson.Complete = true := by
  cases ty <;> simp [ItemType.toJson, complete_tagged, complete_tag, Complete]

mutual
theorem complete_block : ∀ x : Block, x.WF → (x.toJson K).Complete = !x.hasDefs
  | .blockquote _, _ => by simp [Block.toJson, complete_tagged, Complete, CompleteFields, complete_strs, Block.hasDefs]
  | .code _ _ _, _ => by
    simp [Block.toJson, complete_tagged, Complete, CompleteFields, complete_strs, complete_map, Block.hasDefs,
      complete_opt (f := Json.str) fun a _ => by simp [Complete]]
  | .defs xs, h => by
    simp only [Block.WF] at h
    obtain ⟨x, xs, rfl⟩ := List.exists_cons_of_ne_nil h.1
    simp [Block.toJson, complete_tagged, Complete, CompleteFields, Completes, complete_term, Block.hasDefs]
  | .divider, _ => by simp [Block.toJson, complete_tagged, Complete, Block.hasDefs]
  | .header _ _ _, _ => by simp [Block.toJson, complete_tagged, Complete, CompleteFields, complete_container hK, Block.hasDefs]
  | .list xs, h => by
    simp only [Block.WF] at h
    simp [Block.toJson, complete_tagged, Complete, CompleteFields, complete_items xs h.2, Block.hasDefs]
  | .math _ _, _ => by
    simp [Block.toJson, complete_tagged, Complete, CompleteFields, complete_strs, Block.hasDefs,
      complete_opt (f := Json.str) fun a _ => by simp [Complete]]
  | .paragraph rs, _ => by
    have : Completes (rs.map (inlinesToJson K)) = true := by
      rw [completes_iff]
      intro x hx
      obtain ⟨e, _, rfl⟩ := List.mem_map.1 hx
      exact complete_container hK e
    simp [Block.toJson, complete_tagged, Complete, CompleteFields, this, Block.hasDefs]
  | .placeholder p, _ => by
    cases p <;> simp [Block.toJson, Placeholder.toJson, complete_tagged, complete_tag, Complete, CompleteFields, hK.dateDone, Block.hasDefs]
  | .table t, _ => by simp [Block.toJson, complete_tagged, complete_table hK, Block.hasDefs]
theorem complete_items : ∀ xs : List (Located (ItemF Block)), Block.WFItems xs →
    Completes (Block.toJsonItems K xs) = !Block.itemsHaveDefs xs
  | [], _ => rfl
  | ⟨⟨ty, su, pos, cs, td⟩, r⟩ :: xs, h => by
    simp only [Block.WFItems] at h
    simp [Block.toJsonItems, Completes, complete_located, Complete, CompleteFields, complete_item, complete_tag,
      complete_opt (f := fun t : Todo => tag t.jsonName) fun a _ => complete_tag _, complete_blocks cs h.1.2.2, complete_items xs h.2, Block.itemsHaveDefs]
theorem complete_blocks : ∀ xs : List (Located Block), Block.WFs xs → Completes (Block.toJsons K xs) = !Block.anyDefs xs
  | [], _ => rfl
  | ⟨x, r⟩ :: xs, h => by
    simp only [Block.WFs] at h
    have hx := complete_block x h.1
    obtain ⟨fs, e, _⟩ := x.toJson_obj (K := K)
    rw [e] at hx
    simp [Block.toJsons, Completes, e, complete_located, hx, complete_blocks xs h.2, Block.anyDefs]
end

theorem complete_page (pg : Page) (h : pg.WF) : (pg.toJson K).Complete = !pg.hasDefs := by
  simp [Page.toJson, Complete, CompleteFields, complete_blocks hK pg.elements h, Page.hasDefs]

end

/-! ## Definition lists of equal pages -/

mutual
theorem block_hasDefs (st : Bool) (ue : Uri → Uri → Bool) : ∀ x y : Block, Block.eqv st ue x y = true → x.hasDefs = y.hasDefs
  | .blockquote _, y, h => by cases y <;> simp_all [Block.eqv, Block.hasDefs]
  | .code _ _ _, y, h => by cases y <;> simp_all [Block.eqv, Block.hasDefs]
  | .defs _, y, h => by cases y <;> simp_all [Block.eqv, Block.hasDefs]
  | .divider, y, h => by cases y <;> simp_all [Block.eqv, Block.hasDefs]
  | .header _ _ _, y, h => by cases y <;> simp_all [Block.eqv, Block.hasDefs]
  | .list xs, y, h => by
    cases y with
    | list ys =>
      simp only [Block.eqv] at h
      simp only [Block.hasDefs, items_hasDefs st ue xs ys h]
    | _ => simp [Block.eqv] at h
  | .math _ _, y, h => by cases y <;> simp_all [Block.eqv, Block.hasDefs]
  | .paragraph _, y, h => by cases y <;> simp_all [Block.eqv, Block.hasDefs]
  | .placeholder _, y, h => by cases y <;> simp_all [Block.eqv, Block.hasDefs]
  | .table _, y, h => by cases y <;> simp_all [Block.eqv, Block.hasDefs]
theorem items_hasDefs (st : Bool) (ue : Uri → Uri → Bool) : ∀ xs ys : List (Located (ItemF Block)),
    Block.eqvItems st ue xs ys = true → Block.itemsHaveDefs xs = Block.itemsHaveDefs ys
  | [], [], _ => rfl
  | [], _ :: _, h => by simp [Block.eqvItems] at h
  | _ :: _, [], h => by simp [Block.eqvItems] at h
  | ⟨⟨_, _, _, cs, _⟩, _⟩ :: xs, ⟨⟨_, _, _, cs', _⟩, _⟩ :: ys, h => by
    simp only [Block.eqvItems, Bool.and_eq_true] at h
    simp only [Block.itemsHaveDefs, blocks_hasDefs st ue cs cs' h.1.1.1.2, items_hasDefs st ue xs ys h.2]
theorem blocks_hasDefs (st : Bool) (ue : Uri → Uri → Bool) : ∀ xs ys : List (Located Block),
    Block.eqvs st ue xs ys = true → Block.anyDefs xs = Block.anyDefs ys
  | [], [], _ => rfl
  | [], _ :: _, h => by simp [Block.eqvs] at h
  | _ :: _, [], h => by simp [Block.eqvs] at h
  | ⟨x, _⟩ :: xs, ⟨y, _⟩ :: ys, h => by
    simp only [Block.eqvs, Bool.and_eq_true] at h
    simp only [Block.anyDefs, block_hasDefs st ue x y h.1.1, blocks_hasDefs st ue xs ys h.2]
end

/-- Pages of the same structure have definition lists or not. -/
theorem Page.same_hasDefs {ue : Uri → Uri → Bool} {x y : Page} (h : x.same ue y = true) : x.hasDefs = y.hasDefs :=
  blocks_hasDefs false ue _ _ h

end Vw
