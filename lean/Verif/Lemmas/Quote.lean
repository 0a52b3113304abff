import Verif.Model.Quote
import Verif.Spec.Quote
import Verif.Lemmas.Always
import Verif.Lemmas.RoundTrip

/-!
# Lemmas about the elements a macro builds
-/

namespace Vw

variable {α β γ : Type} {c : QCtx α} {ue : Uri → Uri → Bool}

namespace Q

@[simp] theorem ret_bind (x : β) (f : β → Q γ) : Q.bind (Q.ret x) f = f x := rfl
@[simp] theorem option_none (f : β → Q γ) : Q.option f none = Q.ret none := rfl
@[simp] theorem option_some (f : β → Q γ) (x : β) : Q.option f (some x) = Q.map some (f x) := rfl
@[simp] theorem ret_map (x : β) (f : β → γ) : Q.map f (Q.ret x) = Q.ret (f x) := rfl

theorem list_ret (xs : List β) {f : β → Q β} (h : ∀ x ∈ xs, f x = Q.ret x) : Q.list f xs = Q.ret xs := by
  induction xs with
  | nil => rfl
  | cons x xs ih => simp [Q.list, h x (by simp), ih fun y hy => h y (by simp [hy])]

theorem option_ret (x : Option β) {f : β → Q β} (h : ∀ y, f y = Q.ret y) : Q.option f x = Q.ret x := by
  cases x <;> simp [Q.option, h]

/-- Each part gives a related one. -/
theorem list_rel {f : β → Q γ} {g : β → γ} {r : Bool → γ → γ → Bool} (xs : List β)
    (h : ∀ x ∈ xs, ∃ y, f x = Q.ret y ∧ ∀ st, r st (g x) y = true) :
    ∃ ys, Q.list f xs = Q.ret ys ∧ ∀ st, vecEq (r st) (xs.map g) ys = true := by
  induction xs with
  | nil => exact ⟨[], rfl, fun _ => rfl⟩
  | cons x xs ih =>
    obtain ⟨y, h1, h2⟩ := h x (by simp)
    obtain ⟨ys, h3, h4⟩ := ih fun z hz => h z (by simp [hz])
    exact ⟨y :: ys, by simp [Q.list, h1, h3], fun st => by simp [vecEq, h2 st, h4 st]⟩

end Q

namespace QCtx

/-- The URIs of the element survive being written and read. -/
def Reads (c : QCtx α) (ue : Uri → Uri → Bool) (us : List Uri) : Prop :=
  ∀ u ∈ us, ∃ v, c.uri (c.uriText u) = some v ∧ ue u v = true

theorem Reads.left {us vs} (h : Reads c ue (us ++ vs)) : Reads c ue us := fun u hu => h u (by simp [hu])
theorem Reads.right {us vs} (h : Reads c ue (us ++ vs)) : Reads c ue vs := fun u hu => h u (by simp [hu])
theorem Reads.level {xs : List β} {f : β → List Uri} (h : Reads c ue (xs.flatMap f)) : ∀ x ∈ xs, Reads c ue (f x) :=
  fun x hx u hu => h u (List.mem_flatMap.2 ⟨x, hx, hu⟩)

/-- The texts stay as they are. -/
def Keeps (c : QCtx α) (ts : List Str) : Prop := ∀ s ∈ ts, c.str s = Q.ret s

theorem Keeps.left {us vs} (h : Keeps c (us ++ vs)) : Keeps c us := fun u hu => h u (by simp [hu])
theorem Keeps.right {us vs} (h : Keeps c (us ++ vs)) : Keeps c vs := fun u hu => h u (by simp [hu])
theorem Keeps.level {xs : List β} {f : β → List Str} (h : Keeps c (xs.flatMap f)) : ∀ x ∈ xs, Keeps c (f x) :=
  fun x hx u hu => h u (List.mem_flatMap.2 ⟨x, hx, hu⟩)
theorem Keeps.one {s : Str} (h : Keeps c [s]) : c.str s = Q.ret s := h s (by simp)
theorem Keeps.head {s : Str} {ts : List Str} (h : Keeps c (s :: ts)) : c.str s = Q.ret s := h s (by simp)
theorem Keeps.tail {s : Str} {ts : List Str} (h : Keeps c (s :: ts)) : Keeps c ts := fun u hu => h u (by simp [hu])
theorem Keeps.all {ts : List Str} (h : Keeps c ts) : Q.list c.str ts = Q.ret ts := Q.list_ret ts h
theorem Keeps.opt {t : Option Str} (h : Keeps c t.toList) : Q.option c.str t = Q.ret t := by
  cases t with
  | none => rfl
  | some t => simp [h t (by simp)]

theorem keeps_verbatim (hv : c.verbatim = true) (ts : List Str) : Keeps c ts := by
  intro s _; funext n; simp [str, hv, Q.ret]

theorem strMap_kept (m : Map) (hk : Keeps c m.texts) : c.strMap m = Q.ret (Map.collect m) := by
  unfold strMap
  rw [Q.list_ret]
  · rfl
  · intro e he; simp [hk e.1 (List.mem_flatMap.2 ⟨e, he, by simp⟩), hk e.2 (List.mem_flatMap.2 ⟨e, he, by simp⟩)]

theorem props_kept (p : Option Map) (h : PropsValid p) (hk : Keeps c (propTexts p)) :
    ∃ q, Q.option c.strMap p = Q.ret q ∧ propsEq p q = true := by
  cases p with
  | none => exact ⟨none, rfl, rfl⟩
  | some m =>
    refine ⟨some (Map.collect m), by simp [strMap_kept m fun s hs => hk s (by simp [propTexts, hs])], ?_⟩
    have hd := h m rfl
    exact mapEq_of_perm (collect_distinct m) (collect_perm hd).symm

theorem uriRef_reads {u : Uri} {us : List Uri} (h : Reads c ue us) (hm : u ∈ us) :
    ∃ v, c.uriRef u = Q.ret v ∧ ue u v = true := by
  obtain ⟨v, h1, h2⟩ := h u hm
  exact ⟨v, by funext n; simp [uriRef, h1, Q.ret], h2⟩

theorem description_kept : ∀ d : Description, d.Valid → Reads c ue d.uris → Keeps c d.texts →
    ∃ e, c.description d = Q.ret e ∧ d.eqv ue e = true
  | .text s, _, _, hk => ⟨.text s, by simp [description, hk.one], by simp [Description.eqv]⟩
  | .transclusion u none p, h, hr, hk => by
    obtain ⟨v, h1, h2⟩ := uriRef_reads hr (u := u) (by simp [Description.uris])
    obtain ⟨q, h3, h4⟩ := props_kept p h hk
    exact ⟨.transclusion v none q, by simp [description, h1, h3], by simp [Description.eqv, h2, h4]⟩
  | .transclusion u (some d) p, h, hr, hk => by
    obtain ⟨v, h1, h2⟩ := uriRef_reads hr (u := u) (by simp [Description.uris])
    obtain ⟨q, h3, h4⟩ := props_kept p h.2 (Keeps.right hk)
    obtain ⟨e, h5, h6⟩ := description_kept d h.1 (fun w hw => hr w (by simp [Description.uris, hw])) (Keeps.left hk)
    exact ⟨.transclusion v (some e) q, by simp [description, h1, h3, h5], by simp [Description.eqv, h2, h4, h6]⟩

theorem linkData_kept (d : LinkData) (h : d.Valid) (hr : Reads c ue d.uris) (hk : Keeps c d.texts) :
    ∃ e, c.linkData d = Q.ret e ∧ d.eqv ue e = true := by
  obtain ⟨u, desc, props⟩ := d
  obtain ⟨v, h1, h2⟩ := uriRef_reads hr (u := u) (by simp [LinkData.uris])
  obtain ⟨q, h3, h4⟩ := props_kept props h.2 (Keeps.right hk)
  cases desc with
  | none => exact ⟨⟨v, none, q⟩, by simp [linkData, h1, h3], by simp [LinkData.eqv, optEq, h2, h4]⟩
  | some d =>
    obtain ⟨e, h5, h6⟩ := description_kept d (h.1 d rfl) (fun w hw => hr w (by simp [LinkData.uris, hw]))
      fun s hs => hk s (by simp [LinkData.texts, hs])
    exact ⟨⟨v, some e, q⟩, by simp [linkData, h1, h3, h5], by simp [LinkData.eqv, optEq, h2, h4, h6]⟩

theorem link_kept (l : Link) (h : l.Valid) (hr : Reads c ue l.uris) (hk : Keeps c l.texts) :
    ∃ m, c.link l = Q.ret m ∧ l.eqv ue m = true := by
  cases l with
  | wiki d =>
    obtain ⟨e, h1, h2⟩ := linkData_kept d h hr hk
    exact ⟨.wiki e, by simp [link, h1], by simp [Link.eqv, h2]⟩
  | indexed i d =>
    obtain ⟨e, h1, h2⟩ := linkData_kept d h hr hk
    exact ⟨.indexed i e, by simp [link, h1], by simp [Link.eqv, h2]⟩
  | named s d =>
    obtain ⟨e, h1, h2⟩ := linkData_kept d h hr hk.tail
    exact ⟨.named s e, by simp [link, h1, hk.head], by simp [Link.eqv, h2]⟩
  | diary t d =>
    obtain ⟨e, h1, h2⟩ := linkData_kept d h hr hk
    exact ⟨.diary t e, by simp [link, h1], by simp [Link.eqv, h2]⟩
  | raw d =>
    obtain ⟨e, h1, h2⟩ := linkData_kept d h hr hk
    exact ⟨.raw e, by simp [link, h1], by simp [Link.eqv, h2]⟩
  | transclusion d =>
    obtain ⟨e, h1, h2⟩ := linkData_kept d h hr hk
    exact ⟨.transclusion e, by simp [link, h1], by simp [Link.eqv, h2]⟩

theorem comment_kept (x : Comment) (hk : Keeps c x.texts) : c.comment x = Q.ret x := by
  cases x with
  | line s => simp [comment, hk.one]
  | multi ls => simp [comment, Keeps.all (ts := ls) hk]

mutual
theorem inline_kept : ∀ x : Inline, x.Valid → Reads c ue x.uris → Keeps c x.texts →
    ∃ y, c.inline x = Q.ret y ∧ ∀ st, x.level.eqv st ue y = true
  | .text s, _, _, hk => ⟨.text s, by simp [inline, hk.one], by simp [Inline.level, Inline.eqv]⟩
  | .decorated k xs, h, hr, hk => by
    obtain ⟨ys, h1, h2⟩ := inlines_kept xs h hr hk
    exact ⟨.decorated k ys, by simp [inline, h1], by simp [Inline.level, Inline.eqv, h2]⟩
  | .keyword k, _, _, _ => ⟨.keyword k, by simp [inline], by simp [Inline.level, Inline.eqv]⟩
  | .link l, h, hr, hk => by
    obtain ⟨m, h1, h2⟩ := link_kept l h hr hk
    exact ⟨.link m, by simp [inline, h1], by simp [Inline.level, Inline.eqv, h2]⟩
  | .tags s, _, _, hk => ⟨.tags s, by simp [inline, Keeps.all (ts := s) hk], by simp [Inline.level, Inline.eqv]⟩
  | .code s, _, _, hk => ⟨.code s, by simp [inline, hk.one], by simp [Inline.level, Inline.eqv]⟩
  | .math s, _, _, hk => ⟨.math s, by simp [inline, hk.one], by simp [Inline.level, Inline.eqv]⟩
  | .comment s, _, _, hk => ⟨.comment s, by simp [inline, comment_kept s hk], by simp [Inline.level, Inline.eqv]⟩
theorem inlines_kept : ∀ xs : List (Located Inline), Inline.Valids xs → Reads c ue (Inline.urisAll xs) → Keeps c (Inline.textsAll xs) →
    ∃ ys, c.inlines xs = Q.ret ys ∧ ∀ st, Inline.eqvs st ue (Inline.levels xs) ys = true
  | [], _, _, _ => ⟨[], by simp [inlines], by simp [Inline.levels, Inline.eqvs]⟩
  | ⟨x, r⟩ :: xs, h, hr, hk => by
    obtain ⟨y, h1, h2⟩ := inline_kept x h.1 (Reads.left hr) (Keeps.left hk)
    obtain ⟨ys, h3, h4⟩ := inlines_kept xs h.2 (Reads.right hr) (Keeps.right hk)
    exact ⟨⟨y, Region.new r.offset r.len⟩ :: ys, by simp [inlines, h1, h3],
      by simp [Inline.levels, Inline.eqvs, h2, h4, Region.level, Region.new]⟩
end

theorem located_rel {f : β → Q γ} {g : β → γ} {r : Bool → γ → γ → Bool} {x : Located β}
    (h : ∃ y, f x.inner = Q.ret y ∧ ∀ st, r st (g x.inner) y = true) :
    ∃ y, located f x = Q.ret y ∧ ∀ st, locEq st (r st) ⟨g x.inner, x.region.level⟩ y = true := by
  obtain ⟨y, h1, h2⟩ := h
  exact ⟨⟨y, Region.new x.region.offset x.region.len⟩, by simp [located, h1],
    fun st => by simp [locEq, h2, Region.level, Region.new]⟩

theorem cell_kept (x : Cell) (h : x.Valid) (hr : Reads c ue x.uris) (hk : Keeps c x.texts) :
    ∃ y, c.cell x = Q.ret y ∧ ∀ st, x.level.eqv st ue y = true := by
  cases x with
  | content xs =>
    obtain ⟨ys, h1, h2⟩ := inlines_kept xs h hr hk
    exact ⟨.content ys, by simp [cell, h1], by simp [Cell.level, Cell.eqv, h2]⟩
  | span s => exact ⟨.span s, rfl, by simp [Cell.level, Cell.eqv]⟩
  | align s => exact ⟨.align s, rfl, by simp [Cell.level, Cell.eqv]⟩

theorem termDefs_kept (x : TermDefs) (h : x.Valid) (hr : Reads c ue x.uris) (hk : Keeps c x.texts) :
    ∃ y, c.termDefs x = Q.ret y ∧ ∀ st, x.level.eqv st ue y = true := by
  obtain ⟨t, h1, h2⟩ := located_rel (r := fun st => Inline.eqvs st ue) (inlines_kept x.term.inner h.1 (Reads.left hr) (Keeps.left hk))
  have hd : ∀ d ∈ x.defs.inner, ∃ y, located c.inlines d = Q.ret y ∧
      ∀ st, locEq st (Inline.eqvs st ue) ⟨Inline.levels d.inner, d.region.level⟩ y = true := fun d hm =>
    located_rel (r := fun st => Inline.eqvs st ue) (inlines_kept d.inner (h.2 d hm) (Reads.level (Reads.right hr) d hm)
      (Keeps.level (Keeps.right hk) d hm))
  obtain ⟨ds, h3, h4⟩ := located_rel (x := x.defs) (f := Q.list (located c.inlines))
    (g := fun ds => ds.map fun d => (⟨Inline.levels d.inner, d.region.level⟩ : Located Inlines))
    (r := fun st => vecEq (locEq st (Inline.eqvs st ue)))
    (Q.list_rel (g := fun d => (⟨Inline.levels d.inner, d.region.level⟩ : Located Inlines))
      (r := fun st => locEq st (Inline.eqvs st ue)) x.defs.inner hd)
  exact ⟨⟨t, ds⟩, by simp [termDefs, h1, h3], by simp [TermDefs.level, TermDefs.eqv, h2, h4]⟩

theorem tableCollect_perm {ps : List (CellPos × Located Cell)} (h : DistinctKeys ps) : (Table.collect ps).Perm ps := by
  suffices key : ∀ (ps m : List (CellPos × Located Cell)), DistinctKeys (ps ++ m) →
      (ps.foldl (fun m e => e :: m.filter (fun x => x.1 ≠ e.1)) m).Perm (ps ++ m) by
    simpa [Table.collect] using key ps [] (by simpa using h)
  intro ps
  induction ps with
  | nil => intro m _; exact List.Perm.refl _
  | cons p ps ih =>
    intro m hd
    have hins : m.filter (fun x => decide (x.1 ≠ p.1)) = m := by
      rw [List.filter_eq_self.2]
      intro q hq
      simp only [DistinctKeys, List.cons_append, List.map_cons, List.nodup_cons] at hd
      have : q.1 ≠ p.1 := fun e => hd.1 (by rw [← e]; exact List.mem_map.2 ⟨q, by simp [hq], rfl⟩)
      simpa using this
    rw [List.foldl_cons, hins]
    have hp : (ps ++ p :: m).Perm (p :: ps ++ m) := List.perm_middle
    refine (ih (p :: m) ?_).trans hp
    exact (hp.map _).nodup_iff.2 hd

theorem tableNew_counts (cells : List (CellPos × Located Cell)) (ce : Bool) :
    CountOf ((Table.collect cells).map fun e => e.1.row) (Table.new cells ce).rowCnt ∧
    CountOf ((Table.collect cells).map fun e => e.1.col) (Table.new cells ce).colCnt := by
  constructor
  · have := countOf_foldl ((Table.collect cells).map fun e => e.1.row)
    rw [List.foldl_map] at this
    show CountOf _ (List.foldl _ 0 (List.map _ _))
    rw [List.foldl_map]
    exact this
  · have := countOf_foldl ((Table.collect cells).map fun e => e.1.col)
    rw [List.foldl_map] at this
    show CountOf _ (List.foldl _ 0 (List.map _ _))
    rw [List.foldl_map]
    exact this

theorem table_kept (t : Table) (h : t.Valid) (hr : Reads c ue (t.cells.flatMap fun e => e.2.inner.uris))
    (hk : Keeps c (t.cells.flatMap fun e => e.2.inner.texts)) :
    ∃ y, c.table t = Q.ret y ∧ ∀ st, t.level.eqv st ue y = true := by
  obtain ⟨hd, hc, hrow, hcol⟩ := h
  have key : ∀ cells : List (CellPos × Located Cell), (∀ e ∈ cells, e.2.inner.Valid) →
      Reads c ue (cells.flatMap fun e => e.2.inner.uris) → Keeps c (cells.flatMap fun e => e.2.inner.texts) →
      ∃ ys, Q.list (fun e : CellPos × Located Cell => Q.map (fun x => (e.1, x)) (located c.cell e.2)) cells = Q.ret ys ∧
        ys.map (·.1) = cells.map (·.1) ∧ ∀ e ∈ cells, ∃ y, (e.1, y) ∈ ys ∧
          ∀ st, locEq st (Cell.eqv st ue) ⟨e.2.inner.level, e.2.region.level⟩ y = true := by
    intro cells
    induction cells with
    | nil => intro _ _ _; exact ⟨[], rfl, rfl, by simp⟩
    | cons e cells ih =>
      intro h1 h2 hk
      obtain ⟨y, h3, h4⟩ := located_rel (r := fun st => Cell.eqv st ue)
        (cell_kept e.2.inner (h1 e (by simp)) (Reads.left h2) (Keeps.left hk))
      obtain ⟨ys, h5, h6, h7⟩ := ih (fun d hm => h1 d (by simp [hm])) (Reads.right h2) (Keeps.right hk)
      refine ⟨(e.1, y) :: ys, by simp [Q.list, h3, h5], by simp [h6], ?_⟩
      intro d hm
      rcases List.mem_cons.1 hm with rfl | hm
      · exact ⟨y, by simp, h4⟩
      · obtain ⟨z, h8, h9⟩ := h7 d hm
        exact ⟨z, by simp [h8], h9⟩
  obtain ⟨ys, h1, h2, h3⟩ := key t.cells hc hr hk
  have hdy : DistinctKeys ys := by unfold DistinctKeys; rw [h2]; exact hd
  have hp1 := tableCollect_perm hdy
  have hp2 := tableCollect_perm (tableCollect_distinct ys)
  have hp := hp2.trans hp1
  have hdc : DistinctKeys (Table.collect (Table.collect ys)) := tableCollect_distinct _
  refine ⟨Table.new (Table.collect ys) t.centered, by simp [table, h1], fun st => ?_⟩
  obtain ⟨c1, c2⟩ := tableNew_counts (Table.collect ys) t.centered
  have hk : ∀ e ∈ t.cells, ∃ d ∈ Table.collect (Table.collect ys), d.1 = e.1 := fun e hm => by
    obtain ⟨y, h4, -⟩ := h3 e hm
    exact ⟨_, hp.mem_iff.2 h4, rfl⟩
  have hk' : ∀ d ∈ Table.collect (Table.collect ys), ∃ e ∈ t.cells, e.1 = d.1 := fun d hm => by
    have hm' := hp.mem_iff.1 hm
    have : d.1 ∈ t.cells.map (·.1) := by rw [← h2]; exact List.mem_map.2 ⟨d, hm', rfl⟩
    obtain ⟨e, h4, h5⟩ := List.mem_map.1 this
    exact ⟨e, h4, h5⟩
  have e1 : t.rowCnt = (Table.new (Table.collect ys) t.centered).rowCnt := by
    apply countOf_unique hrow c1
    intro i
    simp only [List.mem_map]
    constructor
    · rintro ⟨e, hm, rfl⟩; obtain ⟨d, h4, h5⟩ := hk e hm; exact ⟨d, h4, by rw [h5]⟩
    · rintro ⟨d, hm, rfl⟩; obtain ⟨e, h4, h5⟩ := hk' d hm; exact ⟨e, h4, by rw [h5]⟩
  have e2 : t.colCnt = (Table.new (Table.collect ys) t.centered).colCnt := by
    apply countOf_unique hcol c2
    intro i
    simp only [List.mem_map]
    constructor
    · rintro ⟨e, hm, rfl⟩; obtain ⟨d, h4, h5⟩ := hk e hm; exact ⟨d, h4, by rw [h5]⟩
    · rintro ⟨d, hm, rfl⟩; obtain ⟨e, h4, h5⟩ := hk' d hm; exact ⟨e, h4, by rw [h5]⟩
  have e3 : mapEq (locEq st (Cell.eqv st ue)) t.level.cells (Table.new (Table.collect ys) t.centered).cells = true := by
    rw [mapEq_iff]
    constructor
    · show (List.map _ t.cells).length = (Table.collect (Table.collect ys)).length
      rw [hp.length_eq, List.length_map]
      have := congrArg List.length h2
      simpa using this.symm
    · intro k v hm
      obtain ⟨e, hm', he⟩ := List.mem_map.1 hm
      cases he
      obtain ⟨y, h4, h5⟩ := h3 e hm'
      exact ⟨y, lookup_of_mem hdc (hp.mem_iff.2 h4), h5 st⟩
  unfold Table.eqv
  rw [e3]
  simp only [Table.level, e1, e2]
  simp [Table.new]

theorem placeholder_kept (x : Placeholder) (hk : Keeps c x.texts) : c.placeholder x = Q.ret x := by
  cases x with
  | title s => simp [placeholder, hk.one]
  | template s => simp [placeholder, hk.one]
  | other k v => simp [placeholder, hk.head, hk.tail.one]
  | _ => rfl

theorem itemType_kept (x : ItemType) (hk : Keeps c x.texts) : c.itemType x = Q.ret x := by
  cases x with
  | other s => simp [itemType, hk.one]
  | _ => rfl

mutual
theorem block_kept : ∀ x : Block, x.Valid → Reads c ue x.uris → Keeps c x.texts →
    ∃ y, c.block x = Q.ret y ∧ ∀ st, x.level.eqv st ue y = true
  | .blockquote l, _, _, hk => ⟨.blockquote l, by simp [block, Keeps.all (ts := l) hk], by simp [Block.level, Block.eqv]⟩
  | .code l m ls, h, _, hk => by
    refine ⟨.code l (Map.collect m) ls, ?_, ?_⟩
    · simp [block, strMap_kept m hk.left.right, hk.right.all, hk.left.left.opt]
    · simpa [Block.level, Block.eqv] using mapEq_of_perm (collect_distinct m) (collect_perm h).symm
  | .defs xs, h, hr, hk => by
    have hd : ∀ d ∈ xs, ∃ y, located c.termDefs d = Q.ret y ∧
        ∀ st, locEq st (TermDefs.eqv st ue) ⟨d.inner.level, d.region.level⟩ y = true := fun d hm =>
      located_rel (r := fun st => TermDefs.eqv st ue) (termDefs_kept d.inner (h d hm) (Reads.level hr d hm) (Keeps.level hk d hm))
    obtain ⟨ys, h1, h2⟩ := Q.list_rel (g := fun d => (⟨d.inner.level, d.region.level⟩ : Located TermDefs))
      (r := fun st => locEq st (TermDefs.eqv st ue)) xs hd
    exact ⟨.defs ys, by simp [block, h1], by simpa [Block.level, Block.eqv] using h2⟩
  | .divider, _, _, _ => ⟨.divider, by simp [block], by simp [Block.level, Block.eqv]⟩
  | .header x n b, h, hr, hk => by
    obtain ⟨ys, h1, h2⟩ := inlines_kept x h hr hk
    exact ⟨.header ys n b, by simp [block, h1], by simp [Block.level, Block.eqv, h2]⟩
  | .list xs, h, hr, hk => by
    obtain ⟨ys, h1, h2⟩ := items_kept xs h hr hk
    exact ⟨.list ys, by simp [block, h1], by simp [Block.level, Block.eqv, h2]⟩
  | .math l e, _, _, hk => ⟨.math l e, by simp [block, hk.right.all, hk.left.opt],
      by simp [Block.level, Block.eqv]⟩
  | .paragraph rs, h, hr, hk => by
    obtain ⟨ys, h1, h2⟩ := Q.list_rel (f := c.inlines) (g := Inline.levels) (r := fun st => Inline.eqvs st ue) rs
      fun x hx => inlines_kept x (h x hx) (Reads.level hr x hx) (Keeps.level hk x hx)
    exact ⟨.paragraph ys, by simp [block, h1], by simpa [Block.level, Block.eqv] using h2⟩
  | .placeholder p, _, _, hk => ⟨.placeholder p, by simp [block, placeholder_kept p hk],
      by simp [Block.level, Block.eqv]⟩
  | .table t, h, hr, hk => by
    obtain ⟨y, h1, h2⟩ := table_kept t h hr hk
    exact ⟨.table y, by simp [block, h1], by simp [Block.level, Block.eqv, h2]⟩
theorem items_kept : ∀ xs : List (Located (ItemF Block)), Block.ValidItems xs → Reads c ue (Block.urisItems xs) →
    Keeps c (Block.textsItems xs) →
    ∃ ys, c.items' xs = Q.ret ys ∧ ∀ st, Block.eqvItems st ue (Block.levelItems xs) ys = true
  | [], _, _, _ => ⟨[], by simp [items'], by simp [Block.levelItems, Block.eqvItems]⟩
  | ⟨⟨ty, su, pos, cs, td⟩, r⟩ :: xs, h, hr, hk => by
    obtain ⟨y, h1, h2⟩ := blocks_kept cs h.1 (Reads.left hr) (Keeps.right (Keeps.left hk))
    obtain ⟨ys, h3, h4⟩ := items_kept xs h.2 (Reads.right hr) (Keeps.right hk)
    exact ⟨⟨⟨ty, su, pos, y, td⟩, Region.new r.offset r.len⟩ :: ys, by simp [items', itemType_kept ty hk.left.left, h1, h3],
      by simp [Block.levelItems, Block.eqvItems, h2, h4, Region.level, Region.new]⟩
theorem blocks_kept : ∀ xs : List (Located Block), Block.Valids xs → Reads c ue (Block.urisAll xs) → Keeps c (Block.textsAll xs) →
    ∃ ys, c.blocks xs = Q.ret ys ∧ ∀ st, Block.eqvs st ue (Block.levels xs) ys = true
  | [], _, _, _ => ⟨[], by simp [blocks], by simp [Block.levels, Block.eqvs]⟩
  | ⟨x, r⟩ :: xs, h, hr, hk => by
    obtain ⟨y, h1, h2⟩ := block_kept x h.1 (Reads.left hr) (Keeps.left hk)
    obtain ⟨ys, h3, h4⟩ := blocks_kept xs h.2 (Reads.right hr) (Keeps.right hk)
    exact ⟨⟨y, Region.new r.offset r.len⟩ :: ys, by simp [blocks, h1, h3],
      by simp [Block.levels, Block.eqvs, h2, h4, Region.level, Region.new]⟩
end

end QCtx

/-! ## Depths do not matter for `==` -/

mutual
theorem inline_level_erase : ∀ x : Inline, x.level.erase = x.erase
  | .text _ => by simp [Inline.level]
  | .decorated _ xs => by simp [Inline.level, Inline.erase, inlines_level_erase xs]
  | .keyword _ => by simp [Inline.level]
  | .link _ => by simp [Inline.level]
  | .tags _ => by simp [Inline.level]
  | .code _ => by simp [Inline.level]
  | .math _ => by simp [Inline.level]
  | .comment _ => by simp [Inline.level]
theorem inlines_level_erase : ∀ xs : List (Located Inline), Inline.erases (Inline.levels xs) = Inline.erases xs
  | [] => by simp [Inline.levels]
  | ⟨x, r⟩ :: xs => by simp [Inline.levels, Inline.erases, inline_level_erase x, inlines_level_erase xs]
end

theorem cell_level_erase (x : Cell) : x.level.erase = x.erase := by
  cases x <;> simp [Cell.level, Cell.erase, inlines_level_erase]

theorem termDefs_level_erase (x : TermDefs) : x.level.erase = x.erase := by
  simp [TermDefs.level, TermDefs.erase, inlines_level_erase]

mutual
theorem block_level_erase : ∀ x : Block, x.level.erase = x.erase
  | .blockquote _ => by simp [Block.level]
  | .code _ _ _ => by simp [Block.level]
  | .defs _ => by simp [Block.level, Block.erase, termDefs_level_erase]
  | .divider => by simp [Block.level]
  | .header _ _ _ => by simp [Block.level, Block.erase, inlines_level_erase]
  | .list xs => by simp [Block.level, Block.erase, items_level_erase xs]
  | .math _ _ => by simp [Block.level]
  | .paragraph _ => by simp [Block.level, Block.erase, inlines_level_erase]
  | .placeholder _ => by simp [Block.level]
  | .table t => by simp [Block.level, Block.erase, Table.level, Table.erase, cell_level_erase]
theorem items_level_erase : ∀ xs : List (Located (ItemF Block)), Block.eraseItems (Block.levelItems xs) = Block.eraseItems xs
  | [] => by simp [Block.levelItems]
  | ⟨⟨_, _, _, cs, _⟩, _⟩ :: xs => by simp [Block.levelItems, Block.eraseItems, blocks_level_erase cs, items_level_erase xs]
theorem blocks_level_erase : ∀ xs : List (Located Block), Block.erases (Block.levels xs) = Block.erases xs
  | [] => by simp [Block.levels]
  | ⟨x, _⟩ :: xs => by simp [Block.levels, Block.erases, block_level_erase x, blocks_level_erase xs]
end

theorem inline_level (x y : Inline) : x.level.eqv false ue y = x.eqv false ue y := by
  rw [← inline_erase, inline_level_erase, inline_erase]
theorem inlines_level (x y : Inlines) : Inline.eqvs false ue (Inline.levels x) y = Inline.eqvs false ue x y := by
  rw [← inlines_erase, inlines_level_erase, inlines_erase]
theorem block_level (x y : Block) : x.level.eqv false ue y = x.eqv false ue y := by
  rw [← block_erase, block_level_erase, block_erase]
theorem blocks_level (x y : List (Located Block)) : Block.eqvs false ue (Block.levels x) y = Block.eqvs false ue x y := by
  rw [← blocks_erase, blocks_level_erase, blocks_erase]

theorem Parsed.equal_level (x y : Parsed) : x.level.Equal false ue y ↔ x.Equal false ue y := by
  cases x <;> cases y <;>
    simp [Parsed.level, Parsed.Equal, locEq, inline_level, inlines_level, block_level, blocks_level, Block.eqvItems]

/-- All maps of the element have distinct keys and the counts of tables are right. -/
def Parsed.Valid : Parsed → Prop
  | .page p => p.Valid
  | .block b => b.inner.Valid
  | .inlines x => Inline.Valids x.inner
  | .inline x => x.inner.Valid
  | .item i => Block.Valids i.inner.contents

theorem QCtx.parsed_kept (x : Parsed) (h : x.Valid) (hr : Reads c ue x.uris) (hk : Keeps c x.texts) :
    ∃ y, c.parsed x = Q.ret y ∧ ∀ st, x.level.Equal st ue y := by
  cases x with
  | page p =>
    obtain ⟨ys, h1, h2⟩ := blocks_kept p.elements h hr hk
    exact ⟨.page ⟨ys⟩, by simp [parsed, h1], h2⟩
  | block b =>
    obtain ⟨y, h1, h2⟩ := located_rel (r := fun st => Block.eqv st ue) (block_kept b.inner h hr hk)
    exact ⟨.block y, by simp [parsed, h1], h2⟩
  | inlines x =>
    obtain ⟨y, h1, h2⟩ := located_rel (r := fun st => Inline.eqvs st ue) (inlines_kept x.inner h hr hk)
    exact ⟨.inlines y, by simp [parsed, h1], h2⟩
  | inline x =>
    obtain ⟨y, h1, h2⟩ := located_rel (r := fun st => Inline.eqv st ue) (inline_kept x.inner h hr hk)
    exact ⟨.inline y, by simp [parsed, h1], h2⟩
  | item i =>
    obtain ⟨ys, h1, h2⟩ := blocks_kept i.inner.contents h hr hk.right
    refine ⟨.item ⟨⟨i.inner.ty, i.inner.suffix, i.inner.pos, ys, i.inner.todo⟩, Region.new i.region.offset i.region.len⟩,
      by simp [parsed, located, itemType_kept i.inner.ty hk.left, h1], fun st => ?_⟩
    simp [Parsed.level, Parsed.Equal, Block.eqvItems, h2, Region.level, Region.new]

/-! ## What the parsers yield is valid -/

variable {env : Env}

theorem blocks_valid_of {p : P (Located Block)} (h : Always p fun x => x.inner.WF) :
    Always (P.map p Parsed.block) Parsed.Valid := Always.map h fun x hx => block_valid x.inner hx

theorem inline_valid_of {p : P (Located Inline)} (h : Always p fun x => x.inner.WF) :
    Always (P.map p Parsed.inline) Parsed.Valid := Always.map h fun x hx => inline_valid x.inner hx

theorem page_always : Always (page env) Page.WF := by
  refine .map (Always.allConsuming (.many0 (Q := fun x => ∀ b, x = some b → BlockWF b)
    (.alt (.value (by simp)) (.map topLevel_always fun x hx b hb => by cases hb; exact hx)))) ?_
  intro es hes
  refine blockWfs_of_all fun x hx => ?_
  obtain ⟨y, hy, e⟩ := List.mem_filterMap.1 hx
  exact hes y hy x e

theorem lineComment_always : Always lineComment fun x => x.inner.WF :=
  .located (.bind' fun _ => .map' fun _ => by simp [Inline.WF])

theorem multiLineComment_always : Always multiLineComment fun x => x.inner.WF :=
  .located (.bind' fun _ => .bind' fun _ => .bind' fun _ => .pure (by simp [Inline.WF]))

theorem codeInline_always : Always codeInline fun x => x.inner.WF :=
  .located (.map' fun _ => by simp [Inline.WF])

theorem mathInline_always : Always mathInline fun x => x.inner.WF :=
  .located (.map' fun _ => by simp [Inline.WF])

theorem tags_always : Always tags fun x => x.inner.WF := by
  refine .located (.map (.mapParser (.bind' fun _ => .many1 (.any _))) fun ts hts => ?_)
  simp only [Inline.WF]
  exact hts.1

theorem Kind.parser_valid (k : Kind) : Always (k.parser env) Parsed.Valid := by
  cases k
  case page => exact .map page_always fun _ h => h.valid
  case block => exact blocks_valid_of topLevel_always
  case inlines => exact .map inlineContainer_always fun x h => inlines_valid x.inner h.2
  case inline => exact inline_valid_of inlineElement_always
  case blockquote => exact blocks_valid_of blockquote_always
  case codeInline => exact inline_valid_of codeInline_always
  case comment => exact inline_valid_of (.alt multiLineComment_always lineComment_always)
  case lineComment => exact inline_valid_of lineComment_always
  case multiLineComment => exact inline_valid_of multiLineComment_always
  case definitionList => exact blocks_valid_of (defs_always.mono fun _ h => h.1)
  case divider => exact blocks_valid_of divider_always
  case header => exact blocks_valid_of header_always
  case link => exact inline_valid_of (link_always.mono fun _ h => h.1)
  case list => exact blocks_valid_of (list_always.mono fun _ h => h.1)
  case listItem =>
    refine .map (Q := fun x => ItemOkWF x.2) (fun s s' x e => listItem_always (nestedF_always s.remainingLen) s s' x e) ?_
    exact fun x h => blocks_valid x.2.inner.contents h.2.2
  case mathInline => exact inline_valid_of mathInline_always
  case mathBlock => exact blocks_valid_of (math_always.mono fun _ h => h.1)
  case paragraph => exact blocks_valid_of ((paragraphOf_always _).mono fun _ h => h.1)
  case placeholder => exact blocks_valid_of placeholder_always
  case codeBlock => exact blocks_valid_of (code_always.mono fun _ h => h.1)
  case table => exact blocks_valid_of table_always
  case tags => exact inline_valid_of tags_always
  case text => exact inline_valid_of ((textOf_always _).mono fun _ h => h.1)
  case decoratedText => exact inline_valid_of (decoratedText_always.mono fun _ h => h.1)
  case keyword => exact inline_valid_of (keyword_always.mono fun _ h => h.1)

end Vw
