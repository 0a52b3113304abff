import Verif.Lemmas.Quote
import Verif.Lemmas.Format

/-!
# Lemmas about formatting the texts of an element
-/

namespace Vw

variable {α β γ : Type} {c : QCtx α}

theorem Q.list_append {f : β → Q γ} (xs ys : List β) (n : Nat) :
    Q.list f (xs ++ ys) n = Q.bind (Q.list f xs) (fun a => Q.map (a ++ ·) (Q.list f ys)) n := by
  induction xs generalizing n with
  | nil =>
    simp only [List.nil_append, Q.list, Q.map, Q.bind, Q.ret]
    split <;> rename_i h <;> simp [h]
  | cons x xs ih =>
    simp only [List.cons_append, Q.list, Q.bind, Q.map]
    cases f x n with
    | error e => rfl
    | ok r =>
      obtain ⟨y, m⟩ := r
      simp only [ih, Q.bind, Q.map]
      cases Q.list f xs m with
      | error e => rfl
      | ok r =>
        obtain ⟨a, k⟩ := r
        simp only [Q.ret]
        cases Q.list f ys k with
        | error e => rfl
        | ok r => rfl

/-- Tokenizing formats these texts one after the other; what it yields is related to the
formatted ones. -/
def Formats (c : QCtx α) (q : Q β) (ts : List Str) (R : List Str → β → Prop) : Prop :=
  ∀ n, (∀ us m, Q.list c.str ts n = .ok (us, m) → ∃ y, q n = .ok (y, m) ∧ R us y) ∧
    ∀ e, Q.list c.str ts n = .error e → q n = .error e

namespace Formats

theorem ret {x : β} {R : List Str → β → Prop} (h : R [] x) : Formats c (Q.ret x) [] R := by
  intro n
  refine ⟨?_, ?_⟩
  · intro us m e; cases e; exact ⟨x, rfl, h⟩
  · intro e h; cases h

theorem bind {q : Q β} {f : β → Q γ} {ts ts' : List Str} {R : List Str → β → Prop} {S : List Str → γ → Prop}
    (h : Formats c q ts R) (h' : ∀ us y, R us y → Formats c (f y) ts' fun us' z => S (us ++ us') z) :
    Formats c (Q.bind q f) (ts ++ ts') S := by
  intro n
  simp only [Q.list_append, Q.bind, Q.map]
  obtain ⟨h1, h2⟩ := h n
  cases he : Q.list c.str ts n with
  | error e => rw [h2 e he]; simp
  | ok r =>
    obtain ⟨us, m⟩ := r
    obtain ⟨y, h3, h4⟩ := h1 us m he
    rw [h3]
    obtain ⟨h5, h6⟩ := h' us y h4 m
    simp only
    cases he' : Q.list c.str ts' m with
    | error e => rw [h6 e he']; simp
    | ok r =>
      obtain ⟨us', k⟩ := r
      obtain ⟨z, h7, h8⟩ := h5 us' k he'
      rw [h7]
      simp only [Q.ret, reduceCtorEq, false_implies, implies_true, and_true]
      intro us'' m' he''
      cases he''
      exact ⟨z, rfl, h8⟩

theorem mono {q : Q β} {ts : List Str} {R S : List Str → β → Prop} (h : Formats c q ts R) (hs : ∀ us y, R us y → S us y) :
    Formats c q ts S := by
  intro n
  refine ⟨fun us m e => ?_, (h n).2⟩
  obtain ⟨y, h1, h2⟩ := (h n).1 us m e
  exact ⟨y, h1, hs _ _ h2⟩

theorem map {q : Q β} {g : β → γ} {ts : List Str} {R : List Str → β → Prop} {S : List Str → γ → Prop}
    (h : Formats c q ts R) (hs : ∀ us y, R us y → S us (g y)) : Formats c (Q.map g q) ts S := by
  have := bind (f := fun x => Q.ret (g x)) (ts' := []) (S := S) h
    fun us y hr => ret (by simpa using hs us y hr)
  simpa [Q.map] using this

theorem str (s : Str) : Formats c (c.str s) [s] fun us t => us = [t] := by
  intro n
  simp only [Q.list, Q.bind, Q.map, Q.ret]
  cases c.str s n with
  | error e => simp
  | ok r =>
    obtain ⟨t, m⟩ := r
    simp

theorem strs (ts : List Str) : Formats c (Q.list c.str ts) ts fun us ys => us = ys ∧ ys.length = ts.length := by
  intro n
  refine ⟨fun us m e => ⟨us, e, rfl, ?_⟩, fun e h => h⟩
  revert n us m
  induction ts with
  | nil => intro n us m e; cases e; rfl
  | cons t ts ih =>
    intro n us m e
    simp only [Q.list, Q.bind, Q.map, Q.ret] at e
    split at e
    · split at e
      next h => cases e; simp [ih _ _ _ h]
      next => cases e
    · cases e

/-- Relation for the parts of a list, from that for one part. -/
theorem list {f : β → Q γ} {tx : β → List Str} {ty : γ → List Str} {S : β → γ → Prop} (xs : List β)
    (h : ∀ x ∈ xs, Formats c (f x) (tx x) fun us y => ty y = us ∧ S x y) :
    Formats c (Q.list f xs) (xs.flatMap tx) fun us ys =>
      ys.flatMap ty = us ∧ ys.length = xs.length ∧ ∀ p ∈ xs.zip ys, S p.1 p.2 := by
  induction xs with
  | nil => exact ret ⟨rfl, rfl, by simp⟩
  | cons x xs ih =>
    refine bind (h x (by simp)) fun us y hy => map (ih fun z hz => h z (by simp [hz])) fun us' ys hys => ?_
    refine ⟨by simp [hy.1, hys.1], by simp [hys.2.1], ?_⟩
    intro p hp
    rcases List.mem_cons.1 hp with rfl | hp
    · exact hy.2
    · exact hys.2.2 p hp

theorem zip_map {xs : List β} {ys : List γ} {δ : Type} {f : β → δ} {g : γ → δ} (hl : ys.length = xs.length)
    (h : ∀ p ∈ xs.zip ys, g p.2 = f p.1) : ys.map g = xs.map f := by
  induction xs generalizing ys with
  | nil => cases ys <;> simp_all
  | cons x xs ih =>
    cases ys with
    | nil => simp at hl
    | cons y ys =>
      simp only [List.map_cons, List.cons.injEq]
      refine ⟨h (x, y) (by simp), ih (by simpa using hl) fun p hp => h p (by simp [hp])⟩

theorem const_map {xs ys : List Str} (hl : ys.length = xs.length) : ys.map (fun _ => ([] : Str)) = xs.map fun _ => [] :=
  zip_map hl fun _ _ => rfl

theorem option {f : β → Q γ} {tx : β → List Str} {ty : γ → List Str} {S : β → γ → Prop} (o : Option β)
    (h : ∀ x ∈ o, Formats c (f x) (tx x) fun us y => ty y = us ∧ S x y) :
    Formats c (Q.option f o) (o.toList.flatMap tx) fun us y => y.toList.flatMap ty = us ∧
      ((o = none ∧ y = none) ∨ ∃ a b, o = some a ∧ y = some b ∧ S a b) := by
  cases o with
  | none => exact ret ⟨rfl, .inl ⟨rfl, rfl⟩⟩
  | some x =>
    have := map (g := some) (S := fun us y => y.toList.flatMap ty = us ∧
      ((some x = none ∧ y = none) ∨ ∃ a b, some x = some a ∧ y = some b ∧ S a b)) (h x rfl)
      fun us y hy => ⟨by simpa using hy.1, .inr ⟨x, y, rfl, rfl, hy.2⟩⟩
    simpa using this

theorem optStr (o : Option Str) : Formats c (Q.option c.str o) o.toList fun us y =>
    y.toList = us ∧ y.map (fun _ => ([] : Str)) = o.map fun _ => [] := by
  cases o with
  | none => exact ret ⟨rfl, rfl⟩
  | some x => exact map (str x) fun us y hy => ⟨by simpa using hy.symm, rfl⟩

end Formats

namespace QCtx

/-- Written URIs are read back. -/
def Exact (c : QCtx α) (us : List Uri) : Prop := ∀ u ∈ us, c.uri (c.uriText u) = some u

theorem Exact.left {us vs} (h : Exact c (us ++ vs)) : Exact c us := fun u hu => h u (by simp [hu])
theorem Exact.right {us vs} (h : Exact c (us ++ vs)) : Exact c vs := fun u hu => h u (by simp [hu])
theorem Exact.level {xs : List β} {f : β → List Uri} (h : Exact c (xs.flatMap f)) : ∀ x ∈ xs, Exact c (f x) :=
  fun x hx u hu => h u (List.mem_flatMap.2 ⟨x, hx, hu⟩)

/-- The maps have at most one entry. -/
def Small (ms : List Map) : Prop := ∀ m ∈ ms, m.length ≤ 1

theorem Small.left {us vs} (h : Small (us ++ vs)) : Small us := fun u hu => h u (by simp [hu])
theorem Small.right {us vs} (h : Small (us ++ vs)) : Small vs := fun u hu => h u (by simp [hu])
theorem Small.level {xs : List β} {f : β → List Map} (h : Small (xs.flatMap f)) : ∀ x ∈ xs, Small (f x) :=
  fun x hx u hu => h u (List.mem_flatMap.2 ⟨x, hx, hu⟩)

theorem uriRef_exact {u : Uri} {us : List Uri} (h : Exact c us) (hm : u ∈ us) : c.uriRef u = Q.ret u := by
  funext n; simp [uriRef, h u hm, Q.ret]

theorem strMap_formats (m : Map) (h : m.length ≤ 1) :
    Formats c (c.strMap m) m.texts fun us m' => Map.texts m' = us ∧ m'.blank = m.blank := by
  match m, h with
  | [], _ =>
    exact Formats.map (Formats.ret (R := fun us ys => us = [] ∧ ys = []) ⟨rfl, rfl⟩)
      fun us ys hy => by obtain ⟨rfl, rfl⟩ := hy; exact ⟨rfl, rfl⟩
  | [(k, v)], _ =>
    refine Formats.map (R := fun us ys => ∃ a b, us = [a, b] ∧ ys = [(a, b)]) ?_ ?_
    · show Formats c _ ([k, v] ++ []) _
      refine Formats.bind (R := fun us e => us = [e.1, e.2]) ?_ ?_
      · exact Formats.bind (ts := [k]) (ts' := [v]) (Formats.str k) fun us a ha =>
          Formats.map (Formats.str v) fun us' b hb => by simp [ha, hb]
      · rintro us ⟨a, b⟩ rfl
        exact Formats.map (Formats.ret (R := fun us ys => us = [] ∧ ys = []) ⟨rfl, rfl⟩)
          fun us ys hy => by obtain ⟨rfl, rfl⟩ := hy; exact ⟨a, b, rfl, rfl⟩
    · rintro us ys ⟨a, b, rfl, rfl⟩
      exact ⟨rfl, rfl⟩

theorem props_formats (p : Option Map) (h : Small p.toList) :
    Formats c (Q.option c.strMap p) (propTexts p) fun us q => propTexts q = us ∧ q.map Map.blank = p.map Map.blank := by
  refine (Formats.option (ty := Map.texts) (S := fun m m' => m'.blank = m.blank) p fun m hm => ?_).mono ?_
  · exact strMap_formats m (h m (by simpa using hm))
  · rintro us y ⟨h1, h2⟩
    refine ⟨h1, ?_⟩
    rcases h2 with ⟨rfl, rfl⟩ | ⟨a, b, rfl, rfl, h⟩
    · rfl
    · simp [h]

theorem description_formats : ∀ d : Description, Exact c d.uris → Small d.maps →
    Formats c (c.description d) d.texts fun us e => e.texts = us ∧ e.blank = d.blank
  | .text s, _, _ => Formats.map (Formats.str s) fun us t h => ⟨by simp [Description.texts, h], rfl⟩
  | .transclusion u none p, hu, hm => by
    simp only [description, uriRef_exact hu (u := u) (by simp [Description.uris]), Q.ret_bind]
    exact Formats.map (props_formats p hm) fun us q h => ⟨h.1, by simp [Description.blank, h.2]⟩
  | .transclusion u (some d) p, hu, hm => by
    simp only [description, uriRef_exact hu (u := u) (by simp [Description.uris]), Q.ret_bind]
    refine Formats.bind (description_formats d (fun w hw => hu w (by simp [Description.uris, hw])) (Small.left hm))
      fun us e he => Formats.map (props_formats p (Small.right hm)) fun us' q h => ?_
    exact ⟨by simp [Description.texts, he.1, h.1], by simp [Description.blank, he.2, h.2]⟩

theorem linkData_formats (d : LinkData) (hu : Exact c d.uris) (hm : Small d.maps) :
    Formats c (c.linkData d) d.texts fun us e => e.texts = us ∧ e.blank = d.blank := by
  simp only [linkData, uriRef_exact hu (u := d.uri) (by simp [LinkData.uris]), Q.ret_bind]
  refine Formats.bind (Formats.option (ty := Description.texts) (S := fun m m' => m'.blank = m.blank) d.desc ?_)
    fun us e he => Formats.map (props_formats d.props (Small.right hm)) fun us' q h => ?_
  · intro x hx
    have hx : d.desc = some x := hx
    exact description_formats x (fun w hw => hu w (by simp [LinkData.uris, hx, hw]))
      fun w hw => hm w (by simp [LinkData.maps, hx, hw])
  · refine ⟨by simp [LinkData.texts, he.1, h.1], ?_⟩
    have : e.map Description.blank = d.desc.map Description.blank := by
      rcases he.2 with ⟨h1, rfl⟩ | ⟨a, b, h1, rfl, h2⟩
      · simp [h1]
      · simp [h1, h2]
    simp [LinkData.blank, this, h.2]

theorem link_formats (l : Link) (hu : Exact c l.uris) (hm : Small l.maps) :
    Formats c (c.link l) l.texts fun us m => m.texts = us ∧ m.blank = l.blank := by
  cases l with
  | wiki d => exact Formats.map (linkData_formats d hu hm) fun us e h => ⟨h.1, by simp [Link.blank, h.2]⟩
  | indexed i d => exact Formats.map (linkData_formats d hu hm) fun us e h => ⟨h.1, by simp [Link.blank, h.2]⟩
  | named s d =>
    exact Formats.bind (ts := [s]) (Formats.str s) fun us t ht =>
      Formats.map (linkData_formats d hu hm) fun us' e h => ⟨by simp [Link.texts, ht, h.1], by simp [Link.blank, h.2]⟩
  | diary t d => exact Formats.map (linkData_formats d hu hm) fun us e h => ⟨h.1, by simp [Link.blank, h.2]⟩
  | raw d => exact Formats.map (linkData_formats d hu hm) fun us e h => ⟨h.1, by simp [Link.blank, h.2]⟩
  | transclusion d => exact Formats.map (linkData_formats d hu hm) fun us e h => ⟨h.1, by simp [Link.blank, h.2]⟩

theorem comment_formats (x : Comment) :
    Formats c (c.comment x) x.texts fun us y => y.texts = us ∧ y.blank = x.blank := by
  cases x with
  | line s => exact Formats.map (Formats.str s) fun us t h => ⟨by simp [Comment.texts, h], rfl⟩
  | multi ls => exact Formats.map (Formats.strs ls) fun us t h =>
      ⟨h.1.symm, by simp only [Comment.blank]; rw [Formats.const_map h.2]⟩

mutual
theorem inline_formats : ∀ x : Inline, Exact c x.uris → Small x.maps →
    Formats c (c.inline x) x.texts fun us y => y.texts = us ∧ y.blank = x.level.blank
  | .text s, _, _ => by
    simp only [inline, Inline.texts]
    exact Formats.map (Formats.str s) fun us t h => ⟨by simp [Inline.texts, h], by simp [Inline.level, Inline.blank]⟩
  | .decorated k xs, hu, hm => by
    simp only [inline, Inline.texts]
    exact Formats.map (inlines_formats xs (by simpa [Inline.uris] using hu) (by simpa [Inline.maps] using hm))
      fun us t h => ⟨by simp [Inline.texts, h.1], by simp [Inline.level, Inline.blank, h.2]⟩
  | .keyword k, _, _ => by
    simp only [inline, Inline.texts]
    exact Formats.ret ⟨by simp [Inline.texts], by simp [Inline.level]⟩
  | .link l, hu, hm => by
    simp only [inline, Inline.texts]
    exact Formats.map (link_formats l (by simpa [Inline.uris] using hu) (by simpa [Inline.maps] using hm))
      fun us t h => ⟨by simp [Inline.texts, h.1], by simp [Inline.level, Inline.blank, h.2]⟩
  | .tags ts, _, _ => by
    simp only [inline, Inline.texts]
    exact Formats.map (Formats.strs ts) fun us t h => ⟨by simp [Inline.texts, h.1],
      by simp only [Inline.level, Inline.blank]; rw [Formats.const_map h.2]⟩
  | .code s, _, _ => by
    simp only [inline, Inline.texts]
    exact Formats.map (Formats.str s) fun us t h => ⟨by simp [Inline.texts, h], by simp [Inline.level, Inline.blank]⟩
  | .math s, _, _ => by
    simp only [inline, Inline.texts]
    exact Formats.map (Formats.str s) fun us t h => ⟨by simp [Inline.texts, h], by simp [Inline.level, Inline.blank]⟩
  | .comment x, _, _ => by
    simp only [inline, Inline.texts]
    exact Formats.map (comment_formats x) fun us t h => ⟨by simp [Inline.texts, h.1], by simp [Inline.level, Inline.blank, h.2]⟩
theorem inlines_formats : ∀ xs : List (Located Inline), Exact c (Inline.urisAll xs) → Small (Inline.mapsAll xs) →
    Formats c (c.inlines xs) (Inline.textsAll xs) fun us ys =>
      Inline.textsAll ys = us ∧ Inline.blanks ys = Inline.blanks (Inline.levels xs)
  | [], _, _ => by
    simp only [inlines, Inline.textsAll]
    exact Formats.ret ⟨by simp [Inline.textsAll], by simp [Inline.levels]⟩
  | ⟨x, r⟩ :: xs, hu, hm => by
    simp only [inlines, Inline.textsAll]
    simp only [Inline.urisAll] at hu
    simp only [Inline.mapsAll] at hm
    refine Formats.bind (R := fun us (y : Located Inline) => y.inner.texts = us ∧ y.inner.blank = x.level.blank ∧ y.region = r.level)
      (Formats.map (inline_formats x hu.left hm.left) fun us y h => ⟨h.1, h.2, rfl⟩) ?_
    rintro us ⟨y, r'⟩ ⟨h1, h2, h3⟩
    refine Formats.map (inlines_formats xs hu.right hm.right) fun us' ys h => ?_
    simp only at h1 h2 h3
    exact ⟨by simp [Inline.textsAll, h1, h.1], by simp [Inline.levels, Inline.blanks, h2, h3, h.2]⟩
end

theorem located_formats {β : Type} {f : β → Q γ} {x : Located β} {ts : List Str} {R : List Str → γ → Prop}
    (h : Formats c (f x.inner) ts R) :
    Formats c (located f x) ts fun us y => R us y.inner ∧ y.region = x.region.level :=
  Formats.map h fun _ _ h => ⟨h, rfl⟩

theorem cell_formats (x : Cell) (hu : Exact c x.uris) (hm : Small x.maps) :
    Formats c (c.cell x) x.texts fun us y => y.texts = us ∧ y.blank = x.level.blank := by
  cases x with
  | content xs => exact Formats.map (inlines_formats xs hu hm) fun us ys h => ⟨h.1, by simp [Cell.level, Cell.blank, h.2]⟩
  | span s => exact Formats.ret ⟨rfl, rfl⟩
  | align s => exact Formats.ret ⟨rfl, rfl⟩

theorem termDefs_formats (x : TermDefs) (hu : Exact c x.uris) (hm : Small x.maps) :
    Formats c (c.termDefs x) x.texts fun us y => y.texts = us ∧ y.blank = x.level.blank := by
  refine Formats.bind (located_formats (inlines_formats x.term.inner hu.left hm.left)) fun us t ht =>
    Formats.map (located_formats (Formats.list (ty := fun d => Inline.textsAll d.inner)
      (S := fun d d' => Inline.blanks d'.inner = Inline.blanks (Inline.levels d.inner) ∧ d'.region = d.region.level)
      x.defs.inner fun d hd => ?_)) fun us' ds h => ?_
  · exact (located_formats (inlines_formats d.inner (Exact.level (Exact.right hu) d hd) (Small.level (Small.right hm) d hd))).mono
      fun us y h => ⟨h.1.1, h.1.2, h.2⟩
  · obtain ⟨⟨h1, h2, h3⟩, h4⟩ := h
    refine ⟨by simp [TermDefs.texts, ht.1.1, h1], ?_⟩
    simp only [TermDefs.blank, TermDefs.level, ht.1.2, ht.2, h4, List.map_map]
    rw [Formats.zip_map h2 (f := (fun d : Located Inlines => (⟨Inline.blanks d.inner, d.region⟩ : Located Inlines)) ∘
      fun d => ⟨Inline.levels d.inner, d.region.level⟩)]
    intro p hp
    obtain ⟨h5, h6⟩ := h3 p hp
    simp [h5, h6]

/-- Collecting distinct cells twice leaves them in order. -/
theorem collect_reverse {ps : List (CellPos × Located Cell)} (h : DistinctKeys ps) : Table.collect ps = ps.reverse := by
  suffices key : ∀ (ps m : List (CellPos × Located Cell)), DistinctKeys (ps ++ m) →
      ps.foldl (fun m e => e :: m.filter (fun x => x.1 ≠ e.1)) m = ps.reverse ++ m by
    simpa [Table.collect] using key ps [] (by simpa using h)
  intro ps
  induction ps with
  | nil => intro m _; rfl
  | cons p ps ih =>
    intro m hd
    have hins : m.filter (fun x => decide (x.1 ≠ p.1)) = m := by
      rw [List.filter_eq_self.2]
      intro q hq
      simp only [DistinctKeys, List.cons_append, List.map_cons, List.nodup_cons] at hd
      have : q.1 ≠ p.1 := fun e => hd.1 (by rw [← e]; exact List.mem_map.2 ⟨q, by simp [hq], rfl⟩)
      simpa using this
    rw [List.foldl_cons, hins, ih]
    · simp
    · have hp : (ps ++ p :: m).Perm (p :: ps ++ m) := List.perm_middle
      exact (hp.map _).nodup_iff.2 hd

theorem table_formats (t : Table) (h : t.Valid) (hu : Exact c (t.cells.flatMap fun e => e.2.inner.uris))
    (hm : Small (t.cells.flatMap fun e => e.2.inner.maps)) :
    Formats c (c.table t) (t.cells.flatMap fun e => e.2.inner.texts) fun us y =>
      (y.cells.flatMap fun e => e.2.inner.texts) = us ∧ y.blank = t.level.blank := by
  obtain ⟨hd, -, hrow, hcol⟩ := h
  refine Formats.map (Formats.list (ty := fun e : CellPos × Located Cell => e.2.inner.texts)
      (S := fun e e' => e'.1 = e.1 ∧ e'.2.inner.blank = e.2.inner.level.blank ∧ e'.2.region = e.2.region.level) t.cells fun e he =>
      Formats.map (located_formats (cell_formats e.2.inner (Exact.level hu e he) (Small.level hm e he)))
        fun us y h => ⟨h.1.1, rfl, h.1.2, h.2⟩) fun us ys h => ?_
  obtain ⟨h1, h2, h3⟩ := h
  have hkeys : ys.map (·.1) = t.cells.map (·.1) := Formats.zip_map h2 fun p hp => (h3 p hp).1
  have hdy : DistinctKeys ys := by unfold DistinctKeys; rw [hkeys]; exact hd
  have hcc : Table.collect (Table.collect ys) = ys := by
    rw [collect_reverse (tableCollect_distinct _), collect_reverse hdy, List.reverse_reverse]
  have hb : ys.map (fun e => (e.1, (⟨e.2.inner.blank, e.2.region⟩ : Located Cell))) =
      t.level.cells.map fun e => (e.1, ⟨e.2.inner.blank, e.2.region⟩) := by
    simp only [Table.level, List.map_map]
    refine Formats.zip_map h2 fun p hp => ?_
    obtain ⟨h4, h5, h6⟩ := h3 p hp
    simp [h4, h5, h6]
  obtain ⟨c1, c2⟩ := tableNew_counts (Table.collect ys) t.centered
  rw [hcc] at c1 c2
  have hr : ys.map (fun e => e.1.row) = t.cells.map fun e => e.1.row := by
    have := congrArg (List.map (·.row)) hkeys
    rwa [List.map_map, List.map_map] at this
  have hc : ys.map (fun e => e.1.col) = t.cells.map fun e => e.1.col := by
    have := congrArg (List.map (·.col)) hkeys
    rwa [List.map_map, List.map_map] at this
  rw [hr] at c1
  rw [hc] at c2
  have e1 := countOf_unique hrow c1 fun _ => Iff.rfl
  have e2 := countOf_unique hcol c2 fun _ => Iff.rfl
  refine ⟨?_, ?_⟩
  · show (Table.collect (Table.collect ys)).flatMap _ = us
    rw [hcc, h1]
  · have hcells : (Table.new (Table.collect ys) t.centered).cells = ys := hcc
    simp only [Table.blank, hcells, hb, ← e1, ← e2]
    rfl

theorem placeholder_formats (x : Placeholder) :
    Formats c (c.placeholder x) x.texts fun us y => y.texts = us ∧ y.blank = x.blank := by
  cases x with
  | title s => exact Formats.map (Formats.str s) fun us t h => ⟨by simp [Placeholder.texts, h], rfl⟩
  | template s => exact Formats.map (Formats.str s) fun us t h => ⟨by simp [Placeholder.texts, h], rfl⟩
  | other k v =>
    exact Formats.bind (ts := [k]) (ts' := [v]) (Formats.str k) fun us t ht =>
      Formats.map (Formats.str v) fun us' t' h => ⟨by simp [Placeholder.texts, ht, h], rfl⟩
  | noHtml => exact Formats.ret ⟨rfl, rfl⟩
  | date d => exact Formats.ret ⟨rfl, rfl⟩

theorem itemType_formats (x : ItemType) :
    Formats c (c.itemType x) x.texts fun us y => y.texts = us ∧ y.blank = x.blank := by
  cases x with
  | other s => exact Formats.map (Formats.str s) fun us t h => ⟨by simp [ItemType.texts, h], rfl⟩
  | _ => exact Formats.ret ⟨rfl, rfl⟩

mutual
theorem block_formats : ∀ x : Block, x.Valid → Exact c x.uris → Small x.maps →
    Formats c (c.block x) x.texts fun us y => y.texts = us ∧ y.blank = x.level.blank
  | .blockquote ls, _, _, _ => by
    simp only [block, Block.texts]
    exact Formats.map (Formats.strs ls) fun us t h => ⟨by simp [Block.texts, h.1],
      by simp only [Block.level, Block.blank]; rw [Formats.const_map h.2]⟩
  | .code l m ls, _, _, hm => by
    simp only [block, Block.texts, List.append_assoc]
    refine Formats.bind (Formats.optStr l) fun us l' hl => Formats.bind (strMap_formats m (hm m (by simp [Block.maps])))
      fun us' m' h => Formats.map (Formats.strs ls) fun us'' ls' h' => ?_
    refine ⟨by simp [Block.texts, hl.1, h.1, h'.1], ?_⟩
    simp only [Block.level, Block.blank, hl.2, h.2]
    rw [Formats.const_map h'.2]
  | .defs xs, _, hu, hm => by
    simp only [block, Block.texts]
    simp only [Block.uris] at hu
    simp only [Block.maps] at hm
    refine Formats.map (Formats.list (ty := fun d : Located TermDefs => d.inner.texts)
      (S := fun d d' => d'.inner.blank = d.inner.level.blank ∧ d'.region = d.region.level) xs fun d hd =>
      (located_formats (termDefs_formats d.inner (Exact.level hu d hd) (Small.level hm d hd))).mono
        fun us y h => ⟨h.1.1, h.1.2, h.2⟩) fun us ys h => ?_
    obtain ⟨h1, h2, h3⟩ := h
    refine ⟨by simp [Block.texts, h1], ?_⟩
    simp only [Block.level, Block.blank, List.map_map]
    rw [Formats.zip_map h2 (f := (fun d : Located TermDefs => (⟨d.inner.blank, d.region⟩ : Located TermDefs)) ∘
      fun d => ⟨d.inner.level, d.region.level⟩)]
    intro p hp
    obtain ⟨h5, h6⟩ := h3 p hp
    simp [h5, h6]
  | .divider, _, _, _ => by
    simp only [block, Block.texts]
    exact Formats.ret ⟨by simp [Block.texts], by simp [Block.level]⟩
  | .header x n b, _, hu, hm => by
    simp only [block, Block.texts]
    exact Formats.map (inlines_formats x (by simpa [Block.uris] using hu) (by simpa [Block.maps] using hm))
      fun us t h => ⟨by simp [Block.texts, h.1], by simp [Block.level, Block.blank, h.2]⟩
  | .list xs, h, hu, hm => by
    simp only [block, Block.texts]
    exact Formats.map (items_formats xs (by simpa [Block.Valid] using h) (by simpa [Block.uris] using hu) (by simpa [Block.maps] using hm))
      fun us t h => ⟨by simp [Block.texts, h.1], by simp [Block.level, Block.blank, h.2]⟩
  | .math ls e, _, _, _ => by
    simp only [block, Block.texts]
    refine Formats.bind (Formats.optStr e) fun us l' hl => Formats.map (Formats.strs ls) fun us'' ls' h' => ?_
    refine ⟨by simp [Block.texts, hl.1, h'.1], ?_⟩
    simp only [Block.level, Block.blank, hl.2]
    rw [Formats.const_map h'.2]
  | .paragraph rs, _, hu, hm => by
    simp only [block, Block.texts]
    simp only [Block.uris] at hu
    simp only [Block.maps] at hm
    refine Formats.map (Formats.list (ty := Inline.textsAll)
      (S := fun d d' => Inline.blanks d' = Inline.blanks (Inline.levels d)) rs fun d hd =>
      inlines_formats d (Exact.level hu d hd) (Small.level hm d hd)) fun us ys h => ?_
    obtain ⟨h1, h2, h3⟩ := h
    refine ⟨by simp [Block.texts, h1], ?_⟩
    simp only [Block.level, Block.blank, List.map_map]
    rw [Formats.zip_map h2 (f := Inline.blanks ∘ Inline.levels)]
    exact h3
  | .placeholder p, _, _, _ => by
    simp only [block, Block.texts]
    exact Formats.map (placeholder_formats p) fun us t h => ⟨by simp [Block.texts, h.1], by simp [Block.level, Block.blank, h.2]⟩
  | .table t, h, hu, hm => by
    simp only [block, Block.texts]
    exact Formats.map (table_formats t (by simpa [Block.Valid] using h) (by simpa [Block.uris] using hu) (by simpa [Block.maps] using hm))
      fun us t h => ⟨by simp [Block.texts, h.1], by simp [Block.level, Block.blank, h.2]⟩
theorem items_formats : ∀ xs : List (Located (ItemF Block)), Block.ValidItems xs → Exact c (Block.urisItems xs) →
    Small (Block.mapsItems xs) → Formats c (c.items' xs) (Block.textsItems xs) fun us ys =>
      Block.textsItems ys = us ∧ Block.blankItems ys = Block.blankItems (Block.levelItems xs)
  | [], _, _, _ => by
    simp only [items', Block.textsItems]
    exact Formats.ret ⟨by simp [Block.textsItems], by simp [Block.levelItems]⟩
  | ⟨⟨ty, su, pos, cs, td⟩, r⟩ :: xs, h, hu, hm => by
    simp only [items', Block.textsItems]
    simp only [Block.urisItems] at hu
    simp only [Block.mapsItems] at hm
    simp only [Block.ValidItems] at h
    refine Formats.bind (R := fun us (y : Located (ItemF Block)) => y.inner.ty.texts ++ Block.textsAll y.inner.contents = us ∧
        y = ⟨⟨y.inner.ty, su, pos, y.inner.contents, td⟩, r.level⟩ ∧ y.inner.ty.blank = ty.blank ∧
          Block.blanks y.inner.contents = Block.blanks (Block.levels cs)) ?_ ?_
    · exact Formats.bind (itemType_formats ty) fun us t ht => Formats.map (blocks_formats cs h.1 hu.left hm.left)
        fun us' ys hy => ⟨by simp [ht.1, hy.1], rfl, ht.2, hy.2⟩
    · rintro us ⟨⟨ty', su', pos', cs', td'⟩, r'⟩ ⟨h1, h2, h3, h4⟩
      simp only [Located.mk.injEq, ItemF.mk.injEq, true_and] at h2
      obtain ⟨⟨rfl, rfl, rfl⟩, rfl⟩ := h2
      refine Formats.map (items_formats xs h.2 hu.right hm.right) fun us' ys h => ?_
      simp only at h1 h3 h4
      exact ⟨by simp [Block.textsItems, h.1, ← h1], by simp [Block.levelItems, Block.blankItems, h3, h4, h.2]⟩
theorem blocks_formats : ∀ xs : List (Located Block), Block.Valids xs → Exact c (Block.urisAll xs) →
    Small (Block.mapsAll xs) → Formats c (c.blocks xs) (Block.textsAll xs) fun us ys =>
      Block.textsAll ys = us ∧ Block.blanks ys = Block.blanks (Block.levels xs)
  | [], _, _, _ => by
    simp only [blocks, Block.textsAll]
    exact Formats.ret ⟨by simp [Block.textsAll], by simp [Block.levels]⟩
  | ⟨x, r⟩ :: xs, h, hu, hm => by
    simp only [blocks, Block.textsAll]
    simp only [Block.urisAll] at hu
    simp only [Block.mapsAll] at hm
    simp only [Block.Valids] at h
    refine Formats.bind (R := fun us (y : Located Block) => y.inner.texts = us ∧ y.inner.blank = x.level.blank ∧ y.region = r.level)
      (Formats.map (block_formats x h.1 hu.left hm.left) fun us y h => ⟨h.1, h.2, rfl⟩) ?_
    rintro us ⟨y, r'⟩ ⟨h1, h2, h3⟩
    refine Formats.map (blocks_formats xs h.2 hu.right hm.right) fun us' ys h => ?_
    simp only at h1 h2 h3
    exact ⟨by simp [Block.textsAll, h1, h.1], by simp [Block.levels, Block.blanks, h2, h3, h.2]⟩
end

theorem parsed_formats (x : Parsed) (h : x.Valid) (hu : Exact c x.uris) (hm : Small x.maps) :
    Formats c (c.parsed x) x.texts fun us y => y.texts = us ∧ y.blank = x.level.blank := by
  cases x with
  | page p => exact Formats.map (blocks_formats p.elements h hu hm) fun us y h => ⟨h.1, by simp [Parsed.level, Parsed.blank, h.2]⟩
  | block b =>
    exact Formats.map (located_formats (block_formats b.inner h hu hm))
      fun us y h => ⟨h.1.1, by simp [Parsed.level, Parsed.blank, h.1.2, h.2]⟩
  | inlines b =>
    exact Formats.map (located_formats (inlines_formats b.inner hu hm))
      fun us y h => ⟨h.1.1, by simp [Parsed.level, Parsed.blank, h.1.2, h.2]⟩
  | inline b =>
    exact Formats.map (located_formats (inline_formats b.inner hu hm))
      fun us y h => ⟨h.1.1, by simp [Parsed.level, Parsed.blank, h.1.2, h.2]⟩
  | item i =>
    refine Formats.map (located_formats (Formats.bind (S := fun us (y : ItemF Block) =>
        y.ty.texts ++ Block.textsAll y.contents = us ∧
        y = ⟨y.ty, i.inner.suffix, i.inner.pos, y.contents, i.inner.todo⟩ ∧ y.ty.blank = i.inner.ty.blank ∧
          Block.blanks y.contents = Block.blanks (Block.levels i.inner.contents))
      (itemType_formats i.inner.ty) fun us t ht => Formats.map
        (blocks_formats i.inner.contents h hu hm) fun us' ys hy => ⟨by simp [ht.1, hy.1], rfl, ht.2, hy.2⟩)) ?_
    rintro us ⟨⟨ty', su', pos', cs', td'⟩, r'⟩ ⟨⟨h1, h2, h3, h4⟩, h5⟩
    simp only [ItemF.mk.injEq, true_and] at h2 h1 h3 h4 h5
    obtain ⟨rfl, rfl, rfl⟩ := h2
    refine ⟨h1, ?_⟩
    simp [Parsed.level, Parsed.blank, h3, h4, h5]

end QCtx

end Vw
