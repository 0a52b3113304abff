import Verif.Spec.Cli
import Verif.Lemmas.Uri

/-! # Lemmas about the command line tool -/

namespace Vw

/-! ### Association lists -/

namespace Cache

theorem get_nil (k : List Str) : Cache.get [] k = none := rfl

theorem get_cons (e : List Str × Str) (c : Cache) (k : List Str) :
    Cache.get (e :: c) k = if e.1 = k then some e.2 else Cache.get c k := by
  by_cases h : e.1 = k <;> simp [Cache.get, h]

theorem get_filter (q : List Str × Str → Bool) (g : List Str → Bool)
    (hq : ∀ e, q e = g e.1) (c : Cache) (k : List Str) :
    Cache.get (c.filter q) k = if g k then Cache.get c k else none := by
  induction c with
  | nil => simp [get_nil]
  | cons e c ih =>
    rw [List.filter_cons, hq e]
    by_cases hk : e.1 = k
    · subst hk
      by_cases hg : g e.1 <;> simp [hg, get_cons, ih]
    · by_cases hg : g e.1 <;> simp [hg, get_cons, hk, ih]

theorem get_del (c : Cache) (j k : List Str) :
    (c.del j).get k = if k = j then none else c.get k := by
  rw [Cache.del, get_filter _ (fun x => !(x == j)) (fun _ => rfl)]
  by_cases h : k = j <;> simp [h]

theorem get_set (c : Cache) (j : List Str) (v : Str) (k : List Str) :
    (c.set j v).get k = if k = j then some v else c.get k := by
  rw [Cache.set, get_cons, get_del]
  by_cases h : k = j
  · simp [h]
  · have : ¬ j = k := fun e => h e.symm
    simp [h, this]

theorem get_mem {c : Cache} {k : List Str} {v : Str} (h : c.get k = some v) : (k, v) ∈ c := by
  induction c with
  | nil => simp [get_nil] at h
  | cons e c ih =>
    rw [get_cons] at h
    split at h
    · rename_i he
      cases h
      subst he
      exact List.mem_cons_self
    · exact List.mem_cons_of_mem _ (ih h)

theorem get_ne_none {c : Cache} {e : List Str × Str} (h : e ∈ c) : c.get e.1 ≠ none := by
  induction c with
  | nil => cases h
  | cons x c ih =>
    rw [get_cons]
    split
    · simp
    · rcases List.mem_cons.mp h with rfl | h
      · rename_i hx
        exact absurd rfl hx
      · exact ih h

end Cache

namespace Files

theorem get_nil (p : Path) : Files.get [] p = none := rfl

theorem get_cons (e : Path × Option Str) (fs : Files) (p : Path) :
    Files.get (e :: fs) p = if e.1 = p then some e.2 else Files.get fs p := by
  by_cases h : e.1 = p <;> simp [Files.get, h]

theorem get_set (fs : Files) (p : Path) (t : Str) (q : Path) :
    (Files.set fs p t).get q = if q = p then some (some t) else fs.get q := by
  induction fs with
  | nil =>
    rw [Files.set, get_cons]
    by_cases h : p = q
    · simp [h]
    · have : ¬ q = p := fun e => h e.symm
      simp [h, this]
  | cons e fs ih =>
    rw [Files.set]
    by_cases he : e.1 = p
    · simp only [he, beq_self_eq_true, if_pos]
      rw [get_cons, get_cons]
      by_cases h : p = q
      · simp [h]
      · have : ¬ q = p := fun e => h e.symm
        simp [h, this, he]
    · have hb : (e.1 == p) = false := by simp [he]
      simp only [hb, Bool.false_eq_true, if_false]
      rw [get_cons, get_cons, ih]
      by_cases h : e.1 = q
      · have : ¬ q = p := fun e' => he (h.trans e')
        simp [h, this]
      · simp [h]

theorem mem_of_get {fs : Files} {p : Path} {t : Str} (h : fs.get p = some (some t)) :
    (p, some t) ∈ fs := by
  induction fs with
  | nil => simp [get_nil] at h
  | cons e fs ih =>
    rw [get_cons] at h
    split at h
    · rename_i he
      subst he
      have : e = (e.1, some t) := by
        cases h' : e with
        | mk a b => rw [h'] at h; simp at h; simp [h]
      rw [this]
      exact List.mem_cons_self
    · exact List.mem_cons_of_mem _ (ih h)

theorem mem_texts {fs : Files} {t : Str} : t ∈ fs.texts ↔ ∃ p, (p, some t) ∈ fs := by
  simp [Files.texts, List.mem_filterMap]

theorem set_texts {fs : Files} {p : Path} {t u : Str} (h : u ∈ (Files.set fs p t).texts) :
    u = t ∨ u ∈ fs.texts := by
  induction fs with
  | nil => simp [Files.set, Files.texts] at h; exact .inl h
  | cons e fs ih =>
    rw [Files.set] at h
    split at h
    · rw [mem_texts] at h
      obtain ⟨q, h⟩ := h
      rcases List.mem_cons.mp h with h | h
      · cases h; exact .inl rfl
      · exact .inr (mem_texts.mpr ⟨q, List.mem_cons_of_mem _ h⟩)
    · rw [mem_texts] at h
      obtain ⟨q, h⟩ := h
      rcases List.mem_cons.mp h with h | h
      · exact .inr (mem_texts.mpr ⟨q, by rw [h]; exact List.mem_cons_self⟩)
      · rcases ih (mem_texts.mpr ⟨q, h⟩) with h | h
        · exact .inl h
        · obtain ⟨q, h⟩ := mem_texts.mp h
          exact .inr (mem_texts.mpr ⟨q, List.mem_cons_of_mem _ h⟩)

end Files

/-! ### The cache -/

/-- Entries under the checksum of a known text hold the parse of that text, if they can be
read at all. -/
def CliLib.Inv (L : CliLib) (ts : List Str) (c : Cache) : Prop :=
  ∀ t ∈ ts, ∀ b p, c.get [L.sha t] = some b → L.deser b = some p → L.parse t = .ok p

variable {L : CliLib} {ts : List Str} {c : Cache} {fs : Files}

theorem CliLib.Inv.del (h : L.Inv ts c) (k : List Str) : L.Inv ts (c.del k) := by
  intro t ht b p hb hp
  rw [Cache.get_del] at hb
  split at hb
  · cases hb
  · exact h t ht b p hb hp

theorem CliLib.Inv.set (h : L.Inv ts c) {t : Str} {v : Str} (hcol : L.NoCollision ts)
    (ht : t ∈ ts) (hv : ∀ p, L.deser v = some p → L.parse t = .ok p) :
    L.Inv ts (c.set [L.sha t] v) := by
  intro u hu b p hb hp
  rw [Cache.get_set] at hb
  split at hb
  · rename_i he
    cases hb
    have : u = t := hcol u hu t ht (by simpa using he)
    subst this
    exact hv p hp
  · exact h u hu b p hb hp

theorem cached_inv (h : L.Inv ts c) (sum : Str) (nc : Bool) (f : Fault) :
    L.Inv ts (L.cached c sum nc f).2 := by
  simp only [CliLib.cached]
  cases nc with
  | true => exact h
  | false =>
    cases hg : c.get [sum] with
    | none => exact h
    | some b =>
      dsimp only
      cases hd : (if f.readFails then none else L.deser b) with
      | some p => exact h
      | none =>
        simp only [Bool.false_eq_true, if_false]
        split
        · exact h
        · exact h.del _

theorem cached_page {sum : Str} {nc : Bool} {f : Fault} {p : Page}
    (h : (L.cached c sum nc f).1 = some p) :
    ∃ b, c.get [sum] = some b ∧ L.deser b = some p ∧ (L.cached c sum nc f).2 = c := by
  simp only [CliLib.cached] at h ⊢
  cases nc with
  | true => simp at h
  | false =>
    cases hg : c.get [sum] with
    | none => simp [hg] at h
    | some b =>
      simp only [hg, Bool.false_eq_true, if_false] at h ⊢
      cases hr : f.readFails with
      | true => simp [hr] at h
      | false =>
        cases hd : L.deser b with
        | none => simp [hr, hd] at h
        | some q =>
          simp [hr, hd] at h
          exact ⟨b, rfl, by rw [hd, h], by simp⟩

theorem store_inv (hL : L.Sound) (h : L.Inv ts c) (hcol : L.NoCollision ts) {t : Str}
    (ht : t ∈ ts) {p : Page} (hp : L.parse t = .ok p) (f : Fault) :
    L.Inv ts (L.store c (L.sha t) p f) := by
  simp only [CliLib.store]
  cases f.written with
  | all =>
    refine h.set hcol ht ?_
    intro q hq
    rw [← List.take_length (l := L.ser p)] at hq
    rw [hL.back t p _ q hp hq]
    exact hp
  | first n =>
    refine h.set hcol ht ?_
    intro q hq
    rw [hL.back t p _ q hp hq]
    exact hp
  | nothing => exact h

theorem read_ok {p : Path} {t : Str} (h : fs.read p = .ok t) : fs.get p = some (some t) := by
  simp only [Files.read] at h
  cases hg : fs.get p with
  | none => simp [hg] at h
  | some o =>
    cases o with
    | none => simp [hg] at h
    | some u => simp [hg] at h; rw [h]

theorem fresh_of_read_error {p : Path} {e : IoErr} (h : fs.read p = .error e) :
    L.fresh fs p = .error e := by
  simp only [Files.read] at h
  simp only [CliLib.fresh]
  cases hg : fs.get p with
  | none => simp [hg] at h; simp [h]
  | some o =>
    cases o with
    | none => simp [hg] at h; simp [h]
    | some u => simp [hg] at h

/-- A load keeps the invariant and gives what a load without cache gives. -/
theorem loadWikiFile_spec (hL : L.Sound) (h : L.Inv ts c) (hcol : L.NoCollision ts)
    (hts : ∀ t ∈ fs.texts, t ∈ ts) (p : Path) (nc : Bool) (f : Fault) :
    (L.loadWikiFile fs c p nc f).1 = L.fresh fs p ∧
    L.Inv ts (L.loadWikiFile fs c p nc f).2 := by
  simp only [CliLib.loadWikiFile]
  cases hr : fs.read p with
  | error e => exact ⟨(fresh_of_read_error hr).symm, h⟩
  | ok t =>
    have hg := read_ok hr
    have ht : t ∈ ts := hts t (Files.mem_texts.mpr ⟨p, Files.mem_of_get hg⟩)
    have hi := cached_inv h (L.sha t) nc f
    have hfresh : L.fresh fs p = (match L.parse t with
        | .ok pg => .ok ⟨p, L.sha t, pg⟩
        | .error e => .error e) := by
      simp only [CliLib.fresh, hg]
      cases L.parse t <;> rfl
    dsimp only
    cases hc : L.cached c (L.sha t) nc f with
    | mk o c' =>
      cases o with
      | some pg =>
        obtain ⟨b, hb, hd, -⟩ := cached_page (L := L) (c := c) (sum := L.sha t) (nc := nc)
          (f := f) (p := pg) (by rw [hc])
        have hp := h t ht b pg hb hd
        rw [hc] at hi
        refine ⟨?_, hi⟩
        rw [hfresh, hp]
      | none =>
        dsimp only
        rw [hc] at hi
        cases hp : L.parse t with
        | error e => exact ⟨by rw [hfresh, hp], hi⟩
        | ok pg => exact ⟨by rw [hfresh, hp], store_inv hL hi hcol ht hp f⟩

/-! ### Loading all wikis -/

theorem loadFiles_spec (hL : L.Sound) (hcol : L.NoCollision ts)
    (hts : ∀ t ∈ fs.texts, t ∈ ts) (nc : Bool) (faults : Path → Fault) (i : Nat)
    (ps : List Path) : ∀ (a : Ast) (c : Cache), L.Inv ts c →
    L.Inv ts (loadFiles L fs nc faults i ps a c).2 ∧
    (∀ a', (loadFiles L fs nc faults i ps a c).1 = .ok a' →
      ∃ files : List WikiFile, a' = files.foldl (fun a f => Ast.pushFile a i f) a ∧
        files.map Except.ok = ps.map (L.fresh fs)) ∧
    (∀ e, (loadFiles L fs nc faults i ps a c).1 = .error e →
      ∃ p ∈ ps, L.fresh fs p = .error e) := by
  induction ps with
  | nil =>
    intro a c h
    refine ⟨h, ?_, ?_⟩
    · intro a' ha
      simp only [loadFiles, Except.ok.injEq] at ha
      exact ⟨[], ha.symm, rfl⟩
    · intro e he
      simp [loadFiles] at he
  | cons p ps ih =>
    intro a c h
    obtain ⟨h1, h2⟩ := loadWikiFile_spec (fs := fs) hL h hcol hts p nc (faults p)
    simp only [loadFiles]
    cases hl : L.loadWikiFile fs c p nc (faults p) with
    | mk r c' =>
      rw [hl] at h1 h2
      dsimp only at h1 h2
      cases r with
      | error e =>
        refine ⟨h2, ?_, ?_⟩
        · intro a' ha; simp at ha
        · intro e' he
          simp only [Except.error.injEq] at he
          subst he
          exact ⟨p, List.mem_cons_self, h1.symm⟩
      | ok f =>
        dsimp only
        obtain ⟨i1, i2, i3⟩ := ih (a.pushFile i f) c' h2
        refine ⟨i1, ?_, ?_⟩
        · intro a' ha
          obtain ⟨files, rfl, hm⟩ := i2 a' ha
          exact ⟨f :: files, rfl, by rw [List.map_cons, List.map_cons, hm, h1]⟩
        · intro e he
          obtain ⟨q, hq, hf⟩ := i3 e he
          exact ⟨q, List.mem_cons_of_mem _ hq, hf⟩

theorem pushFiles_last (a : Ast) (files : List WikiFile) : ∀ x : WikiAst,
    files.foldl (fun b f => Ast.pushFile b a.length f) (a ++ [x]) =
      a ++ [{ x with files := x.files ++ files }] := by
  induction files with
  | nil => intro x; simp
  | cons f files ih =>
    intro x
    rw [List.foldl_cons]
    have : Ast.pushFile (a ++ [x]) a.length f = a ++ [{ x with files := x.files ++ [f] }] := by
      simp only [Ast.pushFile]
      apply List.ext_getElem?
      intro n
      rw [List.getElem?_modify]
      by_cases h : n < a.length
      · rw [List.getElem?_append_left h, List.getElem?_append_left h]
        have : ¬ a.length = n := by omega
        simp [this]
      · rw [List.getElem?_append_right (by omega), List.getElem?_append_right (by omega)]
        by_cases h' : a.length = n
        · subst h'; simp
        · have : n - a.length ≠ 0 := by omega
          cases hn : n - a.length with
          | zero => omega
          | succ m => simp
    rw [this, ih]
    simp

theorem pushFiles_beyond (i : Nat) (files : List WikiFile) : ∀ a : Ast, a.length ≤ i →
    files.foldl (fun b f => Ast.pushFile b i f) a = a := by
  induction files with
  | nil => intro a _; rfl
  | cons f files ih =>
    intro a h
    rw [List.foldl_cons]
    have : Ast.pushFile a i f = a := by
      simp only [Ast.pushFile]
      apply List.ext_getElem?
      intro n
      rw [List.getElem?_modify]
      by_cases hn : i = n
      · subst hn
        rw [List.getElem?_eq_none h]
        simp
      · simp [hn]
    rw [this]
    exact ih a h

/-- The entry a wiki gets at position `k`: its files if that is also its index. -/
def Entry (L : CliLib) (fs : Files) (k : Nat) (iw : Nat × Wiki) (x : WikiAst) : Prop :=
  x.index = iw.1 ∧ x.name = iw.2.name ∧ x.path = iw.2.path ∧
  ∃ files : List WikiFile, files.map Except.ok = (fs.walk iw.2.path iw.2.ext).map (L.fresh fs) ∧
    x.files = if iw.1 = k then files else []

theorem loadWikis_spec (hL : L.Sound) (hcol : L.NoCollision ts)
    (hts : ∀ t ∈ fs.texts, t ∈ ts) (nc : Bool) (faults : Path → Fault)
    (ws : List (Nat × Wiki)) : ∀ (a : Ast) (c : Cache), L.Inv ts c →
    (∀ k iw, ws[k]? = some iw → a.length + k ≤ iw.1) →
    L.Inv ts (loadWikis L fs nc faults ws a c).2 ∧
    (∀ a', (loadWikis L fs nc faults ws a c).1 = .ok a' →
      ∃ out, a' = a ++ out ∧ out.length = ws.length ∧
        ∀ k iw x, ws[k]? = some iw → out[k]? = some x → Entry L fs (a.length + k) iw x) ∧
    (∀ e, (loadWikis L fs nc faults ws a c).1 = .error e →
      ∃ iw ∈ ws, ∃ p ∈ fs.walk iw.2.path iw.2.ext, L.fresh fs p = .error e) := by
  induction ws with
  | nil =>
    intro a c h _
    refine ⟨h, ?_, ?_⟩
    · intro a' ha
      simp only [loadWikis, Except.ok.injEq] at ha
      exact ⟨[], by simp [ha], rfl, by intro k iw x hk; simp at hk⟩
    · intro e he
      simp [loadWikis] at he
  | cons iw ws ih =>
    obtain ⟨i, w⟩ := iw
    intro a c h hk
    obtain ⟨h1, h2, h3⟩ := loadFiles_spec (fs := fs) hL hcol hts nc faults i
      (fs.walk w.path w.ext) (a ++ [⟨i, w.name, w.path, []⟩]) c h
    simp only [loadWikis]
    cases hl : loadFiles L fs nc faults i (fs.walk w.path w.ext)
        (a ++ [⟨i, w.name, w.path, []⟩]) c with
    | mk r c' =>
      rw [hl] at h1 h2 h3
      dsimp only at h1 h2 h3
      cases r with
      | error e =>
        refine ⟨h1, ?_, ?_⟩
        · intro a' ha; simp at ha
        · intro e' he
          simp only [Except.error.injEq] at he
          subst he
          obtain ⟨p, hp, hf⟩ := h3 _ rfl
          exact ⟨(i, w), List.mem_cons_self, p, hp, hf⟩
      | ok b =>
        obtain ⟨files, hb, hm⟩ := h2 b rfl
        have hi : a.length ≤ i := by simpa using hk 0 (i, w) (by simp)
        have hb' : b = a ++ [⟨i, w.name, w.path, if i = a.length then files else []⟩] := by
          by_cases hia : i = a.length
          · subst hia
            rw [hb, pushFiles_last]
            simp
          · rw [hb, pushFiles_beyond i files _ (by simp; omega)]
            simp [hia]
        have hlen : b.length = a.length + 1 := by rw [hb']; simp
        obtain ⟨i1, i2, i3⟩ := ih b c' h1 (by
          intro k iw hw
          have := hk (k + 1) iw (by simpa using hw)
          rw [hlen]; omega)
        dsimp only
        refine ⟨i1, ?_, ?_⟩
        · intro a' ha
          obtain ⟨out, rfl, ho, hx⟩ := i2 a' ha
          refine ⟨⟨i, w.name, w.path, if i = a.length then files else []⟩ :: out, ?_, ?_, ?_⟩
          · rw [hb']; simp
          · simp [ho]
          · intro k iw x hkw hkx
            cases k with
            | zero =>
              simp only [List.getElem?_cons_zero, Option.some.injEq] at hkw hkx
              subst hkw hkx
              exact ⟨rfl, rfl, rfl, files, hm, by simp⟩
            | succ k =>
              have := hx k iw x (by simpa using hkw) (by simpa using hkx)
              rw [hlen] at this
              rw [show a.length + (k + 1) = a.length + 1 + k by omega]
              exact this
        · intro e he
          obtain ⟨iw, hiw, p, hp, hf⟩ := i3 e he
          exact ⟨iw, List.mem_cons_of_mem _ hiw, p, hp, hf⟩

/-! ### Selection -/

theorem selectFrom_mem (incl : List IndexOrName) (ws : List Wiki) : ∀ (i j : Nat) (w : Wiki),
    (j, w) ∈ selectFrom incl i ws ↔ i ≤ j ∧ ws[j - i]? = some w ∧ selects incl j w.name = true := by
  induction ws with
  | nil => intro i j w; simp [selectFrom]
  | cons v ws ih =>
    intro i j w
    have hrest : (j, w) ∈ selectFrom incl (i + 1) ws ↔
        i + 1 ≤ j ∧ ws[j - (i + 1)]? = some w ∧ selects incl j w.name = true := ih (i + 1) j w
    have hshift : i + 1 ≤ j → (v :: ws)[j - i]? = ws[j - (i + 1)]? := by
      intro h
      rw [show j - i = (j - (i + 1)) + 1 by omega, List.getElem?_cons_succ]
    simp only [selectFrom]
    split
    · rename_i hs
      rw [List.mem_cons, hrest]
      constructor
      · rintro (h | ⟨h1, h2, h3⟩)
        · cases h
          exact ⟨Nat.le_refl _, by simp, hs⟩
        · exact ⟨by omega, by rw [hshift h1]; exact h2, h3⟩
      · rintro ⟨h1, h2, h3⟩
        by_cases hj : j = i
        · subst hj
          simp at h2
          exact .inl (by rw [h2])
        · exact .inr ⟨by omega, by rw [← hshift (by omega)]; exact h2, h3⟩
    · rename_i hs
      rw [hrest]
      constructor
      · rintro ⟨h1, h2, h3⟩
        exact ⟨by omega, by rw [hshift h1]; exact h2, h3⟩
      · rintro ⟨h1, h2, h3⟩
        by_cases hj : j = i
        · subst hj
          simp at h2
          subst h2
          exact absurd h3 hs
        · exact ⟨by omega, by rw [← hshift (by omega)]; exact h2, h3⟩

theorem selectFrom_sorted (incl : List IndexOrName) (ws : List Wiki) : ∀ i : Nat,
    (selectFrom incl i ws).Pairwise (fun a b => a.1 < b.1) := by
  induction ws with
  | nil => intro i; simp [selectFrom]
  | cons v ws ih =>
    intro i
    simp only [selectFrom]
    split
    · refine List.pairwise_cons.mpr ⟨?_, ih (i + 1)⟩
      rintro ⟨j, w⟩ hb
      have := ((selectFrom_mem incl ws (i + 1) j w).mp hb).1
      dsimp only
      omega
    · exact ih (i + 1)

theorem selectFrom_index (incl : List IndexOrName) (ws : List Wiki) : ∀ (i k : Nat) iw,
    (selectFrom incl i ws)[k]? = some iw → i + k ≤ iw.1 := by
  induction ws with
  | nil => intro i k iw h; simp [selectFrom] at h
  | cons v ws ih =>
    intro i k iw h
    simp only [selectFrom] at h
    split at h
    · cases k with
      | zero => simp at h; rw [← h]; simp
      | succ k =>
        have := ih (i + 1) k iw (by simpa using h)
        omega
    · have := ih (i + 1) k iw h
      omega

theorem selects_ofStr (args : List Str) (idx : Nat) (name : Option Str) :
    selects (args.map IndexOrName.ofStr) idx name = true ↔ Named args idx name := by
  have hone : ∀ a, (IndexOrName.ofStr a).matchesEither idx name = true ↔
      (Numeral a idx ∨ (name = some a ∧ ∀ n, ¬ Numeral a n)) := by
    intro a
    have hnum : ∀ n, Numeral a n ↔ parseUsize a = some n := fun n => (parseUsize_iff a n).symm
    simp only [IndexOrName.ofStr, hnum]
    cases hp : parseUsize a with
    | some n =>
      cases name <;> simp [IndexOrName.matchesEither, IndexOrName.eqIndex, IndexOrName.eqName]
    | none =>
      cases name with
      | none => simp [IndexOrName.matchesEither, IndexOrName.eqIndex]
      | some m =>
        simp [IndexOrName.matchesEither, IndexOrName.eqIndex, IndexOrName.eqName]
        exact eq_comm
  simp only [selects, Named, Bool.or_eq_true, List.isEmpty_iff, List.map_eq_nil_iff,
    List.any_eq_true, List.mem_map]
  constructor
  · rintro (h | ⟨x, ⟨a, ha, rfl⟩, hx⟩)
    · exact .inl h
    · exact .inr ⟨a, ha, (hone a).mp hx⟩
  · rintro (h | ⟨a, ha, hx⟩)
    · exact .inl h
    · exact .inr ⟨_, ⟨a, ha, rfl⟩, (hone a).mpr hx⟩

/-! ### Histories -/

theorem prune_get (c : Cache) (sums : List Str) (stuck : List Str → Bool) (k : List Str) :
    (prune c sums stuck).get k = if stuck k || inUse sums k then c.get k else none := by
  rw [prune, Cache.get_filter _ (fun k => stuck k || inUse sums k) (fun _ => rfl)]

theorem loadAst_cache_inv (hL : L.Sound) (hcol : L.NoCollision ts)
    (hts : ∀ t ∈ fs.texts, t ∈ ts) (h : L.Inv ts c) (ws : List Wiki) (incl : List IndexOrName)
    (nc np : Bool) (faults : Path → Fault) (stuck : List Str → Bool) :
    L.Inv ts (loadAst L fs c ws incl nc np faults stuck).2 := by
  obtain ⟨h1, -, -⟩ := loadWikis_spec (fs := fs) hL hcol hts nc faults (selectFrom incl 0 ws) [] c h
    (by intro k iw hk; simpa using selectFrom_index incl ws 0 k iw hk)
  simp only [loadAst]
  cases hl : loadWikis L fs nc faults (selectFrom incl 0 ws) [] c with
  | mk r c' =>
    rw [hl] at h1
    cases r with
    | error e => exact h1
    | ok a =>
      dsimp only
      split
      · intro t ht b p hb hp
        rw [prune_get] at hb
        split at hb
        · exact h1 t ht b p hb hp
        · cases hb
      · exact h1

/-- The invariant of a disk over a history whose texts are among `ts`. -/
def Disk.Inv (L : CliLib) (ts : List Str) (d : Disk) : Prop :=
  (∀ t ∈ d.files.texts, t ∈ ts) ∧ L.Inv ts d.cache

theorem Disk.Inv.after (hL : L.Sound) (hcol : L.NoCollision ts) {d : Disk} (h : d.Inv L ts)
    (e : Event) (he : ∀ t ∈ e.texts, t ∈ ts) : (d.after L e).Inv L ts := by
  obtain ⟨hf, hc⟩ := h
  cases e with
  | edit p t =>
    refine ⟨?_, hc⟩
    intro u hu
    rcases Files.set_texts hu with rfl | hu
    · exact he _ (by simp [Event.texts])
    · exact hf u hu
  | remove p =>
    refine ⟨?_, hc⟩
    intro u hu
    obtain ⟨q, hq⟩ := Files.mem_texts.mp hu
    exact hf u (Files.mem_texts.mpr ⟨q, (List.mem_filter.mp hq).1⟩)
  | drop k => exact ⟨hf, hc.del k⟩
  | load p nc f => exact ⟨hf, (loadWikiFile_spec hL hc hcol hf p nc f).2⟩
  | loadAst ws incl nc np faults stuck =>
    exact ⟨hf, loadAst_cache_inv hL hcol hf hc ws incl nc np faults stuck⟩

theorem Disk.Inv.run (hL : L.Sound) (hcol : L.NoCollision ts) (evs : List Event) :
    ∀ {d : Disk}, d.Inv L ts → (∀ e ∈ evs, ∀ t ∈ e.texts, t ∈ ts) → (d.run L evs).Inv L ts := by
  induction evs with
  | nil => intro d h _; exact h
  | cons e evs ih =>
    intro d h he
    exact ih (h.after hL hcol e (he e List.mem_cons_self))
      (fun e' h' => he e' (List.mem_cons_of_mem _ h'))

/-! ### Files loaded on demand -/

theorem Ast.find_append (a b : Ast) (p : Path) : Ast.find (a ++ b) p = (Ast.find a p).or (Ast.find b p) := by
  simp only [Ast.find, List.findSome?_append]

theorem Ast.find_cons (w : WikiAst) (a : Ast) (p : Path) :
    Ast.find (w :: a) p = (w.files.find? (fun f => f.path == p)).or (Ast.find a p) := by
  simp only [Ast.find, List.findSome?_cons]
  cases h : w.files.find? (fun f => f.path == p) <;> simp

theorem Ast.find_pushFile (a : Ast) : ∀ (i : Nat) (f : WikiFile) (q : Path),
    (q ≠ f.path → Ast.find (a.pushFile i f) q = Ast.find a q) ∧
    (i < a.length → q = f.path → Ast.find a q = none → Ast.find (a.pushFile i f) q = some f) ∧
    (i < a.length → q = f.path → ∃ g, Ast.find (a.pushFile i f) q = some g ∧ g.path = q) := by
  induction a with
  | nil => intro i f q; simp [Ast.pushFile, Ast.find]
  | cons w a ih =>
    intro i f q
    cases i with
    | zero =>
      have e : Ast.pushFile (w :: a) 0 f = { w with files := w.files ++ [f] } :: a := by
        simp [Ast.pushFile]
      rw [e, Ast.find_cons, Ast.find_cons]
      dsimp only
      rw [List.find?_append]
      refine ⟨?_, ?_, ?_⟩
      · intro hq
        have : ([f].find? fun f => f.path == q) = none := by
          have : ¬ f.path = q := fun h => hq h.symm
          simp [this]
        rw [this]; simp
      · intro _ hq hn
        have h1 : (w.files.find? fun f => f.path == q) = none := by
          cases h : (w.files.find? fun f => f.path == q) with
          | none => rfl
          | some g => rw [h] at hn; simp at hn
        rw [h1]
        have : ([f].find? fun f => f.path == q) = some f := by simp [hq]
        rw [this]; simp
      · intro _ hq
        have : ([f].find? fun f => f.path == q) = some f := by simp [hq]
        rw [this]
        cases h : (w.files.find? fun f => f.path == q) with
        | none => exact ⟨f, by simp, hq.symm⟩
        | some g => exact ⟨g, by simp, by simpa using List.find?_some h⟩
    | succ i =>
      have e : Ast.pushFile (w :: a) (i + 1) f = w :: Ast.pushFile a i f := by
        simp [Ast.pushFile]
      rw [e, Ast.find_cons, Ast.find_cons]
      obtain ⟨h1, h2, h3⟩ := ih i f q
      refine ⟨fun hq => by rw [h1 hq], ?_, ?_⟩
      · intro hi hq hn
        have hw : (w.files.find? fun f => f.path == q) = none := by
          cases h : (w.files.find? fun f => f.path == q) with
          | none => rfl
          | some g => rw [h] at hn; simp at hn
        rw [hw] at hn ⊢
        simp only [Option.none_or] at hn ⊢
        exact h2 (by simpa using hi) hq hn
      · intro hi hq
        obtain ⟨g, hg, hgq⟩ := h3 (by simpa using hi) hq
        rw [hg]
        cases h : (w.files.find? fun f => f.path == q) with
        | none => exact ⟨g, by simp, hgq⟩
        | some g' => exact ⟨g', by simp, by simpa using List.find?_some h⟩

theorem Ast.find_place (a : Ast) (p : Path) (f : WikiFile) (hp : f.path = p) :
    (∀ q, q ≠ p → Ast.find (a.place p f) q = Ast.find a q) ∧
    (Ast.find a p = none → Ast.find (a.place p f) p = some f) ∧
    ∃ g, Ast.find (a.place p f) p = some g ∧ g.path = p := by
  simp only [Ast.place]
  cases hi : a.findIdx? (fun w => p.startsWith w.path) with
  | some i =>
    have hlt : i < a.length := (List.findIdx?_eq_some_iff_getElem.mp hi).1
    dsimp only
    refine ⟨?_, ?_, ?_⟩
    · intro q hq
      exact (Ast.find_pushFile a i f q).1 (by rw [hp]; exact hq)
    · exact (Ast.find_pushFile a i f p).2.1 hlt hp.symm
    · exact (Ast.find_pushFile a i f p).2.2 hlt hp.symm
  | none =>
    dsimp only
    have hone : ∀ q, Ast.find [⟨a.length, none, (f.path.parent).getD [], [f]⟩] q =
        if p = q then some f else none := by
      intro q
      by_cases h : p = q <;> simp [Ast.find, hp, h]
    refine ⟨?_, ?_, ?_⟩
    · intro q hq
      rw [Ast.find_append, hone]
      have : ¬ p = q := fun e => hq e.symm
      simp [this]
    · intro hn
      rw [Ast.find_append, hone, hn]
      simp
    · rw [Ast.find_append, hone]
      cases h : Ast.find a p with
      | none => exact ⟨f, by simp, hp⟩
      | some g =>
        refine ⟨g, by simp, ?_⟩
        simp only [Ast.find] at h
        obtain ⟨w, _, hw⟩ := List.exists_of_findSome?_eq_some h
        simpa using List.find?_some hw

theorem loadWikiFile_path {p : Path} {nc : Bool} {f : Fault} {file : WikiFile}
    (h : (L.loadWikiFile fs c p nc f).1 = .ok file) : file.path = p := by
  simp only [CliLib.loadWikiFile] at h
  cases hr : fs.read p with
  | error e => simp [hr] at h
  | ok t =>
    simp only [hr] at h
    cases hc : L.cached c (L.sha t) nc f with
    | mk o c' =>
      rw [hc] at h
      cases o with
      | some pg => simp at h; rw [← h]
      | none =>
        simp only at h
        cases hp : L.parse t with
        | error e => simp [hp] at h
        | ok pg => simp [hp] at h; rw [← h]

end Vw

namespace Vw

variable {L : CliLib} {ts : List Str} {c : Cache} {fs : Files}

/-! ### Entries that stay -/

/-- The cache has a readable entry for a loaded file, if there can be one. -/
def Stored (L : CliLib) (c : Cache) (f : WikiFile) : Prop :=
  L.Keeps f.data → ∃ b, c.get [f.checksum] = some b ∧ L.deser b = some f.data

theorem loadWikiFile_stored (p : Path) :
    (∀ g, Stored L c g → Stored L (L.loadWikiFile fs c p false noFault).2 g) ∧
    (∀ g, (L.loadWikiFile fs c p false noFault).1 = .ok g →
      Stored L (L.loadWikiFile fs c p false noFault).2 g) := by
  simp only [CliLib.loadWikiFile]
  cases hr : fs.read p with
  | error e => exact ⟨fun g h => h, fun g h => by simp at h⟩
  | ok t =>
    dsimp only
    cases hg : c.get [L.sha t] with
    | none =>
      have hc : L.cached c (L.sha t) false noFault = (none, c) := by
        simp [CliLib.cached, hg]
      rw [hc]
      dsimp only
      cases hp : L.parse t with
      | error e => exact ⟨fun g h => h, fun g h => by simp at h⟩
      | ok pg =>
        constructor
        · intro g h hk
          obtain ⟨b, hb, hd⟩ := h hk
          refine ⟨b, ?_, hd⟩
          simp only [CliLib.store, noFault]
          rw [Cache.get_set, if_neg]
          · exact hb
          · intro e
            rw [e, hg] at hb; cases hb
        · intro g h
          simp only [Except.ok.injEq] at h
          subst h
          intro hk
          refine ⟨L.ser pg, ?_, hk⟩
          simp only [CliLib.store, noFault]
          rw [Cache.get_set, if_pos rfl]
    | some b =>
      cases hd : L.deser b with
      | some q =>
        have hc : L.cached c (L.sha t) false noFault = (some q, c) := by
          simp [CliLib.cached, hg, noFault, hd]
        rw [hc]
        dsimp only
        refine ⟨fun g h => h, ?_⟩
        intro g h
        simp only [Except.ok.injEq] at h
        subst h
        exact fun _ => ⟨b, hg, hd⟩
      | none =>
        have hc : L.cached c (L.sha t) false noFault = (none, c.del [L.sha t]) := by
          simp [CliLib.cached, hg, noFault, hd]
        rw [hc]
        dsimp only
        have hkeep : ∀ g, Stored L c g → Stored L (c.del [L.sha t]) g := by
          intro g h hk
          obtain ⟨b', hb', hd'⟩ := h hk
          refine ⟨b', ?_, hd'⟩
          rw [Cache.get_del, if_neg]
          · exact hb'
          · intro e
            rw [e, hg] at hb'
            cases hb'
            rw [hd] at hd'
            cases hd'
        cases hp : L.parse t with
        | error e => exact ⟨hkeep, fun g h => by simp at h⟩
        | ok pg =>
          constructor
          · intro g h hk
            obtain ⟨b', hb', hd'⟩ := h hk
            refine ⟨b', ?_, hd'⟩
            have hne : ¬ [g.checksum] = [L.sha t] := by
              intro e
              rw [e, hg] at hb'
              cases hb'
              rw [hd] at hd'
              cases hd'
            simp only [CliLib.store, noFault]
            rw [Cache.get_set, if_neg hne, Cache.get_del, if_neg hne]
            exact hb'
          · intro g h
            simp only [Except.ok.injEq] at h
            subst h
            intro hk
            refine ⟨L.ser pg, ?_, hk⟩
            simp only [CliLib.store, noFault]
            rw [Cache.get_set, if_pos rfl]

theorem Ast.mem_pushFile {a : Ast} {i : Nat} {f g : WikiFile}
    (h : g ∈ (a.pushFile i f).files) : g = f ∨ g ∈ a.files := by
  induction a generalizing i with
  | nil => simp [Ast.pushFile, Ast.files] at h
  | cons w a ih =>
    cases i with
    | zero =>
      have e : Ast.pushFile (w :: a) 0 f = { w with files := w.files ++ [f] } :: a := by
        simp [Ast.pushFile]
      rw [e] at h
      simp only [Ast.files, List.flatMap_cons, List.mem_append, List.mem_singleton] at h ⊢
      rcases h with (h | h) | h
      · exact .inr (.inl h)
      · exact .inl h
      · exact .inr (.inr h)
    | succ i =>
      have e : Ast.pushFile (w :: a) (i + 1) f = w :: Ast.pushFile a i f := by
        simp [Ast.pushFile]
      rw [e] at h
      simp only [Ast.files, List.flatMap_cons, List.mem_append] at h ⊢
      rcases h with h | h
      · exact .inr (.inl h)
      · rcases ih h with h | h
        · exact .inl h
        · exact .inr (.inr h)

theorem loadFiles_stored (i : Nat) (ps : List Path) : ∀ (a : Ast) (c : Cache),
    (∀ g ∈ a.files, Stored L c g) → ∀ a' c',
    loadFiles L fs false (fun _ => noFault) i ps a c = (.ok a', c') →
    ∀ g ∈ a'.files, Stored L c' g := by
  induction ps with
  | nil =>
    intro a c h a' c' hl
    simp only [loadFiles, Prod.mk.injEq, Except.ok.injEq] at hl
    obtain ⟨rfl, rfl⟩ := hl
    exact h
  | cons p ps ih =>
    intro a c h a' c' hl
    have hs := loadWikiFile_stored (L := L) (fs := fs) (c := c) p
    simp only [loadFiles] at hl
    cases hw : L.loadWikiFile fs c p false noFault with
    | mk r c1 =>
      rw [hw] at hl hs
      cases r with
      | error e => simp at hl
      | ok f =>
        refine ih _ _ ?_ a' c' hl
        intro g hg
        rcases Ast.mem_pushFile hg with rfl | hg
        · exact hs.2 _ rfl
        · exact hs.1 g (h g hg)

theorem loadWikis_stored (ws : List (Nat × Wiki)) : ∀ (a : Ast) (c : Cache),
    (∀ g ∈ a.files, Stored L c g) → ∀ a' c',
    loadWikis L fs false (fun _ => noFault) ws a c = (.ok a', c') →
    ∀ g ∈ a'.files, Stored L c' g := by
  induction ws with
  | nil =>
    intro a c h a' c' hl
    simp only [loadWikis, Prod.mk.injEq, Except.ok.injEq] at hl
    obtain ⟨rfl, rfl⟩ := hl
    exact h
  | cons iw ws ih =>
    obtain ⟨i, w⟩ := iw
    intro a c h a' c' hl
    simp only [loadWikis] at hl
    cases hw : loadFiles L fs false (fun _ => noFault) i (fs.walk w.path w.ext)
        (a ++ [⟨i, w.name, w.path, []⟩]) c with
    | mk r c1 =>
      rw [hw] at hl
      cases r with
      | error e => simp at hl
      | ok b =>
        refine ih b c1 ?_ a' c' hl
        refine loadFiles_stored i _ _ c ?_ b c1 hw
        intro g hg
        refine h g ?_
        simpa [Ast.files] using hg

/-- Selecting again by the same names changes nothing. -/
theorem selectFrom_all (incl : List IndexOrName) (ws : List Wiki) : ∀ i : Nat,
    (∀ j w, w ∈ ws → selects incl j w.name = true) →
    selectFrom incl i ws = (ws.zipIdx i).map (fun x => (x.2, x.1)) := by
  induction ws with
  | nil => intro i _; simp [selectFrom]
  | cons w ws ih =>
    intro i h
    simp only [selectFrom]
    rw [if_pos (h i w List.mem_cons_self), ih (i + 1) (fun j v hv => h j v (List.mem_cons_of_mem _ hv))]
    simp [List.zipIdx_cons]

/-- A selection by names does not look at the index. -/
theorem selects_names {incl : List IndexOrName} (h : ∀ x ∈ incl, ∃ s, x = .name s) (i j : Nat)
    (name : Option Str) : selects incl i name = selects incl j name := by
  have : ∀ x ∈ incl, x.matchesEither i name = x.matchesEither j name := by
    intro x hx
    obtain ⟨s, rfl⟩ := h x hx
    simp [IndexOrName.matchesEither, IndexOrName.eqIndex]
  simp only [selects]
  congr 1
  induction incl with
  | nil => rfl
  | cons x xs ih =>
    rw [List.any_cons, List.any_cons, this x List.mem_cons_self,
      ih (fun y hy => h y (List.mem_cons_of_mem _ hy)) (fun y hy => this y (List.mem_cons_of_mem _ hy))]

theorem loadAst_ok {ws : List Wiki} {incl : List IndexOrName} {nc np : Bool}
    {faults : Path → Fault} {stuck : List Str → Bool} {a : Ast}
    (h : (loadAst L fs c ws incl nc np faults stuck).1 = .ok a) :
    (loadWikis L fs nc faults (selectFrom incl 0 ws) [] c).1 = .ok a := by
  simp only [loadAst] at h
  cases hl : loadWikis L fs nc faults (selectFrom incl 0 ws) [] c with
  | mk r c' =>
    rw [hl] at h
    cases r with
    | error e => simp at h
    | ok b => simpa using h

theorem loadAst_error {ws : List Wiki} {incl : List IndexOrName} {nc np : Bool}
    {faults : Path → Fault} {stuck : List Str → Bool} {e : IoErr}
    (h : (loadAst L fs c ws incl nc np faults stuck).1 = .error e) :
    (loadWikis L fs nc faults (selectFrom incl 0 ws) [] c).1 = .error e := by
  simp only [loadAst] at h
  cases hl : loadWikis L fs nc faults (selectFrom incl 0 ws) [] c with
  | mk r c' =>
    rw [hl] at h
    cases r with
    | error e => simpa using h
    | ok b => simp at h

/-! ### Without the cache -/

theorem loadWikiFile_noCache (c c' : Cache) (p : Path) (f f' : Fault) :
    (L.loadWikiFile fs c p true f).1 = (L.loadWikiFile fs c' p true f').1 := by
  simp only [CliLib.loadWikiFile]
  cases fs.read p with
  | error e => rfl
  | ok t =>
    simp only [CliLib.cached, if_true]
    cases L.parse t <;> rfl

theorem loadFiles_noCache (i : Nat) (faults faults' : Path → Fault) (ps : List Path) :
    ∀ (a : Ast) (c c' : Cache), (loadFiles L fs true faults i ps a c).1 =
      (loadFiles L fs true faults' i ps a c').1 := by
  induction ps with
  | nil => intro a c c'; rfl
  | cons p ps ih =>
    intro a c c'
    have h := loadWikiFile_noCache (L := L) (fs := fs) c c' p (faults p) (faults' p)
    simp only [loadFiles]
    cases h1 : L.loadWikiFile fs c p true (faults p) with
    | mk r c1 =>
      cases h2 : L.loadWikiFile fs c' p true (faults' p) with
      | mk r' c2 =>
        rw [h1, h2] at h
        dsimp only at h
        subst h
        cases r with
        | error e => rfl
        | ok f => exact ih _ c1 c2

theorem loadWikis_noCache (faults faults' : Path → Fault) (ws : List (Nat × Wiki)) :
    ∀ (a : Ast) (c c' : Cache), (loadWikis L fs true faults ws a c).1 =
      (loadWikis L fs true faults' ws a c').1 := by
  induction ws with
  | nil => intro a c c'; rfl
  | cons iw ws ih =>
    obtain ⟨i, w⟩ := iw
    intro a c c'
    have h := loadFiles_noCache (L := L) (fs := fs) i faults faults' (fs.walk w.path w.ext)
      (a ++ [⟨i, w.name, w.path, []⟩]) c c'
    simp only [loadWikis]
    cases h1 : loadFiles L fs true faults i (fs.walk w.path w.ext)
        (a ++ [⟨i, w.name, w.path, []⟩]) c with
    | mk r c1 =>
      cases h2 : loadFiles L fs true faults' i (fs.walk w.path w.ext)
          (a ++ [⟨i, w.name, w.path, []⟩]) c' with
      | mk r' c2 =>
        rw [h1, h2] at h
        dsimp only at h
        subst h
        cases r with
        | error e => rfl
        | ok b => exact ih b c1 c2

/-- Between two caches no entry was lost; at most the entries of texts of files were written. -/
def Kept (L : CliLib) (fs : Files) (c c' : Cache) : Prop :=
  ∀ k, c'.get k = c.get k ∨
    ∃ t p n, t ∈ fs.texts ∧ k = [L.sha t] ∧ L.parse t = .ok p ∧ c'.get k = some ((L.ser p).take n)

theorem Kept.refl (c : Cache) : Kept L fs c c := fun _ => .inl rfl

theorem Kept.trans {c c' c'' : Cache} (h : Kept L fs c c') (h' : Kept L fs c' c'') : Kept L fs c c'' := by
  intro k
  rcases h' k with e | h2
  · rw [e]
    exact h k
  · exact .inr h2

theorem read_texts {p : Path} {t : Str} (h : fs.read p = .ok t) : t ∈ fs.texts := by
  simp only [Files.read] at h
  cases hg : fs.get p with
  | none => rw [hg] at h; cases h
  | some o =>
    cases o with
    | none => rw [hg] at h; cases h
    | some u =>
      rw [hg] at h
      cases h
      exact Files.mem_texts.2 ⟨p, Files.mem_of_get hg⟩

theorem loadWikiFile_kept (c : Cache) (p : Path) (f : Fault) : Kept L fs c (L.loadWikiFile fs c p true f).2 := by
  simp only [CliLib.loadWikiFile]
  cases hr : fs.read p with
  | error e => exact .refl c
  | ok t =>
    simp only [CliLib.cached, if_true]
    cases hp : L.parse t with
    | error e => exact .refl c
    | ok pg =>
      intro k
      simp only [CliLib.store]
      cases f.written with
      | nothing => exact .inl rfl
      | all =>
        rw [Cache.get_set]
        split
        · rename_i hk
          exact .inr ⟨t, pg, (L.ser pg).length, read_texts hr, hk, hp, by simp⟩
        · exact .inl rfl
      | first n =>
        rw [Cache.get_set]
        split
        · rename_i hk
          exact .inr ⟨t, pg, n, read_texts hr, hk, hp, rfl⟩
        · exact .inl rfl

theorem loadFiles_kept (i : Nat) (faults : Path → Fault) (ps : List Path) :
    ∀ (a : Ast) (c : Cache), Kept L fs c (loadFiles L fs true faults i ps a c).2 := by
  induction ps with
  | nil => intro a c; exact .refl c
  | cons p ps ih =>
    intro a c
    have h := loadWikiFile_kept (L := L) (fs := fs) c p (faults p)
    simp only [loadFiles]
    cases h1 : L.loadWikiFile fs c p true (faults p) with
    | mk r c1 =>
      rw [h1] at h
      cases r with
      | error e => exact h
      | ok f => exact h.trans (ih _ c1)

theorem loadWikis_kept (faults : Path → Fault) (ws : List (Nat × Wiki)) :
    ∀ (a : Ast) (c : Cache), Kept L fs c (loadWikis L fs true faults ws a c).2 := by
  induction ws with
  | nil => intro a c; exact .refl c
  | cons iw ws ih =>
    obtain ⟨i, w⟩ := iw
    intro a c
    have h := loadFiles_kept (L := L) (fs := fs) i faults (fs.walk w.path w.ext) (a ++ [⟨i, w.name, w.path, []⟩]) c
    simp only [loadWikis]
    cases h1 : loadFiles L fs true faults i (fs.walk w.path w.ext) (a ++ [⟨i, w.name, w.path, []⟩]) c with
    | mk r c1 =>
      rw [h1] at h
      cases r with
      | error e => exact h
      | ok b => exact h.trans (ih b c1)

end Vw
