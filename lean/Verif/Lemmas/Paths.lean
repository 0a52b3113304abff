import Verif.Spec.Paths

/-! # Lemmas about paths -/

namespace Vw
open Path

/-- The path with the given names, absolute or not. -/
def loc (a : Bool) (ns : List Str) : Path := if a then absPath ns else names ns

theorem names_nil : names [] = [] := rfl
theorem names_append (a b : List Str) : names (a ++ b) = names a ++ names b := by simp [names]
theorem names_single (n : Str) : names [n] = [.normal n] := rfl
theorem names_length (a : List Str) : (names a).length = a.length := by simp [names]

theorem names_dropLast (a : List Str) : names a.dropLast = (names a).dropLast := by
  simp [names, List.map_dropLast]

theorem names_inj {a b : List Str} (h : names a = names b) : a = b := by
  induction a generalizing b with
  | nil => cases b with
    | nil => rfl
    | cons y ys => simp [names] at h
  | cons x xs ih => cases b with
    | nil => simp [names] at h
    | cons y ys =>
      simp only [names, List.map_cons, List.cons.injEq, Comp.normal.injEq] at h
      rw [h.1, ih h.2]

theorem names_getLast (ns : List Str) : (names ns).getLast? = ns.getLast?.map .normal := by
  simp [names, List.getLast?_map]

theorem push_normal (p : Path) (n : Str) : push p [.normal n] = p ++ [.normal n] := by
  cases p <;> simp [push, hasRoot]

theorem push_root (p : Path) : push p [.root] = [.root] := by simp [push, hasRoot]

theorem loc_snoc (a : Bool) (ns : List Str) (n : Str) :
    loc a (ns ++ [n]) = loc a ns ++ [.normal n] := by
  cases a <;> simp [loc, absPath, names]

theorem pop_loc (a : Bool) (ns : List Str) : pop (loc a ns) = loc a ns.dropLast := by
  cases hn : ns.reverse with
  | nil =>
    have : ns = [] := by simpa using hn
    subst this
    cases a <;> rfl
  | cons x xs =>
    have h : ns = xs.reverse ++ [x] := by
      have := congrArg List.reverse hn
      simpa using this
    subst h
    rw [loc_snoc]
    simp [pop, parent]

theorem any_cons_ne (c : Comp) (p : Path) (h : c ≠ .root) :
    (c :: p).any (· == .root) = p.any (· == .root) := by
  simp [h]

theorem normalize_fold (p : Path) : ∀ (a : Bool) (ns : List Str),
    p.foldl normStep (loc a ns) = loc (a || p.any (· == .root)) (walk ns p) := by
  induction p with
  | nil => intro a ns; simp [walk]
  | cons c p ih =>
    intro a ns
    cases c with
    | root =>
      have h : normStep (loc a ns) .root = loc true [] := by
        simp only [normStep, push_root]; rfl
      simp only [List.foldl_cons, h, ih, walk]
      simp
    | cur =>
      simp only [List.foldl_cons, normStep, ih, walk]
      rw [any_cons_ne _ _ (by decide)]
    | parent =>
      simp only [List.foldl_cons, normStep, pop_loc, ih, walk]
      rw [any_cons_ne _ _ (by decide)]
    | normal n =>
      simp only [List.foldl_cons, normStep, push_normal, ← loc_snoc, ih, walk]
      rw [any_cons_ne _ _ (by simp)]

theorem normalize_eq (p : Path) : normalize p = loc (p.any (· == .root)) (walk [] p) := by
  have := normalize_fold p false []
  simpa [loc, names, normalize] using this

theorem walk_names (ns : List Str) : ∀ dir, walk dir (names ns) = dir ++ ns := by
  induction ns with
  | nil => intro dir; simp [names, walk]
  | cons n ns ih => intro dir; simp only [names, List.map_cons, walk]; rw [← names, ih]; simp

theorem walk_abs (ns : List Str) (dir : List Str) : walk dir (absPath ns) = ns := by
  simp [absPath, walk, walk_names]

theorem walk_loc (a : Bool) (ns : List Str) : walk [] (loc a ns) = ns := by
  cases a <;> simp [loc, walk_names, walk_abs]

theorem any_root_loc (a : Bool) (ns : List Str) : (loc a ns).any (· == .root) = a := by
  cases a <;> simp [loc, names, absPath]

theorem walk_append (p q : Path) : ∀ dir, walk dir (p ++ q) = walk (walk dir p) q := by
  induction p with
  | nil => intro dir; rfl
  | cons c p ih => intro dir; cases c <;> simp [walk, ih]

/-- Walking from a deeper directory, when the path does not climb too far. -/
theorem walk_stays (p : Path) : ∀ (base dir : List Str), Stays dir.length p →
    walk (base ++ dir) p = base ++ walk dir p := by
  induction p with
  | nil => intro base dir _; rfl
  | cons c p ih =>
    intro base dir h
    cases c with
    | root => exact h.elim
    | cur => exact ih base dir h
    | parent =>
      simp only [Stays] at h
      have hd : dir ≠ [] := by intro e; simp [e] at h
      simp only [walk]
      rw [List.dropLast_append_of_ne_nil hd]
      exact ih base dir.dropLast (by simpa using h.2)
    | normal n =>
      simp only [walk]
      rw [List.append_assoc]
      exact ih base (dir ++ [n]) (by simpa [Stays] using h)

theorem stays_no_root (p : Path) : ∀ n, Stays n p → p.any (· == .root) = false := by
  induction p with
  | nil => intro n _; rfl
  | cons c p ih =>
    intro n h
    cases c with
    | root => exact h.elim
    | cur => simpa using ih n h
    | parent => simpa using ih (n - 1) h.2
    | normal m => simpa using ih (n + 1) h

/-! ## Relative links -/

theorem filter_root_abs (ns : List Str) : (absPath ns).filter (· ≠ .root) = names ns := by
  simp [absPath, names, List.filter_map]
  induction ns <;> simp_all

theorem collect_names (ns : List Str) : collect (names ns) = names ns := by
  have : ∀ (ms : List Str) (acc : Path), (names ms).foldl (fun p c => push p [c]) acc
      = acc ++ names ms := by
    intro ms
    induction ms with
    | nil => intro acc; simp [names]
    | cons m ms ih =>
      intro acc
      simp only [names, List.map_cons, List.foldl_cons]
      rw [push_normal, ← names, ih]
      simp [names]
  simpa [collect] using this ns []

theorem makeRelative_abs (ns : List Str) : makeRelative (absPath ns) = names ns := by
  rw [makeRelative, filter_root_abs, collect_names]

theorem names_filter_cur (ns : List Str) : (names ns).filter (· ≠ .cur) = names ns := by
  induction ns with
  | nil => rfl
  | cons n ns ih =>
    simp only [names, List.map_cons]
    rw [List.filter_cons_of_pos (by simp), ← names, ih]

theorem traverse_names (ns : List Str) : traverse (names ns) = names ns := by
  have : ∀ (ms : List Str) (acc : Path), (names ms).foldl travStep acc = acc ++ names ms := by
    intro ms
    induction ms with
    | nil => intro acc; simp [names]
    | cons m ms ih =>
      intro acc
      simp only [names, List.map_cons, List.foldl_cons, travStep]
      rw [← names, ih]
      simp [names]
  simpa [traverse] using this ns []

/-- What remains of two name lists after their common prefix. -/
theorem dropCommon_names (f t : List Str) : ∃ c f' t', f = c ++ f' ∧ t = c ++ t' ∧
    dropCommon (names f) (names t) = (names f', names t') ∧
    (∀ x xs y ys, f' = x :: xs → t' = y :: ys → x ≠ y) := by
  induction f generalizing t with
  | nil =>
    refine ⟨[], [], t, rfl, rfl, ?_, ?_⟩
    · cases t <;> simp [names, dropCommon]
    · intro x xs y ys h; cases h
  | cons a f ih =>
    cases t with
    | nil =>
      refine ⟨[], a :: f, [], rfl, rfl, ?_, ?_⟩
      · simp [names, dropCommon]
      · intro x xs y ys _ h; cases h
    | cons b t =>
      by_cases hab : a = b
      · subst hab
        obtain ⟨c, f', t', h1, h2, h3, h4⟩ := ih t
        refine ⟨a :: c, f', t', by rw [h1]; rfl, by rw [h2]; rfl, ?_, h4⟩
        simp only [names, List.map_cons, dropCommon, if_true]
        exact h3
      · refine ⟨[], a :: f, b :: t, rfl, rfl, ?_, ?_⟩
        · simp [names, dropCommon, hab]
        · intro x xs y ys h1 h2
          cases h1; cases h2; exact hab

theorem names_no_parent (ns : List Str) : (names ns).any (· == .parent) = false := by
  simp [names]

/-- The link between two absolute paths. -/
theorem relativeLink_abs (f t : List Str) : ∃ c f' t', f = c ++ f' ∧ t = c ++ t' ∧
    relativeLink (absPath f) (absPath t)
      = List.replicate (f'.length - 1) .parent ++ names t' ∧
    (∀ x xs y ys, f' = x :: xs → t' = y :: ys → x ≠ y) := by
  obtain ⟨c, f', t', h1, h2, h3, h4⟩ := dropCommon_names f t
  refine ⟨c, f', t', h1, h2, ?_, h4⟩
  have hr : Path.relative (toRelative (makeRelative (absPath f)))
      (toRelative (makeRelative (absPath t)))
      = List.replicate f'.length .parent ++ names t' := by
    simp only [makeRelative_abs, toRelative, names_filter_cur, Path.relative, traverse_names,
      h3, names_no_parent]
    have hm : (names f').map (fun _ => Comp.parent) = List.replicate f'.length .parent := by
      rw [List.map_const', names_length]
    rw [hm]; rfl
  simp only [relativeLink, hr]
  cases f' with
  | nil =>
    cases t' with
    | nil => simp [stripPrefix, startsWith, names]
    | cons y ys => simp [stripPrefix, startsWith, names]
  | cons x xs =>
    simp [stripPrefix, startsWith, List.replicate_succ]

/-- Collecting components loses at most `.`. -/
theorem toRelative_collect (p : Path) (h : p.any (· == .root) = false) :
    toRelative (collect p) = p.filter (· ≠ .cur) := by
  have : ∀ (q acc : Path), q.any (· == .root) = false →
      toRelative (q.foldl (fun p c => push p [c]) acc) = toRelative acc ++ q.filter (· ≠ .cur) := by
    intro q
    induction q with
    | nil => intro acc _; simp
    | cons c q ih =>
      intro acc hq
      simp only [List.any_cons, Bool.or_eq_false_iff] at hq
      rw [List.foldl_cons, ih _ hq.2]
      cases c with
      | root => simp at hq
      | cur => cases acc <;> simp [push, hasRoot, toRelative]
      | parent => by_cases e : acc = [] <;> simp [push, hasRoot, toRelative, e]
      | normal n => by_cases e : acc = [] <;> simp [push, hasRoot, toRelative, e]
  simpa [collect, toRelative] using this p [] h

theorem traverse_stays (p : Path) : ∀ dir : List Str, Stays dir.length p →
    (p.filter (· ≠ .cur)).foldl travStep (names dir) = names (walk dir p) := by
  induction p with
  | nil => intro dir _; rfl
  | cons c p ih =>
    intro dir h
    cases c with
    | root => exact h.elim
    | cur => exact ih dir h
    | parent =>
      simp only [Stays] at h
      rw [List.filter_cons_of_pos (by simp), List.foldl_cons]
      have hd : dir ≠ [] := by intro e; simp [e] at h
      have : travStep (names dir) .parent = names dir.dropLast := by
        obtain ⟨init, n, rfl⟩ := List.eq_nil_or_concat dir |>.resolve_left hd
        simp [names, travStep]
      rw [this]
      exact ih dir.dropLast (by simpa using h.2)
    | normal n =>
      rw [List.filter_cons_of_pos (by simp), List.foldl_cons]
      have : travStep (names dir) (.normal n) = names (dir ++ [n]) := by simp [names, travStep]
      rw [this]
      exact ih (dir ++ [n]) (by simpa [Stays] using h)

theorem filter_no_root (p : Path) (h : p.any (· == .root) = false) : (.root :: p : Path).filter (· ≠ .root) = p := by
  rw [List.filter_cons_of_neg (by simp), List.filter_eq_self]
  intro c hc
  simp only [List.any_eq_false, beq_iff_eq] at h
  simpa using h c hc

/-- Links depend only on where paths lead. -/
theorem relativeLink_dots (p q : Path) (hp : Stays 0 p) (hq : Stays 0 q) :
    relativeLink (.root :: p) (.root :: q) = relativeLink (absPath (walk [] p)) (absPath (walk [] q)) := by
  have key : ∀ p : Path, Stays 0 p → traverse (toRelative (makeRelative (.root :: p))) =
      traverse (toRelative (makeRelative (absPath (walk [] p)))) := by
    intro p h
    rw [makeRelative, filter_no_root p (stays_no_root p 0 h), toRelative_collect _ (stays_no_root p 0 h), makeRelative_abs,
      toRelative, names_filter_cur, traverse_names]
    exact traverse_stays p [] h
  simp only [relativeLink, Path.relative, key p hp, key q hq]

/-- The texts of the segments of a link. -/
def segTexts (n : Nat) (t : List Str) : List Str := List.replicate n b!".." ++ t

theorem toUriString_link (n : Nat) (t : List Str) :
    toUriString (List.replicate n .parent ++ names t) = joinWith b!"/" (segTexts n t) := by
  have hr : hasRoot (List.replicate n .parent ++ names t) = false := by
    cases n with
    | zero => cases t <;> simp [hasRoot, names]
    | succ n => simp [hasRoot, List.replicate_succ]
  have hf : (List.replicate n Comp.parent ++ names t).filterMap compStr = segTexts n t := by
    rw [List.filterMap_append]
    congr 1
    · clear hr
      induction n with
      | zero => rfl
      | succ n ih =>
        rw [List.replicate_succ, List.filterMap_cons, ih, List.replicate_succ]
        rfl
    · clear hr
      induction t with
      | nil => rfl
      | cons x xs ih =>
        rw [names, List.map_cons, List.filterMap_cons, ← names, ih]
        rfl
  rw [toUriString, hr, hf]
  rfl

theorem splitOn_noSep (s : Str) (sep : Byte) (h : sep ∉ s) : splitOn sep s = [s] := by
  induction s with
  | nil => rfl
  | cons b bs ih =>
    simp only [List.mem_cons, not_or] at h
    simp only [splitOn]
    rw [if_neg (fun e => h.1 e.symm), ih h.2]

theorem splitOn_append (s : Str) (sep : Byte) (rest : Str) (h : sep ∉ s) :
    splitOn sep (s ++ sep :: rest) = s :: splitOn sep rest := by
  induction s with
  | nil => simp [splitOn]
  | cons b bs ih =>
    simp only [List.mem_cons, not_or] at h
    simp only [List.cons_append, splitOn]
    rw [if_neg (fun e => h.1 e.symm), ih h.2]

theorem splitOn_joinPath (sep : Byte) : ∀ (l : List Str), l ≠ [] → (∀ s ∈ l, sep ∉ s) →
    splitOn sep (joinWith [sep] l) = l
  | [], h, _ => absurd rfl h
  | [a], _, h => by simpa [joinWith] using splitOn_noSep a sep (h a (by simp))
  | a :: b :: rest, _, h => by
    simp only [joinWith]
    rw [List.append_assoc, List.singleton_append, splitOn_append a sep _ (h a (by simp)),
      splitOn_joinPath sep (b :: rest) (by simp) (fun s hs => h s (by simp [hs]))]

theorem mem_join (sep : Str) (x : Byte) : ∀ (l : List Str), x ∈ joinWith sep l →
    x ∈ sep ∨ ∃ s ∈ l, x ∈ s
  | [], h => by simp [joinWith] at h
  | [a], h => .inr ⟨a, by simp, by simpa [joinWith] using h⟩
  | a :: b :: rest, h => by
    simp only [joinWith, List.mem_append] at h
    rcases h with (h | h) | h
    · exact .inr ⟨a, by simp, h⟩
    · exact .inl h
    · rcases mem_join sep x (b :: rest) h with h | ⟨s, hs, hx⟩
      · exact .inl h
      · exact .inr ⟨s, by simp [hs], hx⟩

theorem segStep_clean (dir : List Str) (s : Str) (h : CleanName s) :
    segStep dir s = dir ++ [s] := by
  simp [segStep, h.ne, h.notDot, h.notDots]

theorem fold_clean (t : List Str) (h : ∀ s ∈ t, CleanName s) : ∀ dir,
    t.foldl segStep dir = dir ++ t := by
  induction t with
  | nil => intro dir; simp
  | cons a t ih =>
    intro dir
    rw [List.foldl_cons, segStep_clean dir a (h a (by simp)), ih (fun s hs => h s (by simp [hs]))]
    simp

theorem fold_parents (n : Nat) : ∀ (base dir : List Str), dir.length = n →
    (List.replicate n b!"..").foldl segStep (base ++ dir) = base := by
  induction n with
  | zero => intro base dir h; simp [List.length_eq_zero_iff.1 h]
  | succ n ih =>
    intro base dir h
    have hd : dir ≠ [] := by intro e; simp [e] at h
    rw [List.replicate_succ, List.foldl_cons]
    have : segStep (base ++ dir) b!".." = base ++ dir.dropLast := by
      simp only [segStep]
      rw [if_neg (by decide), if_pos trivial, List.dropLast_append_of_ne_nil hd]
    rw [this]
    exact ih base dir.dropLast (by simp [h])

end Vw

/-! ## Output paths -/
namespace Vw
open Path

theorem hasRoot_names (ns : List Str) : hasRoot (names ns) = false := by
  cases ns <;> simp [hasRoot, names]

theorem push_names (p : Path) (ns : List Str) : push p (names ns) = p ++ names ns := by
  simp only [push, hasRoot_names]
  cases p with
  | nil => rfl
  | cons c p => simp only [Bool.false_eq_true, if_false, List.isEmpty_cons, names_filter_cur]

theorem mem_push {p q : Path} {c : Comp} (h : c ∈ push p q) : c ∈ p ∨ c ∈ q := by
  simp only [push] at h
  split at h
  · exact .inr h
  · split at h
    · exact .inr h
    · rw [List.mem_append, List.mem_filter] at h
      rcases h with h | h
      · exact .inl h
      · exact .inr h.1

theorem mem_collect_fold (cs : List Comp) : ∀ (acc : Path) (c : Comp),
    c ∈ cs.foldl (fun p c => push p [c]) acc → c ∈ acc ∨ c ∈ cs := by
  induction cs with
  | nil => intro acc c h; exact .inl h
  | cons d cs ih =>
    intro acc c h
    rcases ih _ c h with h | h
    · rcases mem_push h with h | h
      · exact .inl h
      · exact .inr (by simp at h; simp [h])
    · exact .inr (by simp [h])

theorem makeRelative_noRoot (p : Path) : hasRoot (makeRelative p) = false := by
  cases hm : makeRelative p with
  | nil => rfl
  | cons c cs =>
    have hc : c ∈ makeRelative p := by rw [hm]; simp
    rcases mem_collect_fold _ _ c hc with h | h
    · cases h
    · have := (List.mem_filter.1 h).2
      simp only [ne_eq, decide_eq_true_eq] at this
      simp [hasRoot, this]

theorem startsWith_append (p q : Path) : startsWith (p ++ q) p = true := by
  simp [startsWith]

theorem startsWith_iff (p base : Path) : startsWith p base = true ↔ ∃ rest, p = base ++ rest := by
  rw [startsWith, List.isPrefixOf_iff_prefix]
  constructor
  · rintro ⟨r, h⟩; exact ⟨r, h.symm⟩
  · rintro ⟨r, h⟩; exact ⟨r, h.symm⟩

theorem stripPrefix_append (p q : Path) : stripPrefix (p ++ q) p = some q := by
  simp [stripPrefix, startsWith_append]

theorem stripPrefix_some {p base r : Path} (h : stripPrefix p base = some r) : p = base ++ r := by
  simp only [stripPrefix] at h
  split at h
  · rename_i hs
    obtain ⟨rest, rfl⟩ := (startsWith_iff p base).1 hs
    simp at h
    rw [h]
  · cases h

theorem inputPath_inside (w : Wiki) (input : Path) : startsWith (w.inputPath input) w.path = true := by
  simp only [Wiki.inputPath]
  split
  · simp only [join, push, makeRelative_noRoot, Bool.false_eq_true, if_false]
    split
    · rename_i h
      rw [List.isEmpty_iff.1 h]
      simp [startsWith]
    · exact startsWith_append _ _
  · rename_i h
    have : input.hasRoot = true ∧ input.startsWith w.path = true := by simpa using h
    exact this.2

theorem makeRelative_names (ns : List Str) : makeRelative (names ns) = names ns := by
  have : (names ns).filter (· ≠ .root) = names ns := by
    have h := filter_root_abs ns
    rw [absPath, List.filter_cons_of_neg (by simp)] at h
    exact h
  rw [makeRelative, this, collect_names]

theorem withExtension_names (p : Path) (n : Str) (ext : Str) (he : ext ≠ []) :
    withExtension (p ++ [.normal n]) ext = p ++ [.normal (nameStem n ++ c!"." :: ext)] := by
  simp [withExtension, fileName, he]

theorem inputPath_names {w : Wiki} {rel : List Str} {input : Path} (h : NamesFile w rel input) :
    w.inputPath input = w.path ++ names rel := by
  cases h with
  | relative =>
    simp only [Wiki.inputPath, hasRoot_names, Bool.not_false, Bool.true_or, if_true,
      makeRelative_names, join, push_names]
  | inside hr =>
    have h1 : hasRoot (w.path ++ names rel) = true := by
      cases hp : w.path with
      | nil => rw [hp] at hr; simp [hasRoot] at hr
      | cons c cs => rw [hp] at hr; simpa [hasRoot] using hr
    simp [Wiki.inputPath, h1, startsWith_append]
  | outside ho =>
    have h1 : startsWith (absPath rel) w.path = false := by
      cases hs : startsWith (absPath rel) w.path with
      | false => rfl
      | true => exact absurd ((startsWith_iff _ _).1 hs) ho
    simp only [Wiki.inputPath, h1, Bool.not_false, Bool.or_true, if_true, makeRelative_abs, join,
      push_names]

theorem outputPath_names {w : Wiki} {dir : List Str} {n : Str} {input : Path} {ext : Str}
    (h : NamesFile w (dir ++ [n]) input) (he : ext ≠ []) :
    w.outputPath input ext
      = some (w.pathHtml ++ names dir ++ [.normal (nameStem n ++ c!"." :: ext)]) := by
  simp only [Wiki.outputPath, inputPath_names h, stripPrefix_append, Option.map_some, join,
    push_names]
  rw [names_append, names_single, ← List.append_assoc, withExtension_names _ _ _ he]

/-! ## Deepest wiki -/

/-- A wiki that counts: the best one so far, or a containing wiki of the list. -/
def Cand (p : Path) (i : Nat) (best : Option (Nat × Nat)) (ws : List Wiki) (x : Nat × Nat) : Prop :=
  best = some x ∨ ∃ (j : Nat) (w : Wiki), ws[j]? = some w ∧ x = (i + j, w.path.length) ∧
    startsWith p w.path = true

/-- The first wiki is at least as good: deeper, or equally deep and later. -/
def Dom (x y : Nat × Nat) : Prop := y.2 ≤ x.2 ∧ (y.2 = x.2 → y.1 ≤ x.1)

theorem Dom.trans {x y z : Nat × Nat} (h1 : Dom x y) (h2 : Dom y z) : Dom x z := by
  simp only [Dom] at *
  exact ⟨by omega, fun e => by have := h1.2 (by omega); have := h2.2 (by omega); omega⟩

theorem Dom.refl (x : Nat × Nat) : Dom x x := ⟨Nat.le_refl _, fun _ => Nat.le_refl _⟩

theorem cand_skip {p : Path} {i : Nat} {best : Option (Nat × Nat)} {w : Wiki} {ws : List Wiki}
    {x : Nat × Nat} (h : Cand p (i + 1) best ws x) : Cand p i best (w :: ws) x := by
  rcases h with h | ⟨j, v, hj, hx, hv⟩
  · exact .inl h
  · exact .inr ⟨j + 1, v, by simpa using hj, by rw [hx, Nat.add_assoc, Nat.add_comm 1], hv⟩

theorem cand_cons {p : Path} {i : Nat} {best : Option (Nat × Nat)} {w : Wiki} {ws : List Wiki}
    {x : Nat × Nat} (h : Cand p i best (w :: ws) x) :
    best = some x ∨ (x = (i, w.path.length) ∧ startsWith p w.path = true) ∨
      ∀ b, Cand p (i + 1) b ws x := by
  rcases h with h | ⟨j, v, hj, hx, hv⟩
  · exact .inl h
  · cases j with
    | zero => simp at hj; subst hj; exact .inr (.inl ⟨by simpa using hx, hv⟩)
    | succ j =>
      exact .inr (.inr fun _ => .inr ⟨j, v, by simpa using hj,
        by rw [hx, Nat.add_assoc, Nat.add_comm 1], hv⟩)

theorem deepest_spec (p : Path) : ∀ (ws : List Wiki) (i : Nat) (best : Option (Nat × Nat)),
    (∀ b, best = some b → b.1 < i) →
    (HtmlCfg.deepest p i best ws = none → ∀ x, ¬ Cand p i best ws x) ∧
    (∀ r, HtmlCfg.deepest p i best ws = some r →
      Cand p i best ws r ∧ ∀ x, Cand p i best ws x → Dom r x) := by
  intro ws
  induction ws with
  | nil =>
    intro i best _
    simp only [HtmlCfg.deepest]
    refine ⟨fun h x hx => ?_, fun r h => ⟨.inl h, fun x hx => ?_⟩⟩
    · rcases hx with hx | ⟨j, v, hj, _⟩
      · rw [h] at hx; cases hx
      · simp at hj
    · rcases hx with hx | ⟨j, v, hj, _⟩
      · rw [h] at hx; cases hx; exact Dom.refl _
      · simp at hj
  | cons w ws ih =>
    intro i best hb
    simp only [HtmlCfg.deepest]
    cases hs : startsWith p w.path with
    | false =>
      simp only [Bool.false_eq_true, if_false]
      obtain ⟨h1, h2⟩ := ih (i + 1) best (fun b h => Nat.lt_succ_of_lt (hb b h))
      have back : ∀ x, Cand p i best (w :: ws) x → Cand p (i + 1) best ws x := by
        intro x hx
        rcases cand_cons hx with h | ⟨_, h⟩ | h
        · exact .inl h
        · rw [hs] at h; cases h
        · exact h best
      exact ⟨fun h x hx => h1 h x (back x hx),
        fun r h => ⟨cand_skip (h2 r h).1, fun x hx => (h2 r h).2 x (back x hx)⟩⟩
    | true =>
      simp only [if_true]
      have key : ∀ b : Nat × Nat, Cand p i best (w :: ws) b → b.1 < i + 1 →
          (∀ x, best = some x → Dom b x) → Dom b (i, w.path.length) →
          (HtmlCfg.deepest p (i + 1) (some b) ws = none → ∀ x, ¬ Cand p i best (w :: ws) x) ∧
          (∀ r, HtmlCfg.deepest p (i + 1) (some b) ws = some r →
            Cand p i best (w :: ws) r ∧ ∀ x, Cand p i best (w :: ws) x → Dom r x) := by
        intro b hc hlt hd1 hd2
        obtain ⟨h1, h2⟩ := ih (i + 1) (some b) (fun b' h => by cases h; exact hlt)
        refine ⟨fun h => absurd (Or.inl rfl) (h1 h b), fun r h => ⟨?_, fun x hx => ?_⟩⟩
        · rcases (h2 r h).1 with e | e
          · cases e; exact hc
          · exact cand_skip (.inr e)
        · have hr := (h2 r h).2 b (.inl rfl)
          rcases cand_cons hx with e | ⟨e, _⟩ | e
          · exact hr.trans (hd1 x e)
          · rw [e]; exact hr.trans hd2
          · exact (h2 r h).2 x (e _)
      have hw : Cand p i best (w :: ws) (i, w.path.length) := .inr ⟨0, w, by simp, rfl, hs⟩
      cases best with
      | none => exact key _ hw (Nat.lt_succ_self i) (by simp) (Dom.refl _)
      | some b =>
        obtain ⟨j, n⟩ := b
        have hj := hb (j, n) rfl
        simp only at hj ⊢
        split
        · rename_i hge
          refine key _ hw (Nat.lt_succ_self i) ?_ (Dom.refl _)
          intro x hx
          cases hx
          exact ⟨hge, fun _ => Nat.le_of_lt hj⟩
        · rename_i hlt
          refine key (j, n) (.inl rfl) (Nat.lt_succ_of_lt hj) ?_ ?_
          · intro x hx; cases hx; exact Dom.refl _
          · exact ⟨by simp only; omega, fun e => by simp only at e; omega⟩

end Vw

/-! ## Links between pages -/
namespace Vw
open Path

theorem memchrIterFrom_absent (p : Byte → Bool) (s : Str) (h : ∀ y ∈ s, p y = false) :
    ∀ base, memchrIterFrom base p s = [] := by
  induction s with
  | nil => intro base; rfl
  | cons b bs ih =>
    intro base
    simp only [memchrIterFrom]
    rw [h b (by simp), ih (fun y hy => h y (by simp [hy]))]
    rfl

theorem memchrIterFrom_last (p : Byte → Bool) (x : Byte) (t : Str) (hx : p x = true)
    (ht : ∀ y ∈ t, p y = false) (s : Str) : ∀ base,
    (memchrIterFrom base p (s ++ x :: t)).getLast? = some (base + s.length) := by
  induction s with
  | nil =>
    intro base
    simp [memchrIterFrom, hx, memchrIterFrom_absent p t ht]
  | cons b bs ih =>
    intro base
    have := ih (base + 1)
    simp only [List.cons_append, memchrIterFrom]
    split
    · rw [List.getLast?_cons, this]
      simp; omega
    · rw [this]; simp; omega

theorem memrchr_append (p : Byte → Bool) (s t : Str) (x : Byte) (hx : p x = true)
    (ht : ∀ y ∈ t, p y = false) : memrchr p (s ++ x :: t) = some s.length := by
  simpa [memrchr, memchrIter] using memchrIterFrom_last p x t hx ht s 0

theorem memrchr_none_of (p : Byte → Bool) (s : Str) (h : ∀ y ∈ s, p y = false) :
    memrchr p s = none := by
  simp [memrchr, memchrIter, memchrIterFrom_absent p s h]

theorem nameStem_noDot (t : Str) (h : c!"." ∉ t) : nameStem t = t := by
  have : memrchr (· == c!".") t = none := memrchr_none_of _ _ (fun y hy => by
    have : y ≠ 46 := fun e => h (e ▸ hy)
    simpa using this)
  simp [nameStem, this]

theorem nameStem_dot (t ext : Str) (hn : t ≠ []) (h : c!"." ∉ ext) :
    nameStem (t ++ c!"." :: ext) = t := by
  have : memrchr (· == c!".") (t ++ c!"." :: ext) = some t.length :=
    memrchr_append _ _ _ _ (by decide) (fun y hy => by
      have : y ≠ 46 := fun e => h (e ▸ hy)
      simpa using this)
  cases t with
  | nil => exact absurd rfl hn
  | cons b bs =>
    simp only [nameStem, this, List.length_cons]
    rw [← List.length_cons (a := b), List.take_left']
    rfl

theorem ofStr_clean (s : Str) (h : CleanName s) : ofStr s = [.normal s] := by
  have hh : s.head? ≠ some c!"/" := by
    intro e
    have : c!"/" ∈ s := List.mem_of_head? e
    exact h.noSlash this
  simp only [ofStr, if_neg hh, splitOn_noSep s _ h.noSlash, pieces, pieceComp, if_neg h.ne,
    if_neg h.notDot, if_neg h.notDots]

theorem toPath_fold (segs : List Str) (h : ∀ s ∈ segs, CleanName s) : ∀ acc : Path,
    segs.foldl (fun (p : Path) s => Path.push p (Path.ofStr s)) acc = acc ++ names segs := by
  induction segs with
  | nil => intro acc; simp [names]
  | cons s segs ih =>
    intro acc
    rw [List.foldl_cons, ofStr_clean s (h s (by simp)), push_normal,
      ih (fun x hx => h x (by simp [hx]))]
    simp [names]

theorem toPath_clean (d : LinkData) (h : ∀ s ∈ d.uri.segments, CleanName s) :
    d.toPath = loc d.uri.absolute d.uri.segments := by
  simp only [LinkData.toPath, toPath_fold _ h []]
  cases d.uri.absolute with
  | false => simp [loc]
  | true =>
    simp only [if_true, List.nil_append, join, push_names, loc, absPath]
    rfl

theorem joinWith_head (sep : Str) (x : Byte) (a : Str) (l : List Str) (ha : a ≠ [])
    (h : (joinWith sep (a :: l)).head? = some x) : a.head? = some x := by
  cases a with
  | nil => exact absurd rfl ha
  | cons b bs =>
    cases l with
    | nil => simpa [joinWith] using h
    | cons c l => simpa [joinWith] using h

/-- The link from one absolute path to another resolves to its target. -/
theorem link_resolves {L : LinkLib} (hL : L.Sound) {f t : List Str} {u : Uri}
    (hc : ∀ s ∈ t, CleanName s) (h1 : ¬ ProperPrefix f t) (h2 : f ≠ [] → t ≠ f.dropLast)
    (h : makeRelativeLink L (absPath f) (absPath t) = .ok u) :
    u.scheme = none ∧ u.authority = none ∧ resolveRef f u = t := by
  obtain ⟨c, f', t', hf, ht, hl, hd⟩ := relativeLink_abs f t
  simp only [makeRelativeLink, hl, toUriString_link] at h
  have hcl : ∀ s ∈ t', CleanName s := fun s hs => hc s (by rw [ht]; simp [hs])
  have hmem : ∀ s ∈ segTexts (f'.length - 1) t', c!"/" ∉ s ∧ c!"?" ∉ s ∧ c!"#" ∉ s ∧ s ≠ [] := by
    intro s hs
    rcases List.mem_append.1 hs with hs | hs
    · rw [List.eq_of_mem_replicate hs]; decide
    · exact ⟨(hcl s hs).noSlash, (hcl s hs).noQuery, (hcl s hs).noHash, (hcl s hs).ne⟩
  cases hu : L.relRef (joinWith b!"/" (segTexts (f'.length - 1) t')) with
  | none => rw [hu] at h; cases h
  | some v =>
    rw [hu] at h
    cases h
    have hno : ∀ x, x ≠ c!"/" → (∀ s ∈ segTexts (f'.length - 1) t', x ∉ s) →
        x ∉ joinWith b!"/" (segTexts (f'.length - 1) t') := by
      intro x hx hs hm
      rcases mem_join _ _ _ hm with e | ⟨s, hs', e⟩
      · simp at e; exact hx e
      · exact hs s hs' e
    have hhead : (joinWith b!"/" (segTexts (f'.length - 1) t')).head? ≠ some c!"/" := by
      intro e
      cases hseg : segTexts (f'.length - 1) t' with
      | nil => rw [hseg] at e; simp [joinWith] at e
      | cons a l =>
        rw [hseg] at e hmem
        have ha := hmem a (by simp)
        exact ha.1 (List.mem_of_head? (joinWith_head _ _ a l ha.2.2.2 e))
    obtain ⟨e1, e2, e3, e4, _, _⟩ := hL.rel _ _ hu
      (hno _ (by decide) (fun s hs => (hmem s hs).2.1))
      (hno _ (by decide) (fun s hs => (hmem s hs).2.2.1)) hhead
    refine ⟨e1, e2, ?_⟩
    by_cases hseg : segTexts (f'.length - 1) t' = []
    · -- the same document
      have ht' : t' = [] := by
        have := List.append_eq_nil_iff.1 hseg
        exact this.2
      have hf' : f'.length ≤ 1 := by
        have := (List.append_eq_nil_iff.1 hseg).1
        have := congrArg List.length this
        simp at this
        omega
      rw [hseg] at e4
      simp only [resolveRef, e3, Bool.false_eq_true, if_false]
      rw [if_pos (.inr e4)]
      cases f' with
      | nil => rw [hf, ht, ht']
      | cons x xs =>
        have hx : xs = [] := by simpa using hf'
        subst hx; subst ht'
        exfalso
        refine h2 (by rw [hf]; simp) ?_
        rw [hf, ht]; simp
    · have e5 : u.segments = segTexts (f'.length - 1) t' := by
        rw [e4]
        exact splitOn_joinPath _ _ hseg (fun s hs => (hmem s hs).1)
      have hf' : f' ≠ [] := by
        intro e
        subst e
        have ht' : t' ≠ [] := by
          intro e'; subst e'; exact hseg rfl
        exact h1 ⟨t', ht', by rw [ht, hf]; simp⟩
      simp only [resolveRef, e3, Bool.false_eq_true, if_false]
      rw [if_neg]
      · rw [e5, segTexts, List.foldl_append, hf, List.dropLast_append_of_ne_nil hf',
          fold_parents (f'.length - 1) c f'.dropLast (by simp), fold_clean t' hcl, ht]
      · rw [e5]
        rintro (e | e)
        · exact hseg e
        · have := hmem [] (by rw [e]; simp)
          exact this.2.2.2 rfl

/-- A name ending in `.html`. -/
def IsHtml (s : Str) : Prop := ∃ y, s = y ++ b!".html"

theorem html_not_prefix {a b : List Str} {x y : Str}
    (ha : ∀ s ∈ a, ¬ IsHtml s) (hb : ∀ s ∈ b, ¬ IsHtml s)
    (hx : IsHtml x) (hy : IsHtml y) :
    ¬ ProperPrefix (a ++ [x]) (b ++ [y]) ∧ b ++ [y] ≠ (a ++ [x]).dropLast := by
  constructor
  · rintro ⟨c, hc, he⟩
    have : x ∈ b := by
      have hlen := congrArg List.dropLast he
      rw [List.dropLast_concat, List.append_assoc, List.dropLast_append_of_ne_nil (by simp)] at hlen
      rw [hlen, List.dropLast_append_of_ne_nil hc]
      simp
    exact hb x this hx
  · intro he
    rw [List.dropLast_concat] at he
    exact ha y (by rw [← he]; simp) hy

theorem cleanName_html (t : Str) (h : CleanName t) : CleanName (t ++ b!".html") where
  ne := by simp
  notDot := by
    intro e; have := congrArg List.length e; simp at this
  notDots := by
    intro e; have := congrArg List.length e; simp at this
  noSlash := by simp [h.noSlash]
  noQuery := by simp [h.noQuery]
  noHash := by simp [h.noHash]

theorem resolveRef_anchor (L : LinkLib) (d : LinkData) (f : List Str) (u : Uri) :
    resolveRef f (withAnchor L d u) = resolveRef f u := by
  simp only [withAnchor]
  split <;> rfl

theorem isLocal_iff (d : LinkData) : d.isLocal = true ↔ LocalLink d := by
  unfold LinkData.isLocal LocalLink
  cases d.uri.scheme <;> simp

theorem isLocalAnchor_iff (d : LinkData) : d.isLocalAnchor = true ↔ OwnAnchor d := by
  unfold LinkData.isLocalAnchor OwnAnchor LinkData.hasAnchor
  cases hs : d.uri.segments <;> cases d.uri.scheme <;> cases d.uri.authority <;> cases d.uri.query <;>
    cases d.uri.fragment <;> simp

theorem toPath_dir (d : LinkData) {dir : List Str} (hd : d.uri.segments = dir ++ [[]])
    (h : ∀ s ∈ dir, CleanName s) : d.toPath = loc d.uri.absolute dir := by
  have hf : d.uri.segments.foldl (fun (p : Path) s => Path.push p (Path.ofStr s)) [] = names dir := by
    rw [hd, List.foldl_append, toPath_fold _ h []]
    simp only [List.nil_append, List.foldl_cons, List.foldl_nil]
    rw [show Path.ofStr [] = names [] from by decide, push_names]
    simp [names]
  simp only [LinkData.toPath, hf]
  cases d.uri.absolute with
  | false => simp [loc]
  | true =>
    simp only [if_true, join, push_names, loc, absPath]
    rfl

/-- The path of the page that a link names. -/
theorem namesPage_path {d : LinkData} {dir : List Str} {t : Str} (h : NamesPage d.uri.segments dir t)
    (hc : ∀ s ∈ dir, CleanName s) (ht : CleanName t) :
    (if d.isPathDir then d.toPath.push (Path.ofStr b!"index") else d.toPath) = loc d.uri.absolute (dir ++ [t]) ∧
      ¬ OwnAnchor d := by
  generalize hs : d.uri.segments = segs at h
  cases h with
  | page =>
    have hdir : d.isPathDir = false := by
      cases t with
      | nil => exact absurd rfl ht.ne
      | cons b bs => simp [LinkData.isPathDir, hs]
    refine ⟨?_, fun h => ht.ne (h.2.2.1 t (by rw [hs]; simp))⟩
    simp only [hdir, Bool.false_eq_true, if_false]
    rw [toPath_clean d (by
      intro s hm
      rw [hs] at hm
      rcases List.mem_append.1 hm with hm | hm
      · exact hc s hm
      · simp at hm; rw [hm]; exact ht), hs]
  | index _ hne =>
    have hdir : d.isPathDir = true := by simp [LinkData.isPathDir, hs]
    refine ⟨?_, ?_⟩
    · simp only [hdir, if_true]
      rw [toPath_dir d hs hc, loc_snoc]
      exact push_normal _ _
    · intro h
      match dir, hne with
      | s :: dir, _ => exact (hc s (by simp)).ne (h.2.2.1 s (by rw [hs]; simp))

end Vw
