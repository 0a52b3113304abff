import Verif.Lemmas.TableRun

/-!
# Lists are read back
-/

namespace Vw
open P Scan Fm

variable {env : Env} {ue : Uri → Uri → Bool} {L : OutLib} {cfg : VwCfg} {s s' s1 : Span} {t w r ws : Str} {k : Nat}

/-! ## The extent of an item -/

theorem Gives.recognize {α : Type} {p : P α} {Q : α → Prop} {n : Nat} (h : Gives (p s) (adv s n) Q) :
    Gives (recognize p s) (adv s n) fun y => y = cut s n := by
  unfold P.recognize
  cases hp : p s with
  | ok s1 y =>
    rw [hp] at h
    obtain ⟨rfl, -⟩ := h
    simp only
    rw [if_neg (by simp)]
    exact ⟨rfl, by simp [Span.sliceTo, Span.advanceEndBy, cut]⟩
  | err => rw [hp] at h; exact h.elim
  | _ => trivial

/-- The next line has at most `n` blanks in front. -/
def StopAt (n : Nat) (r : Str) : Prop :=
  ∃ ws q, r = ws ++ q ∧ AllBlank ws ∧ ws.length ≤ n ∧ ∀ x, q.head? = some x → ¬ (x = 32 ∨ x = 9)

theorem blank_space (h : AllBlank ws) : ∀ x ∈ ws, isSpace x = true := by
  intro x hx
  have := h x hx
  simp only [isSpace]
  rcases this with rfl | rfl <;> rfl

theorem peek_run (h : View s (ws ++ r)) (hw : AllBlank ws) (hr : ∀ x, r.head? = some x → ¬ (x = 32 ∨ x = 9)) :
    indentationPeek s = .ok s ws.length := by
  unfold indentationPeek
  refine map_ok (a := cut s ws.length) ?_ |>.trans (by rw [View.remLen (View.cut h)])
  unfold P.peek
  rw [space0_run h (blank_space hw) fun x hx => by
    have := hr x hx
    simp only [isSpace]
    simpa [not_or] using this]

theorem peek_some (h : View s (ws ++ r)) (hw : AllBlank ws) : ∃ n, indentationPeek s = .ok s n ∧ ws.length ≤ n := by
  obtain ⟨u, v, e, hu, hv⟩ : ∃ u v, ws ++ r = u ++ v ∧ AllBlank u ∧ ws.length ≤ u.length ∧
      ∀ x, v.head? = some x → ¬ (x = 32 ∨ x = 9) := by
    refine ⟨ws ++ r.takeWhile isSpace, r.dropWhile isSpace, by simp, ?_, by simp, ?_⟩
    · intro x hx
      rcases List.mem_append.1 hx with hx | hx
      · exact hw x hx
      · have := List.all_eq_true.1 (List.all_takeWhile (p := isSpace) (l := r)) x hx
        simpa [isSpace] using this
    · intro x hx
      have := List.head?_dropWhile_not isSpace r
      rw [hx] at this
      simpa [isSpace, not_or] using this
  rw [e] at h
  exact ⟨u.length, peek_run h hu hv.2, hv.1⟩

theorem line_run {l : Str} (h : View s (l ++ 10 :: r)) (h10 : 10 ∉ l) :
    ∃ o, restOfLine s = .ok (adv s (l.length + 1)) o := by
  obtain ⟨o, ho⟩ := restOfLine_run h
  refine ⟨o, ?_⟩
  rw [ho, lineLen_append h10]
  simp [lineLen]

theorem moreLines_many {n : Nat} (ht : Lines n t) : ∀ s, View s (t ++ r) → StopAt n r →
    ∃ Qs, Many (preceded (verify indentationPeek (fun level => decide (level > n))) restOfLine) s Qs (adv s t.length) := by
  induction ht with
  | nil =>
    intro s h hr
    obtain ⟨ws, q, rfl, hw, hn, hq⟩ := hr
    refine ⟨[], .nil ?_⟩
    refine Fails.bind (Fails.verify2 (Q := fun y => y = ws.length) (.of_ok (peek_run (r := q) h hw hq) rfl) ?_)
    rintro _ rfl
    simp
    omega
  | @cons ws l t hw hn h10 h13 _ ih =>
    intro s h hr
    have h1 : View s (ws ++ (l ++ 10 :: (t ++ r))) := by simpa using h
    obtain ⟨m, hm, hm2⟩ := peek_some h1 hw
    have h2 : View s ((ws ++ l) ++ 10 :: (t ++ r)) := by simpa using h
    obtain ⟨o, ho⟩ := line_run h2 (by
      intro hx
      rcases List.mem_append.1 hx with hx | hx
      · have := hw 10 hx; omega
      · exact h10 hx)
    have h3 : View s ((ws ++ l ++ [10]) ++ (t ++ r)) := by simpa using h
    have h3 := View.adv h3
    obtain ⟨Qs, hQ⟩ := ih _ h3 hr
    have e : (ws ++ l ++ [10]).length = (ws ++ l).length + 1 := by simp; omega
    rw [e] at hQ
    refine ⟨(fun _ => True) :: Qs, ?_⟩
    have := Many.cons (p := preceded (verify indentationPeek (fun level => decide (level > n))) restOfLine) (s := s)
      (Q := fun _ => True) (n := (ws ++ l).length + 1)
      (Gives.bind (Q := fun y => y = m) (Gives.verify (.of_ok hm rfl) (by rintro _ rfl; simp; omega))
        fun _ _ => .of_ok ho trivial) (by omega) hQ
    rw [adv_adv] at this
    have e2 : (ws ++ l).length + 1 + t.length = (ws ++ (l ++ 10 :: t)).length := by simp; omega
    rw [e2] at this
    exact this

theorem itemLines_gives {n : Nat} {l : Str} (h : View s (l ++ 10 :: (t ++ r))) (h10 : 10 ∉ l) (ht : Lines n t)
    (hr : StopAt n r) :
    Gives (itemLines n s) (adv s (l ++ 10 :: t).length) fun y => y = cut s (l ++ 10 :: t).length := by
  unfold itemLines
  refine Gives.recognize (Q := fun _ => True) ?_
  obtain ⟨o, ho⟩ := line_run h h10
  have h3 : View s ((l ++ [10]) ++ (t ++ r)) := by simpa using h
  have h3 := View.adv h3
  obtain ⟨Qs, hQ⟩ := moreLines_many ht _ h3 hr
  have e : (l ++ [10]).length = l.length + 1 := by simp
  rw [e] at hQ
  refine Gives.bind (Q := fun _ => True) (.of_ok ho trivial) fun _ _ => Gives.bind hQ.many0 fun _ _ => ?_
  rw [adv_adv]
  refine (Gives.pure trivial).at ?_
  congr 1
  simp
  omega

/-! ## Items -/

theorem todo_run (td : Todo) (h : View s (todoText (some td) ++ r)) :
    todoStatus s = .ok (adv s (todoText (some td)).length) td := by
  have step : ∀ {m : Str}, todoMark td = m → ∀ p : P Todo,
      p (adv s 1) = .ok (adv s 2) td →
      (P.bind (tag b!"[") fun _ => P.bind p fun t => P.bind (tag b!"] ") fun _ => P.pure t) s =
        .ok (adv s (todoText (some td)).length) td := by
    intro m hm p hp
    have v0 : View s (b!"[" ++ (m ++ (b!"] " ++ r))) := by
      have e : todoText (some td) ++ r = b!"[" ++ (m ++ (b!"] " ++ r)) := by simp [todoText, hm]
      rw [← e]; exact h
    have hm1 : m.length = 1 := by rw [← hm]; cases td <;> rfl
    have v1 : View (adv s 1) (m ++ (b!"] " ++ r)) := View.adv v0
    have v2 := View.adv v1
    rw [adv_adv, hm1] at v2
    rw [bind_ok (tag_run v0), show adv s b!"[".length = adv s 1 from rfl, bind_ok hp, bind_ok (tag_run v2), adv_adv]
    simp only [P.pure, todoText, hm]
    congr 2
    simp
    omega
  unfold todoStatus
  have v1 : ∀ m : Str, todoMark td = m → View (adv s 1) (m ++ (b!"] " ++ r)) := by
    intro m hm
    have v0 : View s (b!"[" ++ (m ++ (b!"] " ++ r))) := by
      have e : todoText (some td) ++ r = b!"[" ++ (m ++ (b!"] " ++ r)) := by simp [todoText, hm]
      rw [← e]; exact h
    exact View.adv v0
  have no : ∀ {α : Type} (v : α) (m q : Str), todoMark td = m → ¬ q <+: m ++ (b!"] " ++ r) →
      P.value v (tag q) (adv s 1) = .err := fun v m q hm hq => value_er (tag_run_err (v1 m hm) hq)
  have yes : ∀ {α : Type} (v : α) (m : Str), todoMark td = m →
      P.value v (tag m) (adv s 1) = .ok (adv s 2) v := fun v m hm => by
    have hm1 : m.length = 1 := by rw [← hm]; cases td <;> rfl
    rw [show P.value v (tag m) (adv s 1) = _ from value_ok (tag_run (v1 m hm)), adv_adv, hm1]
  cases td with
  | incomplete => exact step rfl _ (by simp [P.alts, P.alt, yes Todo.incomplete b!" " rfl])
  | partial1 =>
    exact step rfl _ (by
      simp [P.alts, P.alt, no Todo.incomplete b!"." b!" " rfl (by simp), yes Todo.partial1 b!"." rfl])
  | partial2 =>
    exact step rfl _ (by
      simp [P.alts, P.alt, no Todo.incomplete b!"o" b!" " rfl (by simp), no Todo.partial1 b!"o" b!"." rfl (by simp),
        yes Todo.partial2 b!"o" rfl])
  | partial3 =>
    exact step rfl _ (by
      simp [P.alts, P.alt, no Todo.incomplete b!"O" b!" " rfl (by simp), no Todo.partial1 b!"O" b!"." rfl (by simp),
        no Todo.partial2 b!"O" b!"o" rfl (by simp), yes Todo.partial3 b!"O" rfl])
  | complete =>
    exact step rfl _ (by
      simp [P.alts, P.alt, no Todo.incomplete b!"X" b!" " rfl (by simp), no Todo.partial1 b!"X" b!"." rfl (by simp),
        no Todo.partial2 b!"X" b!"o" rfl (by simp), no Todo.partial3 b!"X" b!"O" rfl (by simp), yes Todo.complete b!"X" rfl])
  | rejected =>
    exact step rfl _ (by
      simp [P.alts, P.alt, no Todo.incomplete b!"-" b!" " rfl (by simp), no Todo.partial1 b!"-" b!"." rfl (by simp),
        no Todo.partial2 b!"-" b!"o" rfl (by simp), no Todo.partial3 b!"-" b!"O" rfl (by simp),
        no Todo.complete b!"-" b!"X" rfl (by simp), yes Todo.rejected b!"-" rfl])

theorem todo_inv {td : Todo} (h : View s t) (he : todoStatus s = .ok s' td) : todoText (some td) <+: t := by
  unfold todoStatus at he
  obtain ⟨s1, o, h1, he⟩ := bind_inv he
  obtain ⟨r1, rfl, rfl, -⟩ := tag_inv h h1
  obtain ⟨s2, td', h2, he⟩ := bind_inv he
  obtain ⟨s3, o, h3, he⟩ := bind_inv he
  obtain ⟨-, rfl⟩ := Res.ok.inj he
  have v1 := View.adv h
  have key : ∀ (v : Todo) (q : Str), todoMark v = q → P.value v (tag q) (adv s b!"[".length) = .ok s2 td' →
      todoText (some td') <+: b!"[" ++ r1 := by
    intro v q hq hv
    obtain ⟨o, hv, e⟩ := map_inv hv
    obtain ⟨r2, rfl, rfl, -⟩ := tag_inv v1 hv
    obtain ⟨r3, rfl, -⟩ := tag_inv (View.adv v1) h3
    rw [e]
    exact ⟨r3, by simp [todoText, hq]⟩
  rcases alts_cons_inv h2 with h2 | ⟨-, h2⟩
  · exact key _ _ rfl h2
  rcases alts_cons_inv h2 with h2 | ⟨-, h2⟩
  · exact key _ _ rfl h2
  rcases alts_cons_inv h2 with h2 | ⟨-, h2⟩
  · exact key _ _ rfl h2
  rcases alts_cons_inv h2 with h2 | ⟨-, h2⟩
  · exact key _ _ rfl h2
  rcases alts_cons_inv h2 with h2 | ⟨-, h2⟩
  · exact key _ _ rfl h2
  exact key _ _ rfl h2

theorem todo_gives {td : Option Todo} (h : View s (todoText td ++ r))
    (ht : td = none → ∀ x, ¬ todoText (some x) <+: r) :
    Gives (opt todoStatus s) (adv s (todoText td).length) fun o => o = td := by
  cases td with
  | none =>
    refine Gives.opt_none (.of_inv fun s' y e => ?_)
    exact ht rfl y (todo_inv h e)
  | some td =>
    exact (Gives.opt_some (.of_ok (todo_run td h) rfl)).mono fun o => by rintro ⟨y, rfl, rfl⟩; rfl

theorem item_gives {nested : P (Located Block)} {ind l t2 c : Str} {ty : ItemType} {su : Suffix} {td : Option Todo}
    {Q : Located Block → Prop} {Qs : List (Located Block → Prop)} {n : Nat}
    (hb : AtBol s) (hi : AllBlank ind) (h : View s (ind ++ (w ++ (todoText td ++ c) ++ r)))
    (hw : PrefixText ty su w) (hc : w ++ (todoText td ++ c) = l ++ 10 :: t2) (hl : 10 ∉ l) (ht2 : Lines ind.length t2)
    (hr : StopAt ind.length r) (ht : td = none → ∀ x, ¬ todoText (some x) <+: c)
    (hs1 : s1 = adv (cut (adv s ind.length) (w ++ (todoText td ++ c)).length) (w.length + (todoText td).length))
    (h1 : Gives (deeper nested s1) (adv s1 n) Q)
    (h2 : Many (preceded (verify indentationPeek (fun level => decide (level > ind.length))) (deeper nested)) (adv s1 n) Qs
      (adv s1 c.length)) :
    Gives (listItemOf nested s) (adv s (ind.length + (w ++ (todoText td ++ c)).length)) fun y =>
      y.1 = ind.length ∧ y.2.inner.pos = 0 ∧ y.2.inner.ty = ty ∧ y.2.inner.suffix = su ∧ y.2.inner.todo = td ∧
        Each (Q :: Qs) y.2.inner.contents := by
  unfold listItemOf
  have hh : ∀ x, (w ++ (todoText td ++ c) ++ r).head? = some x → isSpace x = false := by
    obtain ⟨c, q, rfl, -, -, -, hc⟩ := prefix_first hw
    intro x hx
    simp at hx
    subst hx
    simp [isSpace]
    omega
  have hsp : indentationConsume s = .ok (adv s ind.length) ind.length := by
    unfold indentationConsume
    exact (map_ok (space0_run h (blank_space hi) hh)).trans (by rw [View.remLen (View.cut h)])
  rw [bind_ok (bol_run hb), bind_ok hsp]
  have v1 : View (adv s ind.length) (w ++ (todoText td ++ c) ++ r) := View.adv h
  have hil := itemLines_gives (s := adv s ind.length) (n := ind.length) (l := l) (t := t2) (r := r)
    (by rw [hc] at v1; simpa using v1) hl ht2 hr
  rw [← hc] at hil
  have v2 := View.cut v1
  have v3 : View (adv (cut (adv s ind.length) (w ++ (todoText td ++ c)).length) w.length) (todoText td ++ c) := View.adv v2
  have hitem : Gives (located (P.map (P.pair listItemPrefix (listItemTailOf nested ind.length))
      (fun ((ty, suffix), (todo, contents)) => (⟨ty, suffix, 0, contents, todo⟩ : ListItem)))
      (cut (adv s ind.length) (w ++ (todoText td ++ c)).length))
      (adv (cut (adv s ind.length) (w ++ (todoText td ++ c)).length) (w ++ (todoText td ++ c)).length)
      fun x => x.inner.pos = 0 ∧ x.inner.ty = ty ∧ x.inner.suffix = su ∧ x.inner.todo = td ∧ Each (Q :: Qs) x.inner.contents := by
    refine Gives.located (Q := fun x : ListItem => x.pos = 0 ∧ x.ty = ty ∧ x.suffix = su ∧ x.todo = td ∧ Each (Q :: Qs) x.contents) ?_
    refine Gives.map (Q := fun y : (ItemType × Suffix) × (Option Todo × List (Located Block)) =>
      y.1 = (ty, su) ∧ y.2.1 = td ∧ Each (Q :: Qs) y.2.2) ?_ ?_
    · refine Gives.bind (Q := fun y => y = (ty, su)) (.of_ok (listItemPrefix_run hw v2) rfl) ?_
      rintro _ rfl
      refine Gives.bind (Q := fun y : Option Todo × List (Located Block) => y.1 = td ∧ Each (Q :: Qs) y.2) ?_
        fun y hy => Gives.pure ⟨rfl, hy⟩
      unfold listItemTailOf
      refine Gives.bind (todo_gives v3 ht) ?_
      rintro _ rfl
      rw [adv_adv, ← hs1]
      refine Gives.bind h1 fun y hy => Gives.bind h2.many0 fun ys hys => ?_
      refine (Gives.pure (Q := fun y : Option Todo × List (Located Block) => y.1 = _ ∧ Each (Q :: Qs) y.2) ⟨rfl, .cons hy hys⟩).at ?_
      rw [hs1, adv_adv]
      congr 1
      simp
      omega
    · rintro ⟨⟨a, b⟩, ⟨x, y⟩⟩ ⟨e, e2, h3⟩
      cases e
      exact ⟨rfl, rfl, rfl, e2, h3⟩
  dsimp only
  cases hp : itemLines ind.length (adv s ind.length) with
  | ok s2 y =>
    rw [hp] at hil
    obtain ⟨-, rfl⟩ := hil
    simp only
    revert hitem
    generalize located (P.map (P.pair listItemPrefix (listItemTailOf nested ind.length))
      (fun ((ty, suffix), (todo, contents)) => (⟨ty, suffix, 0, contents, todo⟩ : ListItem)))
      (cut (adv s ind.length) (w ++ (todoText td ++ c)).length) = res
    intro hitem
    cases res with
    | ok s3 x =>
      obtain ⟨rfl, hx⟩ := hitem
      simp only
      rw [if_neg (by simp [adv, cut])]
      refine ⟨?_, rfl, hx⟩
      have e : (adv (cut (adv s ind.length) (w ++ (todoText td ++ c)).length) (w ++ (todoText td ++ c)).length).start -
          (adv s ind.length).start = (w ++ (todoText td ++ c)).length := by simp [adv, cut]
      rw [e]
      rw [← adv_adv]
      have hlen := v1.len
      rw [List.length_append] at hlen
      unfold Span.advanceStartBy
      rw [if_neg (by omega)]
      rfl
    | err => exact hitem.elim
    | panic => trivial
    | diverge => trivial
  | err => rw [hp] at hil; exact hil.elim
  | panic => trivial
  | diverge => trivial

/-! ## Code and math blocks in items -/

theorem closing_indent {ind cl l : Str} (hi : AllBlank ind) (hc : ∃ c q, cl = c :: q ∧ ¬ (c = 32 ∨ c = 9))
    (h : ClosingLine cl (ind ++ l)) : ClosingLine cl l := by
  obtain ⟨u, v, hu, hv, e⟩ := h
  rw [List.append_assoc] at e
  rcases List.append_eq_append_iff.1 e with ⟨as, rfl, e2⟩ | ⟨bs, e1, e2⟩
  · exact ⟨as, v, fun x hx => hu x (by simp [hx]), hv, by simpa using e2⟩
  · cases bs with
    | nil => exact ⟨[], v, by simp [AllBlank], hv, by simpa using e2.symm⟩
    | cons b bs =>
      exfalso
      obtain ⟨c, q, rfl, hc⟩ := hc
      simp at e2
      exact hc (e2.1 ▸ hi b (by rw [e1]; simp))

theorem dedent_indent {ind l : Str} (hi : AllBlank ind) : dedent ind.length (ind ++ l) = l := by
  unfold dedent leadingBlanks
  rw [List.takeWhile_append_of_pos (by
    intro x hx
    rcases hi x hx with rfl | rfl <;> rfl)]
  simp

theorem nest_code {ind : Str} {lang : Option Str} {md : Map} {ls : List Str} (hi : AllBlank ind)
    (h : View s (codeText ind true lang md ls ++ r)) (hh : CodeHeadOk lang md) (hm : lang = none → md = [])
    (hl : FenceLines b!"}}}" ls) (ha : ∀ l ∈ ls, ∀ c ∈ l, c < 128) :
    Gives (codeBlock s) (adv s (codeText ind true lang md ls).length) fun y =>
      y.inner.eqv false ue (.code lang md ls) = true := by
  have hperm : (sortedMap md).Perm md := List.mergeSort_perm _ _
  have hds : DistinctKeys (sortedMap md) := (hperm.map _).nodup_iff.2 hh.2.1
  have hmap : mapEq (fun x y => decide (x = y)) (Map.collect (sortedMap md)) md = true :=
    mapEq_of_perm hh.2.1 ((collect_perm hds).trans hperm)
  have hpt : pairsText lang.isSome (sortedMap md) = headTail (sortedMap md) [] := by
    cases lang with
    | some l => exact pairsText_true _
    | none =>
      have : sortedMap md = [] := by
        rw [hm rfl] at hperm ⊢
        exact hperm.eq_nil
      rw [this]
      rfl
  have hraw : (ls.map (ind ++ ·)).flatMap (· ++ b!"\n") = rawText ind ls := by
    simp [rawText, List.flatMap_map]
  obtain ⟨x, h1, h2⟩ := code_run (s := s) (lang := lang) (ps := sortedMap md) (ws1 := ind) (ws := []) (ws2 := ind) (ws3 := [])
    (raw := ls.map (ind ++ ·)) (r := 10 :: r) (by
      rw [hraw, ← hpt]
      simpa [codeText] using h) hi (by simp [AllBlank]) (.inl rfl)
    (fun l h' => ⟨(hh.1 l h').1, (hh.1 l h').2.1.1, (hh.1 l h').2.2.1, (hh.1 l h').2.2.2.1, (hh.1 l h').2.1.2⟩)
    (fun p hp => (hh.2.2 p (hperm.subset hp)).1)
    (by
      intro l' hl'
      obtain ⟨l, hl1, rfl⟩ := List.mem_map.1 hl'
      obtain ⟨⟨h3, h4⟩, h5⟩ := hl l hl1
      refine ⟨?_, ?_, fun hc => h5 (closing_indent hi ⟨_, _, rfl, by decide⟩ hc)⟩
      · intro hx
        rcases List.mem_append.1 hx with hx | hx
        · have := hi 10 hx; omega
        · exact h3 hx
      · rw [List.getLast?_append]
        cases hq : l.getLast? with
        | some z => intro e; simp at e; rw [hq, e] at h4; exact h4 rfl
        | none =>
          intro e
          simp at e
          have := hi 13 (List.mem_of_getLast? e)
          omega)
    (.inr (by
      intro l' hl' b hb
      obtain ⟨l, hl1, rfl⟩ := List.mem_map.1 hl'
      rcases List.mem_append.1 hb with hb | hb
      · have := hi b hb; omega
      · exact ha l hl1 b hb)) hi (by simp [AllBlank]) (.inr (.inl ⟨r, rfl⟩))
  refine Gives.of_ok (h1.trans (ok_congr ?_)) ?_
  · rw [hraw, ← hpt]
    simp [codeText, lineLen]
    omega
  · rw [h2]
    have : (ls.map (ind ++ ·)).map (dedent (min ind.length ind.length)) = ls := by
      rw [List.map_map, Nat.min_self]
      conv => rhs; rw [← List.map_id ls]
      exact List.map_congr_left fun l _ => dedent_indent hi
    rw [this]
    simp [Block.eqv, hmap]

theorem nest_math {ind : Str} {ls : List Str} {en : Option Str} (hi : AllBlank ind)
    (h : View s (mathText ind true ls en ++ r)) (he : ∀ e, en = some e → e ≠ [] ∧ 10 ∉ e ∧ c!"%" ∉ e ∧ NoTerm e)
    (hl : FenceLines b!"}}$" ls) (ha : ∀ l ∈ ls, ∀ c ∈ l, c < 128) :
    Gives (mathBlock s) (adv s (mathText ind true ls en).length) fun y =>
      y.inner.eqv false ue (.math ls en) = true := by
  have hraw : (ls.map (ind ++ ·)).flatMap (· ++ b!"\n") = rawText ind ls := by
    simp [rawText, List.flatMap_map]
  obtain ⟨x, h1, h2⟩ := math_run (s := s) (ws1 := ind) (ws := []) (ws2 := ind) (ws3 := []) (raw := ls.map (ind ++ ·))
    (en := en) (r := 10 :: r) (by
      rw [hraw]
      simpa [mathText] using h) hi (by simp [AllBlank])
    (fun e h' => ⟨(he e h').1, (he e h').2.1, (he e h').2.2.1⟩)
    (by
      intro l' hl'
      obtain ⟨l, hl1, rfl⟩ := List.mem_map.1 hl'
      obtain ⟨⟨h3, h4⟩, h5⟩ := hl l hl1
      refine ⟨?_, ?_, fun hc => h5 (closing_indent hi ⟨_, _, rfl, by decide⟩ hc)⟩
      · intro hx
        rcases List.mem_append.1 hx with hx | hx
        · have := hi 10 hx; omega
        · exact h3 hx
      · rw [List.getLast?_append]
        cases hq : l.getLast? with
        | some z => intro e; simp at e; rw [hq, e] at h4; exact h4 rfl
        | none =>
          intro e
          simp at e
          have := hi 13 (List.mem_of_getLast? e)
          omega)
    (.inr (by
      intro l' hl' b hb
      obtain ⟨l, hl1, rfl⟩ := List.mem_map.1 hl'
      rcases List.mem_append.1 hb with hb | hb
      · have := hi b hb; omega
      · exact ha l hl1 b hb)) hi (by simp [AllBlank]) (.inr (.inl ⟨r, rfl⟩))
  refine Gives.of_ok (h1.trans (ok_congr ?_)) ?_
  · rw [hraw]
    simp [mathText, lineLen]
    omega
  · rw [h2]
    have : (ls.map (ind ++ ·)).map (dedent (min ind.length ind.length)) = ls := by
      rw [List.map_map, Nat.min_self]
      conv => rhs; rw [← List.map_id ls]
      exact List.map_congr_left fun l _ => dedent_indent hi
    rw [this]
    simp [Block.eqv]

/-! ## Which parser reads a block -/

/-- The parser for a kind of blocks in an item, with fuel `n`. -/
def kindParser (env : Env) (n : Nat) : BlockKind → P (Located Block)
  | .paragraph => paragraphOf env (listOf (nestedF env n))
  | .quote => arrowBlockquote
  | .defs => definitionList env
  | .list => listOf (nestedF env n)
  | .code => codeBlock
  | .math => mathBlock
  | .table => nestedTable env
  | .other => fun _ => .err

theorem noTerm_indented {x : Str} (hws : AllBlank ws) (h : NoTermLine x) : NoTermLine (ws ++ (x ++ 10 :: r)) :=
  noTerm_append (fun hx => by have := hws _ hx; revert this; decide) (noTerm_line h)

theorem defs_fails {x : Str} (hws : AllBlank ws) (h : View s (ws ++ (x ++ 10 :: r))) (hx : NoTermLine x) :
    Fails (definitionList env s) :=
  .of_inv fun s' y e => by
    obtain ⟨w, q, he, h10⟩ := defs_begins h e
    exact h10 (noTerm_indented hws hx w q he)

theorem nested_gives {k : BlockKind} {x : Str} {n : Nat} {Q : Located Block → Prop} (hws : AllBlank ws)
    (h : View s (ws ++ (x ++ 10 :: r))) (hx : Head k x) (hg : Gives (kindParser env n k s) s' Q) :
    Gives (nestedOf env (listOf (nestedF env n)) s) s' Q := by
  have hhead := hx.head
  obtain ⟨c, x', hcx⟩ : ∃ c x', x = c :: x' := by
    cases x with
    | nil => exact absurd rfl hx.ne
    | cons c x' => exact ⟨c, x', rfl⟩
  have hh : ∀ y, (x ++ 10 :: r).head? = some y → ¬ (y = 32 ∨ y = 9) := by
    intro y hy
    have := hhead y (by rw [hcx] at hy ⊢; simpa using hy)
    omega
  have no : ∀ p : Str, 10 ∉ p → p ≠ [] → (∀ y, p.head? = some y → ¬ (y = 32 ∨ y = 9)) → ¬ p <+: x →
      ¬ Begins (ws ++ (x ++ 10 :: r)) p := by
    intro p h10 hne hph hpx hb
    exact hpx (prefix_of_line (hb.strip hws hh hph hne) h10)
  have one : ∀ d : Byte, x.head? ≠ some d → ¬ [d] <+: x := by
    rintro d hd ⟨q, rfl⟩
    exact hd rfl
  have fdefs : k ≠ .defs → Fails (definitionList env s) := fun hk => defs_fails hws h (hx.term hk)
  have flist : k ≠ .list → Fails (listOf (nestedF env n) s) := fun hk => .of_inv fun s' y e => by
    obtain ⟨ws', ty, su, w, q, he, hws', hw⟩ := listOf_begins h e
    exact hx.item hk ty su w hw (prefix_of_line (Begins.strip (p := w) ⟨ws', q, he, hws'⟩ hws hh hw.head.2 hw.head.1)
      hw.no10)
  have ftable : k ≠ .table → Fails (nestedTable env s) := fun hk => .of_inv fun s' y e => by
    obtain ⟨o, e, -⟩ := map_inv e
    exact no b!"|" (by decide) (by decide) (by decide) (one _ (hx.table hk)) (table_begins (env := env) h (map_ok e))
  have fcode : k = .math ∨ k = .quote ∨ k = .paragraph → Fails (codeBlock s) := fun hk => .of_inv fun s' y e =>
    no _ (by decide) (by decide) (by decide) (hx.code hk) (code_begins h e)
  have fmath : k = .quote ∨ k = .paragraph → Fails (mathBlock s) := fun hk => .of_inv fun s' y e =>
    no _ (by decide) (by decide) (by decide) (hx.math hk) (math_begins h e)
  have fquote : k ≠ .quote → Fails (arrowBlockquote s) := fun hk => .of_inv fun s' y e =>
    no _ (by decide) (by decide) (by decide) (hx.quote hk) (quote_arrow_begins h e)
  unfold nestedOf
  cases k with
  | defs => exact Gives.alts_fst hg
  | list => exact Gives.alts (fdefs (by decide)) (Gives.alts_fst hg)
  | table => exact Gives.alts (fdefs (by decide)) (Gives.alts (flist (by decide)) (Gives.alts_fst hg))
  | code => exact Gives.alts (fdefs (by decide)) (Gives.alts (flist (by decide)) (Gives.alts (ftable (by decide)) (Gives.alts_fst hg)))
  | math =>
    exact Gives.alts (fdefs (by decide)) (Gives.alts (flist (by decide)) (Gives.alts (ftable (by decide))
      (Gives.alts (fcode (by decide)) (Gives.alts_fst hg))))
  | quote =>
    exact Gives.alts (fdefs (by decide)) (Gives.alts (flist (by decide)) (Gives.alts (ftable (by decide))
      (Gives.alts (fcode (by decide)) (Gives.alts (fmath (by decide)) (Gives.alts_fst hg)))))
  | paragraph =>
    exact Gives.alts (fdefs (by decide)) (Gives.alts (flist (by decide)) (Gives.alts (ftable (by decide))
      (Gives.alts (fcode (by decide)) (Gives.alts (fmath (by decide)) (Gives.alts (fquote (by decide)) hg)))))
  | other => exact hg.elim

theorem nestedF_gives {k : BlockKind} {x : Str} {Q : Located Block → Prop} (hws : AllBlank ws)
    (h : View s (ws ++ (x ++ 10 :: r))) (hx : Head k x) (hg : ∀ n, Gives (kindParser env n k s) s' Q) (n : Nat) :
    Gives (nestedF env n s) s' Q := by
  cases n with
  | zero => trivial
  | succ n => exact nested_gives hws h hx (hg n)

/-! ## Ends of blocks -/

/-- No item of a list whose items are indented by `m` begins with the text, and its first
line does not belong to such an item. -/
def EndsList (m : Nat) (r : Str) : Prop :=
  ∃ ws q, r = ws ++ q ∧ AllBlank ws ∧ ws.length ≤ m ∧ (∀ x, q.head? = some x → ¬ (x = 32 ∨ x = 9)) ∧
    (ws.length = m → ∀ ty su w, PrefixText ty su w → ¬ w <+: q)

theorem EndsList.stop {m : Nat} (h : EndsList m r) : StopAt m r := by
  obtain ⟨ws, q, e, h1, h2, h3, -⟩ := h
  exact ⟨ws, q, e, h1, h2, h3⟩

/-- What has to follow a block of the kind `k`. -/
def BlockEnd (env : Env) (n m : Nat) (r : Str) (s : Span) : BlockKind → Prop
  | .paragraph => Fails (paraLine env (listOf (nestedF env n)) s)
  | .quote => NoQuote r
  | .defs => NoTermLine r
  | .list => EndsList m r
  | .table => NoRow r
  | _ => True

theorem noRow_nil : NoRow [] := ⟨[], [], rfl, by simp [AllBlank], by simp⟩

theorem blockEnd_nil (hs : env.SchemeSound) (h : View s []) (n m : Nat) (k : BlockKind) : BlockEnd env n m [] s k := by
  cases k with
  | paragraph => exact paraLine_end_nil hs h
  | quote => exact noQuote_nil (by simp [AllGap])
  | defs => intro u v e; simp at e
  | list =>
    refine ⟨[], [], rfl, by simp [AllBlank], by simp, by simp, fun _ ty su w hw hp => ?_⟩
    exact hw.head.1 (List.prefix_nil.1 hp)
  | table => exact noRow_nil
  | _ => trivial

theorem nestedTable_err (h : table env s = .err) : nestedTable env s = .err := by
  unfold table at h
  unfold nestedTable
  unfold P.map at h ⊢
  cases hr : tableRaw env s with
  | err => rfl
  | _ => rw [hr] at h; cases h

/-- Before a block of another kind. -/
theorem blockEnd_next {k k' : BlockKind} {x : Str} {n m : Nat} {Q : Located Block → Prop} (hws : AllBlank ws)
    (hm : ws.length = m) (hx : Head k' x) (hk : k = k' → k = .code ∨ k = .math)
    (hg : Gives (kindParser env n k' s) s' Q) : BlockEnd env n m (ws ++ (x ++ 10 :: r)) s k := by
  obtain ⟨c, x', hcx⟩ : ∃ c x', x = c :: x' := by
    cases x with
    | nil => exact absurd rfl hx.ne
    | cons c x' => exact ⟨c, x', rfl⟩
  have hc := hx.head c (by rw [hcx]; rfl)
  cases k with
  | paragraph =>
    refine .of_inv fun s' y e => ?_
    obtain ⟨hg', -⟩ := paraLine_inv e
    have hne : k' ≠ .paragraph := fun h => by subst h; have := hk rfl; revert this; decide
    cases k' with
    | paragraph => exact hne rfl
    | quote => rw [kindParser, hg'.arrow] at hg; exact hg
    | defs => rw [kindParser, hg'.defs] at hg; exact hg
    | list => rw [kindParser, hg'.list] at hg; exact hg
    | code => rw [kindParser, hg'.code] at hg; exact hg
    | math => rw [kindParser, hg'.math] at hg; exact hg
    | table => rw [kindParser, nestedTable_err hg'.table] at hg; exact hg
    | other => exact hg
  | quote =>
    have hne : k' ≠ .quote := fun h => by subst h; have := hk rfl; revert this; decide
    have := noQuote_of (c := c) (w := ws) (r := x' ++ 10 :: r) (fun y hy => by have := hws y hy; omega) (by omega)
      (fun hp => hx.quote hne (prefix_of_line (r := r) (by rw [hcx]; exact hp) (by decide)))
    rw [hcx]
    exact this
  | defs =>
    have hne : k' ≠ .defs := fun h => by subst h; have := hk rfl; revert this; decide
    exact noTerm_indented hws (hx.term hne)
  | list =>
    have hne : k' ≠ .list := fun h => by subst h; have := hk rfl; revert this; decide
    refine ⟨ws, x ++ 10 :: r, rfl, hws, by omega, ?_, fun _ ty su w hw hp => hx.item hne ty su w hw (prefix_of_line hp hw.no10)⟩
    intro y hy
    rw [hcx] at hy
    simp at hy
    omega
  | table =>
    have hne : k' ≠ .table := fun h => by subst h; have := hk rfl; revert this; decide
    refine ⟨ws, x ++ 10 :: r, rfl, hws, fun y hy => ?_⟩
    have ht := hx.table hne
    rw [hcx] at hy ht
    simp at hy ht
    subst hy
    exact ⟨by omega, ht⟩
  | _ => trivial

end Vw
