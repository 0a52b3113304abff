import Verif.Lemmas.ListRun

/-!
# Lists with all their contents are read back
-/

namespace Vw
open P Scan Fm

variable {env : Env} {ue : Uri → Uri → Bool} {L : OutLib} {cfg : VwCfg} {s s' s1 : Span} {t w r ws : Str}

/-- The item read for `x`. -/
def ItemQ (ue : Uri → Uri → Bool) (x y : Located (ItemF Block)) : Prop :=
  (x.inner.pos = 0 → y.inner.ty = x.inner.ty) ∧ y.inner.suffix = x.inner.suffix ∧ y.inner.todo = x.inner.todo ∧
    Block.eqvs false ue y.inner.contents x.inner.contents = true

/-- The block read for `x`. -/
def BlockQ (ue : Uri → Uri → Bool) (x y : Located Block) : Prop := y.inner.eqv false ue x.inner = true

theorem each_eqvs : ∀ (xs ys : List (Located Block)), Each (xs.map (BlockQ ue)) ys → Block.eqvs false ue ys xs = true := by
  intro xs
  induction xs with
  | nil => intro ys h; cases h; rfl
  | cons x xs ih =>
    intro ys h
    cases h with
    | cons h1 h2 =>
      rename_i y ys
      obtain ⟨x, _⟩ := x
      obtain ⟨y, _⟩ := y
      have h1 : y.eqv false ue x = true := h1
      rw [Block.eqvs, h1, ih _ h2]
      rfl

/-- The items of a list after the first one. -/
def nextItem (env : Env) (n m : Nat) : P (Located ListItem) :=
  preceded (verify indentationPeek (fun level => decide (level = m))) (P.map (deeper (listItemOf (nestedF env n))) (·.2))

/-- The contents of an item after the first one. -/
def nextContent (env : Env) (n m : Nat) : P (Located Block) :=
  preceded (verify indentationPeek (fun level => decide (level > m))) (deeper (nestedF env n))

/-- The items are read one by one. -/
def ItemsRun (env : Env) (ue : Uri → Uri → Bool) (n m : Nat) (s s' : Span) : List (Located (ItemF Block)) → Prop
  | [] => True
  | x :: xs => ∃ k, 0 < k ∧
      Gives (deeper (listItemOf (nestedF env n)) s) (adv s k) (fun y => y.1 = m ∧ y.2.inner.pos = 0 ∧ ItemQ ue x y.2) ∧
      Many (nextItem env n m) (adv s k) (xs.map (ItemQ ue)) s'

/-- The contents are read one by one. -/
def ContsRun (env : Env) (ue : Uri → Uri → Bool) (n m d : Nat) (s s' : Span) : List (Located Block) → Prop
  | [] => True
  | x :: xs => ∃ k, 0 < k ∧
      (∀ n, Gives (kindParser env n x.inner.kind (s.withDepth d)) (adv (s.withDepth d) k) (BlockQ ue x)) ∧
      Gives (deeper (nestedF env n) s) (adv s k) (BlockQ ue x) ∧
      Many (nextContent env n m) (adv s k) (xs.map (BlockQ ue)) s'

theorem ContsRun.split {n m d : Nat} {x : Located Block} {cs xs : List (Located Block)} (h : ContsRun env ue n m d s s' cs)
    (e : cs = x :: xs) : ∃ k, 0 < k ∧ Gives (deeper (nestedF env n) s) (adv s k) (BlockQ ue x) ∧
      Many (nextContent env n m) (adv s k) (xs.map (BlockQ ue)) s' := by
  subst e
  obtain ⟨k, h1, -, h2⟩ := h
  exact ⟨k, h1, h2⟩

theorem nextItem_end {n m : Nat} (h : View s r) (hr : EndsList m r) : Fails (nextItem env n m s) := by
  obtain ⟨ws, q, rfl, hw, hm, hq, hp⟩ := hr
  by_cases he : ws.length = m
  · refine Fails.bind2 (Q := fun _ => True) (s1 := s) (Gives.verify (.of_ok (peek_run h hw hq) (Q := fun y => y = ws.length) rfl) (by
      rintro _ rfl; simpa using he) |>.mono fun _ _ => trivial) fun _ _ => Fails.map (.of_inv fun s' y e => ?_)
    obtain ⟨s2, e, -⟩ := deeper_inv e
    obtain ⟨ws', ty, su, w, r, e, hw', hpt⟩ := listItem_begins (h.withDepth _) e
    exact hp he ty su w hpt (Begins.strip (p := w) ⟨ws', r, e, hw'⟩ hw hq hpt.head.2 hpt.head.1)
  · refine Fails.bind (Fails.verify2 (Q := fun y => y = ws.length) (.of_ok (peek_run h hw hq) rfl) ?_)
    rintro _ rfl
    simpa using he

theorem itemsRun_many {n m : Nat} {xs : List (Located (ItemF Block))} (hx : ItemsRun env ue n m s s' xs)
    (hm : xs ≠ [] → ∃ ws q, View s (ws ++ q) ∧ AllBlank ws ∧ ws.length = m ∧ ∀ x, q.head? = some x → ¬ (x = 32 ∨ x = 9))
    (he : xs = [] → s' = s ∧ Fails (nextItem env n m s)) : Many (nextItem env n m) s (xs.map (ItemQ ue)) s' := by
  cases xs with
  | nil => obtain ⟨rfl, h⟩ := he rfl; exact .nil h
  | cons x xs =>
    obtain ⟨k, hk, h1, h2⟩ := hx
    obtain ⟨ws, q, hv, hw, hl, hq⟩ := hm (by simp)
    refine .cons (n := k) ?_ hk h2
    refine Gives.bind (Q := fun y => y = ws.length) (s1 := s) (Gives.verify (.of_ok (peek_run hv hw hq) rfl) (by
      rintro _ rfl; simpa using hl)) fun _ _ => ?_
    exact Gives.map h1 fun y hy => hy.2.2

theorem contsRun_many {n m d : Nat} {xs : List (Located Block)} (hx : ContsRun env ue n m d s s' xs)
    (hm : xs ≠ [] → ∃ ws q, View s (ws ++ q) ∧ AllBlank ws ∧ m < ws.length)
    (he : xs = [] → s' = s ∧ View s []) : Many (nextContent env n m) s (xs.map (BlockQ ue)) s' := by
  cases xs with
  | nil =>
    obtain ⟨rfl, h⟩ := he rfl
    refine .nil (Fails.bind (Fails.verify2 (Q := fun y => y = 0) (.of_ok (peek_run (ws := []) (r := []) h (by simp [AllBlank])
      (by simp)) rfl) ?_))
    rintro _ rfl
    simp
  | cons x xs =>
    obtain ⟨k, hk, -, h1, h2⟩ := hx
    obtain ⟨ws, q, hv, hw, hl⟩ := hm (by simp)
    obtain ⟨j, hj, hj2⟩ := peek_some hv hw
    refine .cons (n := k) ?_ hk h2
    refine Gives.bind (Q := fun y => y = j) (s1 := s) (Gives.verify (.of_ok hj rfl) (by
      rintro _ rfl; simp; omega)) fun _ _ => h1

/-- The list read from its items. -/
theorem list_eqv {x y : Located (ItemF Block)} {xs ys : List (Located (ItemF Block))} {d : Nat} {ty : Option ItemType}
    (hok : ItemsOk env ue L cfg d 0 ty (x :: xs)) (hy : ItemQ ue x y) (hp : y.inner.pos = 0)
    (hys : Each (xs.map (ItemQ ue)) ys) :
    Block.eqv false ue (.list (normalizeItems (y :: assignPos 1 ys))) (.list (x :: xs)) = true := by
  have key : ∀ (xs ys : List (Located (ItemF Block))) (pos : Nat), 0 < pos → ItemsOk env ue L cfg d pos (some y.inner.ty) xs →
      Each (xs.map (ItemQ ue)) ys →
      Block.eqvItems false ue ((assignPos pos ys).map (fun x => ⟨{ x.inner with ty := y.inner.ty }, x.region⟩)) xs = true := by
    intro xs
    induction xs with
    | nil => intro ys pos _ _ h; cases h; rfl
    | cons x xs ih =>
      intro ys pos hpos hok h
      cases h with
      | cons h1 h2 =>
        rename_i z zs
        obtain ⟨⟨ty', su, p, cs, td⟩, _⟩ := x
        obtain ⟨⟨ty2, su2, p2, cs2, td2⟩, _⟩ := z
        simp only [ItemsOk] at hok
        obtain ⟨e1, e2, -, -, -, -, -, h8⟩ := hok
        obtain ⟨-, h3, h4, h5⟩ := h1
        simp only [assignPos, List.map_cons, Block.eqvItems]
        rw [ih zs (pos + 1) (by omega) h8 h2]
        simp only at h3 h4 h5
        simp only [Option.some.injEq] at e1
        simp [e1, e2, h3, h4, h5]
  obtain ⟨⟨ty', su, p, cs, td⟩, _⟩ := x
  obtain ⟨⟨ty2, su2, p2, cs2, td2⟩, _⟩ := y
  simp only [ItemsOk] at hok
  obtain ⟨e1, e2, -, -, -, -, -, h8⟩ := hok
  obtain ⟨h1, h3, h4, h5⟩ := hy
  simp only at h1 h3 h4 h5 hp
  have h1 := h1 e2
  subst h1
  rw [e1] at h8
  have := key xs ys 1 (by omega) h8 hys
  simp only [normalizeItems, Block.eqv, Block.eqvItems]
  rw [this]
  simp [e2, h3, h4, h5, hp]

theorem indent_lt (hn : cfg.indentStr ≠ []) (i : Nat) : (indentText cfg i).length < (indentText cfg (i + 1)).length := by
  unfold indentText
  rw [List.replicate_succ, List.flatten_cons, List.length_append]
  have := List.length_pos_iff.2 hn
  omega

/-- Contents cannot be taken for a todo status, whatever their indentation. -/
theorem todo_free {f : Nat → Str} {k : BlockKind} (hf : FirstLine cfg k f) {i j : Nat} {x : Todo} (h : todoText (some x) <+: f i) :
    todoText (some x) <+: f j := by
  obtain ⟨l, -, ht⟩ := hf
  obtain ⟨t1, e1, -⟩ := ht i
  obtain ⟨t2, e2, -⟩ := ht j
  rw [e1] at h
  rw [e2]
  exact (prefix_of_line h (todo_line (some x)).1).trans (List.prefix_append _ _)

theorem lastWord_space {c : Str} (h : c.getLast? = some 32) : lastWord c = [] := by
  have hn : c ≠ [] := by rintro rfl; cases h
  rw [List.getLast?_eq_some_getLast hn] at h
  simp at h
  rw [← List.dropLast_concat_getLast hn, h]
  exact lastWord_nil_of_ws (by decide)

theorem itemsText_true {i : Nat} {xs : List (Located (ItemF Block))} (hne : xs ≠ []) :
    itemsText L cfg i true xs = indentText cfg i ++ itemsText L cfg i false xs := by
  cases xs with
  | nil => exact absurd rfl hne
  | cons y ys =>
    obtain ⟨⟨ty, su, p, cs, td⟩, _⟩ := y
    simp [itemsText]

mutual
theorem block_gives (hs : env.SchemeSound) (hI : AllBlank cfg.indentStr) (hn : cfg.indentStr ≠ []) {d : Nat} :
    ∀ (x : Block) (i n : Nat) (b : Bool) (s : Span) (r : Str), NestOk env ue L cfg d x → s.depth = d →
      View s (blockText L cfg i b x ++ r) → lastWord s.asConsumed = [] →
      ((b = true ∧ AtBol s) ∨ x.kind = .paragraph ∨ x.kind = .quote ∨ x.kind = .table) →
      BlockEnd env n (indentText cfg i).length r (adv s (blockText L cfg i b x).length) x.kind →
      Gives (kindParser env n x.kind s) (adv s (blockText L cfg i b x).length) fun y => y.inner.eqv false ue x = true
  | .paragraph ls, i, n, b, s, r, h, hd, hv, hw, hb, he => by
    simp only [NestOk] at h
    subst hd
    exact paragraph_gives hs (listLike_listOf _) (allBlank_indent hI i) h.1.1 hv hw
      (fun l hl => ⟨(h.1.2 l hl).1, (h.1.2 l hl).2, (h.2 l hl).2⟩) he
  | .blockquote ls, i, n, b, s, r, h, hd, hv, hw, hb, he => by
    simp only [NestOk] at h
    exact quote_gives (allBlank_indent hI i) h.1 hv (fun l hl => ⟨(h.2.2.2 l hl).1, (h.2.2.2 l hl).2.1⟩)
      (quoteStop (View.adv hv) he)
  | .defs xs, i, n, b, s, r, h, hd, hv, hw, hb, he => by
    simp only [NestOk] at h
    subst hd
    refine defs_gives hs (allBlank_indent hI i) hv hw ?_ h he
    cases xs with
    | nil => exact absurd rfl h.1
    | cons x xs => have := (h.2 x (by simp)).2.2.1; omega
  | .list xs, i, n, b, s, r, h, hd, hv, hw, hb, he => by
    simp only [NestOk] at h
    obtain ⟨rfl, hbol⟩ : b = true ∧ AtBol s := by
      rcases hb with hb | hb | hb | hb
      · exact hb
      · cases hb
      · cases hb
      · cases hb
    have hrun := items_gives hs hI hn xs i n 0 _ s r h.2 hd hv hbol he
    obtain ⟨hne, hok⟩ := h
    cases xs with
    | nil => exact absurd rfl hne
    | cons x xs =>
      obtain ⟨k, hk, h1, h2⟩ := hrun
      refine Gives.located (Q := fun y : Block => y.eqv false ue (.list (x :: xs)) = true) ?_
      refine Gives.bind h1 ?_
      rintro ⟨m, item⟩ ⟨hm, hp, hq⟩
      simp only at hm hp hq
      subst hm
      exact Gives.bind h2.many0 fun ys hys => Gives.pure (list_eqv hok hq hp hys)
  | .code lang md ls, i, n, b, s, r, h, hd, hv, hw, hb, he => by
    simp only [NestOk] at h
    obtain ⟨rfl, -⟩ : b = true ∧ AtBol s := by
      rcases hb with hb | hb | hb | hb
      · exact hb
      · cases hb
      · cases hb
      · cases hb
    exact nest_code (allBlank_indent hI i) hv h.1 h.2.1 h.2.2.1 h.2.2.2
  | .math ls en, i, n, b, s, r, h, hd, hv, hw, hb, he => by
    simp only [NestOk] at h
    obtain ⟨rfl, -⟩ : b = true ∧ AtBol s := by
      rcases hb with hb | hb | hb | hb
      · exact hb
      · cases hb
      · cases hb
      · cases hb
    exact nest_math (allBlank_indent hI i) hv h.1 h.2.1 h.2.2
  | .header _ _ _, i, n, b, s, r, h, hd, hv, hw, hb, he => by simp only [NestOk] at h
  | .divider, i, n, b, s, r, h, hd, hv, hw, hb, he => by simp only [NestOk] at h
  | .placeholder _, i, n, b, s, r, h, hd, hv, hw, hb, he => by simp only [NestOk] at h
  | .table t, i, n, b, s, r, h, hd, hv, hw, hb, he => by
    simp only [NestOk] at h
    refine Gives.map (table_raw hs hI h.1 hd hv he) fun y hy => ?_
    have := hy.1
    rw [h.2] at this
    simpa [Located.map, Block.eqv] using this
theorem items_gives (hs : env.SchemeSound) (hI : AllBlank cfg.indentStr) (hn : cfg.indentStr ≠ []) {d : Nat} :
    ∀ (xs : List (Located (ItemF Block))) (i n pos : Nat) (ty : Option ItemType) (s : Span) (r : Str),
      ItemsOk env ue L cfg d pos ty xs → s.depth = d → View s (itemsText L cfg i true xs ++ r) → AtBol s →
      EndsList (indentText cfg i).length r →
      ItemsRun env ue n (indentText cfg i).length s (adv s (itemsText L cfg i true xs).length) xs
  | [], i, n, pos, ty, s, r, h, hd, hv, hb, he => trivial
  | ⟨⟨ty', su, p, cs, td⟩, reg⟩ :: xs, i, n, pos, ty, s, r, h, hd, hv, hb, he => by
    simp only [ItemsOk] at h
    obtain ⟨h1, h2, ⟨ty2, h3, h3'⟩, h4, h5, ⟨x, rest, hcs, hk⟩, h7, h8⟩ := h
    obtain ⟨l, hl, ht⟩ := contents_first hI cs x rest h7 hcs
    obtain ⟨t, e1, e2⟩ := ht (i + 1)
    dsimp only at e1
    -- what follows the item
    have hnext : xs ≠ [] → ∃ q, itemsText L cfg i true xs ++ r = indentText cfg i ++ q ∧
        ∀ z, q.head? = some z → ¬ (z = 32 ∨ z = 9) := fun hne => by
      obtain ⟨l', hl', ht'⟩ := items_first hI xs (pos + 1) ty h8 hne
      obtain ⟨t', e1', -⟩ := ht' i
      dsimp only at e1'
      refine ⟨l' ++ 10 :: (t' ++ r), by rw [itemsText_true hne, e1']; simp, fun z hz => ?_⟩
      have := hl'.head z (by
        cases l' with
        | nil => exact absurd rfl hl'.ne
        | cons c l' => simpa using hz)
      omega
    have hstop : StopAt (indentText cfg i).length (itemsText L cfg i true xs ++ r) := by
      by_cases hne : xs = []
      · subst hne; simpa [itemsText] using he.stop
      · obtain ⟨q, hq, hq2⟩ := hnext hne
        exact ⟨indentText cfg i, q, hq, allBlank_indent hI i, Nat.le_refl _, hq2⟩
    have hv' : View s (indentText cfg i ++ ((ty'.toPrefix L.rom p su ++ b!" ") ++
        (todoText td ++ contentsText L cfg (i + 1) false cs) ++ (itemsText L cfg i true xs ++ r))) := by
      simpa [itemsText] using hv
    have hlen : ∀ q : Str, (indentText cfg i).length + ((ty'.toPrefix L.rom p su ++ b!" ") ++
        (todoText td ++ contentsText L cfg (i + 1) false cs)).length + q.length =
        (indentText cfg i ++ (ty'.toPrefix L.rom p su ++ b!" " ++ (todoText td ++
          (contentsText L cfg (i + 1) false cs ++ q)))).length := by
      intro q; simp; omega
    -- the item after the blanks in front of it
    refine ⟨(indentText cfg i).length + ((ty'.toPrefix L.rom p su ++ b!" ") ++
        (todoText td ++ contentsText L cfg (i + 1) false cs)).length, by simp; omega, ?_, ?_⟩
    · refine Gives.deeper fun _ => ?_
      have hvd := View.withDepth hv' (s.depth + 1)
      have hvc : View (cut (adv (s.withDepth (s.depth + 1)) (indentText cfg i).length) ((ty'.toPrefix L.rom p su ++ b!" ") ++
            (todoText td ++ contentsText L cfg (i + 1) false cs)).length)
            ((ty'.toPrefix L.rom p su ++ b!" " ++ todoText td) ++ contentsText L cfg (i + 1) false cs) := by
        rw [List.append_assoc (ty'.toPrefix L.rom p su ++ b!" ")]
        exact View.cut (View.adv hvd)
      have hc : ContsRun env ue n (indentText cfg i).length (d + 2)
          (adv (cut (adv (s.withDepth (s.depth + 1)) (indentText cfg i).length) ((ty'.toPrefix L.rom p su ++ b!" ") ++
            (todoText td ++ contentsText L cfg (i + 1) false cs)).length)
            ((ty'.toPrefix L.rom p su ++ b!" ").length + (todoText td).length)) _ cs :=
        contents_gives hs hI hn cs (i + 1) n (indentText cfg i).length false _ h7 h5 (by
            simp [adv, cut, Span.withDepth, hd]) (by
            have := View.adv hvc
            rwa [List.length_append (bs := todoText td)] at this) (by
            rw [← List.length_append, View.consumed hvc]
            exact lastWord_space (by rw [List.getLast?_append, todo_last]; rfl)) (.inr ⟨x, rest, hcs, hk⟩) (indent_lt hn i)
      obtain ⟨k, hk0, g1, g2⟩ := hc.split hcs
      refine (item_gives (ty := ty2) (Qs := rest.map (BlockQ ue)) (l := (ty'.toPrefix L.rom p su ++ b!" ") ++ (todoText td ++ l)) (t2 := t) (by exact hb)
        (allBlank_indent hI i) hvd h3 (by rw [e1]; simp) ?_ (e2 _ (indent_lt hn i)) hstop ?_ rfl g1 g2).mono ?_
      · intro h
        rcases List.mem_append.1 h with h | h
        · exact h3.no10 h
        · rcases List.mem_append.1 h with h | h
          · exact (todo_line td).1 h
          · exact hl.line h
      · rintro rfl z hz
        exact h4 z (todo_free (contents_first hI cs x rest h7 hcs) hz)
      · rintro ⟨m, y⟩ ⟨q1, q2, q3, q4, q5, q6⟩
        refine ⟨q1, q2, fun hp => ?_, q4, q5, ?_⟩
        · rw [q3]
          exact h3' (by simp only at hp; omega)
        · have := each_eqvs (x :: rest) _ q6
          simpa [hcs] using this
    · have hv2 := View.adv (w := indentText cfg i ++ ((ty'.toPrefix L.rom p su ++ b!" ") ++
        (todoText td ++ contentsText L cfg (i + 1) false cs))) (s := s) (r := itemsText L cfg i true xs ++ r) (by simpa using hv')
      have hb2 := AtBol.after (w := indentText cfg i ++ ((ty'.toPrefix L.rom p su ++ b!" ") ++
        (todoText td ++ contentsText L cfg (i + 1) false cs))) (s := s) (r := itemsText L cfg i true xs ++ r) (by simpa using hv') (by
          have := (contents_text hI cs i [] h7 Whole.nil).2 false (by rw [hcs]; simp)
          rw [List.getLast?_append, List.getLast?_append, List.getLast?_append, this]
          rfl)
      rw [List.length_append] at hv2 hb2
      have hrest := items_gives hs hI hn xs i n (pos + 1) ty _ r h8 (by simpa [adv] using hd) hv2 hb2 he
      rw [adv_adv] at hrest
      have htot : (itemsText L cfg i true (⟨⟨ty', su, p, cs, td⟩, reg⟩ :: xs)).length =
          (indentText cfg i).length + ((ty'.toPrefix L.rom p su ++ b!" ") ++
            (todoText td ++ contentsText L cfg (i + 1) false cs)).length + (itemsText L cfg i true xs).length := by
        rw [hlen, itemsText]
        simp
      rw [← htot] at hrest
      refine itemsRun_many hrest (fun hne => ?_) fun hnil => ?_
      · obtain ⟨q, hq, hq2⟩ := hnext hne
        exact ⟨indentText cfg i, q, hq ▸ hv2, allBlank_indent hI i, rfl, hq2⟩
      · subst hnil
        rw [htot]
        exact ⟨rfl, nextItem_end hv2 he⟩
theorem contents_gives (hs : env.SchemeSound) (hI : AllBlank cfg.indentStr) (hn : cfg.indentStr ≠ []) {d : Nat} :
    ∀ (cs : List (Located Block)) (i n m : Nat) (b : Bool) (s : Span),
      ContsOk env ue L cfg d cs → Apart cs → s.depth + 1 = d → View s (contentsText L cfg i b cs) →
      lastWord s.asConsumed = [] →
      ((b = true ∧ AtBol s) ∨ ∃ x rest, cs = x :: rest ∧ (x.inner.kind = .paragraph ∨ x.inner.kind = .quote ∨ x.inner.kind = .table)) →
      m < (indentText cfg i).length →
      ContsRun env ue n m d s (adv s (contentsText L cfg i b cs).length) cs
  | [], i, n, m, b, s, h, ha, hd, hv, hw, hb, hm => trivial
  | ⟨x, reg⟩ :: xs, i, n, m, b, s, h, ha, hd, hv, hw, hb, hm => by
    simp only [ContsOk] at h
    obtain ⟨h1, h2⟩ := h
    obtain ⟨l, hl, ht⟩ := block_first hI x h1
    obtain ⟨t, e1, -⟩ := ht i
    dsimp only at e1
    have hlast := (block_text hI x i [] h1 Whole.nil).2 b
    have hv1 : View (adv s (blockText L cfg i b x).length) (contentsText L cfg i true xs) := View.adv (by simpa [contentsText] using hv)
    have hb1 : AtBol (adv s (blockText L cfg i b x).length) :=
      AtBol.after (r := contentsText L cfg i true xs) (by simpa [contentsText] using hv) hlast
    have hrest : ∀ n, ContsRun env ue n m d (adv s (blockText L cfg i b x).length) _ xs := fun n =>
      contents_gives hs hI hn xs i n m true _ h2 (by
        cases xs with
        | nil => trivial
        | cons y ys => exact ha.2) (by simpa [adv] using hd) hv1 hb1.lastWord (.inl ⟨rfl, hb1⟩) hm
    have hend : ∀ n, BlockEnd env n (indentText cfg i).length (contentsText L cfg i true xs)
        (adv (s.withDepth d) (blockText L cfg i b x).length) x.kind := fun n => by
      cases xs with
      | nil => exact blockEnd_nil hs (by
          rw [contentsText] at hv1; exact hv1.withDepth d) n _ _
      | cons y ys =>
        obtain ⟨y, reg'⟩ := y
        obtain ⟨k, -, hk, -⟩ := hrest n
        have h2' := h2
        simp only [ContsOk] at h2'
        obtain ⟨l', hl', ht'⟩ := block_first hI y h2'.1
        obtain ⟨t', e1', -⟩ := ht' i
        dsimp only at e1'
        have : contentsText L cfg i true (⟨y, reg'⟩ :: ys) = indentText cfg i ++ (l' ++ 10 :: (t' ++ contentsText L cfg i true ys)) := by
          rw [contentsText, blockText_true h2'.1, e1']; simp
        rw [this]
        exact blockEnd_next (allBlank_indent hI i) rfl hl' ha.1 (hk n)
    have hg : ∀ n, Gives (kindParser env n x.kind (s.withDepth d)) (adv (s.withDepth d) (blockText L cfg i b x).length)
        (BlockQ ue ⟨x, reg⟩) := fun n =>
      block_gives hs hI hn x i n b (s.withDepth d) _ h1 rfl (by simpa [contentsText] using hv.withDepth d) hw (by
        rcases hb with ⟨hb, hbol⟩ | ⟨y, rest, e, hb⟩
        · exact .inl ⟨hb, hbol⟩
        · obtain ⟨e, -⟩ := List.cons.inj e
          subst e
          exact .inr hb) (hend n)
    refine ⟨(blockText L cfg i b x).length, ?_, hg, ?_, ?_⟩
    · cases hz : blockText L cfg i b x with
      | nil => rw [hz] at hlast; cases hlast
      | cons _ _ => simp
    · refine Gives.deeper fun _ => ?_
      rw [hd]
      have hvx : ∃ ws, AllBlank ws ∧ blockText L cfg i b x = ws ++ (l ++ 10 :: t) := by
        cases b with
        | false => exact ⟨[], by simp [AllBlank], e1⟩
        | true => exact ⟨indentText cfg i, allBlank_indent hI i, by rw [blockText_true h1, e1]⟩
      obtain ⟨ws, hws, hvx⟩ := hvx
      exact nestedF_gives (r := t ++ contentsText L cfg i true xs) hws (by
        have := hv.withDepth d
        rw [contentsText, hvx] at this
        simpa using this) hl hg n
    · refine contsRun_many (d := d) ?_ (fun hne => ?_) fun hnil => ?_
      · have := hrest n
        rw [adv_adv] at this
        rw [contentsText, List.length_append]
        exact this
      · cases xs with
        | nil => exact absurd rfl hne
        | cons y ys =>
          obtain ⟨y, reg'⟩ := y
          have h2' := h2
          simp only [ContsOk] at h2'
          refine ⟨indentText cfg i, blockText L cfg i false y ++ contentsText L cfg i true ys, ?_, allBlank_indent hI i, hm⟩
          rw [contentsText, blockText_true h2'.1] at hv1
          simpa using hv1
      · subst hnil
        exact ⟨by simp [contentsText], by simpa [contentsText] using hv1⟩
end

end Vw
