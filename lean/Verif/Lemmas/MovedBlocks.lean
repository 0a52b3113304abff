import Verif.Lemmas.MovedInline

/-!
# Blocks further on
-/

namespace Vw
open P Scan
namespace Mv

variable {M : Mv} {α β γ : Type} {env : Env}

/-- The same block further on. -/
def Blk (M : Mv) (x y : Block) : Prop := y = x.moved M.k

/-- The same blocks further on. -/
def Blks (M : Mv) (x y : List (Located Block)) : Prop := y = Block.allMoved M.k x

/-- The same list item further on. -/
def Itm (M : Mv) (x y : ListItem) : Prop := y = ⟨x.ty, x.suffix, x.pos, Block.allMoved M.k x.contents, x.todo⟩

/-- The same cell further on. -/
def Cel (M : Mv) (x y : Cell) : Prop := y = x.moved M.k

theorem All.blks {xs ys : List (Located Block)} (h : All (M.Loc M.Blk) xs ys) : M.Blks xs ys := by
  unfold Blks
  induction h with
  | nil => rfl
  | @cons a b as bs h _ ih =>
    cases a; cases b
    obtain ⟨h1, h2⟩ := h
    simp only [Blk] at h1 h2
    rw [h1, h2, ih, Block.allMoved]

theorem All.itms {xs ys : List (Located ListItem)} (h : All (M.Loc M.Itm) xs ys) : ys = Block.itemsMoved M.k xs := by
  induction h with
  | nil => rfl
  | @cons a b as bs h _ ih =>
    obtain ⟨⟨ty, su, pos, cs, td⟩, r⟩ := a
    cases b
    obtain ⟨h1, h2⟩ := h
    simp only [Itm] at h1 h2
    rw [h1, h2, ih, Block.itemsMoved]

theorem All.lines {xs ys : List Inlines} (h : All M.Inls xs ys) : ys = xs.map (Inline.allMoved M.k) := h.graph

theorem line_eq {x y : Located Inlines} (h : M.Loc M.Inls x y) : y = Inline.lineMoved M.k x :=
  h.eq (Inline.allMoved M.k) id

theorem All.defLines {xs ys : List (Located Inlines)} (h : All (M.Loc M.Inls) xs ys) : ys = xs.map (Inline.lineMoved M.k) :=
  All.graph (h.mono fun _ _ h => line_eq h)

namespace Par

theorem headerTail (n : Nat) : M.Par M.Inls (Vw.headerTail env n) (Vw.headerTail env n) := by
  intro s t hs
  have h := takeUntilEol (M := M) s t hs
  unfold Vw.headerTail
  revert h
  generalize Scan.takeUntilEol s = x
  generalize Scan.takeUntilEol t = y
  intro h
  cases h with
  | @ok _ _ a b h1 h2 =>
    have h := (bind_ trimTrailingWhitespace (bind_ (verify (f := (fun e => e.asRemaining.all (· == c!"=")))
        (g := (fun e => e.asRemaining.all (· == c!"="))) (takeEnd n) fun _ _ h => by rw [h.remaining])
      (bind_ (peek (verify (f := (fun e => e.asRemaining.headD 0 != c!"=")) (g := (fun e => e.asRemaining.headD 0 != c!"="))
        (take 1) fun _ _ h => by rw [h.remaining]))
      (bind_ (peek (verify (f := (fun e => e.asRemaining.headD 0 != c!"=")) (g := (fun e => e.asRemaining.headD 0 != c!"="))
        (takeEnd 1) fun _ _ h => by rw [h.remaining]))
      (bind_ trimWhitespace (inlines (M := M) (env := env))))))) _ _ h2
    revert h
    dsimp only
    generalize P.bind _ _ a = x
    generalize P.bind _ _ b = y
    intro h
    cases h with
    | ok _ h => exact .ok h1 h
    | err => exact .err
    | panic => exact .panic
    | diverge => exact .diverge
  | err => exact .err
  | panic => exact .panic
  | diverge => exact .diverge

theorem header : M.Par (M.Loc M.Blk) (Vw.header env) (Vw.header env) :=
  located (bind_ beginningOfLine (bindE (map space0 fun _ _ h => by rw [h.isEmpty]) fun _ =>
    bindE (verify (map (takeLineWhile1 (char _)) fun _ _ h => h.len.symm) fun _ _ h => by rw [h]) fun _ =>
    bind (headerTail _) fun _ _ h => bind_ endOfLineOrInput (pure (by unfold Blk; rw [h, Block.moved]))))

theorem divider : M.Par (M.Loc M.Blk) Vw.divider Vw.divider :=
  located (bind_ beginningOfLine (bind_ (verify (takeLineWhile1 (char _)) fun _ _ h => by rw [h.len])
    (bind_ endOfLineOrInput (pure (by unfold Blk; rw [Block.moved])))))

theorem indentedBlockquoteLine : M.Par Eq Vw.indentedBlockquoteLine Vw.indentedBlockquoteLine :=
  bind_ (verify space0 fun _ _ h => by rw [h.len]) (bindE (strOf (verify notLineEnding fun _ _ h => by rw [h.onlyWs])) fun _ =>
    bind_ endOfLineOrInput (pure rfl))

theorem indentedBlockquote : M.Par (M.Loc M.Blk) Vw.indentedBlockquote Vw.indentedBlockquote :=
  located (mapE (many1E indentedBlockquoteLine) fun _ => by unfold Blk; rw [Block.moved])

theorem arrowBlockquoteLine : M.Par Eq Vw.arrowBlockquoteLine Vw.arrowBlockquoteLine :=
  bind_ space0 (bind_ (tag _) (bindE (strOf notLineEnding) fun _ => bind_ endOfLineOrInput (pure rfl)))

theorem arrowBlockquote : M.Par (M.Loc M.Blk) Vw.arrowBlockquote Vw.arrowBlockquote :=
  located (mapE (pairE (many1E arrowBlockquoteLine)
    (many0E (pairE (many0E (value blankLine rfl)) arrowBlockquoteLine))) fun _ => by unfold Blk; rw [Block.moved])

theorem blockquote : M.Par (M.Loc M.Blk) Vw.blockquote Vw.blockquote := alt indentedBlockquote arrowBlockquote

theorem dedentLines (n : Nat) (ls : List Str) : M.Par Eq (Vw.dedentLines n ls) (Vw.dedentLines n ls) := by
  intro s t hs
  unfold Vw.dedentLines
  split
  · exact .ok hs rfl
  · exact .panic

theorem indentSize : M.Par Eq Vw.indentSize Vw.indentSize := mapParser space0 countRemainingBytes

theorem codeBlockEnd : M.Par Eq Vw.codeBlockEnd Vw.codeBlockEnd :=
  bindE indentSize fun _ => bind_ (tag _) (bind_ space0 (bind_ endOfLineOrInput (pure rfl)))

theorem codeBlockStart : M.Par Eq Vw.codeBlockStart Vw.codeBlockStart :=
  bindE indentSize fun _ => bind_ (tag _) (bindE (optE (strOf (verify (takeLineUntil1 _) fun _ _ h => by rw [h.remaining]))) fun _ =>
    bind_ space0 (bindE ((separatedList0 space1 ((separatedPair (strOf (takeLineUntil1 _)) (char _)
      (delimited (char _) (strOf (takeLineUntil _)) (char _))).mono fun _ _ => Both.eq)).mono fun _ _ => All.eq) fun _ =>
    bind_ space0 (bind_ endOfLineOrInput (pure rfl))))

theorem codeBlock : M.Par (M.Loc M.Blk) Vw.codeBlock Vw.codeBlock :=
  located (bindE codeBlockStart fun _ => bindE (many0E (preceded (not codeBlockEnd) (strOf anyLine))) fun _ =>
    bindE codeBlockEnd fun _ => bindE (dedentLines _ _) fun _ => pure (by unfold Blk; rw [Block.moved]))

theorem mathBlockStart : M.Par Eq Vw.mathBlockStart Vw.mathBlockStart :=
  bindE indentSize fun _ => bind_ (tag _) (bindE (optE (strOf (delimited (char _) (takeLineUntil1 _) (char _)))) fun _ =>
    bind_ space0 (bind_ lineEnding (pure rfl)))

theorem mathBlockEnd : M.Par Eq Vw.mathBlockEnd Vw.mathBlockEnd :=
  bindE indentSize fun _ => bind_ (tag _) (bind_ space0 (bind_ endOfLineOrInput (pure rfl)))

theorem mathBlock : M.Par (M.Loc M.Blk) Vw.mathBlock Vw.mathBlock :=
  located (bindE mathBlockStart fun _ => bindE (many0E (preceded (not mathBlockEnd) (strOf anyLine))) fun _ =>
    bindE mathBlockEnd fun _ => bindE (dedentLines _ _) fun _ => pure (by unfold Blk; rw [Block.moved]))

theorem placeholderText : M.Par Eq Vw.placeholderText Vw.placeholderText :=
  strOf (verify takeUntilEol fun _ _ h => by rw [h.onlyWs])

theorem placeholder : M.Par (M.Loc M.Blk) (Vw.placeholder env) (Vw.placeholder env) :=
  bind_ beginningOfLine (bind (located (mapE
    (alts_cons (bind_ (tag _) (bind_ space1 (mapE placeholderText fun _ => rfl))) rfl
    (alts_cons (bind_ (tag _) (bind_ space0 (pure rfl))) rfl
    (alts_cons (bind_ (tag _) (bind_ space1 (mapE placeholderText fun _ => rfl))) rfl
    (alts_cons (bind_ (tag _) (bind_ space1 (mapE (mapOptE takeUntilEol fun _ _ h => by rw [h.remaining]) fun _ => rfl))) rfl
    (alts_cons (bind_ (not (tag _)) (bind_ (not (tag _)) (bind_ (not (tag _)) (bind_ (not (tag _)) (bind_ (tag _)
      (bindE (strOf (takeLineUntil31 _ _ _)) fun _ => bind_ space1 (mapE placeholderText fun _ => rfl))))))) rfl alts_nil)))))
    fun _ => by unfold Blk; rw [Block.moved])) fun _ _ h => bind_ endOfLineOrInput (pure h))

theorem termLine : M.Par (Both (M.Loc M.Inls) (Opt (M.Loc M.Inls))) (Vw.termLine env) (Vw.termLine env) :=
  bind_ space0 (bind (located (terminated (mapParser (verify (takeLineUntil1 _) fun _ _ h => by rw [h.trimStart.remaining])
    inlines) (tag _))) fun _ _ h1 => bind (opt (located (preceded space1 (mapParser takeUntilEol inlines)))) fun _ _ h2 =>
    bind_ (pair space0 endOfLineOrInput) (pure ⟨h1, h2⟩))

theorem definitionLine : M.Par (M.Loc M.Inls) (Vw.definitionLine env) (Vw.definitionLine env) :=
  located (bind_ space0 (bind_ (tag _) (bind_ space1 (bind (mapParser takeUntilEol inlines) fun _ _ h =>
    bind_ endOfLineOrInput (pure h)))))

theorem termAndDefinitions : M.Par (Both (M.Loc M.Inls) (M.Loc (All (M.Loc M.Inls))))
    (Vw.termAndDefinitions env) (Vw.termAndDefinitions env) := by
  refine bind termLine fun a b h => ?_
  obtain ⟨t1, d1⟩ := a
  obtain ⟨t2, d2⟩ := b
  obtain ⟨h1, h2⟩ := h
  refine bind (located (verify (many0 definitionLine) fun a b h => ?_)) fun a b h => pure ⟨h1, ?_⟩
  · cases h2 <;> cases h <;> rfl
  · cases h2 with
    | none => exact h
    | some h' => exact ⟨.cons h' h.1, h.2⟩

theorem definitionList : M.Par (M.Loc M.Blk) (Vw.definitionList env) (Vw.definitionList env) := by
  refine located (map (many1 (deeper termAndDefinitions)) fun xs ys h => ?_)
  unfold Blk
  rw [Block.moved]
  congr 1
  induction h with
  | nil => rfl
  | @cons a b as bs h _ ih =>
    obtain ⟨t1, d1⟩ := a
    obtain ⟨t2, d2⟩ := b
    obtain ⟨h1, h2⟩ := h
    simp only at h1 h2
    simp only [List.map_cons, ih, List.cons.injEq, and_true]
    have e1 := line_eq h1
    have e2 := h2.eq (·.map (Inline.lineMoved M.k)) All.defLines
    subst e1 e2
    rfl

theorem columnAlign : M.Par Eq Vw.columnAlign Vw.columnAlign :=
  bindE (optE (char _)) fun _ => bind_ (takeLineWhile1 (char _)) (bindE (optE (char _)) fun _ => pure rfl)

theorem cell : M.Par (M.Loc M.Cel) (Vw.cell env) (Vw.cell env) :=
  located (alts_cons (mapE (value (delimited space0 (tag _) space0) rfl) fun _ => rfl) rfl
    (alts_cons (mapE (value (delimited space0 (tag _) space0) rfl) fun _ => rfl) rfl
    (alts_cons (mapE columnAlign fun _ => rfl) rfl
    (alts_cons (map (mapParser (takeLineUntil1 _) inlineContainer) fun _ _ h => by
      unfold Cel; rw [Cell.moved, h.1]) rfl alts_nil))))

theorem row : M.Par (All (M.Loc M.Cel)) (Vw.row env) (Vw.row env) :=
  terminated (delimited (char _) (separatedList1 (char _) (deeper cell)) (char _)) endOfLineOrInput

/-- One cell of a table further on. -/
abbrev Ent (M : Mv) : CellPos × Located Cell → CellPos × Located Cell → Prop := Both Eq (M.Loc M.Cel)

theorem rowCells {xs ys : List (Located Cell)} (h : All (M.Loc M.Cel) xs ys) (i : Nat) :
    ∀ j, All (Ent M) (Vw.rowCells i j xs) (Vw.rowCells i j ys) := by
  induction h with
  | nil => exact fun _ => .nil
  | cons h _ ih => exact fun j => .cons ⟨rfl, h⟩ (ih _)

theorem tableCells {xs ys : List (List (Located Cell))} (h : All (All (M.Loc M.Cel)) xs ys) :
    ∀ i, All (Ent M) (Vw.tableCells i xs) (Vw.tableCells i ys) := by
  induction h with
  | nil => exact fun _ => .nil
  | cons h _ ih => exact fun i => (rowCells h i 0).append (ih _)

theorem All.keep {xs ys : List (CellPos × Located Cell)} (h : All (Ent M) xs ys) (c : CellPos) :
    All (Ent M) (xs.filter fun x => x.1 ≠ c) (ys.filter fun x => x.1 ≠ c) := by
  induction h with
  | nil => exact .nil
  | @cons a b _ _ h _ ih =>
    have : a.1 = b.1 := h.1
    simp only [List.filter_cons, this]
    split
    · exact .cons h ih
    · exact ih

theorem All.collected {xs ys : List (CellPos × Located Cell)} (h : All (Ent M) xs ys) :
    ∀ {as bs : List (CellPos × Located Cell)}, All (Ent M) as bs →
    All (Ent M) (xs.foldl (fun m e => e :: m.filter (fun x => x.1 ≠ e.1)) as)
      (ys.foldl (fun m e => e :: m.filter (fun x => x.1 ≠ e.1)) bs) := by
  induction h with
  | nil => exact id
  | @cons a b _ _ h _ ih =>
    intro as bs hab
    simp only [List.foldl_cons]
    have e : a.1 = b.1 := h.1
    refine ih (.cons h ?_)
    rw [e]
    exact All.keep hab b.1

theorem All.keys {xs ys : List (CellPos × Located Cell)} (h : All (Ent M) xs ys) : ys.map (·.1) = xs.map (·.1) := by
  induction h with
  | nil => rfl
  | cons h _ ih => rw [List.map_cons, List.map_cons, ih, h.1]

theorem All.entries {xs ys : List (CellPos × Located Cell)} (h : All (Ent M) xs ys) :
    ys = xs.map fun e => (e.1, ⟨e.2.inner.moved M.k, e.2.region.moved M.k⟩) :=
  All.graph (h.mono fun a b h => Prod.ext h.1.symm (h.2.eq (Cell.moved M.k) id))

theorem tableNew {xs ys : List (CellPos × Located Cell)} (h : All (Ent M) xs ys) (c : Bool) :
    Table.new ys c = (Table.new xs c).moved M.k := by
  have hc := All.collected h All.nil
  simp only [Table.new, Table.moved, Table.collect]
  rw [All.keys hc]
  congr 1
  exact All.entries hc

theorem lookup_moved (k : Nat) (pos : CellPos) : ∀ xs : List (CellPos × Located Cell),
    Table.lookupCell (xs.map fun e => (e.1, (⟨e.2.inner.moved k, e.2.region.moved k⟩ : Located Cell))) pos =
      (Table.lookupCell xs pos).map fun x => ⟨x.inner.moved k, x.region.moved k⟩
  | [] => rfl
  | (p, c) :: xs => by
    simp only [List.map_cons, Table.lookupCell]
    split
    · rfl
    · exact lookup_moved k pos xs

theorem divider_moved (k : Nat) (t : Table) (r : Nat) : (t.moved k).isDividerRow r = t.isDividerRow r := by
  unfold Table.isDividerRow Table.getCell Table.moved
  dsimp only
  rw [lookup_moved]
  cases Table.lookupCell t.cells ⟨r, 0⟩ with
  | none => rfl
  | some x => obtain ⟨x, r⟩ := x; cases x <;> rfl

/-- The same table further on. -/
abbrev Tbl (M : Mv) (x y : Table) : Prop := y = x.moved M.k

theorem tableRaw : M.Par (M.Loc (Tbl M)) (Vw.tableRaw env) (Vw.tableRaw env) := by
  refine located (verify (bind space0 fun _ _ h0 => bind row fun _ _ h1 => bind (many0 (preceded space0 row)) fun _ _ h2 =>
    pure ?_) fun a b h => ?_)
  · unfold Tbl
    rw [h0.isEmpty]
    exact tableNew (tableCells (.cons h1 h2) 0) _
  · rw [h]
    have : (a.moved M.k).isDividerRow = a.isDividerRow := funext (divider_moved M.k a)
    rw [this]
    rfl

theorem table : M.Par (M.Loc M.Blk) (Vw.table env) (Vw.table env) :=
  map tableRaw fun _ _ h => ⟨by simp only [Located.map, Blk, Block.moved]; rw [h.1], h.2⟩

theorem nestedTable : M.Par (M.Loc M.Blk) (Vw.nestedTable env) (Vw.nestedTable env) :=
  map tableRaw fun _ _ h => ⟨by simp only [Located.map, Blk, Block.moved]; rw [h.1]; rfl, h.2⟩

theorem paragraphLine : M.Par M.Inls (Vw.paragraphLine env) (Vw.paragraphLine env) := bind_ space0 inlines

theorem continueParagraphOf {p q : P (Located Block)} (hp : M.Par (M.Loc M.Blk) p q) :
    M.Par Eq (Vw.continueParagraphOf env p) (Vw.continueParagraphOf env q) :=
  bind_ (not header) (bind_ (not definitionList) (bind_ (not hp) (bind_ (not table) (bind_ (not codeBlock)
    (bind_ (not mathBlock) (bind_ (not blankLine) (bind_ (not arrowBlockquote) (bind_ (not divider)
    (bind_ (not placeholder) (pure rfl))))))))))

theorem paragraphOf {p q : P (Located Block)} (hp : M.Par (M.Loc M.Blk) p q) :
    M.Par (M.Loc M.Blk) (Vw.paragraphOf env p) (Vw.paragraphOf env q) :=
  located (map (many1 (delimited (continueParagraphOf hp) paragraphLine endOfLineOrInput)) fun _ _ h => by
    unfold Blk; rw [Block.moved, All.lines h])

theorem indentationConsume : M.Par Eq Vw.indentationConsume Vw.indentationConsume := map space0 fun _ _ h => h.len.symm

theorem indentationPeek : M.Par Eq Vw.indentationPeek Vw.indentationPeek := map (peek space0) fun _ _ h => h.len.symm

theorem todoStatus : M.Par Eq Vw.todoStatus Vw.todoStatus :=
  bind_ (tag _) (bindE (alts_cons (value (tag _) rfl) rfl (alts_cons (value (tag _) rfl) rfl (alts_cons (value (tag _) rfl) rfl
    (alts_cons (value (tag _) rfl) rfl (alts_cons (value (tag _) rfl) rfl (alts_cons (value (tag _) rfl) rfl alts_nil))))))
    fun _ => bind_ (tag _) (pure rfl))

theorem orderedType : M.Par Eq Vw.orderedType Vw.orderedType :=
  alts_cons (value digit1 rfl) rfl (alts_cons (value (many1E (oneOf _)) rfl) rfl (alts_cons (value (many1E (oneOf _)) rfl) rfl
    (alts_cons (value (takeWhile1 _) rfl) rfl (alts_cons (value (takeWhile1 _) rfl) rfl alts_nil))))

theorem listItemPrefix : M.Par Eq Vw.listItemPrefix Vw.listItemPrefix :=
  alts_cons (value (tag _) rfl) rfl (alts_cons (value (tag _) rfl) rfl
    (alts_cons (pairE orderedType (alt (value (tag _) rfl) (value (tag _) rfl))) rfl
    (alts_cons (pairE (value (tag _) rfl) (value (tag _) rfl)) rfl alts_nil)))

theorem listItemTailOf {p q : P (Located Block)} (hp : M.Par (M.Loc M.Blk) p q) (n : Nat) :
    M.Par (Both Eq M.Blks) (Vw.listItemTailOf p n) (Vw.listItemTailOf q n) :=
  bindE (optE todoStatus) fun _ => bind (deeper hp) fun _ _ h => bind (many0 (preceded
    (verify indentationPeek fun _ _ h => by rw [h]) (deeper hp))) fun _ _ h' => pure ⟨rfl, All.blks (.cons h h')⟩

theorem itemLines (n : Nat) : M.Par M.Rel (Vw.itemLines n) (Vw.itemLines n) :=
  recognize (pair restOfLine (many0 (preceded (verify indentationPeek fun _ _ h => by rw [h]) restOfLine)))

theorem listItemOf {p q : P (Located Block)} (hp : M.Par (M.Loc M.Blk) p q) :
    M.Par (Both Eq (M.Loc M.Itm)) (Vw.listItemOf p) (Vw.listItemOf q) := by
  refine bind_ beginningOfLine (bindE indentationConsume fun n => fun s t hs => ?_)
  have h := itemLines (M := M) n s t hs
  revert h
  generalize Vw.itemLines n s = x
  generalize Vw.itemLines n t = y
  intro h
  cases h with
  | @ok s' t' a b h1 h2 =>
    dsimp only
    have h := located (M := M) (R := M.Itm) (map (f := (fun ((ty, suffix), (todo, contents)) =>
            (⟨ty, suffix, 0, contents, todo⟩ : ListItem))) (g := (fun ((ty, suffix), (todo, contents)) =>
            (⟨ty, suffix, 0, contents, todo⟩ : ListItem))) (pair listItemPrefix (listItemTailOf hp n)) fun x y h => by
              obtain ⟨⟨a1, a2⟩, a3, a4⟩ := x
              obtain ⟨⟨b1, b2⟩, b3, b4⟩ := y
              obtain ⟨e1, e2, e3⟩ := h
              cases e1; cases e2; cases e3
              rfl) _ _ h2
    revert h
    generalize Scan.located _ a = x
    generalize Scan.located _ b = y
    intro h
    cases h with
    | ok h3 h4 =>
      simp only [hs.lt h3, hs.diff h3]
      split
      · exact .panic
      · exact .ok (hs.advance _) ⟨rfl, h4⟩
    | err => exact .err
    | panic => exact .panic
    | diverge => exact .diverge
  | err => exact .err
  | panic => exact .panic
  | diverge => exact .diverge

theorem assignPos {xs ys : List (Located ListItem)} (h : All (M.Loc M.Itm) xs ys) :
    ∀ i, All (M.Loc M.Itm) (Vw.assignPos i xs) (Vw.assignPos i ys) := by
  induction h with
  | nil => exact fun _ => .nil
  | cons h _ ih => exact fun i => .cons ⟨by simp only [Itm]; rw [h.1], h.2⟩ (ih _)

theorem normalizeItems {xs ys : List (Located ListItem)} (h : All (M.Loc M.Itm) xs ys) :
    All (M.Loc M.Itm) (Vw.normalizeItems xs) (Vw.normalizeItems ys) := by
  cases h with
  | nil => exact .nil
  | cons h hs => exact .cons h (hs.map fun _ _ h' => ⟨by simp only [Itm]; rw [h'.1, h.1], h'.2⟩)

theorem listOf {p q : P (Located Block)} (hp : M.Par (M.Loc M.Blk) p q) :
    M.Par (M.Loc M.Blk) (Vw.listOf p) (Vw.listOf q) := by
  refine located (bind (deeper (listItemOf hp)) fun x y h => ?_)
  obtain ⟨i, x⟩ := x
  obtain ⟨j, y⟩ := y
  obtain ⟨e, h⟩ := h
  cases e
  refine bind (many0 (preceded (verify indentationPeek fun _ _ h => by rw [h]) (map (deeper (listItemOf hp))
    fun _ _ h => h.2))) fun xs ys hl => pure ?_
  unfold Blk
  rw [Block.moved, All.itms (normalizeItems (.cons h (assignPos hl 1)))]

theorem nestedOf {p q : P (Located Block)} (hp : M.Par (M.Loc M.Blk) p q) :
    M.Par (M.Loc M.Blk) (Vw.nestedOf env p) (Vw.nestedOf env q) :=
  alts_cons definitionList rfl (alts_cons hp rfl (alts_cons nestedTable rfl (alts_cons codeBlock rfl (alts_cons mathBlock rfl
    (alts_cons arrowBlockquote rfl (alts_cons (paragraphOf hp) rfl alts_nil))))))

theorem nestedF (n : Nat) : M.Par (M.Loc M.Blk) (Vw.nestedF env n) (Vw.nestedF env n) := by
  induction n with
  | zero => exact fun _ _ _ => .diverge
  | succ n ih => exact nestedOf (listOf ih)

theorem list : M.Par (M.Loc M.Blk) (Vw.list env) (Vw.list env) := fuel (fun n => listOf (nestedF n)) id

theorem paragraph : M.Par (M.Loc M.Blk) (Vw.paragraph env) (Vw.paragraph env) := paragraphOf list

theorem topLevel : M.Par (M.Loc M.Blk) (Vw.topLevel env) (Vw.topLevel env) :=
  alts_cons header rfl (alts_cons definitionList rfl (alts_cons list rfl (alts_cons table rfl (alts_cons codeBlock rfl
    (alts_cons mathBlock rfl (alts_cons blockquote rfl (alts_cons divider rfl (alts_cons placeholder rfl
    (alts_cons paragraph rfl alts_nil)))))))))

theorem maybeBlock : M.Par (Opt (M.Loc M.Blk)) (Vw.maybeBlock env) (Vw.maybeBlock env) :=
  alt (value blankLine .none) (map topLevel fun _ _ h => .some h)

end Par
end Mv
end Vw
