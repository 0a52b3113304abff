import Verif.Lemmas.HtmlShowBlocks
import Verif.Props.Html
import Verif.Spec.HtmlFails

/-!
# Writers fail only for what they need
-/

namespace Vw
open W

variable {L : HtmlLib} {c : HtmlCfg} {α : Type}

/-- The writer succeeds if all it needs is there, and fails as one of its needs does. -/
def Wants (L : HtmlLib) (c : HtmlCfg) (w : W) (N : Need → Prop) : Prop :=
  ∀ f, (∃ g, w f = .ok g ∧ ∀ n, N n → n.answer L c = .ok ()) ∨ ∃ e n, N n ∧ n.answer L c = .error e ∧ w f = .error e

namespace Wants

variable {a b w : W} {A B N : Need → Prop}

theorem iff (h : Wants L c w A) (hi : ∀ n, A n ↔ B n) : Wants L c w B := by
  have : A = B := funext fun n => propext (hi n)
  exact this ▸ h

theorem nop : Wants L c nop fun _ => False := fun f => .inl ⟨f, rfl, fun _ h => h.elim⟩

theorem put (s : Str) : Wants L c (W.put s) fun _ => False := fun _ => .inl ⟨_, rfl, fun _ h => h.elim⟩

theorem seq (ha : Wants L c a A) (hb : Wants L c b B) : Wants L c (a ⊳ b) fun n => A n ∨ B n := by
  intro f
  rcases ha f with ⟨g, h1, h2⟩ | ⟨e, n, h1, h2, h3⟩
  · rcases hb g with ⟨g', h3, h4⟩ | ⟨e, n, h3, h4, h5⟩
    · exact .inl ⟨g', by simp [W.seq, h1, h3, Except.bind], fun n h => h.elim (h2 n) (h4 n)⟩
    · exact .inr ⟨e, n, .inr h3, h4, by simp [W.seq, h1, h5, Except.bind]⟩
  · exact .inr ⟨e, n, .inl h1, h2, by simp [W.seq, h3, Except.bind]⟩

/-- Text before. -/
theorem after {s : Str} (h : Wants L c w N) : Wants L c (W.put s ⊳ w) N := ((put s).seq h).iff fun n => by simp

/-- Text behind. -/
theorem before {s : Str} (h : Wants L c w N) : Wants L c (w ⊳ W.put s) N := (h.seq (put s)).iff fun n => by simp

/-- Text around. -/
theorem around {s e : Str} (h : Wants L c w N) : Wants L c (W.put s ⊳ w ⊳ W.put e) N := h.before.after

theorem each {w : α → W} {N : α → Need → Prop} (l : List α) (h : ∀ x ∈ l, Wants L c (w x) (N x)) :
    Wants L c (W.each w l) fun n => ∃ x ∈ l, N x n := by
  induction l with
  | nil => exact nop.iff fun n => by simp
  | cons x xs ih => exact ((h x (by simp)).seq (ih fun y hy => h y (by simp [hy]))).iff fun n => by simp

theorem each_put {g : α → Str} (l : List α) : Wants L c (W.each (fun x => W.put (g x)) l) fun _ => False :=
  (each l fun x _ => put (g x)).iff fun n => by simp

theorem choose {q : Bool} (ha : q = true → Wants L c a N) (hb : q = false → Wants L c b N) : Wants L c (W.choose q a b) N := by
  cases q with
  | true => exact ha rfl
  | false => exact hb rfl

theorem withId {i : Str} {k : Str → W} (h : ∀ u, Wants L c (k u) N) : Wants L c (W.withId i k) N := by
  intro f
  obtain ⟨u, c', hu⟩ := C41_terminates f.ids i
  have := h u { f with ids := c' }
  simpa only [W.withId, hu] using this

theorem state {k : HFm → W} (h : ∀ f, Wants L c (k f) N) : Wants L c (fun f => k f f) N := fun f => h f f

end Wants

theorem writeAnchor_wants (i : Str) : Wants L c (writeAnchor i) fun _ => False := by
  intro f
  unfold writeAnchor
  cases f.maxLevel with
  | none => exact .inl ⟨f, rfl, fun _ h => h.elim⟩
  | some m => exact (Wants.withId fun u => Wants.put _) f

theorem writeTag_wants (tag : Str) : Wants L c (writeTag L tag) fun _ => False :=
  .withId fun _ => ((writeAnchor_wants _).seq (Wants.put _)).iff fun _ => by simp

theorem writeImg_wants (u : Uri) (d : Option Description) (p : Option Map) : Wants L c (writeImg L u d p) fun _ => False :=
  .after (.after (.after (.put _)))

theorem fmtImg_wants (d : LinkData) : Wants L c (fmtImg L c d) fun n => n = .link (.transclusion d) := by
  intro f
  unfold fmtImg
  cases h : resolveHere L c (.transclusion d) with
  | error e => exact .inr ⟨e, _, rfl, by simp [Need.answer, h, Except.map], rfl⟩
  | ok u =>
    rcases writeImg_wants (L := L) (c := c) u d.desc d.props f with ⟨g, h1, -⟩ | ⟨_, _, h1, -⟩
    · exact .inl ⟨g, h1, fun n hn => by subst hn; simp [Need.answer, h, Except.map]⟩
    · exact h1.elim

theorem link_wants (l : Link) : Wants L c (l.html L c) l.Needs := by
  have main : (∀ d, l ≠ .transclusion d) → Wants L c (fun f =>
      match resolveHere L c l with
      | .error e => .error e
      | .ok u =>
        (W.put (b!"<a href=\"" ++ L.uriStr u ++ b!"\"") ⊳ W.put (propsHtml l.data.props) ⊳
          W.put b!">" ⊳ writeDesc L c u (l.descOr L) ⊳ W.put b!"</a>") f) l.Needs := by
    intro hl f
    cases h : resolveHere L c l with
    | error e => exact .inr ⟨e, _, .inl rfl, by simp [Need.answer, h, Except.map], rfl⟩
    | ok u =>
      have hd : Wants L c (writeDesc L c u (l.descOr L))
          fun n => ∃ u d p, l.data.desc = some (.transclusion u d p) ∧ n = .link (.transclusion ⟨u, d, p⟩) := by
        unfold Link.descOr
        cases hx : l.data.desc with
        | none =>
          cases l <;> exact (Wants.put _).iff fun n => by simp
        | some x =>
          cases x with
          | text s => exact (Wants.put _).iff fun n => by simp
          | transclusion v d p =>
            refine (fmtImg_wants ⟨v, d, p⟩).iff fun n => ⟨fun h => ⟨v, d, p, rfl, h⟩, ?_⟩
            rintro ⟨_, _, _, h, hn⟩
            cases h
            exact hn
      rcases (Wants.after (Wants.after (Wants.after (Wants.before hd)))) f with ⟨g, h1, h2⟩ | ⟨e, n, h1, h2, h3⟩
      · refine .inl ⟨g, h1, fun n hn => ?_⟩
        rcases hn with rfl | ⟨-, hn⟩
        · simp [Need.answer, h, Except.map]
        · exact h2 n hn
      · exact .inr ⟨e, n, .inr ⟨hl, h1⟩, h2, h3⟩
  cases l with
  | transclusion d => exact (fmtImg_wants d).iff fun n => by simp [Link.Needs]
  | _ => exact main (by simp)

theorem comment_wants (x : Comment) : Wants L c (x.html c) fun _ => False := by
  cases x with
  | line s => exact .choose (fun _ => .put _) fun _ => .nop
  | multi ls => exact .choose (fun _ => .around (.each_put ls)) fun _ => .nop

mutual
theorem Inline.html_wants : ∀ x : Inline, Wants L c (Inline.html L c x) x.Needs
  | .text s => by simp only [Inline.html, Inline.Needs]; exact .put _
  | .decorated .bold cs => by
    simp only [Inline.html, Inline.Needs]
    exact .withId fun u => ((writeAnchor_wants _).seq (Inline.htmlAll_wants cs).around).iff fun n => by simp
  | .decorated .italic cs => by simp only [Inline.html, Inline.Needs]; exact (Inline.htmlAll_wants cs).around
  | .decorated .strikeout cs => by simp only [Inline.html, Inline.Needs]; exact (Inline.htmlAll_wants cs).around
  | .decorated .superscript cs => by simp only [Inline.html, Inline.Needs]; exact (Inline.htmlAll_wants cs).around
  | .decorated .subscript cs => by simp only [Inline.html, Inline.Needs]; exact (Inline.htmlAll_wants cs).around
  | .keyword k => by simp only [Inline.html, Inline.Needs]; cases k <;> exact .put _
  | .link l => by simp only [Inline.html, Inline.Needs]; exact link_wants l
  | .tags ts => by
    simp only [Inline.html, Inline.Needs]
    exact (Wants.each ts fun t _ => writeTag_wants t).iff fun n => by simp
  | .code s => by simp only [Inline.html, Inline.Needs]; exact .put _
  | .math s => by simp only [Inline.html, Inline.Needs]; exact .put _
  | .comment x => by simp only [Inline.html, Inline.Needs]; exact comment_wants x
theorem Inline.htmlAll_wants : ∀ xs : List (Located Inline), Wants L c (Inline.htmlAll L c xs) (Inline.NeedsAll xs)
  | [] => by simp only [Inline.htmlAll]; exact Wants.nop.iff fun n => by simp [Inline.NeedsAll]
  | ⟨x, _⟩ :: xs => by
    simp only [Inline.htmlAll]
    exact ((Inline.html_wants x).seq (Inline.htmlAll_wants xs)).iff fun n => by simp [Inline.NeedsAll]
end

theorem quote_wants (ls : List Str) : Wants L c (quoteHtml ls) fun _ => False :=
  .around (.choose (fun _ => .each_put _) fun _ => .each_put _)

theorem defs_wants (items : List (Located TermDefs)) : Wants L c (defListHtml L c items) fun n =>
    ∃ x ∈ items, Inline.NeedsAll x.inner.term.inner n ∨ ∃ d ∈ x.inner.defs.inner, Inline.NeedsAll d.inner n := by
  refine .around (.each items fun x _ => ?_)
  exact .after (((Inline.htmlAll_wants _).seq (.after (.each _ fun d _ => (Inline.htmlAll_wants d.inner).around))))

theorem header_wants (xs : Inlines) (level : Nat) : Wants L c (headerHtml L c xs level) (Inline.NeedsAll xs) := by
  have ht := Inline.htmlAll_wants (L := L) (c := c) xs
  refine .withId fun u => ?_
  have hi : ∀ t, Wants L c (insertHeader level t) fun _ => False := fun t f => .inl ⟨_, rfl, fun _ h => h.elim⟩
  refine ((hi _).seq (.choose (fun _ => .after (.around ht)) fun _ => ?_)).iff fun n => by simp
  intro f
  unfold plainHeader
  split
  · exact (Wants.withId fun cu => .after (.after (.after ((ht.seq ((Wants.put _).seq (.put _))).iff fun n => by simp)))) f
  · exact (Wants.after (.around ht)) f

theorem math_wants (ls : List Str) (env : Option Str) : Wants L c (mathHtml ls env) fun _ => False := by
  cases env with
  | none => exact .around (.each_put ls)
  | some e => exact .around (.each_put ls)

theorem placeholder_wants (p : Placeholder) : Wants L c (placeholderHtml p) fun _ => False := by
  intro f
  cases p <;> exact .inl ⟨_, rfl, fun _ h => h.elim⟩

theorem codeLines_wants (ls : List Str) : Wants L c (codeLines ls) fun _ => False := by
  induction ls with
  | nil => exact .nop
  | cons l ls ih =>
    cases ls with
    | nil => exact .put _
    | cons m ls => exact .after ih

theorem code_wants (lang : Option Str) (md : Map) (ls : List Str) :
    Wants L c (codeHtml L c lang md ls) fun n => c.serverSide = true ∧ n = .code lang ls := by
  intro f
  unfold codeHtml
  by_cases hs : c.serverSide = true
  · rw [if_pos hs]
    cases h : L.highlight lang ls with
    | error e => exact .inr ⟨e, _, ⟨hs, rfl⟩, by simp [Need.answer, h, Except.map], rfl⟩
    | ok s => exact .inl ⟨_, rfl, fun n ⟨_, hn⟩ => by subst hn; simp [Need.answer, h, Except.map]⟩
  · rw [if_neg hs]
    refine Wants.iff (A := fun _ => False) ?_ (fun n => by simp [hs]) f
    exact .after (.after (.after (.after (.after ((codeLines_wants ls).before)))))

theorem paraLines_wants (ls : List Inlines) : Wants L c (paraLines L c ls) fun n => ∃ l ∈ ls, Inline.NeedsAll l n := by
  induction ls with
  | nil => exact Wants.nop.iff fun n => by simp
  | cons l ls ih =>
    cases ls with
    | nil => exact (Inline.htmlAll_wants l).iff fun n => by simp
    | cons m ls => exact ((Inline.htmlAll_wants l).seq ih.after).iff fun n => by simp

theorem paragraph_wants (ls : List Inlines) : Wants L c (paragraphHtml L c ls) fun n => ∃ l ∈ ls, Inline.NeedsAll l n := by
  have h : ∀ (b : Bool) s, Wants L c (W.choose b (W.put s) W.nop) fun _ => False := fun b s => .choose (fun _ => .put _) fun _ => .nop
  exact ((h _ _).seq ((paraLines_wants ls).seq (h _ _))).iff fun n => by simp

theorem cells_wants (t : Table) (tag : Str) (r : Nat) (l : List (Located Cell)) : ∀ n i,
    (∀ j, j ≤ l.length → t.getCell r (i + j) = l[j]?) → l.length < n →
    Wants L c (W.each (cellHtml L c t tag) (drain (Table.withPos (fun col => ⟨r, col⟩) (t.rowNext r)) n i))
      fun n => ∃ x ∈ l, ∃ xs, x.inner = .content xs ∧ Inline.NeedsAll xs n := by
  induction l with
  | nil =>
    intro n i hj hn
    obtain ⟨n, rfl⟩ : ∃ m, n = m + 1 := ⟨n - 1, by simp at hn; omega⟩
    have h0 := hj 0 (by simp)
    simp only [Nat.add_zero, List.getElem?_nil] at h0
    have : drain (Table.withPos (fun col => (⟨r, col⟩ : CellPos)) (t.rowNext r)) (n + 1) i = [] := by
      simp only [drain, Table.withPos, Table.rowNext, h0, Option.map_none]
    rw [this]
    exact Wants.nop.iff fun n => by simp
  | cons x l ih =>
    intro n i hj hn
    obtain ⟨n, rfl⟩ : ∃ m, n = m + 1 := ⟨n - 1, by simp at hn; omega⟩
    have h0 := hj 0 (by simp)
    simp only [Nat.add_zero, List.getElem?_cons_zero] at h0
    have : drain (Table.withPos (fun col => (⟨r, col⟩ : CellPos)) (t.rowNext r)) (n + 1) i =
        (⟨r, i⟩, x) :: drain (Table.withPos (fun col => (⟨r, col⟩ : CellPos)) (t.rowNext r)) n (i + 1) := by
      simp only [drain, Table.withPos, Table.rowNext, h0, Option.map_some]
    rw [this]
    have ih := ih n (i + 1) (fun j hj' => by
      have := hj (j + 1) (by simpa using hj')
      rw [Nat.add_assoc, Nat.add_comm 1 j, this]
      simp) (by simpa using hn)
    obtain ⟨x, reg⟩ := x
    refine Wants.iff (Wants.seq (A := fun n => ∃ xs, x = .content xs ∧ Inline.NeedsAll xs n) ?_ ih) fun n => by simp
    cases x with
    | content xs =>
      refine Wants.iff (A := Inline.NeedsAll xs) ?_ fun n => by simp
      simp only [cellHtml]
      exact .after (.after (.after ((Inline.htmlAll_wants xs).around)))
    | span s => exact Wants.nop.iff fun n => by simp
    | align a => exact Wants.nop.iff fun n => by simp

/-- What a row needs. -/
def Table.RowNeeds (t : Table) (r : Nat) (n : Need) : Prop :=
  ∃ i xs reg, (∀ j, j < i → (t.getCell r j).isSome) ∧ t.getCell r i = some ⟨.content xs, reg⟩ ∧ Inline.NeedsAll xs n

theorem row_wants {t : Table} (ht : t.Built) (tag : Str) (r : Nat) : Wants L c (rowHtml L c t tag r) (t.RowNeeds r) := by
  obtain ⟨l, h1, h2, h3⟩ := ht.row r
  have hc := cells_wants (L := L) (c := c) t tag r l (t.colCnt + 1) 0 (by simpa using h3) (by omega)
  have hany : t.rowHasContent r = true ↔ ∃ x ∈ l, ∃ xs, x.inner = .content xs := by
    simp only [Table.rowHasContent, h1.drain (t.colCnt + 1) (by omega), List.any_eq_true]
    refine exists_congr fun x => and_congr_right fun _ => ?_
    cases x.inner <;> simp [Table.isContent]
  have hneed : ∀ n, (∃ x ∈ l, ∃ xs, x.inner = .content xs ∧ Inline.NeedsAll xs n) ↔ t.RowNeeds r n := by
    intro n
    constructor
    · rintro ⟨⟨x, reg⟩, hx, xs, rfl, hn⟩
      obtain ⟨i, hi, he⟩ := List.getElem_of_mem hx
      refine ⟨i, xs, reg, fun j hj => ?_, ?_, hn⟩
      · rw [h3 j (by omega), List.getElem?_eq_getElem (by omega)]; rfl
      · rw [h3 i (by omega), List.getElem?_eq_getElem hi, he]
    · rintro ⟨i, xs, reg, hj, hx, hn⟩
      have hi : i < l.length := by
        by_cases h : i < l.length
        · exact h
        · exfalso
          have h4 := h3 l.length (Nat.le_refl _)
          rw [List.getElem?_eq_none (Nat.le_refl _)] at h4
          rcases Nat.lt_or_ge l.length i with h5 | h5
          · have := hj _ h5
            rw [h4] at this
            cases this
          · rw [show i = l.length by omega, h4] at hx
            cases hx
      rw [h3 i (by omega), List.getElem?_eq_getElem hi] at hx
      exact ⟨l[i], List.getElem_mem hi, xs, by rw [Option.some.inj hx], hn⟩
  refine Wants.choose (fun _ => (hc.iff hneed).around) fun hb => Wants.nop.iff fun n => ⟨fun h => h.elim, fun h => ?_⟩
  obtain ⟨x, hx, xs, h4, -⟩ := (hneed n).2 h
  rw [hany.2 ⟨x, hx, xs, h4⟩] at hb
  cases hb

theorem table_wants {t : Table} (ht : t.Built) : Wants L c (tableHtml L c t) t.Needs := by
  obtain ⟨H, B, hH, hB, h1, h2, h3⟩ := C20_rows_partition t
  have hp := List.pairwise_append.1 h1
  have hHl : H.length ≤ t.rowCnt := by
    have := sorted_length (n := t.rowCnt) H 0 hp.1 fun x hx => ⟨by omega, ((h2 x).1 (by simp [hx])).1⟩
    omega
  have hBl : B.length ≤ t.rowCnt := by
    have := sorted_length (n := t.rowCnt) B 0 hp.2.1 fun x hx => ⟨by omega, ((h2 x).1 (by simp [hx])).1⟩
    omega
  have hsome : ∀ (next : Nat → Option Nat × Nat) (s : Nat) (l : List Nat), Yields next s l → ((next s).1.isSome = true ↔ l ≠ []) := by
    intro next s l h
    cases h with
    | done h => simp [h]
    | more h _ => simp [h]
  have part : ∀ (tag : Str) (s e : Str) (b : Bool) (rows : List Nat), (b = true ↔ rows ≠ []) →
      Wants L c (W.choose b (W.put s ⊳ W.each (rowHtml L c t tag) rows ⊳ W.put e) W.nop) fun n => ∃ r ∈ rows, t.RowNeeds r n := by
    intro tag s e b rows hb
    refine Wants.choose (fun _ => (Wants.each rows fun r _ => row_wants ht tag r).around) fun hf => Wants.nop.iff fun n => ?_
    have : rows = [] := Classical.byContradiction fun h => by rw [hb.2 h] at hf; cases hf
    subst this
    simp
  simp only [tableHtml]
  rw [hH.drain (t.rowCnt + 1) (by omega), hB.drain (t.rowCnt + 1) (by omega)]
  refine Wants.iff (.after ((part _ _ _ _ H (hsome _ _ _ hH)).seq ((part _ _ _ _ B (hsome _ _ _ hB)).before))) fun n => ?_
  constructor
  · rintro (⟨r, hr, i, xs, reg, h4⟩ | ⟨r, hr, i, xs, reg, h4⟩)
    · have := (h2 r).1 (by simp [hr]); exact ⟨r, i, xs, reg, this.1, this.2, h4⟩
    · have := (h2 r).1 (by simp [hr]); exact ⟨r, i, xs, reg, this.1, this.2, h4⟩
  · rintro ⟨r, i, xs, reg, hr, hd, h4⟩
    rcases List.mem_append.1 ((h2 r).2 ⟨hr, hd⟩) with h | h
    · exact .inl ⟨r, h, i, xs, reg, h4⟩
    · exact .inr ⟨r, h, i, xs, reg, h4⟩

mutual
theorem Block.html_wants : ∀ (x : Block), x.Valid → Wants L c (Block.html L c x) (x.Needs c)
  | .blockquote ls, _ => by simp only [Block.html, Block.Needs]; exact quote_wants ls
  | .code lang md ls, _ => by simp only [Block.html, Block.Needs]; exact code_wants lang md ls
  | .defs items, _ => by simp only [Block.html, Block.Needs]; exact defs_wants items
  | .divider, _ => by simp only [Block.html, Block.Needs]; exact .put _
  | .header xs level _, _ => by simp only [Block.html, Block.Needs]; exact header_wants xs level
  | .list items, h => by simp only [Block.html, Block.Needs]; exact (Block.htmlItems_wants items h).around
  | .math ls env, _ => by simp only [Block.html, Block.Needs]; exact math_wants ls env
  | .paragraph ls, _ => by simp only [Block.html, Block.Needs]; exact paragraph_wants ls
  | .placeholder p, _ => by simp only [Block.html, Block.Needs]; exact placeholder_wants p
  | .table t, h => by simp only [Block.html, Block.Needs]; exact table_wants (Table.Valid.built h)
theorem Block.htmlItems_wants : ∀ (xs : List (Located (ItemF Block))), Block.ValidItems xs →
    Wants L c (Block.htmlItems L c xs) (Block.NeedsItems c xs)
  | [], _ => by simp only [Block.htmlItems]; exact Wants.nop.iff fun n => by simp [Block.NeedsItems]
  | ⟨⟨_, _, _, cs, todo⟩, _⟩ :: xs, h => by
    simp only [Block.htmlItems]
    refine Wants.iff (.after ((Block.htmlContents_wants cs h.1).seq (.after (.after (Block.htmlItems_wants xs h.2))))) fun n => ?_
    simp [Block.NeedsItems]
theorem Block.htmlContents_wants : ∀ (xs : List (Located Block)), Block.Valids xs →
    Wants L c (Block.htmlContents L c xs) (Block.NeedsAll c xs)
  | [], _ => by simp only [Block.htmlContents]; exact Wants.nop.iff fun n => by simp [Block.NeedsAll]
  | ⟨x, _⟩ :: xs, h => by
    simp only [Block.htmlContents]
    exact ((Block.html_wants x h.1).seq (Block.htmlContents_wants xs h.2)).iff fun n => by simp [Block.NeedsAll]
end

theorem blocks_wants : ∀ (xs : List (Located Block)), Block.Valids xs →
    Wants L c (W.each (fun x => Block.html L c x.inner ⊳ W.put b!"\n") xs) (Block.NeedsAll c xs)
  | [], _ => Wants.nop.iff fun n => by simp [Block.NeedsAll]
  | ⟨x, _⟩ :: xs, h => (((Block.html_wants x h.1).before).seq (blocks_wants xs h.2)).iff fun n => by simp [Block.NeedsAll]

theorem page_wants {p : Page} (h : p.Valid) : Wants L c (pageHtml L c p) (p.Needs c) := blocks_wants p.elements h

end Vw
