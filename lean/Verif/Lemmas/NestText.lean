import Verif.Lemmas.DefsRun
import Verif.Lemmas.RoundTrip
import Verif.Lemmas.TableWritten
import Verif.Spec.NestText

/-!
# The text of lists
-/

namespace Vw
open P Scan Fm

variable {env : Env} {ue : Uri → Uri → Bool} {L : OutLib} {cfg : VwCfg} {s s' : Span} {t w r ws : Str} {k : Nat}

/-! ## The formatter writes it -/

theorem rawText_last {ind : Str} : ∀ ls : List Str, ∀ c : Str, c.getLast? = some 10 →
    (c ++ rawText ind ls).getLast? = some 10 := by
  intro ls
  induction ls with
  | nil => intro c hc; simpa [rawText] using hc
  | cons l ls ih =>
    intro c hc
    have := ih (c ++ (ind ++ (l ++ b!"\n"))) (by rw [← List.append_assoc, ← List.append_assoc]; exact getLast?_nl _)
    simpa [rawText] using this

theorem rawLines_text {i : Nat} : ∀ (ls : List Str) (c : Str), c.getLast? = some 10 →
    rawLinesFmt cfg ls ⟨c, i, false⟩ = ⟨c ++ rawText (indentText cfg i) ls, i, false⟩ := by
  intro ls
  induction ls with
  | nil => intro c _; simp [rawLinesFmt, rawText]
  | cons l ls ih =>
    intro c hc
    rw [rawLinesFmt, writeIndent_eq, write_eq, write_eq, ih _ (getLast?_nl _), bol_last hc]
    simp [rawText, indentAt]

theorem code_text {i : Nat} {c : Str} (lang : Option Str) (md : Map) (ls : List Str) :
    codeFmt cfg lang md ls ⟨c, i, false⟩ = ⟨c ++ codeText (indentText cfg i) (bol c) lang md ls, i, false⟩ := by
  unfold codeFmt
  rw [writeIndent_eq, write_eq, write_eq, (writes_pairs _ _).plain _ rfl, write_eq,
    rawLines_text _ _ (getLast?_nl _), writeIndent_eq, write_eq,
    bol_last (rawText_last _ _ (getLast?_nl _))]
  simp [codeText, indentAt]

theorem math_text {i : Nat} {c : Str} (ls : List Str) (en : Option Str) :
    mathFmt cfg ls en ⟨c, i, false⟩ = ⟨c ++ mathText (indentText cfg i) (bol c) ls en, i, false⟩ := by
  unfold mathFmt
  rw [writeIndent_eq, write_eq, write_eq, write_eq,
    rawLines_text _ _ (getLast?_nl _), writeIndent_eq, write_eq,
    bol_last (rawText_last _ _ (getLast?_nl _))]
  cases en <;> simp [mathText, indentAt, envText]

theorem quoteText_last {ind : Str} : ∀ (ls : List Str) (b : Bool), ls ≠ [] →
    (quoteText ind b ls).getLast? = some 10 := by
  intro ls
  induction ls with
  | nil => intro b h; exact absurd rfl h
  | cons l ls ih =>
    intro b _
    have : quoteText ind b (l :: ls) = ((if b then ind else []) ++ (b!"> " ++ l) ++ b!"\n") ++ quoteText ind true ls := by
      simp [quoteText]
    rw [this, List.getLast?_append]
    cases ls with
    | nil => rw [show quoteText ind true [] = [] from rfl, getLast?_nl]; rfl
    | cons l' ls => rw [ih true (by simp)]; rfl

theorem defsText_last {ind : Str} : ∀ (xs : List (Located TermDefs)) (b : Bool), xs ≠ [] →
    (∀ x ∈ xs, x.inner.defs.inner ≠ []) → (defsText L cfg ind b xs).getLast? = some 10 := by
  intro xs
  induction xs with
  | nil => intro b h; exact absurd rfl h
  | cons x xs ih =>
    intro b _ h
    rw [defsText_cons, ← List.append_assoc, List.getLast?_append]
    have he : (entryText L cfg ind x.inner).getLast? = some 10 := by
      unfold entryText
      cases cfg.termAlone with
      | true =>
        have := defLines_last (L := L) (cfg := cfg) (ind := ind) x.inner.defs.inner (h x (by simp))
        simp only [if_true]
        rw [List.getLast?_append, List.getLast?_append, List.getLast?_cons, this]
        rfl
      | false =>
        cases hd : x.inner.defs.inner with
        | nil => exact absurd hd (h x (by simp))
        | cons d ds =>
          simp only [Bool.false_eq_true, if_false]
          rw [List.getLast?_append, List.getLast?_append, List.getLast?_append, List.getLast?_append, List.getLast?_cons]
          cases ds with
          | nil => rfl
          | cons d' ds => rw [defLines_last (d' :: ds) (by simp)]; rfl
    cases xs with
    | nil =>
      rw [show defsText L cfg ind true [] = [] from rfl, List.getLast?_append, he]
      rfl
    | cons y ys => rw [ih true (by simp) fun z hz => h z (by simp [hz])]; rfl

theorem allBlank_indent (hI : AllBlank cfg.indentStr) (i : Nat) : AllBlank (indentText cfg i) := by
  intro x hx
  obtain ⟨l, hl, hx⟩ := List.mem_flatten.1 hx
  rw [List.eq_of_mem_replicate hl] at hx
  exact hI x hx

theorem todo_written {c : Str} {i : Nat} {td : Option Todo} {u t : Str} (h : TodoOk cfg t td)
    (ty : ItemType) (su : Suffix) (p : Nat) (hu : u = c ++ indentAt cfg i (bol c) ++ ty.toPrefix L.rom p su ++ b!" " ++ todoText td) :
    itemHead L cfg ty su p td ⟨c, i, false⟩ = ⟨u, i, false⟩ := by
  subst hu
  unfold itemHead
  rw [writeIndent_eq, write_eq, write_eq]
  cases td with
  | none => simp [todoText]
  | some s =>
    simp only [TodoOk] at h
    simp only [write_eq, h, todoText]
    simp

theorem todo_last (u : Str) (td : Option Todo) : (u ++ b!" " ++ todoText td).getLast? = some 32 := by
  rw [List.getLast?_append, List.getLast?_append]
  cases td with
  | none => rfl
  | some s => cases s <;> rfl

mutual
theorem block_text (hI : AllBlank cfg.indentStr) {d : Nat} : ∀ (x : Block) (i : Nat) (c : Str), NestOk env ue L cfg d x →
    Whole c → Block.fmt L cfg x ⟨c, i, false⟩ = some ⟨c ++ blockText L cfg i (bol c) x, i, false⟩ ∧
      ∀ b, (blockText L cfg i b x).getLast? = some 10
  | .paragraph ls, i, c, h, hc => by
    simp only [NestOk] at h
    exact ⟨by rw [Block.fmt, paragraph_text (allBlank_indent hI i) ls c (fun l hl => (h.1.2 l hl).1.tight) hc, blockText],
      fun b => by rw [blockText]; exact paraText_last ls b h.1.1⟩
  | .blockquote ls, i, c, h, hc => by
    simp only [NestOk] at h
    exact ⟨by rw [Block.fmt, quote_text h.2.1 ls c (fun ht l hl => (h.2.2.2 l hl).2.2 ht), blockText],
      fun b => by rw [blockText]; exact quoteText_last ls b h.1⟩
  | .defs xs, i, c, h, hc => by
    simp only [NestOk] at h
    exact ⟨by
        rw [Block.fmt, defs_text (allBlank_indent hI i) xs c (fun x hx => by
          obtain ⟨h1, -, -, h4, h5⟩ := h.2 x hx
          exact ⟨h1.tight, h4, fun y hy => (h5 y hy).1.tight⟩) hc, blockText],
      fun b => by rw [blockText]; exact defsText_last xs b h.1 fun x hx => (h.2 x hx).2.2.2.1⟩
  | .list xs, i, c, h, hc => by
    simp only [NestOk] at h
    obtain ⟨h1, h2⟩ := items_text hI xs i 0 _ c h.2 hc
    exact ⟨by rw [Block.fmt, h1, blockText], fun b => by rw [blockText]; exact h2 b h.1⟩
  | .code lang md ls, i, c, h, hc => by
    refine ⟨by rw [Block.fmt, code_text, blockText], fun b => ?_⟩
    rw [blockText, codeText]
    have : ∀ u v x y z : Str, (u ++ (v ++ (x ++ (y ++ 10 :: (z ++ (indentText cfg i ++ b!"}}}\n")))))).getLast? = some 10 := by
      intro u v x y z
      simp only [List.getLast?_append, List.getLast?_cons]
      rfl
    exact this _ _ _ _ _
  | .math ls en, i, c, h, hc => by
    refine ⟨by rw [Block.fmt, math_text, blockText], fun b => ?_⟩
    rw [blockText, mathText]
    have : ∀ u v x y : Str, (u ++ (v ++ (x ++ 10 :: (y ++ (indentText cfg i ++ b!"}}$\n"))))).getLast? = some 10 := by
      intro u v x y
      simp only [List.getLast?_append, List.getLast?_cons]
      rfl
    exact this _ _ _ _
  | .header _ _ _, i, c, h, hc => by simp only [NestOk] at h
  | .divider, i, c, h, hc => by simp only [NestOk] at h
  | .placeholder _, i, c, h, hc => by simp only [NestOk] at h
  | .table t, i, c, h, hc => by
    simp only [NestOk] at h
    exact ⟨by rw [Block.fmt, table_text h.1, blockText], fun b => by rw [blockText]; exact table_last h.1 i b⟩
theorem items_text (hI : AllBlank cfg.indentStr) {d : Nat} : ∀ (xs : List (Located (ItemF Block))) (i pos : Nat) (ty : Option ItemType)
    (c : Str), ItemsOk env ue L cfg d pos ty xs → Whole c →
    Block.fmtItems L cfg xs ⟨c, i, false⟩ = some ⟨c ++ itemsText L cfg i (bol c) xs, i, false⟩ ∧
      ∀ b, xs ≠ [] → (itemsText L cfg i b xs).getLast? = some 10
  | [], i, pos, ty, c, h, hc => by simp [Block.fmtItems, itemsText]
  | ⟨⟨ty', su, p, cs, td⟩, _⟩ :: xs, i, pos, ty, c, h, hc => by
    simp only [ItemsOk] at h
    obtain ⟨-, -, -, h4, -, ⟨x, rest, hcs, -⟩, h7, h8⟩ := h
    have hne : cs ≠ [] := by rw [hcs]; simp
    have hu := todo_written (L := L) (c := c) (i := i) h4 ty' su p rfl
    have hu2 : Whole (c ++ indentAt cfg i (bol c) ++ ty'.toPrefix L.rom p su ++ b!" " ++ todoText td) := by
      exact Whole.of_last (b := 32) (by decide) (todo_last _ td)
    have hub : bol (c ++ indentAt cfg i (bol c) ++ ty'.toPrefix L.rom p su ++ b!" " ++ todoText td) = false := by
      unfold bol
      rw [todo_last]
      simp
    obtain ⟨h1, h2⟩ := contents_text hI cs i _ h7 hu2
    have h2' := h2 false hne
    have hl : ∀ a : Str, (a ++ contentsText L cfg (i + 1) false cs).getLast? = some 10 := fun a => by
      rw [List.getLast?_append, h2']; rfl
    obtain ⟨h3, h5⟩ := items_text hI xs i (pos + 1) ty _ h8
      (Whole.of_last (b := 10) (by decide) (hl (c ++ indentAt cfg i (bol c) ++ ty'.toPrefix L.rom p su ++ b!" " ++ todoText td)))
    constructor
    · have hemp : cs.isEmpty = false := by rw [hcs]; rfl
      rw [Block.fmtItems, hemp]
      simp only [Bool.false_eq_true, if_false]
      rw [hu, h1, hub, Option.bind_some, h3, bol_last (hl _)]
      simp [itemsText, indentAt]
    · intro b _
      have : itemsText L cfg i b (⟨⟨ty', su, p, cs, td⟩, ‹_›⟩ :: xs) =
          ((if b then indentText cfg i else []) ++ (ty'.toPrefix L.rom p su ++ b!" ") ++ todoText td ++
            contentsText L cfg (i + 1) false cs) ++ itemsText L cfg i true xs := by simp [itemsText]
      rw [this, List.getLast?_append]
      cases xs with
      | nil => rw [hl]; rfl
      | cons y ys => rw [h5 true (by simp)]; rfl
theorem contents_text (hI : AllBlank cfg.indentStr) {d : Nat} : ∀ (cs : List (Located Block)) (i : Nat) (c : Str),
    ContsOk env ue L cfg d cs → Whole c →
    Block.fmtContents L cfg cs ⟨c, i, false⟩ = some ⟨c ++ contentsText L cfg (i + 1) (bol c) cs, i, false⟩ ∧
      ∀ b, cs ≠ [] → (contentsText L cfg (i + 1) b cs).getLast? = some 10
  | [], i, c, h, hc => by simp [Block.fmtContents, contentsText]
  | ⟨x, _⟩ :: xs, i, c, h, hc => by
    simp only [ContsOk] at h
    obtain ⟨h1, h2⟩ := block_text hI x (i + 1) c h.1 hc
    have hl : ∀ b, ∀ a : Str, (a ++ blockText L cfg (i + 1) b x).getLast? = some 10 := fun b a => by
      rw [List.getLast?_append, h2]; rfl
    obtain ⟨h3, h4⟩ := contents_text hI xs i _ h.2 (Whole.of_last (b := 10) (by decide) (hl (bol c) c))
    constructor
    · rw [Block.fmtContents, andIndent]
      simp only [h1, Option.map_some, Option.bind_some, Nat.add_sub_cancel]
      rw [h3, bol_last (hl _ _)]
      simp [contentsText]
    · intro b _
      rw [contentsText, List.getLast?_append]
      cases xs with
      | nil => rw [h2, contentsText]; rfl
      | cons y ys => rw [h4 true (by simp)]; rfl
end

/-! ## Lines of an item -/

/-- Whole lines that begin with more than `n` blanks. -/
inductive Lines (n : Nat) : Str → Prop where
  | nil : Lines n []
  | cons {ws l t : Str} : AllBlank ws → n < ws.length → 10 ∉ l → l.getLast? ≠ some 13 → Lines n t →
      Lines n (ws ++ (l ++ 10 :: t))

theorem Lines.append {n : Nat} {u v : Str} (hu : Lines n u) (hv : Lines n v) : Lines n (u ++ v) := by
  induction hu with
  | nil => exact hv
  | cons h1 h2 h3 h4 _ ih => simpa using Lines.cons h1 h2 h3 h4 ih

/-- The first line of a block. -/
structure Head (k : BlockKind) (x : Str) : Prop where
  ne : x ≠ []
  line : 10 ∉ x
  last : x.getLast? ≠ some 13
  head : ∀ y, x.head? = some y → ¬ (y = 32 ∨ (9 ≤ y ∧ y ≤ 13))
  table : k ≠ .table → x.head? ≠ some c!"|"
  term : k ≠ .defs → NoTermLine x
  item : k ≠ .list → ∀ ty su w, PrefixText ty su w → ¬ w <+: x
  quote : k ≠ .quote → ¬ b!"> " <+: x
  code : k = .math ∨ k = .quote ∨ k = .paragraph → ¬ b!"{{{" <+: x
  math : k = .quote ∨ k = .paragraph → ¬ b!"{{$" <+: x

theorem para_lines {ind : Str} {n : Nat} (hi : AllBlank ind) (hn : n < ind.length) :
    ∀ ls : List Inlines, (∀ l ∈ ls, Tight (Inline.textAll L cfg l) ∧ 10 ∉ Inline.textAll L cfg l) →
      Lines n (paraText L cfg ind true ls) := by
  intro ls
  induction ls with
  | nil => intro _; exact .nil
  | cons l ls ih =>
    intro h
    obtain ⟨h1, h2⟩ := h l (by simp)
    have := Lines.cons hi hn h2 (fun e => h1.last 13 e (by omega)) (ih fun l hl => h l (by simp [hl]))
    simpa [paraText] using this

theorem quote_lines {ind : Str} {n : Nat} (hi : AllBlank ind) (hn : n < ind.length) :
    ∀ ls : List Str, (∀ l ∈ ls, 10 ∉ l ∧ 13 ∉ l) → Lines n (quoteText ind true ls) := by
  intro ls
  induction ls with
  | nil => intro _; exact .nil
  | cons l ls ih =>
    intro h
    obtain ⟨h1, h2⟩ := h l (by simp)
    have := Lines.cons (l := b!"> " ++ l) hi hn (by simpa using h1) (by
      rw [List.getLast?_append]
      intro e
      cases hl : l.getLast? with
      | none => rw [hl] at e; simp at e
      | some z =>
        rw [hl] at e
        simp at e
        exact h2 (e ▸ List.mem_of_getLast? hl)) (ih fun l hl => h l (by simp [hl]))
    simpa [quoteText] using this

theorem defLine_lines {ind : Str} {n : Nat} (hi : AllBlank ind) (hn : n < ind.length) :
    ∀ ds : List (Located Inlines), (∀ d ∈ ds, Tight (Inline.textAll L cfg d.inner) ∧ 10 ∉ Inline.textAll L cfg d.inner) →
      Lines n (defLines L cfg ind ds) := by
  intro ds
  induction ds with
  | nil => intro _; exact .nil
  | cons d ds ih =>
    intro h
    obtain ⟨h1, h2⟩ := h d (by simp)
    have := Lines.cons (l := b!":: " ++ Inline.textAll L cfg d.inner) hi hn (by simpa using h2) (by
      rw [List.getLast?_append, List.getLast?_eq_some_getLast h1.1]
      intro e
      simp at e
      exact h1.last 13 (by rw [List.getLast?_eq_some_getLast h1.1, e]) (by omega)) (ih fun l hl => h l (by simp [hl]))
    simpa [defLines] using this

theorem raw_lines {ind : Str} {n : Nat} (hi : AllBlank ind) (hn : n < ind.length) :
    ∀ ls : List Str, (∀ l ∈ ls, RestOfLine l) → Lines n (rawText ind ls) := by
  intro ls
  induction ls with
  | nil => intro _; exact .nil
  | cons l ls ih =>
    intro h
    obtain ⟨h1, h2⟩ := h l (by simp)
    have := Lines.cons hi hn h1 h2 (ih fun l hl => h l (by simp [hl]))
    simpa [rawText] using this

/-- What follows the term on its line. -/
def entryHead (L : OutLib) (cfg : VwCfg) (x : TermDefs) : Str :=
  if cfg.termAlone then b!"::" else b!":: " ++ (match x.defs.inner with
    | [] => []
    | d :: _ => Inline.textAll L cfg d.inner)

/-- The other definitions. -/
def entryTail (L : OutLib) (cfg : VwCfg) (ind : Str) (x : TermDefs) : Str :=
  if cfg.termAlone then defLines L cfg ind x.defs.inner else defLines L cfg ind x.defs.inner.tail

theorem entry_lines {ind : Str} {n d : Nat} {x : TermDefs} (hi : AllBlank ind) (hn : n < ind.length)
    (h : EntryOk env ue L cfg d x) : Lines n (entryTail L cfg ind x) := by
  obtain ⟨-, -, -, hne, hd⟩ := h
  have hd' : ∀ y ∈ x.defs.inner, Tight (Inline.textAll L cfg y.inner) ∧ 10 ∉ Inline.textAll L cfg y.inner :=
    fun y hy => ⟨(hd y hy).1.tight, (hd y hy).2.1⟩
  unfold entryTail
  split
  · exact defLine_lines hi hn _ hd'
  · exact defLine_lines hi hn _ fun y hy => hd' y (List.mem_of_mem_tail hy)

theorem entry_split {ind : Str} {d : Nat} {x : TermDefs} (h : EntryOk env ue L cfg d x) :
    entryText L cfg ind x = (Inline.textAll L cfg x.term.inner ++ entryHead L cfg x) ++ 10 :: entryTail L cfg ind x := by
  obtain ⟨-, -, -, hne, hd⟩ := h
  unfold entryText entryTail entryHead
  split
  · simp
  · cases hx : x.defs.inner with
    | nil => exact absurd hx hne
    | cons d ds => simp

theorem entryHead_line {d : Nat} {x : TermDefs} (h : EntryOk env ue L cfg d x) :
    (∃ q, entryHead L cfg x = c!":" :: q) ∧ 10 ∉ entryHead L cfg x ∧ (entryHead L cfg x).getLast? ≠ some 13 := by
  obtain ⟨-, -, -, hne, hd⟩ := h
  unfold entryHead
  split
  · exact ⟨⟨_, rfl⟩, by decide, by decide⟩
  · cases hx : x.defs.inner with
    | nil => exact absurd hx hne
    | cons d ds =>
      have h1 := hd d (by simp [hx])
      refine ⟨⟨_, rfl⟩, by simpa using h1.2.1, ?_⟩
      rw [List.getLast?_append, List.getLast?_eq_some_getLast h1.1.tight.1]
      intro e
      simp at e
      exact h1.1.tight.last 13 (by rw [List.getLast?_eq_some_getLast h1.1.tight.1, e]) (by omega)

theorem entries_lines {ind : Str} {n d : Nat} (hi : AllBlank ind) (hn : n < ind.length) :
    ∀ xs : List (Located TermDefs), (∀ x ∈ xs, EntryOk env ue L cfg d x.inner) →
      Lines n (defsText L cfg ind true xs) := by
  intro xs
  induction xs with
  | nil => intro _; exact .nil
  | cons x xs ih =>
    intro h
    obtain ⟨⟨q, hq⟩, h1, h2⟩ := entryHead_line (h x (by simp))
    have ht := (h x (by simp)).2.1.line
    rw [defsText_cons, entry_split (h x (by simp))]
    have := Lines.cons (l := Inline.textAll L cfg x.inner.term.inner ++ entryHead L cfg x.inner) hi hn
      (by simpa using ⟨ht, h1⟩) (by
        rw [List.getLast?_append]
        cases hl : (entryHead L cfg x.inner).getLast? with
        | none => rw [hq] at hl; simp at hl
        | some z => intro e; simp at e; subst e; exact h2 hl)
      ((entry_lines hi hn (h x (by simp))).append (ih fun y hy => h y (by simp [hy])))
    simpa using this

/-! ## First lines -/

theorem noTerm_append {a x : Str} (ha : c!":" ∉ a) (hx : NoTermLine x) : NoTermLine (a ++ x) := by
  intro u v e
  rcases List.append_eq_append_iff.1 e with ⟨as, rfl, e2⟩ | ⟨bs, e1, e2⟩
  · exact List.mem_append_right _ (hx as v e2)
  · cases bs with
    | nil => simp at e1 e2; subst e1; exact absurd (hx [] v (by simpa using e2.symm)) (by simp)
    | cons b bs =>
      exfalso
      simp at e2
      exact ha (by rw [e1]; simp [e2.1])

theorem noTerm_prefix {a x : Str} (h : NoTermLine (a ++ x)) : NoTermLine a := by
  intro u v e
  exact h u (v ++ x) (by rw [e]; simp)

theorem noTerm_line (h : NoTermLine t) : NoTermLine (t ++ 10 :: r) := by
  intro u v e
  by_cases h10 : 10 ∈ u
  · exact h10
  · exfalso
    obtain ⟨q, hq⟩ := prefix_of_line (p := u ++ b!"::") (x := t) (r := r) ⟨v, by simpa using e.symm⟩ (by simpa using h10)
    exact h10 (h u q (by simpa using hq.symm))

theorem numberWord_no_colon {ty : ItemType} (h : NumberWord w r ty) : c!":" ∉ w := by
  have key : ∀ {f : Byte → Prop}, ¬ f c!":" → RunOf f w r → c!":" ∉ w := fun hf h hm => hf (h.2.1 _ hm)
  cases ty with
  | number => exact key (by unfold DigitByte; decide) h
  | lowerRoman => exact key (by unfold LowerRomanByte; decide) h
  | upperRoman => exact key (by unfold UpperRomanByte; decide) h
  | lowerAlpha => exact key (by unfold LowerByte; decide) h.1
  | upperAlpha => exact key (by unfold UpperByte; decide) h.1
  | _ => exact h.elim

theorem prefix_no_colon {ty : ItemType} {su : Suffix} (h : PrefixText ty su w) : c!":" ∉ w := by
  cases h with
  | period h => simpa using numberWord_no_colon h
  | paren h => simpa using numberWord_no_colon h
  | _ => decide


theorem prefix_first {ty : ItemType} {su : Suffix} (h : PrefixText ty su w) :
    ∃ c q, w = c :: q ∧ c ≠ c!">" ∧ c ≠ c!"{" ∧ c ≠ c!"|" ∧ 32 < c := by
  have num : ∀ {w r : Str}, NumberWord w r ty → ∃ c q, w = c :: q ∧ c ≠ c!">" ∧ c ≠ c!"{" ∧ c ≠ c!"|" ∧ 32 < c := by
    intro w r h
    have key : ∀ {f : Byte → Prop}, (∀ x, f x → x ≠ c!">" ∧ x ≠ c!"{" ∧ x ≠ c!"|" ∧ 32 < x) → RunOf f w r →
        ∃ c q, w = c :: q ∧ c ≠ c!">" ∧ c ≠ c!"{" ∧ c ≠ c!"|" ∧ 32 < c := fun hf h => by
      cases w with
      | nil => exact absurd rfl h.1
      | cons c q => exact ⟨c, q, rfl, hf c (h.2.1 c (by simp))⟩
    have low : ∀ x, LowerByte x → x ≠ c!">" ∧ x ≠ c!"{" ∧ x ≠ c!"|" ∧ 32 < x := by
      intro x hx; unfold LowerByte at hx; simp only [ne_eq]; omega
    have upp : ∀ x, UpperByte x → x ≠ c!">" ∧ x ≠ c!"{" ∧ x ≠ c!"|" ∧ 32 < x := by
      intro x hx; unfold UpperByte at hx; simp only [ne_eq]; omega
    cases ty with
    | number => exact key (by intro x hx; unfold DigitByte at hx; simp only [ne_eq]; omega) h
    | lowerRoman => exact key (by intro x hx; unfold LowerRomanByte at hx; revert hx; simp; omega) h
    | upperRoman => exact key (by intro x hx; unfold UpperRomanByte at hx; revert hx; simp; omega) h
    | lowerAlpha => exact key low h.1
    | upperAlpha => exact key upp h.1
    | _ => exact h.elim
  cases h with
  | period h => obtain ⟨c, q, rfl, hc⟩ := num h; exact ⟨c, _, rfl, hc⟩
  | paren h => obtain ⟨c, q, rfl, hc⟩ := num h; exact ⟨c, _, rfl, hc⟩
  | _ => exact ⟨_, _, rfl, by decide⟩

theorem prefix_cut {p a : Str} {c : Byte} (h : p <+: a ++ c :: r) (hc : c ∉ p) : p <+: a := by
  obtain ⟨q, hq⟩ := h
  rcases List.append_eq_append_iff.1 hq with ⟨as, rfl, -⟩ | ⟨bs, rfl, e2⟩
  · exact ⟨as, rfl⟩
  · cases bs with
    | nil => exact ⟨[], by simp⟩
    | cons b bs =>
      exfalso
      simp at e2
      exact hc (by simp [e2.1])

theorem NoTerm.noTermLine (h : NoTerm t) : NoTermLine t := fun u v e => absurd ⟨u, v, by simpa using e.symm⟩ h

theorem todo_line (td : Option Todo) : 10 ∉ todoText td ∧ c!":" ∉ todoText td := by
  cases td with
  | none => decide
  | some s => cases s <;> decide

theorem pairs_line : ∀ (m : Map) (b : Bool), (∀ p ∈ m, PairOk p) →
    10 ∉ pairsText b m ∧ (m ≠ [] → (pairsText b m).getLast? = some c!"\"") := by
  intro m
  induction m with
  | nil => intro b _; simp [pairsText]
  | cons p m ih =>
    intro b hp
    obtain ⟨k, v⟩ := p
    have := hp (k, v) (by simp)
    obtain ⟨h1, h2⟩ := ih true fun q hq => hp q (by simp [hq])
    refine ⟨by cases b <;> simp [pairsText, this.2.1, this.2.2.2.2.1, h1], fun _ => ?_⟩
    rw [pairsText]
    simp only [List.getLast?_append]
    cases m with
    | nil => rfl
    | cons q m => rw [h2 (by simp)]; rfl

theorem code_head {lang : Option Str} {md : Map} (h : CodeHeadOk lang md) :
    10 ∉ b!"{{{" ++ (lang.getD [] ++ pairsText lang.isSome (sortedMap md)) ∧
      (b!"{{{" ++ (lang.getD [] ++ pairsText lang.isSome (sortedMap md))).getLast? ≠ some 13 ∧
      NoTerm (b!"{{{" ++ (lang.getD [] ++ pairsText lang.isSome (sortedMap md))) := by
  have hperm : (sortedMap md).Perm md := List.mergeSort_perm _ _
  obtain ⟨hp1, hp2⟩ := pairs_line (sortedMap md) lang.isSome fun p hp => (h.2.2 p (hperm.subset hp)).1
  have h10 : 10 ∉ b!"{{{" ++ (lang.getD [] ++ pairsText lang.isSome (sortedMap md)) := by
    cases lang with
    | none => simpa using hp1
    | some l => simpa using ⟨(h.1 l rfl).2.1.1, hp1⟩
  refine ⟨h10, ?_, ?_⟩
  · simp only [List.getLast?_append]
    cases hm : sortedMap md with
    | nil =>
      cases lang with
      | none => decide
      | some l =>
        rw [show pairsText (some l).isSome [] = [] from rfl, Option.getD_some,
          List.getLast?_eq_some_getLast (h.1 l rfl).1]
        intro e
        simp at e
        exact (h.1 l rfl).2.1.2 (by rw [List.getLast?_eq_some_getLast (h.1 l rfl).1, e])
    | cons q m =>
      rw [← hm, hp2 (by rw [hm]; simp)]
      intro e
      simp at e
  · have hl := leaf_line (L := ⟨fun _ => [], fun _ => [], fun _ => [], fun _ => []⟩)
      (env := ⟨fun _ => none, fun _ => none⟩) (b := .code lang md []) ⟨h, by simp [FenceLines]⟩ []
    rw [show leafText _ (.code lang md []) ++ [] = (b!"{{{" ++ (lang.getD [] ++ pairsText lang.isSome (sortedMap md))) ++
      10 :: b!"}}}\n" by simp [leafText], lineOf_append h10] at hl
    exact hl

theorem math_head {en : Option Str} (h : ∀ e, en = some e → e ≠ [] ∧ 10 ∉ e ∧ c!"%" ∉ e ∧ NoTerm e) :
    10 ∉ b!"{{$" ++ envText en ∧ (b!"{{$" ++ envText en).getLast? ≠ some 13 ∧ NoTerm (b!"{{$" ++ envText en) := by
  have h10 : 10 ∉ b!"{{$" ++ envText en := by
    cases en with
    | none => simp [envText]
    | some e => simp [envText, (h e rfl).2.1]
  refine ⟨h10, ?_, ?_⟩
  · cases en with
    | none => decide
    | some e =>
      rw [show b!"{{$" ++ envText (some e) = (b!"{{$%" ++ e) ++ b!"%" by simp [envText], List.getLast?_append]
      intro h
      simp at h
  · have hl := leaf_line (L := ⟨fun _ => [], fun _ => [], fun _ => [], fun _ => []⟩)
      (env := ⟨fun _ => none, fun _ => none⟩) (b := .math [] en) ⟨h, by simp [FenceLines]⟩ []
    rw [show leafText _ (.math [] en) ++ [] = (b!"{{$" ++ envText en) ++ 10 :: b!"}}$\n" by simp [leafText],
      lineOf_append h10] at hl
    exact hl

theorem indent_mono {i : Nat} : (indentText cfg i).length ≤ (indentText cfg (i + 1)).length := by
  unfold indentText
  rw [List.replicate_succ, List.flatten_cons, List.length_append]
  omega

theorem no_item_of_first {c : Byte} {q : Str} (hc : c = c!">" ∨ c = c!"{" ∨ c = c!"|") :
    ∀ ty su w, PrefixText ty su w → ¬ w <+: c :: q := by
  rintro ty su w hw ⟨z, hz⟩
  obtain ⟨d, q', rfl, h1, h2, h3, -⟩ := prefix_first hw
  simp at hz
  rcases hc with rfl | rfl | rfl
  · exact h1 hz.1
  · exact h2 hz.1
  · exact h3 hz.1

/-- The text without the first indentation is the first line and lines that begin with
the indentation. -/
def FirstLine (cfg : VwCfg) (k : BlockKind) (f : Nat → Str) : Prop :=
  ∃ l, Head k l ∧ ∀ i, ∃ t, f i = l ++ 10 :: t ∧ ∀ n, n < (indentText cfg i).length → Lines n t

theorem tableText_true {d : Nat} {t : Table} (h : TableOk env ue L cfg d t) (i : Nat) :
    t.text L cfg i true = indentText cfg i ++ t.text L cfg i false := by
  have := (table_rows h).1
  unfold Table.text
  obtain ⟨n, hn⟩ : ∃ n, t.rowCnt = n + 1 := ⟨t.rowCnt - 1, by omega⟩
  rw [hn, List.range_succ_eq_map, List.map_cons, rowLines, rowLines]
  simp [indentAt]

theorem barred_line {l : List Str} (h : ∀ x ∈ l, 10 ∉ x) : 10 ∉ barred l := by
  intro hm
  obtain ⟨x, hx, hm⟩ := List.mem_flatMap.1 hm
  rcases List.mem_append.1 hm with hm | hm
  · exact h x hx hm
  · revert hm; decide

theorem fill_line {n : Nat} {s : Str} (h : 10 ∉ s) : 10 ∉ fill n s := by
  intro hm
  rcases List.mem_append.1 hm with hm | hm
  · exact h hm
  · exact absurd (List.mem_replicate.1 hm).2 (by decide)

theorem rep_line {n : Nat} {c : Byte} (hc : c ≠ 10) : 10 ∉ rep c n := fun hm => hc (List.mem_replicate.1 hm).2.symm

theorem row_line {d : Nat} {t : Table} (h : TableOk env ue L cfg d t) {r : Nat} (hr : r < t.rowCnt) :
    10 ∉ b!"|" ++ barred (t.rowAt L cfg r) := by
  have : 10 ∉ barred (t.rowAt L cfg r) := by
    refine barred_line fun x hx => ?_
    obtain ⟨c, hc, rfl⟩ := List.mem_map.1 hx
    obtain ⟨⟨x, reg⟩, hx⟩ := Option.isSome_iff_exists.1 (h.full r c hr (List.mem_range.1 hc))
    unfold Table.cellAt
    rw [hx]
    cases x with
    | content xs => exact (h.cells r c xs reg hx).2.line
    | span x =>
      refine fill_line ?_
      cases x <;> unfold spanText <;> cases cfg.tableNoPadding <;> decide
    | align a =>
      cases a <;> simp only [cellFull, List.mem_append, not_or]
      · exact rep_line (by decide)
      · exact ⟨by decide, rep_line (by decide)⟩
      · exact ⟨by decide, rep_line (by decide), by decide⟩
      · exact ⟨rep_line (by decide), by decide⟩
  simpa using this

theorem row_last (l : List Str) : (b!"|" ++ barred l).getLast? ≠ some 13 := by
  rw [List.getLast?_append]
  cases h : (barred l).getLast? with
  | none => simp
  | some z =>
    intro e
    simp at e
    subst e
    have : ∀ l : List Str, ∀ z, (barred l).getLast? = some z → z = c!"|" := by
      intro l
      induction l with
      | nil => intro z h; simp [barred] at h
      | cons x l ih =>
        intro z h
        rw [show barred (x :: l) = (x ++ b!"|") ++ barred l from rfl, List.getLast?_append] at h
        cases hb : (barred l).getLast? with
        | none => rw [hb] at h; simp at h; exact h.symm
        | some y => rw [hb] at h; simp at h; rw [← h]; exact ih y hb
    exact absurd (this l 13 h) (by decide)

theorem centered_blank (ce : Bool) : AllBlank (if ce then b!"    " else []) := by
  cases ce
  · intro x hx; simp at hx
  · intro x hx; simp at hx; exact .inl hx

theorem rowLines_lines (hI : AllBlank cfg.indentStr) {ce : Bool} {i n : Nat} (hn : n < (indentText cfg i).length) :
    ∀ ls : List (List Str), (∀ l ∈ ls, 10 ∉ b!"|" ++ barred l) → Lines n (rowLines cfg ce i true ls) := by
  intro ls
  induction ls with
  | nil => intro _; exact .nil
  | cons l ls ih =>
    intro h
    have := Lines.cons (n := n) (ws := indentText cfg i ++ (if ce then b!"    " else [])) (l := b!"|" ++ barred l)
      (by
        intro x hx
        rcases List.mem_append.1 hx with hx | hx
        · exact allBlank_indent hI i x hx
        · exact centered_blank ce x hx)
      (by rw [List.length_append]; omega) (h l (by simp)) (row_last l) (ih fun l hl => h l (by simp [hl]))
    simpa [rowLines, rowLine, indentAt] using this

theorem table_lines (hI : AllBlank cfg.indentStr) {d : Nat} {t : Table} (h : TableOk env ue L cfg d t) (i : Nat) :
    ∃ t', t.text L cfg i false = (if t.centered then b!"    " else []) ++ ((b!"|" ++ barred (t.rowAt L cfg 0)) ++ 10 :: t') ∧
      ∀ n, n < (indentText cfg i).length → Lines n t' := by
  have h0 := (table_rows h).1
  obtain ⟨m, hm⟩ : ∃ n, t.rowCnt = n + 1 := ⟨t.rowCnt - 1, by omega⟩
  refine ⟨rowLines cfg t.centered i true (((List.range m).map Nat.succ).map (t.rowAt L cfg)), ?_, fun n hn => ?_⟩
  · unfold Table.text
    rw [hm, List.range_succ_eq_map, List.map_cons, rowLines]
    simp [indentAt, rowLine]
  · refine rowLines_lines hI hn _ fun l hl => ?_
    obtain ⟨r, hr, rfl⟩ := List.mem_map.1 hl
    obtain ⟨k, hk, rfl⟩ := List.mem_map.1 hr
    rw [List.mem_range] at hk
    exact row_line h (by omega)

theorem blockText_true {d i : Nat} {x : Block} (h : NestOk env ue L cfg d x) :
    blockText L cfg i true x = indentText cfg i ++ blockText L cfg i false x := by
  cases x with
  | paragraph ls =>
    simp only [NestOk] at h
    cases ls with
    | nil => exact absurd rfl h.1.1
    | cons l ls => simp [blockText, paraText]
  | blockquote ls =>
    simp only [NestOk] at h
    cases ls with
    | nil => exact absurd rfl h.1
    | cons l ls => simp [blockText, quoteText]
  | defs xs =>
    simp only [NestOk] at h
    cases xs with
    | nil => exact absurd rfl h.1
    | cons l ls => simp [blockText, defsText]
  | list xs =>
    simp only [NestOk] at h
    cases xs with
    | nil => exact absurd rfl h.1
    | cons l ls => obtain ⟨⟨_, _, _, _, _⟩, _⟩ := l; simp [blockText, itemsText]
  | code lang md ls => simp [blockText, codeText]
  | math ls en => simp [blockText, mathText]
  | table t =>
    simp only [NestOk] at h
    rw [blockText, blockText]
    exact tableText_true h.1 i
  | _ => simp only [NestOk] at h

mutual
theorem block_first (hI : AllBlank cfg.indentStr) {d : Nat} : ∀ (x : Block), NestOk env ue L cfg d x →
    FirstLine cfg x.kind fun i => blockText L cfg i false x
  | .paragraph ls, h => by
    simp only [NestOk] at h
    obtain ⟨⟨h1, h2⟩, h3⟩ := h
    cases ls with
    | nil => exact absurd rfl h1
    | cons l ls =>
      obtain ⟨hc, hp⟩ := h2 l (by simp)
      refine ⟨Inline.textAll L cfg l, ⟨hc.tight.1, (h3 l (by simp)).1, fun e => hc.tight.last 13 e (by omega),
        hc.tight.head, fun _ => hp.table, fun _ => hp.term, fun _ => hp.item, fun _ => hp.quote, fun _ => hp.code,
        fun _ => hp.math⟩, fun i => ⟨paraText L cfg (indentText cfg i) true ls, by simp [blockText, paraText], fun n hn =>
        para_lines (allBlank_indent hI i) hn ls fun l hl => ⟨(h2 l (by simp [hl])).1.tight, (h3 l (by simp [hl])).1⟩⟩⟩
  | .blockquote ls, h => by
    simp only [NestOk] at h
    obtain ⟨h1, h2, h3, h4⟩ := h
    cases ls with
    | nil => exact absurd rfl h1
    | cons l ls =>
      obtain ⟨h5, h6, -⟩ := h4 l (by simp)
      refine ⟨b!"> " ++ l, ⟨by simp, by simpa using h5, ?_, ?_, fun _ => by simp, fun _ => ?_, fun _ => no_item_of_first (.inl rfl),
        fun hk => absurd rfl hk, fun _ => (by rintro ⟨q, hq⟩; simp at hq), fun _ => by rintro ⟨q, hq⟩; simp at hq⟩,
        fun i => ⟨quoteText (indentText cfg i) true ls, by simp [blockText, quoteText], fun n hn =>
        quote_lines (allBlank_indent hI i) hn ls fun l hl => ⟨(h4 l (by simp [hl])).1, (h4 l (by simp [hl])).2.1⟩⟩⟩
      · rw [List.getLast?_append]
        intro e
        cases hl : l.getLast? with
        | none => rw [hl] at e; simp at e
        | some z =>
          rw [hl] at e
          simp at e
          exact h6 (e ▸ List.mem_of_getLast? hl)
      · intro y hy
        simp at hy
        omega
      · exact noTerm_append (by decide) (h3 l rfl)
  | .defs xs, h => by
    simp only [NestOk] at h
    obtain ⟨h1, h2⟩ := h
    cases xs with
    | nil => exact absurd rfl h1
    | cons x xs =>
      have hx : EntryOk env ue L cfg d x.inner := h2 x (by simp)
      obtain ⟨⟨q, hq⟩, h10, h13⟩ := entryHead_line hx
      have ht := hx.1.tight
      refine ⟨Inline.textAll L cfg x.inner.term.inner ++ entryHead L cfg x.inner, ⟨by simp [hq], ?_, ?_, ?_, fun _ => ?_,
        fun hk => absurd rfl hk, fun _ ty su w hw hp => ?_, fun _ hp => ?_, (by rintro (h | h | h) <;> cases h),
        (by rintro (h | h) <;> cases h)⟩,
        fun i => ⟨entryTail L cfg (indentText cfg i) x.inner ++ defsText L cfg (indentText cfg i) true xs, ?_, fun n hn => ?_⟩⟩
      · simpa using ⟨hx.2.1.line, h10⟩
      · rw [List.getLast?_append]
        cases hl : (entryHead L cfg x.inner).getLast? with
        | none => rw [hq] at hl; simp at hl
        | some z => intro e; simp at e; subst e; exact h13 hl
      · intro y hy
        refine ht.head y ?_
        cases he : Inline.textAll L cfg x.inner.term.inner with
        | nil => exact absurd he ht.1
        | cons c r => rw [he] at hy; exact hy
      · intro hy
        refine hx.2.1.table ?_
        cases he : Inline.textAll L cfg x.inner.term.inner with
        | nil => exact absurd he ht.1
        | cons c r => rw [he] at hy; exact hy
      · rw [hq] at hp
        exact hx.2.1.item ty su w hw (prefix_cut hp (prefix_no_colon hw))
      · rw [hq] at hp
        exact hx.2.1.quote (prefix_cut hp (by decide))
      · dsimp only
        rw [blockText, defsText_cons, entry_split hx]
        simp
      · exact (entry_lines (allBlank_indent hI i) hn hx).append
          (entries_lines (allBlank_indent hI i) hn xs fun y hy => h2 y (by simp [hy]))
  | .list xs, h => by
    simp only [NestOk] at h
    exact items_first hI xs 0 _ h.2 h.1
  | .code lang md ls, h => by
    simp only [NestOk] at h
    obtain ⟨h1, h2, h3⟩ := code_head h.1
    refine ⟨b!"{{{" ++ (lang.getD [] ++ pairsText lang.isSome (sortedMap md)), ⟨by simp, h1, h2, ?_, fun _ => by simp, fun _ => h3.noTermLine,
      fun _ => no_item_of_first (.inr (.inl rfl)), fun _ => by rintro ⟨q, hq⟩; simp at hq, (by rintro (h | h | h) <;> cases h),
      (by rintro (h | h) <;> cases h)⟩, fun i => ⟨rawText (indentText cfg i) ls ++ (indentText cfg i ++ b!"}}}\n"), ?_, fun n hn => ?_⟩⟩
    · intro y hy
      simp at hy
      omega
    · simp [blockText, codeText]
    · refine (raw_lines (allBlank_indent hI i) hn ls fun l hl => (h.2.2.1 l hl).1).append ?_
      exact Lines.cons (l := b!"}}}") (t := []) (allBlank_indent hI i) hn (by decide) (by decide) .nil
  | .math ls en, h => by
    simp only [NestOk] at h
    obtain ⟨h1, h2, h3⟩ := math_head h.1
    refine ⟨b!"{{$" ++ envText en, ⟨by simp, h1, h2, ?_, fun _ => by simp, fun _ => h3.noTermLine,
      fun _ => no_item_of_first (.inr (.inl rfl)), fun _ => by rintro ⟨q, hq⟩; simp at hq, fun _ => by rintro ⟨q, hq⟩; simp at hq,
      (by rintro (h | h) <;> cases h)⟩, fun i => ⟨rawText (indentText cfg i) ls ++ (indentText cfg i ++ b!"}}$\n"), ?_, fun n hn => ?_⟩⟩
    · intro y hy
      simp at hy
      omega
    · simp [blockText, mathText]
    · refine (raw_lines (allBlank_indent hI i) hn ls fun l hl => (h.2.1 l hl).1).append ?_
      exact Lines.cons (l := b!"}}$") (t := []) (allBlank_indent hI i) hn (by decide) (by decide) .nil
  | .header _ _ _, h => by simp only [NestOk] at h
  | .divider, h => by simp only [NestOk] at h
  | .placeholder _, h => by simp only [NestOk] at h
  | .table t, h => by
    simp only [NestOk] at h
    obtain ⟨h, hce⟩ := h
    refine ⟨b!"|" ++ barred (t.rowAt L cfg 0), ⟨by simp, row_line h (table_rows h).1, row_last _, by simp, fun hk => absurd rfl hk,
      fun _ => h.term, fun _ => no_item_of_first (.inr (.inr rfl)), fun _ => by rintro ⟨q, hq⟩; simp at hq,
      (by rintro (h | h | h) <;> cases h), (by rintro (h | h) <;> cases h)⟩, fun i => ?_⟩
    obtain ⟨t', e, hl⟩ := table_lines hI h i
    refine ⟨t', ?_, hl⟩
    dsimp only
    rw [blockText, e, hce]
    simp
theorem items_first (hI : AllBlank cfg.indentStr) {d : Nat} : ∀ (xs : List (Located (ItemF Block))) (pos : Nat)
    (ty : Option ItemType), ItemsOk env ue L cfg d pos ty xs → xs ≠ [] →
    FirstLine cfg .list fun i => itemsText L cfg i false xs
  | [], pos, ty, h, hne => absurd rfl hne
  | ⟨⟨ty', su, p, cs, td⟩, _⟩ :: xs, pos, ty, h, hne => by
    simp only [ItemsOk] at h
    obtain ⟨-, -, ⟨ty2, h3, -⟩, -, -, ⟨x, rest, hcs, hk⟩, h7, h8⟩ := h
    obtain ⟨l, hl, ht⟩ := contents_first hI cs x rest h7 hcs
    obtain ⟨c, q, hc, c1, c2, c3, c4⟩ := prefix_first h3
    have hlt : NoTermLine l := hl.term (by rcases hk with hk | hk | hk <;> rw [hk] <;> decide)
    refine ⟨(ty'.toPrefix L.rom p su ++ b!" ") ++ (todoText td ++ l), ⟨by rw [hc]; simp, ?_, ?_, ?_, fun _ => ?_, fun _ => ?_,
      fun hk => absurd rfl hk, fun _ => ?_, (by rintro (h | h | h) <;> cases h), (by rintro (h | h) <;> cases h)⟩, fun i => ?_⟩
    · intro h
      rcases List.mem_append.1 h with h | h
      · exact h3.no10 h
      · rcases List.mem_append.1 h with h | h
        · exact (todo_line td).1 h
        · exact hl.line h
    · rw [List.getLast?_append, List.getLast?_append, List.getLast?_eq_some_getLast hl.ne]
      intro e
      simp at e
      exact hl.last (by rw [List.getLast?_eq_some_getLast hl.ne, e])
    · rw [hc]
      intro y hy
      simp at hy
      omega
    · rw [hc]
      intro hy
      simp at hy
      exact c3 hy
    · exact noTerm_append (prefix_no_colon h3) (noTerm_append (todo_line td).2 hlt)
    · rw [hc]
      rintro ⟨z, hz⟩
      simp at hz
      exact c1 hz.1.symm
    · obtain ⟨t, e1, e2⟩ := ht (i + 1)
      refine ⟨t ++ itemsText L cfg i true xs, ?_, fun n hn => ?_⟩
      · dsimp only at e1 ⊢
        rw [itemsText, e1]
        simp
      · refine (e2 n (Nat.lt_of_lt_of_le hn indent_mono)).append ?_
        cases xs with
        | nil => rw [itemsText]; exact .nil
        | cons y ys =>
          obtain ⟨l', hl', ht'⟩ := items_first hI (y :: ys) (pos + 1) ty h8 (by simp)
          obtain ⟨t', e1', e2'⟩ := ht' i
          have := Lines.cons (allBlank_indent hI i) hn hl'.line hl'.last (e2' n hn)
          rw [← e1'] at this
          obtain ⟨⟨ty'', su', p', cs', td'⟩, _⟩ := y
          simpa [itemsText] using this
theorem contents_first (hI : AllBlank cfg.indentStr) {d : Nat} : ∀ (cs : List (Located Block)) (x : Located Block)
    (rest : List (Located Block)), ContsOk env ue L cfg d cs → cs = x :: rest →
    FirstLine cfg x.inner.kind fun i => contentsText L cfg i false cs
  | [], x, rest, h, e => by cases e
  | ⟨x, _⟩ :: xs, y, rest, h, e => by
    simp only [ContsOk] at h
    obtain ⟨l, hl, ht⟩ := block_first hI x h.1
    obtain ⟨e1, e2⟩ := List.cons.inj e
    rw [← e1]
    refine ⟨l, hl, fun i => ?_⟩
    obtain ⟨t, e1, e2⟩ := ht i
    refine ⟨t ++ contentsText L cfg i true xs, ?_, fun n hn => ?_⟩
    · dsimp only at e1 ⊢
      rw [contentsText, e1]
      simp
    · refine (e2 n hn).append ?_
      cases xs with
      | nil => rw [contentsText]; exact .nil
      | cons y ys =>
        obtain ⟨l', hl', ht'⟩ := contents_first hI (y :: ys) y ys h.2 rfl
        obtain ⟨t', e1', e2'⟩ := ht' i
        have := Lines.cons (allBlank_indent hI i) hn hl'.line hl'.last (e2' n hn)
        rw [← e1'] at this
        obtain ⟨y, _⟩ := y
        simp only [ContsOk] at h
        rw [contentsText, blockText_true h.2.1]
        simpa [contentsText] using this
end

end Vw
