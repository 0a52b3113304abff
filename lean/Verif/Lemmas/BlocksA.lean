import Verif.Lemmas.Text
import Verif.Model.Blocks
import Verif.Spec.Tables
import Verif.Spec.Lists
import Verif.Spec.Quotes
import Verif.Spec.Placeholders

/-!
# Facts about the block parsers without nesting
-/

namespace Vw
open P Scan

variable {C : Ctx} {k : Nat}

/-! ## Layout of blocks in the text -/

/-- Only spaces, tabs and line ends between `a` and `b`, and bytes of `marks`. -/
structure Gap (C : Ctx) (marks : Str) (a b : Nat) : Prop where
  le : a ≤ b
  all : ∀ i x, a ≤ i → i < b → C.inner[i]? = some x → x ∈ b!" \t\n\r" ++ marks

theorem Gap.refl {m : Str} {a : Nat} : Gap C m a a := ⟨Nat.le_refl _, fun _ _ _ _ => by omega⟩

theorem Gap.trans {m : Str} {a b c : Nat} (h : Gap C m a b) (h' : Gap C m b c) : Gap C m a c := by
  refine ⟨Nat.le_trans h.le h'.le, fun i x h1 h2 hx => ?_⟩
  rcases Nat.lt_or_ge i b with hb | hb
  · exact h.all i x h1 hb hx
  · exact h'.all i x hb h2 hx

theorem Gap.weaken {m : Str} {a b : Nat} (h : Gap C [] a b) : Gap C m a b :=
  ⟨h.le, fun i x h1 h2 hx => List.mem_append_left _ (by simpa using h.all i x h1 h2 hx)⟩

theorem Blanks.gap {m : Str} {a b : Nat} (h : Blanks C a b) (hab : a ≤ b) : Gap C m a b := by
  refine ⟨hab, fun i x h1 h2 hx => ?_⟩
  have := h i x h1 h2 hx
  simp [isSpace] at this
  rcases this with rfl | rfl <;> simp

theorem Took.gap {m : Str} {s s' : Span} (h : Took C isSpace s s') (g : C.Good s s') :
    Gap C m s.start s'.start := Blanks.gap (fun i x h1 h2 hx => h.all i x h1 h2 hx) g.step.le

theorem Gap.of_sub {m : Str} {a b : Nat} (hab : a ≤ b)
    (h : ∀ x ∈ sub C.inner a b, x ∈ b!" \t\n\r" ++ m) : Gap C m a b :=
  ⟨hab, fun i x h1 h2 hx => h x (mem_sub.2 ⟨i, h1, h2, hx⟩)⟩

theorem LineEndAt.nl {s : Str} {stop i : Nat} (h : LineEndAt s stop i) :
    ∃ q, i ≤ q ∧ q < stop ∧ s[q]? = some 10 := by
  rcases h with ⟨h, h'⟩ | ⟨h, _, h'⟩
  · exact ⟨i, Nat.le_refl _, h, h'⟩
  · exact ⟨i + 1, by omega, h, h'⟩

/-- Inline elements take all of a line. -/
theorem Cont.full {s s' : Span} {xs : Inlines} (h : Cont C s s' xs)
    (hn : ∀ i, s.start ≤ i → i < s.stop → C.inner[i]? ≠ some 10) : s'.start = s.stop := by
  rcases h.exit with h' | h'
  · exact h'
  · obtain ⟨q, q1, q2, q3⟩ := h'.nl
    have := h.good.step.le
    exact absurd q3 (hn q (by omega) q2)

/-- Rows of inline elements one after another between `a` and `b`. -/
inductive Rows (C : Ctx) (d : Nat) : Nat → List Inlines → Nat → Prop where
  | nil {a b} : Gap C [] a b → Rows C d a [] b
  | cons {a a' xs b' rows b} : Gap C [] a a' → Tile C d a' xs b' → xs ≠ [] → Rows C d b' rows b →
      Rows C d a (xs :: rows) b

/-- A located row of inline elements inside `a`, `b`. -/
structure LocRow (C : Ctx) (d a : Nat) (x : Located Inlines) (b : Nat) : Prop where
  lo : Gap C [] a x.region.offset
  pos : 0 < x.region.len
  hi : Gap C [] (x.region.offset + x.region.len) b
  depth : x.region.depth = d
  ne : x.inner ≠ []
  tile : ∃ i j, Gap C b!":" x.region.offset i ∧ Tile C (d + 1) i x.inner j ∧
    Gap C b!":" j (x.region.offset + x.region.len)

/-- Located rows one after another between `a` and `b`. -/
inductive LocRows (C : Ctx) (d : Nat) : Nat → List (Located Inlines) → Nat → Prop where
  | nil {a b} : Gap C [] a b → LocRows C d a [] b
  | cons {a x m xs b} : LocRow C d a x m → LocRows C d m xs b → LocRows C d a (x :: xs) b

/-- Entries of a definition list between `a` and `b`. -/
inductive DefsAt (C : Ctx) (d : Nat) : Nat → List (Located TermDefs) → Nat → Prop where
  | nil {a b} : Gap C [] a b → DefsAt C d a [] b
  | cons {a td r m xs b} : LocRows C d a (td.term :: td.defs.inner) m → td.defs.inner ≠ [] →
      a ≤ r.offset → r.offset + r.len ≤ m →
      a ≤ td.defs.region.offset → td.defs.region.offset + td.defs.region.len ≤ m →
      DefsAt C d m xs b → DefsAt C d a (⟨td, r⟩ :: xs) b

/-- A cell between `a` and `b`. -/
structure CellAt (C : Ctx) (d a : Nat) (x : Located Cell) (b : Nat) : Prop where
  lo : a ≤ x.region.offset
  pos : 0 < x.region.len
  hi : x.region.offset + x.region.len ≤ b
  depth : x.region.depth = d
  content : ∀ c, x.inner = .content c → c ≠ [] ∧
    Tile C (d + 1) x.region.offset c (x.region.offset + x.region.len)

/-- Cells of a row one after another between `a` and `b`. -/
inductive CellsAt (C : Ctx) (d : Nat) : Nat → List (Located Cell) → Nat → Prop where
  | nil {a b} : a ≤ b → CellsAt C d a [] b
  | cons {a x m xs b} : CellAt C d a x m → CellsAt C d m xs b → CellsAt C d a (x :: xs) b

/-- Rows of cells one after another between `a` and `b`. -/
inductive CellRows (C : Ctx) (d : Nat) : Nat → List (List (Located Cell)) → Nat → Prop where
  | nil {a b} : a ≤ b → CellRows C d a [] b
  | cons {a xs m rows b} : CellsAt C d a xs m → xs ≠ [] → CellRows C d m rows b →
      CellRows C d a (xs :: rows) b

mutual
/-- A block with region from `a` to `b` at depth `d`. -/
inductive BlockAt (C : Ctx) : Nat → Nat → Nat → Block → Prop where
  | blockquote {d a b ls} : (∀ l ∈ ls, IsStr C a b l) → QuoteSource (sub C.inner a b) ls →
      BlockAt C d a b (.blockquote ls)
  | code {d a b lang m ls} : (∀ l ∈ lang, IsStr C a b l) →
      (∀ e ∈ m, IsStr C a b e.1 ∧ IsStr C a b e.2) → (∀ l ∈ ls, IsStr C a b l) →
      FencedText b!"{{{" b!"}}}" (sub C.inner a b) ls
        (fun hd => ∃ ps, m = Map.collect ps ∧ CodeHead lang ps hd) →
      BlockAt C d a b (.code lang m ls)
  | defs {d a b xs} : xs ≠ [] → DefsAt C (d + 1) a xs b → BlockAt C d a b (.defs xs)
  | divider {d a b} : Gap C b!"-" a b → BlockAt C d a b .divider
  | header {d a b xs level centered i j} : 1 ≤ level → level ≤ 6 → Gap C b!"=" a i →
      Tile C (d + 1) i xs j → Gap C b!"=" j b → xs ≠ [] → BlockAt C d a b (.header xs level centered)
  | math {d a b ls e} : (∀ l ∈ ls, IsStr C a b l) → (∀ l ∈ e, IsStr C a b l) →
      FencedText b!"{{$" b!"}}$" (sub C.inner a b) ls (MathHead e) →
      BlockAt C d a b (.math ls e)
  | paragraph {d a b rows} : Rows C (d + 1) a rows b → rows ≠ [] →
      BlockAt C d a b (.paragraph rows)
  | title {d a b v} : IsStr C a b v → PlaceholderSource C.env.date (sub C.inner a b) (.title v) →
      BlockAt C d a b (.placeholder (.title v))
  | noHtml {d a b} : PlaceholderSource C.env.date (sub C.inner a b) .noHtml →
      BlockAt C d a b (.placeholder .noHtml)
  | template {d a b v} : IsStr C a b v →
      PlaceholderSource C.env.date (sub C.inner a b) (.template v) →
      BlockAt C d a b (.placeholder (.template v))
  | date {d a b v} : PlaceholderSource C.env.date (sub C.inner a b) (.date v) →
      BlockAt C d a b (.placeholder (.date v))
  | other {d a b n v} : IsStr C a b n → IsStr C a b v →
      PlaceholderSource C.env.date (sub C.inner a b) (.other n v) →
      BlockAt C d a b (.placeholder (.other n v))
  | table {d a b rows c c'} : CellRows C (d + 1) a rows b → rows ≠ [] → BarRows C.inner a rows b →
      BlockAt C d a b (.table { Table.new (tableCells 0 rows) c with centered := c' })
  | list {d a b xs} : xs ≠ [] → ListForm C.inner xs → ItemsAt C (d + 1) a xs b →
      BlockAt C d a b (.list xs)
/-- List items one after another between `a` and `b`. -/
inductive ItemsAt (C : Ctx) : Nat → Nat → List (Located ListItem) → Nat → Prop where
  | nil {d a b} : Gap C [] a b → ItemsAt C d a [] b
  | cons {d a o n x xs b ty w o'} : Gap C [] a o → 0 < n → x.contents ≠ [] →
      o ≤ o' → PrefixText ty x.suffix w → sub C.inner o o' = w ++ todoText x.todo →
      BlocksAt C (d + 1) o' x.contents (o + n) → ItemsAt C d (o + n) xs b →
      ItemsAt C d a (⟨x, ⟨o, n, d⟩⟩ :: xs) b
/-- Blocks one after another between `a` and `b`. -/
inductive BlocksAt (C : Ctx) : Nat → Nat → List (Located Block) → Nat → Prop where
  | nil {d a b} : Gap C [] a b → BlocksAt C d a [] b
  | cons {d a o n x xs b} : Gap C [] a o → 0 < n → BlockAt C d o (o + n) x →
      BlocksAt C d (o + n) xs b → BlocksAt C d a (⟨x, ⟨o, n, d⟩⟩ :: xs) b
end

/-- Blocks end at the end of the input or at the beginning of a line. -/
def Ends (C : Ctx) (s s' : Span) : Prop := s'.start = s.stop ∨ C.inner[s'.start - 1]? = some 10

/-- A line terminator. -/
def IsEol (w : Str) : Prop := w = b!"\n" ∨ w = b!"\r\n"

/-- Outcome of a block parser. -/
structure BlockRes (C : Ctx) (s s' : Span) (x : Located Block) : Prop where
  good : C.Good s s'
  lt : s.start < s'.start
  ends : Ends C s s'
  len : 0 < x.region.len
  region : x.region = ⟨s.start, x.region.len, s.depth⟩
  gap : s.start + x.region.len = s'.start ∨ (s.start + x.region.len < s'.start ∧
    (∃ p, x.inner = .placeholder p) ∧
    IsEol (sub C.inner (s.start + x.region.len) s'.start))
  block : BlockAt C s.depth s.start (s.start + x.region.len) x.inner

theorem blockRes_whole {s s' : Span} {x : Block} (g : C.Good s s') (lt : s.start < s'.start)
    (e : Ends C s s') (hb : BlockAt C s.depth s.start s'.start x) :
    BlockRes C s s' ⟨x, ⟨s.start, s'.start - s.start, s.depth⟩⟩ := by
  have h : s.start + (s'.start - s.start) = s'.start := by omega
  exact ⟨g, lt, e, by simp only; omega, rfl, .inl h, by simp only; rw [h]; exact hb⟩

theorem located_block {s : Span} {p : P Block}
    (h : C.Ok (p s) (fun s' x => C.Good s s' ∧ s.start < s'.start ∧ Ends C s s' ∧
      BlockAt C s.depth s.start s'.start x)) : C.Ok (located p s) (BlockRes C s) := by
  refine Ctx.Ok.located (h.mono ?_)
  rintro s' x ⟨g, lt, e, hb⟩
  exact ⟨g.step, blockRes_whole g lt e hb⟩

/-- Facts about the end of a line. -/
structure EolAt (C : Ctx) (s s' : Span) : Prop where
  good : C.Good s s'
  ends : Ends C s s'
  eol : (s.start = s.stop ∧ s' = s) ∨ (s.start < s'.start ∧ LineEndAt C.inner s.stop s.start ∧
    IsEol (sub C.inner s.start s'.start))

theorem EolAt.gap {m : Str} {s s' : Span} (h : EolAt C s s') : Gap C m s.start s'.start := by
  rcases h.eol with ⟨_, e⟩ | ⟨lt, _, e⟩
  · rw [e]; exact .refl
  · refine .of_sub (by omega) fun x hx => ?_
    rcases e with e | e <;> rw [e] at hx <;> simp at hx <;> simp [hx] <;> omega

theorem lineEnding_full {s : Span} (h : C.In k s) :
    C.Ok (lineEnding s) (fun s' _ => C.Good s s' ∧ s.start < s'.start ∧
      LineEndAt C.inner s.stop s.start ∧ C.inner[s'.start - 1]? = some 10 ∧
      IsEol (sub C.inner s.start s'.start)) := by
  refine ((lineEnding_good h).and (Q' := fun s' _ => IsEol (sub C.inner s.start s'.start)) ?_).mono
    fun _ _ h => ⟨h.1.1, h.1.2.1, h.1.2.2.1, h.1.2.2.2, h.2⟩
  unfold lineEnding
  refine Ctx.Ok.alt ((tag_good h _).mono ?_) (fun _ => (tag_good h _).mono ?_)
  · rintro s' o ⟨_, h2, h3⟩
    rw [h2]
    exact .inl (at_iff_sub.1 h3.2)
  · rintro s' o ⟨_, h2, h3⟩
    rw [h2]
    exact .inr (at_iff_sub.1 h3.2)

theorem endOfLine_full {s : Span} (h : C.In k s) :
    C.Ok (endOfLineOrInput s) (fun s' _ => EolAt C s s') := by
  unfold endOfLineOrInput
  split
  · rename_i he
    have he := h.wf.isEmpty.1 he
    exact ⟨Ctx.Good.refl h, .inl he, .inl ⟨he, rfl⟩⟩
  · refine Ctx.Ok.value ((lineEnding_full h).mono ?_)
    rintro s' o ⟨h1, h2, h3, h4, h5⟩
    exact ⟨h1, .inr h4, .inr ⟨h2, h3, h5⟩⟩

theorem Ends.of_good {s s1 s' : Span} (g : C.Good s s1) (h : Ends C s1 s') : Ends C s s' := by
  rcases h with h | h
  · exact .inl (by rw [h, g.step.stop])
  · exact .inr h

theorem Ends.bol {s s' : Span} (h : Ends C s s') : s'.start = s.stop ∨ Bol C s'.start := by
  rcases h with h | h
  · exact .inl h
  · exact .inr (.inr h)

theorem bol_rule {β} {f : Unit → P β} {s : Span} {Q : Span → β → Prop} (h : C.In k s)
    (hf : Bol C s.start → C.Ok (f () s) Q) : C.Ok (P.bind beginningOfLine f s) Q := by
  refine Ctx.Ok.bind' (beginningOfLine_good h) ?_
  rintro s' _ ⟨hs, hb⟩
  rw [hs]
  exact hf hb

/-! ## Headers -/

theorem headerTail_eq (env : Env) (level : Nat) : headerTail env level =
    mapParser takeUntilEol (P.bind trimTrailingWhitespace fun _ =>
        P.bind (verify (takeEnd level) (fun e => e.asRemaining.all (· == c!"="))) fun _ =>
        P.bind (peek (verify (take 1) (fun e => e.asRemaining.headD 0 != c!"="))) fun _ =>
        P.bind (peek (verify (takeEnd 1) (fun e => e.asRemaining.headD 0 != c!"="))) fun _ =>
        P.bind trimWhitespace fun _ =>
        P.map (inlineContainer env) (·.inner)) := by
  funext s
  unfold headerTail mapParser
  cases takeUntilEol s with
  | ok s' o => simp only; split <;> simp_all
  | _ => rfl

theorem take_ok {s : Span} (h : C.Wf k s) (n : Nat) :
    C.Ok (take n s) (fun s' o => s.start + n ≤ s.stop ∧ s' = { s with start := s.start + n } ∧
      o = { s with stop := s.start + n }) := by
  have hle := h.le
  unfold take
  rw [h.remLen]
  split
  · simp [Ctx.Ok]
  · rw [takeSplit_eq (by omega)]
    exact ⟨by omega, rfl, rfl⟩

theorem peekHead_ok {s : Span} (h : C.Wf k s) (c : Byte) :
    C.Ok (peek (verify (take 1) (fun e => e.asRemaining.headD 0 != c)) s)
      (fun s' _ => s' = s ∧ s.start < s.stop ∧ C.inner[s.start]? ≠ some c) := by
  refine Ctx.Ok.peek (Ctx.Ok.verify ((take_ok h 1).mono ?_))
  rintro _ o ⟨h1, _, rfl⟩ hne
  refine ⟨rfl, by omega, ?_⟩
  intro hb
  have hw : C.Wf k { s with stop := s.start + 1 } := h.sub ⟨rfl, rfl, Nat.le_refl _, by simp, h1⟩
  have := hw.getElem? 0
  simp only [Nat.add_zero, Nat.lt_add_one, if_true] at this
  rw [hb] at this
  cases hr : ({ s with stop := s.start + 1 } : Span).asRemaining with
  | nil => rw [hr] at this; cases this
  | cons x xs =>
    rw [hr] at this hne
    simp at this hne
    exact hne this

theorem peekLast_ok {s : Span} (h : C.Wf k s) (c : Byte) :
    C.Ok (peek (verify (takeEnd 1) (fun e => e.asRemaining.headD 0 != c)) s)
      (fun s' _ => s' = s ∧ s.start < s.stop ∧ C.inner[s.stop - 1]? ≠ some c) := by
  refine Ctx.Ok.peek (Ctx.Ok.verify ((takeEnd_good h 1).mono ?_))
  rintro _ o ⟨h1, _, rfl⟩ hne
  refine ⟨rfl, by omega, ?_⟩
  intro hb
  have hw : C.Wf k { s with start := s.stop - 1 } := h.sub
    ⟨rfl, rfl, by simp only; omega, by simp only; omega, Nat.le_refl _⟩
  have := hw.getElem? 0
  simp only [Nat.add_zero] at this
  rw [if_pos (by omega), hb] at this
  cases hr : ({ s with start := s.stop - 1 } : Span).asRemaining with
  | nil => rw [hr] at this; cases this
  | cons x xs =>
    rw [hr] at this hne
    simp at this hne
    exact hne this

/-- The parts of a header line from `s`, whose `=` run of length `level` ends
there, to the end of the line at `e`: before `t` there are `level` times `=`, and
only blanks from `t` to `e`. -/
structure HeaderTail (C : Ctx) (level : Nat) (s : Span) (t e : Nat) : Prop where
  le : s.start + level < t
  te : t ≤ e
  noNl : ∀ i, s.start ≤ i → i < e → C.inner[i]? ≠ some 10
  eol : e = s.stop ∨ LineEndAt C.inner s.stop e
  blanks : Blanks C t e
  last : ∀ b, C.inner[t - 1]? = some b → isSpace b = false
  eqs : ∀ i, t - level ≤ i → i < t → C.inner[i]? = some c!"="
  first : C.inner[s.start]? ≠ some c!"="
  prev : C.inner[t - level - 1]? ≠ some c!"="

theorem headerTail_ok {s : Span} (h : C.In (k + 1) s) (level : Nat) (hl : 1 ≤ level) :
    C.Ok (headerTail C.env level s) (fun s' xs => C.Good s s' ∧ xs ≠ [] ∧ ∃ t,
      HeaderTail C level s t s'.start ∧ ∃ i j, s.start ≤ i ∧ Blanks C s.start i ∧ j ≤ t - level ∧
        Tile C (s.depth + 1) i xs j ∧ Blanks C j (t - level)) := by
  rw [headerTail_eq]
  refine Ctx.Ok.mapParser ((takeUntilEol_good h).mono ?_)
  rintro s' o ⟨hsp, hcl, hex⟩
  have ho := hsp.in h
  have hoeq := hsp.out
  refine Ctx.Ok.bind' (trimTrailing_good ho) ?_
  rintro o1 _ ⟨hs1, he1, hb1, hbl1, hlast⟩
  have h1 := ho.sub hs1 (by rw [he1]; exact ho.bs) hb1
  refine Ctx.Ok.bind' (Ctx.Ok.verify ((takeEnd_good h1.wf level).mono
    (Q' := fun s' e => e.asRemaining.all (· == c!"=") = true → o1.start + level ≤ o1.stop ∧
      s' = { o1 with stop := o1.stop - level } ∧ ∀ i, o1.stop - level ≤ i → i < o1.stop →
      C.inner[i]? = some c!"=") ?_)) ?_
  · rintro o2 e2 ⟨hle2, rfl, rfl⟩ hall
    refine ⟨hle2, rfl, ?_⟩
    intro i i1 i2
    obtain ⟨b, hb⟩ := Wf_get h1.wf i2
    rw [List.all_eq_true] at hall
    have := hall b ?_
    · have : b = 61 := by simpa using this
      rw [hb, this]
    · rw [asRemaining_eq]
      refine mem_sub.2 ⟨i, i1, i2, ?_⟩
      show o1.inner[i]? = _
      rw [h1.wf.inner]; exact hb
  rintro o2 _ ⟨hle2, rfl, heqs⟩
  have hst0 : o1.start = s.start := by rw [he1, hoeq]
  have hle1 : o1.stop ≤ s'.start := by have := hs1.hi; rw [hoeq] at this; exact this
  have hB2 : C.B (o1.stop - level) := Ctx.B_of_lt (heqs _ (Nat.le_refl _) (by omega)) (by decide)
  have h2 : C.In (k + 1) { o1 with stop := o1.stop - level } :=
    h1.sub ⟨rfl, rfl, Nat.le_refl _, by simp only; omega, by simp only; omega⟩ h1.bs hB2
  refine Ctx.Ok.bind' (peekHead_ok h2.wf _) ?_
  rintro _ _ ⟨rfl, hlt3, hfirst⟩
  refine Ctx.Ok.bind' (peekLast_ok h2.wf _) ?_
  rintro _ _ ⟨rfl, _, hprev⟩
  refine Ctx.Ok.bind' (trimWhitespace_good h2) ?_
  rintro o5 _ ⟨hs5, h5, hbl5, hbl5'⟩
  refine Ctx.Ok.map ((inlineContainer_ok h5).mono ?_)
  rintro o6 x ⟨hc, _⟩
  have hd5 : o5.depth = s.depth := by rw [hs5.depth]; show o1.depth = _; rw [hs1.depth, hoeq]
  have hstop5 : o5.stop ≤ o1.stop - level := hs5.hi
  have hlo5 : o1.start ≤ o5.start := hs5.lo
  simp only at hlt3 hfirst hprev
  refine ⟨hsp.good, hc.ne, o1.stop, ⟨by omega, hle1, fun i i1 i2 => (hcl i i1 i2).1, ?_, ?_, ?_,
    heqs, by rw [← hst0]; exact hfirst, hprev⟩, o5.start, o6.start, by omega, ?_, ?_, ?_, ?_⟩
  · rcases hex with h' | h' | ⟨_, h', _⟩
    · exact .inl h'
    · exact .inr h'
    · cases h'
  · rw [hoeq] at hbl1; exact hbl1
  · intro b hb
    exact hlast b (by omega) hb
  · rw [← hst0]; exact hbl5
  · have := hc.good.step.hi; omega
  · rw [← hd5]; exact hc.tile
  · rw [hc.full fun i h1 h2 => (hcl i (by omega) (by omega)).1]
    exact hbl5'

/-- The parts of a header line. -/
structure HeaderLine (C : Ctx) (s s' : Span) (xs : Inlines) (level : Nat) (centered : Bool)
    (m t e : Nat) : Prop where
  bol : Bol C s.start
  blanks : Blanks C s.start m
  le : s.start ≤ m
  centered : centered = true ↔ s.start < m
  level1 : 1 ≤ level
  level6 : level ≤ 6
  eqs : ∀ i, m ≤ i → i < m + level → C.inner[i]? = some c!"="
  mid : m + level + level < t
  tail : HeaderTail C level { s with start := m + level } t e
  eol : EolAt C { s with start := e } s'
  content : xs ≠ [] ∧ ∃ i j, m + level ≤ i ∧ Blanks C (m + level) i ∧ j ≤ t - level ∧
    Tile C (s.depth + 1) i xs j ∧ Blanks C j (t - level)

theorem step_eq {s s' : Span} (h : Step s s') : s' = { s with start := s'.start } := by
  obtain ⟨h1, h2, h3, _, _⟩ := h
  cases s; cases s'; simp_all

theorem headerBody_ok {s : Span} (h : C.In (k + 1) s) :
    C.Ok ((P.bind beginningOfLine fun _ =>
    P.bind (P.map space0 (fun s => !s.isEmpty)) fun centered =>
    P.bind (verify (P.map (takeLineWhile1 (char c!"=")) Span.remainingLen)
      (fun level => decide (1 ≤ level) && decide (level ≤ 6))) fun level =>
    P.bind (headerTail C.env level) fun content =>
    P.bind endOfLineOrInput fun _ =>
    P.pure (Block.header content level centered)) s) (fun s' b => C.Good s s' ∧
      ∃ xs level centered m t e, b = .header xs level centered ∧
        HeaderLine C s s' xs level centered m t e) := by
  refine bol_rule h fun hbol => ?_
  refine Ctx.Ok.bind' (Ctx.Ok.map ((space0_good h).mono (Q' := fun s1 o => C.Good s s1 ∧
    Took C isSpace s s1 ∧ ((!o.isEmpty) = true ↔ s.start < s1.start)) ?_))
    (Q1 := fun s1 c => C.Good s s1 ∧ Took C isSpace s s1 ∧ (c = true ↔ s.start < s1.start)) ?_
  · rintro s1 o ⟨hsp, ht⟩
    refine ⟨hsp.good, ht, ?_⟩
    have ho := hsp.in h
    have he := ho.wf.isEmpty
    rw [hsp.out] at he ⊢
    have hle := hsp.good.step.le
    simp only at he
    rw [Bool.not_eq_true', ← Bool.not_eq_true, he]
    omega
  rintro s1 centered ⟨g1, ht1, hc1⟩
  have h1 := h.good g1
  refine Ctx.Ok.bind' (Ctx.Ok.verify (Ctx.Ok.map ((takeLineWhile1_char_good h1 c!"=").mono
    (Q' := fun s2 o => (decide (1 ≤ o.remainingLen) && decide (o.remainingLen ≤ 6)) = true →
      C.Good s1 s2 ∧ Took C (· == c!"=") s1 s2 ∧ s2.start = s1.start + o.remainingLen ∧
      1 ≤ o.remainingLen ∧ o.remainingLen ≤ 6) ?_)))
    (Q1 := fun s2 level => C.Good s1 s2 ∧ Took C (· == c!"=") s1 s2 ∧
      s2.start = s1.start + level ∧ 1 ≤ level ∧ level ≤ 6) ?_
  · rintro s2 o ⟨hsp, ht, hlt⟩ hv
    rw [Bool.and_eq_true, decide_eq_true_eq, decide_eq_true_eq] at hv
    refine ⟨hsp.good, ht, ?_, hv⟩
    rw [remainingLen_eq, hsp.out]
    simp only
    omega
  rintro s2 level ⟨g2, ht2, hst2, hl1, hl6⟩
  have h2 := h1.good g2
  refine Ctx.Ok.bind' (headerTail_ok h2 level hl1) ?_
  rintro s3 xs ⟨g3, hne, t, htail, i, j, hi1, hi2, hj, htile, hjb⟩
  have h3 := h2.good g3
  refine Ctx.Ok.bind' (endOfLine_full h3) ?_
  intro s4 _ heol
  have g12 := g1.trans g2
  refine Ctx.Ok.pure ⟨(g12.trans g3).trans heol.good, xs, level, centered, s1.start, t,
    s3.start, rfl, hbol, ?_, g1.step.le, hc1, hl1, hl6, ?_, ?_, ?_, ?_, hne, i, j, ?_, ?_, hj, ?_, hjb⟩
  · intro i x i1 i2 hx
    exact ht1.all i x i1 i2 hx
  · intro i i1 i2
    obtain ⟨b, hb⟩ := Wf_get h.wf (i := i) (by have := g12.step.hi; omega)
    have := ht2.all i b i1 (by omega) hb
    simp only [beq_iff_eq] at this
    rw [hb, this]
  · have := htail.le; omega
  · have := step_eq g12.step
    rw [this, hst2] at htail
    exact htail
  · have := step_eq (g12.trans g3).step
    rw [this] at heol
    exact heol
  · omega
  · rw [← hst2]; exact hi2
  · rw [g12.step.depth] at htile; exact htile

theorem header_ok {s : Span} (h : C.In (k + 1) s) : C.Ok (header C.env s) (BlockRes C s) := by
  refine located_block ((headerBody_ok h).mono ?_)
  rintro s' b ⟨g, xs, level, centered, m, t, e, rfl, hl⟩
  have h1 := hl.le
  have h2 := hl.mid
  have h3 := hl.tail.te
  have h4 := hl.eol.good.step.le
  have h5 := hl.level1
  simp only at h4
  obtain ⟨hne, i, j, i1, i2, i3, i4, i5⟩ := hl.content
  have q1 : Gap C b!"=" m (m + level) :=
    ⟨by omega, fun i x p1 p2 hx => by rw [hl.eqs i p1 p2] at hx; cases hx; simp⟩
  have q2 : Gap C b!"=" (t - level) t :=
    ⟨by omega, fun i x p1 p2 hx => by rw [hl.tail.eqs i p1 p2] at hx; cases hx; simp⟩
  exact ⟨g, by omega, hl.eol.ends, .header hl.level1 hl.level6
    ((((hl.blanks.gap h1).trans q1)).trans (i2.gap i1)) i4
    ((((i5.gap i3).trans q2).trans (hl.tail.blanks.gap h3)).trans hl.eol.gap) hne⟩

/-! ## Dividers -/

theorem divider_full {s : Span} (h : C.In k s) :
    C.Ok (divider s) (fun s' x => BlockRes C s s' x ∧ x.inner = .divider ∧ ∃ m, s.start + 4 ≤ m ∧
      (∀ i, s.start ≤ i → i < m → C.inner[i]? = some c!"-") ∧ EolAt C { s with start := m } s' ∧
      Bol C s.start) := by
  refine Ctx.Ok.located ?_
  refine bol_rule h fun hbol => ?_
  refine Ctx.Ok.bind' (Ctx.Ok.verify ((takeLineWhile1_char_good h c!"-").mono
    (Q' := fun s2 o => decide (o.remainingLen ≥ 4) = true → C.Good s s2 ∧
      Took C (· == c!"-") s s2 ∧ s.start + 4 ≤ s2.start) ?_)) ?_
  · rintro s2 o ⟨hsp, ht, hlt⟩ hv
    refine ⟨hsp.good, ht, ?_⟩
    have := of_decide_eq_true hv
    rw [remainingLen_eq, hsp.out] at this
    simp only at this
    omega
  rintro s2 _ ⟨g2, ht, h4⟩
  refine Ctx.Ok.bind' (endOfLine_full (h.good g2)) ?_
  intro s3 _ heol
  have hlt : s.start < s3.start := by have := heol.good.step.le; omega
  have hg : Gap C b!"-" s.start s2.start := ⟨by omega, fun i x i1 i2 hx => by
    have := ht.all i x i1 i2 hx
    simp only [beq_iff_eq] at this
    simp [this]⟩
  refine Ctx.Ok.pure ⟨(g2.trans heol.good).step, blockRes_whole (g2.trans heol.good) hlt
    (heol.ends.of_good g2) (.divider (hg.trans heol.gap)), rfl, s2.start, h4, ?_, ?_, hbol⟩
  · intro i i1 i2
    obtain ⟨b, hb⟩ := Wf_get h.wf (i := i) (by have := g2.step.hi; omega)
    have := ht.all i b i1 i2 hb
    simp only [beq_iff_eq] at this
    rw [hb, this]
  · rw [step_eq g2.step] at heol
    exact heol

theorem divider_ok {s : Span} (h : C.In k s) : C.Ok (divider s) (BlockRes C s) :=
  (divider_full h).mono fun _ _ h => h.1

/-! ## Lines -/

/-- `w` is the line `l` with its line ending. -/
def TermLine (l w : Str) : Prop :=
  10 ∉ l ∧ ((w = l ++ b!"\n" ∧ l.getLast? ≠ some 13) ∨ w = l ++ b!"\r\n")

theorem TermLine.lines {l w rest : Str} {ls : List Str} (h : TermLine l w) (hr : LinesOf rest ls) :
    LinesOf (w ++ rest) (l :: ls) := by
  obtain ⟨h1, ⟨rfl, h2⟩ | rfl⟩ := h
  · exact .lf h1 h2 hr
  · exact .crlf h1 hr

/-- `l` is the text from the start of `s` to the end of the line. -/
def LineFrom (C : Ctx) (s : Span) (l : Str) : Prop :=
  ∃ e, s.start ≤ e ∧ e ≤ s.stop ∧ l = sub C.inner s.start e ∧
    (e = s.stop ∨ LineEndAt C.inner s.stop e)

theorem restOfLine_line {s : Span} (h : C.In k s) :
    C.Ok (restOfLine s) (fun s' o => C.Good s s' ∧ Ends C s s' ∧
      IsStr C s.start s'.start o.asRemaining ∧ 10 ∉ o.asRemaining ∧
      (s'.start = s.stop ∨ TermLine o.asRemaining (sub C.inner s.start s'.start)) ∧
      LineFrom C s o.asRemaining) := by
  refine Ctx.Ok.bind' (takeUntilEol_good h).self ?_
  rintro s1 o ⟨⟨hsp, hcl, hex⟩, hrun⟩
  have h1 := h.good hsp.good
  have hle := hsp.good.step.le
  have hhi := h.wf.hi
  have hnl : 10 ∉ o.asRemaining := by
    rw [hsp.rem h.wf]
    intro hm
    obtain ⟨i, i1, i2, i3⟩ := mem_sub.1 hm
    exact (hcl i i1 i2).1 i3
  refine Ctx.Ok.bind' (endOfLine_full h1).self ?_
  rintro s2 _ ⟨he, hrun2⟩
  have hle2 := he.good.step.le
  refine Ctx.Ok.pure ⟨hsp.good.trans he.good, he.ends.of_good hsp.good,
    (IsStr.split h hsp).mono (Nat.le_refl _) hle2, hnl, ?_,
    ⟨s1.start, hle, hsp.good.step.hi, hsp.rem h.wf, ?_⟩⟩
  rotate_left
  · rcases hex with h' | h' | ⟨_, h', _⟩
    · exact .inl h'
    · exact .inr h'
    · cases h'
  rcases he.eol with ⟨e1, rfl⟩ | ⟨hlt, hle', _⟩
  · left
    rw [e1, hsp.good.step.stop]
  · right
    have hst := hsp.good.step.stop
    have hhi2 := he.good.step.hi
    have hsub : sub C.inner s.start s2.start = o.asRemaining ++ sub C.inner s1.start s2.start := by
      rw [hsp.rem h.wf, sub_append _ _ _ _ hle (by omega)]
    rw [hsub]
    refine ⟨hnl, ?_⟩
    unfold endOfLineOrInput at hrun2
    have hne : ¬ s1.isEmpty = true := fun hh => by
      have := h1.wf.isEmpty.1 hh
      have := hle'.lt
      omega
    rw [if_neg hne] at hrun2
    unfold P.value P.map lineEnding P.alt at hrun2
    have htg := tag_good h1 b!"\n"
    cases htag : tag b!"\n" s1 with
    | ok t2 w2 =>
      rw [htag] at hrun2 htg
      obtain ⟨_, ea, haa⟩ := htg
      cases hrun2
      simp only [List.length_cons, List.length_nil] at ea
      left
      refine ⟨?_, ?_⟩
      · rw [ea, show sub C.inner s1.start (s1.start + (0 + 1)) = b!"\n" from at_iff_sub.1 haa.2]
      · rw [hsp.rem h.wf]
        exact takeUntilEol_lf h hrun (at_singleton.1 haa.2) (by have := hle'.lt; omega)
    | err =>
      rw [htag] at hrun2
      simp only at hrun2
      have htg2 := tag_good h1 b!"\r\n"
      cases htag2 : tag b!"\r\n" s1 with
      | ok t2 w2 =>
        rw [htag2] at hrun2 htg2
        obtain ⟨_, ea, haa⟩ := htg2
        cases hrun2
        simp only [List.length_cons, List.length_nil] at ea
        right
        rw [ea, show sub C.inner s1.start (s1.start + (0 + 1 + 1)) = b!"\r\n" from
          at_iff_sub.1 haa.2]
      | _ => rw [htag2] at hrun2; cases hrun2
    | panic r => rw [htag] at hrun2; cases hrun2
    | diverge => rw [htag] at hrun2; cases hrun2

theorem anyLine_line {s : Span} (h : C.In k s) :
    C.Ok (anyLine s) (fun s' o => C.Good s s' ∧ Ends C s s' ∧
      IsStr C s.start s'.start o.asRemaining ∧ 10 ∉ o.asRemaining ∧
      (s'.start = s.stop ∨ TermLine o.asRemaining (sub C.inner s.start s'.start)) ∧
      LineFrom C s o.asRemaining) :=
  bol_rule h fun _ => restOfLine_line h

/-- Outcome of a parser of one line. -/
structure LineRes (C : Ctx) (s s' : Span) (l : Str) : Prop where
  good : C.Good s s'
  lt : s.start < s'.start
  ends : Ends C s s'
  str : IsStr C s.start s'.start l

/-- Outcome of a parser of several lines. -/
structure LinesRes (C : Ctx) (s s' : Span) (ls : List Str) : Prop where
  good : C.Good s s'
  ends : s' = s ∨ (s.start < s'.start ∧ Ends C s s')
  strs : ∀ l ∈ ls, IsStr C s.start s'.start l

theorem linesRes_cons {s s1 s2 : Span} {l : Str} {ls : List Str}
    (hl : LineRes C s s1 l) (hr : LinesRes C s1 s2 ls) : LinesRes C s s2 (l :: ls) := by
  refine ⟨hl.good.trans hr.good, .inr ⟨?_, ?_⟩, ?_⟩
  · have := hr.good.step.le; have := hl.lt; omega
  · rcases hr.ends with rfl | ⟨_, he⟩
    · exact hl.ends
    · exact he.of_good hl.good
  · intro x hx
    rcases List.mem_cons.1 hx with rfl | hx
    · exact hl.str.mono (Nat.le_refl _) hr.good.step.le
    · exact (hr.strs x hx).mono hl.good.step.le (Nat.le_refl _)

theorem many1_lines {s : Span} (h : C.In k s) {p : P Str}
    (hp : ∀ t, C.In k t → C.Ok (p t) (LineRes C t)) :
    C.Ok (many1 p s) (fun s' ls => LinesRes C s s' ls ∧ s.start < s'.start) := by
  refine (Ctx.Ok.many1 (I := fun t => C.In k t) (T := fun t ls t' => LinesRes C t t' ls)
    ?_ ?_ h).mono ?_
  · intro t ht
    refine (hp t ht).mono fun t' l hl => ⟨hl.good.step, hl.lt, ht.good hl.good, ?_⟩
    intro ls t'' hT
    exact linesRes_cons hl hT
  · intro t ht _
    exact ⟨Ctx.Good.refl ht, .inl rfl, by simp⟩
  · rintro s' ls ⟨_, hlt, _, _, hT, _⟩
    exact ⟨hT, hlt⟩

/-! ## Blockquotes -/

theorem isSpace_iff {x : Byte} : isSpace x = true ↔ x = 32 ∨ x = 9 := by
  simp [isSpace]

theorem Blanks.allBlank {a b : Nat} (h : Blanks C a b) : AllBlank (sub C.inner a b) := by
  intro x hx
  obtain ⟨i, h1, h2, h3⟩ := mem_sub.1 hx
  exact isSpace_iff.1 (h i x h1 h2 h3)

theorem EolAt.text {s s' : Span} (h : EolAt C s s') :
    sub C.inner s.start s'.start = [] ∨ IsLineEnd (sub C.inner s.start s'.start) := by
  rcases h.eol with ⟨_, e⟩ | ⟨_, _, e⟩
  · left; rw [e, sub_self]
  · exact .inr e

theorem sub_ends {t : Str} {a b : Nat} (hab : a < b) (h : t[b - 1]? = some 10) :
    (sub t a b).getLast? = some 10 := by
  have hb : b - 1 < t.length := (List.getElem?_eq_some_iff.1 h).1
  rw [← sub_append t a (b - 1) b (by omega) (by omega), List.getLast?_append]
  have : sub t (b - 1) b = [10] := by
    apply List.ext_getElem?
    intro i
    rw [sub_getElem?]
    rcases i with _ | i
    · rw [if_pos (by omega), Nat.add_zero, h]; rfl
    · rw [if_neg (by omega)]; rfl
  rw [this]; rfl

/-- Lines of a quote with their sources, one after another. -/
structure RowsAt (C : Ctx) (R : Str → Str → Prop) (s s' : Span) (rows : List (Str × Str)) : Prop where
  le : s.start ≤ s'.start
  hi : s'.start ≤ s.stop
  src : sub C.inner s.start s'.start = rows.flatMap (·.2)
  each : ∀ p ∈ rows, R p.1 p.2 ∧ p.2 ≠ []
  ends : ∀ p ∈ rows.dropLast, p.2.getLast? = some 10
  last : s'.start = s.stop ∨ ∀ p ∈ rows, p.2.getLast? = some 10

theorem RowsAt.nil {R : Str → Str → Prop} {s : Span} (h : s.start ≤ s.stop) : RowsAt C R s s [] :=
  ⟨Nat.le_refl _, h, by rw [sub_self]; rfl, by simp, by simp, .inr (by simp)⟩

theorem RowsAt.weaken {R S : Str → Str → Prop} {s s' : Span} {rows : List (Str × Str)}
    (h : RowsAt C R s s' rows) (hi : ∀ l w, R l w → S l w) : RowsAt C S s s' rows :=
  ⟨h.le, h.hi, h.src, fun p hp => ⟨hi _ _ (h.each p hp).1, (h.each p hp).2⟩, h.ends, h.last⟩

theorem RowsAt.one {R : Str → Str → Prop} {s s' : Span} {l : Str} (h : LineRes C s s' l)
    (hhi : s.stop ≤ C.inner.length) (hr : R l (sub C.inner s.start s'.start)) :
    RowsAt C R s s' [(l, sub C.inner s.start s'.start)] := by
  have hlt := h.lt
  have hle := h.good.step.hi
  refine ⟨by omega, h.good.step.stop ▸ hle, by simp, ?_, by simp, ?_⟩
  · intro p hp
    simp only [List.mem_cons, List.not_mem_nil, or_false] at hp
    subst hp
    refine ⟨hr, fun he => ?_⟩
    have := congrArg List.length he
    rw [sub_length _ _ _ (by have := h.good.step.stop; omega)] at this
    simp at this
    omega
  · rcases h.ends with e | e
    · exact .inl e
    · right
      intro p hp
      simp only [List.mem_cons, List.not_mem_nil, or_false] at hp
      subst hp
      exact sub_ends hlt e

theorem RowsAt.append {R : Str → Str → Prop} {s s1 s2 : Span} {r1 r2 : List (Str × Str)}
    (h1 : RowsAt C R s s1 r1) (h2 : RowsAt C R s1 s2 r2) (hst : s1.stop = s.stop) :
    RowsAt C R s s2 (r1 ++ r2) := by
  have a1 := h1.le
  have a2 := h2.le
  have a3 := h2.hi
  refine ⟨by omega, by omega, ?_, ?_, ?_, ?_⟩
  · rw [← sub_append _ _ _ _ a1 a2, h1.src, h2.src, List.flatMap_append]
  · intro p hp
    exact (List.mem_append.1 hp).elim (h1.each p) (h2.each p)
  · by_cases he : r2 = []
    · subst he; simpa using h1.ends
    · rw [List.dropLast_append_of_ne_nil he]
      intro p hp
      rcases List.mem_append.1 hp with hp | hp
      · rcases h1.last with e | e
        · exfalso
          have : s2.start = s1.start := by omega
          have hs := h2.src
          rw [this, sub_self] at hs
          cases r2 with
          | nil => exact he rfl
          | cons q _ =>
            have hq := (h2.each q (by simp)).2
            simp only [List.flatMap_cons] at hs
            exact hq (List.append_eq_nil_iff.1 hs.symm).1
        · exact e p hp
      · exact h2.ends p hp
  · rcases h2.last with e | e
    · exact .inl (by omega)
    · rcases h1.last with e1 | e1
      · exact .inl (by omega)
      · right
        intro p hp
        exact (List.mem_append.1 hp).elim (e1 p) (e p)

theorem indentedBlockquoteLine_row {s : Span} (h : C.In k s) :
    C.Ok (indentedBlockquoteLine s) (fun s' l => LineRes C s s' l ∧
      IndentRow l (sub C.inner s.start s'.start)) := by
  refine Ctx.Ok.bind' (Ctx.Ok.verify ((space0_good h).mono (Q' := fun s1 o =>
    decide (o.remainingLen ≥ 4) = true → C.Good s s1 ∧ s.start + 4 ≤ s1.start ∧ Took C isSpace s s1) ?_)) ?_
  · rintro s1 o ⟨hsp, ht⟩ hv
    refine ⟨hsp.good, ?_, ht⟩
    have := of_decide_eq_true hv
    rw [remainingLen_eq, hsp.out] at this
    simp only at this
    omega
  rintro s1 _ ⟨g1, hlt, ht⟩
  have h1 := h.good g1
  refine Ctx.Ok.bind' (strOf_rule (Ctx.Ok.verify ((notLineEnding_good h1).mono (Q' := fun s2 o =>
    (!o.isOnlyWhitespace) = true → C.Good s1 s2 ∧ IsStr C s1.start s2.start o.asRemaining ∧
      o.asRemaining = sub C.inner s1.start s2.start ∧ s1.start < s2.start ∧
      NoBreak o.asRemaining) ?_)))
    (Q1 := fun s2 l => C.Good s1 s2 ∧ IsStr C s1.start s2.start l ∧ l = sub C.inner s1.start s2.start ∧
      s1.start < s2.start ∧ NoBreak l) ?_
  · rintro s2 o ⟨hsp, hn, _⟩ hv
    have ho : o.asRemaining = sub C.inner s1.start s2.start := hsp.rem h1.wf
    refine ⟨hsp.good, IsStr.split h1 hsp, ho, ?_, ?_⟩
    · have hle := hsp.good.step.le
      refine Nat.lt_of_le_of_ne hle fun he => ?_
      have : o.isOnlyWhitespace = true := by
        unfold Span.isOnlyWhitespace
        rw [remainingLen_eq, hsp.out]
        simp [he]
      rw [this] at hv
      cases hv
    · rw [ho]
      constructor <;> intro hm <;> obtain ⟨i, i1, i2, i3⟩ := mem_sub.1 hm
      · exact (hn i i1 i2).1 i3
      · exact (hn i i1 i2).2 i3
  rintro s2 l ⟨g2, hl, hle, lt2, hone⟩
  refine Ctx.Ok.bind' (endOfLine_full (h1.good g2)) ?_
  intro s3 _ he
  have l3 := he.good.step.le
  have l1 := g1.step.le
  refine Ctx.Ok.pure ⟨⟨(g1.trans g2).trans he.good, by omega, he.ends.of_good (g1.trans g2),
    hl.mono g1.step.le he.good.step.le⟩, ?_⟩
  refine ⟨sub C.inner s.start s1.start, sub C.inner s2.start s3.start, ?_,
    Blanks.allBlank fun i b => ht.all i b, ?_, ?_, ?_, hone, he.text⟩
  · rw [hle, sub_append _ _ _ _ l1 (by omega), sub_append _ _ _ _ (by omega) l3]
  · rw [sub_length _ _ _ (by have := h1.wf.le; have := h1.wf.hi; omega)]; omega
  · intro e0
    have := congrArg List.length (hle.symm.trans e0)
    rw [sub_length _ _ _ (by have := (h1.good g2).wf.le; have := (h1.good g2).wf.hi; omega)] at this
    simp at this
    omega
  · intro x hx
    rw [hle, List.head?_eq_getElem?, sub_getElem?, if_pos (by omega), Nat.add_zero] at hx
    have hst := g2.step.stop
    have hh := g2.step.hi
    have := ht.stop x (by have := g1.step.stop; omega) hx
    intro hb
    rw [isSpace_iff.2 hb] at this
    cases this

theorem indentedBlockquoteLine_ok {s : Span} (h : C.In k s) :
    C.Ok (indentedBlockquoteLine s) (LineRes C s) := (indentedBlockquoteLine_row h).mono fun _ _ h => h.1

theorem many1_rows {R : Str → Str → Prop} {s : Span} (h : C.In k s) {p : P Str}
    (hp : ∀ t, C.In k t → C.Ok (p t) (fun t' l => LineRes C t t' l ∧ R l (sub C.inner t.start t'.start))) :
    C.Ok (many1 p s) (fun s' ls => (LinesRes C s s' ls ∧ s.start < s'.start) ∧
      ∃ rows, rows ≠ [] ∧ ls = rows.map (·.1) ∧ RowsAt C R s s' rows) := by
  refine (Ctx.Ok.many1 (I := fun t => C.In k t) (T := fun t ls t' => LinesRes C t t' ls ∧
    ∃ rows, ls = rows.map (·.1) ∧ RowsAt C R t t' rows)
    ?_ ?_ h).mono ?_
  · intro t ht
    refine (hp t ht).mono fun t' l hl => ⟨hl.1.good.step, hl.1.lt, ht.good hl.1.good, ?_⟩
    rintro ls t'' ⟨hT, rows, e, hr⟩
    exact ⟨linesRes_cons hl.1 hT, (l, _) :: rows, by simp [e],
      (RowsAt.one hl.1 ht.wf.hi hl.2).append hr hl.1.good.step.stop⟩
  · intro t ht _
    exact ⟨⟨Ctx.Good.refl ht, .inl rfl, by simp⟩, [], rfl, .nil ht.wf.le⟩
  · rintro s' ls ⟨_, hlt, _, _, ⟨hT, rows, e, hr⟩, _⟩
    refine ⟨⟨hT, hlt⟩, rows, ?_, e, hr⟩
    rintro rfl
    have := hr.src
    have h1 := congrArg List.length this
    rw [sub_length _ _ _ (by have := hr.hi; have := h.wf.hi; omega)] at h1
    simp at h1
    omega

theorem indentedBlockquote_ok {s : Span} (h : C.In k s) :
    C.Ok (indentedBlockquote s) (BlockRes C s) := by
  refine located_block (Ctx.Ok.map ((many1_rows h fun t ht =>
    indentedBlockquoteLine_row ht).mono ?_))
  rintro s' ls ⟨⟨hl, hlt⟩, rows, hne, e, hr⟩
  refine ⟨hl.good, hlt, ?_, .blockquote hl.strs ?_⟩
  · rcases hl.ends with rfl | h
    · omega
    · exact h.2
  · exact ⟨rows, e, hr.src, hne, hr.ends, .inl fun p hp => (hr.each p hp).1⟩

theorem arrowBlockquoteLine_row {s : Span} (h : C.In k s) :
    C.Ok (arrowBlockquoteLine s) (fun s' l => LineRes C s s' l ∧
      ArrowRow l (sub C.inner s.start s'.start)) := by
  refine Ctx.Ok.bind' (space0_good h) ?_
  rintro s1 _ ⟨hsp1, ht1⟩
  have h1 := h.good hsp1.good
  refine Ctx.Ok.bind' (tag_good h1 _) ?_
  rintro s2 _ ⟨hsp2, hst2, hat⟩
  have h2 := h1.good hsp2.good
  refine Ctx.Ok.bind' (strOf_rule ((notLineEnding_good h2).mono (Q' := fun s3 o =>
    C.Good s2 s3 ∧ IsStr C s2.start s3.start o.asRemaining ∧
      o.asRemaining = sub C.inner s2.start s3.start ∧ NoBreak o.asRemaining) ?_))
    (Q1 := fun s3 l => C.Good s2 s3 ∧ IsStr C s2.start s3.start l ∧
      l = sub C.inner s2.start s3.start ∧ NoBreak l) ?_
  · rintro s3 o ⟨hsp, hn, _⟩
    have ho : o.asRemaining = sub C.inner s2.start s3.start := hsp.rem h2.wf
    refine ⟨hsp.good, IsStr.split h2 hsp, ho, ?_⟩
    rw [ho]
    constructor <;> intro hm <;> obtain ⟨i, i1, i2, i3⟩ := mem_sub.1 hm
    · exact (hn i i1 i2).1 i3
    · exact (hn i i1 i2).2 i3
  rintro s3 l ⟨g3, hl, hle, hone⟩
  refine Ctx.Ok.bind' (endOfLine_full (h2.good g3)) ?_
  intro s4 _ he
  have g := (hsp1.good.trans hsp2.good).trans g3
  have hm := at_iff_sub.1 hat.2
  rw [← hst2] at hm
  simp only [List.length_cons, List.length_nil] at hst2
  have l1 := hsp1.good.step.le
  have l3 := g3.step.le
  have l4 := he.good.step.le
  refine Ctx.Ok.pure ⟨⟨g.trans he.good, by omega, he.ends.of_good g, hl.mono (by omega) (by omega)⟩, ?_⟩
  refine ⟨sub C.inner s.start s1.start, sub C.inner s3.start s4.start, ?_,
    Blanks.allBlank fun i b => ht1.all i b, hone, he.text⟩
  rw [hle, ← hm, sub_append _ _ _ _ l1 (by omega), sub_append _ _ _ _ (by omega) l3,
    sub_append _ _ _ _ (by omega) l4]

theorem arrowBlockquoteLine_ok {s : Span} (h : C.In k s) :
    C.Ok (arrowBlockquoteLine s) (LineRes C s) := (arrowBlockquoteLine_row h).mono fun _ _ h => h.1

theorem isStr_nil {s : Span} (h : C.In k s) {b : Nat} (hb : s.start ≤ b) :
    IsStr C s.start b [] :=
  ⟨s.start, s.start, Nat.le_refl _, Nat.le_refl _, hb, h.bs, h.bs, by rw [sub_self]⟩

theorem blankLine_full {s : Span} (h : C.In k s) :
    C.Ok (blankLine s) (fun s' _ => C.Good s s' ∧ s.start < s'.start ∧ Bol C s.start ∧ Ends C s s' ∧
      ∃ m, s.start ≤ m ∧ Blanks C s.start m ∧ EolAt C { s with start := m } s') := by
  refine Ctx.Ok.preceded ((beginningOfLine_good h).mono ?_)
  rintro s' _ ⟨hs', hbol⟩
  rw [hs']
  refine Ctx.Ok.alt ?_ fun _ => ?_
  · refine Ctx.Ok.terminated ((space1_good h).mono ?_)
    rintro s1 o ⟨hsp, ht, hlt⟩
    refine (endOfLine_full (h.good hsp.good)).mono ?_
    intro s2 _ he
    have hle := he.good.step.le
    refine ⟨hsp.good.trans he.good, by omega, hbol, he.ends.of_good hsp.good, s1.start, by omega,
      ht.all, ?_⟩
    rw [step_eq hsp.good.step] at he
    exact he
  · refine Ctx.Ok.terminated ((space0_good h).mono ?_)
    rintro s1 o ⟨hsp, ht⟩
    refine (lineEnding_full (h.good hsp.good)).mono ?_
    rintro s2 _ ⟨g2, lt2, hle, hnl, hall⟩
    have hle1 := hsp.good.step.le
    refine ⟨hsp.good.trans g2, by omega, hbol, .inr hnl, s1.start, by omega, ht.all, ?_⟩
    rw [step_eq hsp.good.step] at g2 lt2 hle
    exact ⟨g2, .inr hnl, .inr ⟨lt2, hle, hall⟩⟩

theorem blankValue_row {s : Span} (h : C.In k s) :
    C.Ok (P.value ([] : Str) blankLine s) (fun s' l => LineRes C s s' l ∧
      BlankRow l (sub C.inner s.start s'.start)) := by
  refine Ctx.Ok.value ((blankLine_full h).mono ?_)
  rintro s' _ ⟨g, hlt, _, he, m, m1, m2, m3⟩
  refine ⟨⟨g, hlt, he, isStr_nil h g.step.le⟩, rfl, sub C.inner s.start m, sub C.inner m s'.start, ?_,
    m2.allBlank, m3.text⟩
  exact (sub_append _ _ _ _ m1 m3.good.step.le).symm

theorem blankValue_ok {s : Span} (h : C.In k s) :
    C.Ok (P.value ([] : Str) blankLine s) (LineRes C s) := (blankValue_row h).mono fun _ _ h => h.1

theorem many0_rows {R : Str → Str → Prop} {s : Span} (h : C.In k s) {p : P Str}
    (hp : ∀ t, C.In k t → C.Ok (p t) (fun t' l => LineRes C t t' l ∧ R l (sub C.inner t.start t'.start))) :
    C.Ok (many0 p s) (fun s' ls => LinesRes C s s' ls ∧
      ∃ rows, ls = rows.map (·.1) ∧ RowsAt C R s s' rows) := by
  refine (Ctx.Ok.many0 (I := fun t => C.In k t) (T := fun t ls t' => LinesRes C t t' ls ∧
    ∃ rows, ls = rows.map (·.1) ∧ RowsAt C R t t' rows)
    ?_ ?_ h h.wf.le).mono ?_
  · intro t ht
    refine (hp t ht).mono fun t' l hl => ⟨hl.1.good.step, fun _ => ⟨ht.good hl.1.good, ?_⟩⟩
    rintro ls t'' ⟨hT, rows, e, hr⟩
    exact ⟨linesRes_cons hl.1 hT, (l, _) :: rows, by simp [e],
      (RowsAt.one hl.1 ht.wf.hi hl.2).append hr hl.1.good.step.stop⟩
  · intro t ht _
    exact ⟨⟨Ctx.Good.refl ht, .inl rfl, by simp⟩, [], rfl, .nil ht.wf.le⟩
  · rintro s' ls ⟨_, _, _, hT⟩
    exact hT

theorem many0_lines {s : Span} (h : C.In k s) {p : P Str}
    (hp : ∀ t, C.In k t → C.Ok (p t) (LineRes C t)) :
    C.Ok (many0 p s) (fun s' ls => LinesRes C s s' ls) := by
  refine (Ctx.Ok.many0 (I := fun t => C.In k t) (T := fun t ls t' => LinesRes C t t' ls)
    ?_ ?_ h h.wf.le).mono ?_
  · intro t ht
    refine (hp t ht).mono fun t' l hl => ⟨hl.good.step, fun _ => ⟨ht.good hl.good, ?_⟩⟩
    intro ls t'' hT
    exact linesRes_cons hl hT
  · intro t ht _
    exact ⟨Ctx.Good.refl ht, .inl rfl, by simp⟩
  · rintro s' ls ⟨_, _, _, hT⟩
    exact hT

theorem arrowBlockquote_ok {s : Span} (h : C.In k s) :
    C.Ok (arrowBlockquote s) (BlockRes C s) := by
  refine located_block (Ctx.Ok.map (Ctx.Ok.pair ((many1_rows h fun t ht =>
    arrowBlockquoteLine_row ht).mono ?_)))
  rintro s1 head ⟨⟨hl, hlt⟩, rows1, hne, e1, hr1⟩
  have h1 := h.good hl.good
  refine (Ctx.Ok.many0 (I := fun t => C.In k t) (T := fun t bs t' =>
    LinesRes C t t' (bs.flatMap (fun (blanks, bq) => blanks ++ [bq])) ∧
    ∃ rows, bs.flatMap (fun (blanks, bq) => blanks ++ [bq]) = rows.map (·.1) ∧
      RowsAt C (fun l w => ArrowRow l w ∨ BlankRow l w) t t' rows ∧
      ∀ p, rows.getLast? = some p → ArrowRow p.1 p.2) ?_ ?_ h1 h1.wf.le).mono ?_
  · intro t ht
    refine Ctx.Ok.pair ((many0_rows ht fun t ht => blankValue_row ht).mono ?_)
    rintro t1 bs ⟨hbs, rb, eb, hrb⟩
    have ht1 := ht.good hbs.good
    refine (arrowBlockquoteLine_row ht1).mono fun t2 l hl2 =>
      ⟨(hbs.good.trans hl2.1.good).step, fun _ => ⟨ht1.good hl2.1.good, ?_⟩⟩
    obtain ⟨hl2, hw2⟩ := hl2
    rintro as t3 ⟨hT, ra, ea, hra, hla⟩
    have hr := linesRes_cons hl2 hT
    refine ⟨⟨hbs.good.trans hr.good, .inr ⟨?_, ?_⟩, ?_⟩, rb ++ ((l, _) :: ra), ?_,
      (hrb.weaken fun _ _ => .inr).append ((RowsAt.one hl2 ht1.wf.hi (.inl hw2)).append hra
        hl2.good.step.stop) hbs.good.step.stop, ?_⟩
    · have := hbs.good.step.le; have := hl2.lt; have := hT.good.step.le; omega
    · rcases hr.ends with rfl | ⟨_, he⟩
      · have := hl2.lt; have := hT.good.step.le; omega
      · exact he.of_good hbs.good
    · intro x hx
      simp only [List.flatMap_cons, List.append_assoc, List.mem_append, List.cons_append,
        List.nil_append] at hx
      rcases hx with hx | hx
      · exact (hbs.strs x hx).mono (Nat.le_refl _) hr.good.step.le
      · exact (hr.strs x hx).mono hbs.good.step.le (Nat.le_refl _)
    · simp only [List.flatMap_cons, List.map_append, List.map_cons, ea, eb, List.append_assoc,
        List.cons_append, List.nil_append]
    · intro p hp
      rw [List.getLast?_append, List.getLast?_cons] at hp
      simp only [Option.some_or, Option.some.injEq] at hp
      cases hg : ra.getLast? with
      | none => rw [hg] at hp; simp only [Option.getD_none] at hp; subst hp; exact hw2
      | some q => rw [hg] at hp; simp only [Option.getD_some] at hp; subst hp; exact hla _ hg
  · intro t ht _
    exact ⟨⟨Ctx.Good.refl ht, .inl rfl, by simp⟩, [], rfl, .nil ht.wf.le, by simp⟩
  · rintro s2 rest ⟨_, _, _, hT, rows2, e2, hr2, hla⟩
    refine ⟨hl.good.trans hT.good, ?_, ?_, .blockquote ?_ ?_⟩
    · have := hT.good.step.le; omega
    · rcases hT.ends with rfl | ⟨_, he⟩
      · rcases hl.ends with rfl | ⟨_, he⟩
        · omega
        · exact he
      · exact he.of_good hl.good
    · intro l hm
      rcases List.mem_append.1 hm with hm | hm
      · exact (hl.strs l hm).mono (Nat.le_refl _) hT.good.step.le
      · exact (hT.strs l hm).mono hl.good.step.le (Nat.le_refl _)
    · have hr := (hr1.weaken fun _ _ => Or.inl).append hr2 hl.good.step.stop
      have hall : ∀ p ∈ rows1, ArrowRow p.1 p.2 := fun p hp => (hr1.each p hp).1
      refine ⟨rows1 ++ rows2, by rw [e1, e2, List.map_append], hr.src, by simp [hne], hr.ends,
        .inr ⟨fun p hp => (hr.each p hp).1, fun p hp => ?_⟩⟩
      rcases hp with hp | hp
      · rw [List.head?_append] at hp
        cases hh : rows1.head? with
        | none => exact absurd (List.head?_eq_none_iff.1 hh) hne
        | some q =>
          rw [hh] at hp
          cases hp
          exact hall _ (List.mem_of_head? hh)
      · rw [List.getLast?_append] at hp
        cases hh : rows2.getLast? with
        | none => rw [hh] at hp; exact hall _ (List.mem_of_getLast? hp)
        | some q => rw [hh] at hp; cases hp; exact hla _ hh

theorem blockquote_ok {s : Span} (h : C.In k s) : C.Ok (blockquote s) (BlockRes C s) :=
  Ctx.Ok.alt (indentedBlockquote_ok h) fun _ => arrowBlockquote_ok h

end Vw
