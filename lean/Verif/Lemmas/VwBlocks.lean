import Verif.Lemmas.VwWrite

/-!
# Writing blocks
-/

namespace Vw

open Fm

/-! ## What every element keeps -/

/-- The indentation is the same, skipping is not left on and a text `d` that was
written stays written. -/
def Keeps (d : Str) (f g : Fm) : Prop :=
  g.indent = f.indent ∧ (g.skip = true → f.skip = true) ∧ (d <+: f.content → d <+: g.content)

/-- A text that trimming does not change. -/
structure Trimmed (d : Str) : Prop where
  whole : Whole d
  eq : trimEnd d = d

namespace Keeps

theorem refl (d : Str) (f : Fm) : Keeps d f f := ⟨rfl, id, id⟩

theorem trans {d : Str} {f g h : Fm} (h1 : Keeps d f g) (h2 : Keeps d g h) : Keeps d f h :=
  ⟨h2.1.trans h1.1, h1.2.1 ∘ h2.2.1, h2.2.2 ∘ h1.2.2⟩

theorem writes {d : Str} {w : Fm → Fm} {o : Str} (h : Writes w o) (f : Fm) : Keeps d f (w f) := by
  cases hs : f.skip with
  | false =>
    rw [h.plain f hs]
    exact ⟨rfl, id, fun h => h.trans (List.prefix_append _ _)⟩
  | true =>
    obtain ⟨u, p, -, -, e⟩ := h.skips
    rw [e f hs]
    exact ⟨rfl, fun _ => hs, fun h => h.trans (List.prefix_append _ _)⟩

theorem write {d : Str} (s : Str) {f g : Fm} (h : Keeps d f g) : Keeps d f (write s g) :=
  h.trans (writes (.write s) g)

theorem writeIf {d : Str} (b : Bool) (s : Str) {f g : Fm} (h : Keeps d f g) :
    Keeps d f (writeIf b s g) := h.trans (writes (.writeIf b s) g)

theorem writeN {d : Str} (s : Str) (n : Nat) {f g : Fm} (h : Keeps d f g) :
    Keeps d f (writeN s n g) := by
  induction n generalizing g with
  | zero => exact h
  | succ n ih => exact ih (h.write s)

theorem indent {d : Str} (cfg : VwCfg) {f g : Fm} (h : Keeps d f g) :
    Keeps d f (writeIndent cfg g) := by
  unfold writeIndent
  split
  · exact h.writeN _ _
  · exact h

theorem trimIf {d : Str} (hd : Trimmed d) (b : Bool) {w : Fm → Fm} {o : Str} (hw : Writes w o)
    {f g : Fm} (h : Keeps d f g) : Keeps d f (andTrimIf b w g) := by
  refine h.trans ?_
  cases b with
  | false => exact writes hw g
  | true =>
    have hk : Keeps d { g with skip := true } (w { g with skip := true }) := writes hw _
    refine ⟨hk.1, fun h => by simp [andTrimIf, andTrim, skipWhitespace, Fm.trimEnd] at h, ?_⟩
    intro hp
    obtain ⟨x, hx⟩ := hk.2.2 hp
    have := prefix_trimEnd hd.whole hd.eq (x := x)
    rw [hx] at this
    exact this

end Keeps

theorem keeps_rawLines {d : Str} (cfg : VwCfg) (ls : List Str) {f g : Fm} (h : Keeps d f g) :
    Keeps d f (rawLinesFmt cfg ls g) := by
  induction ls generalizing g with
  | nil => exact h
  | cons l ls ih => exact ih (((h.indent cfg).write l).write _)

theorem keeps_quote {d : Str} (hd : Trimmed d) (cfg : VwCfg) (ls : List Str) {f g : Fm}
    (h : Keeps d f g) : Keeps d f (quoteFmt cfg ls g) := by
  induction ls generalizing g with
  | nil => exact h
  | cons l ls ih => exact ih ((((h.indent cfg).write _).trimIf hd _ (.write l)).write _)

theorem keeps_defs {d : Str} (hd : Trimmed d) (L : OutLib) (cfg : VwCfg) (ds : List (Located Inlines))
    (b : Bool) {f g : Fm} (h : Keeps d f g) : Keeps d f (defsFmt L cfg b ds g) := by
  induction ds generalizing g b with
  | nil => exact h
  | cons x ds ih =>
    obtain ⟨x, reg⟩ := x
    refine ih false (Keeps.write _ (Keeps.trimIf hd _ (writes_inlines L cfg x) ?_))
    split
    · exact h.write _
    · exact (h.indent cfg).write _

theorem keeps_defList {d : Str} (hd : Trimmed d) (L : OutLib) (cfg : VwCfg)
    (xs : List (Located TermDefs)) {f g : Fm} (h : Keeps d f g) :
    Keeps d f (defListFmt L cfg xs g) := by
  induction xs generalizing g with
  | nil => exact h
  | cons x xs ih =>
    obtain ⟨⟨term, ds⟩, reg⟩ := x
    exact ih (keeps_defs hd L cfg _ _ ((((h.indent cfg).trimIf hd _
      (writes_inlines L cfg term.inner)).write _).writeIf _ _))

theorem keeps_paragraph {d : Str} (hd : Trimmed d) (L : OutLib) (cfg : VwCfg) (ls : List Inlines)
    {f g : Fm} (h : Keeps d f g) : Keeps d f (paragraphFmt L cfg ls g) := by
  induction ls generalizing g with
  | nil => exact h
  | cons l ls ih => exact ih (((h.indent cfg).trimIf hd _ (writes_inlines L cfg l)).write _)

theorem keeps_divider {d : Str} {n : Nat} {c : Option Cell} {f g : Fm}
    (h : writeDivider n c f = some g) : Keeps d f g := by
  unfold writeDivider at h
  split at h
  · cases h; exact (Keeps.refl d f).write _
  · split at h
    · cases h
    · cases h; exact ((Keeps.refl d f).write _).write _
  · split at h
    · cases h
    · cases h; exact (((Keeps.refl d f).write _).write _).write _
  · split at h
    · cases h
    · cases h; exact ((Keeps.refl d f).write _).write _
  · cases h; exact (Keeps.refl d f).write _

theorem keeps_cell {d : Str} {t : Table} {fx : List (CellPos × Str)} {r c : Nat} {f g : Fm}
    (h : writeCell t fx r c f = some g) : Keeps d f g := by
  unfold writeCell at h
  rw [Option.map_eq_some_iff] at h
  obtain ⟨k, h, rfl⟩ := h
  refine Keeps.write _ ?_
  unfold writeBody at h
  split at h
  · cases h; exact ((Keeps.refl d f).write _).writeIf _ _
  · exact keeps_divider h

theorem keeps_cells {d : Str} {t : Table} {fx : List (CellPos × Str)} {r : Nat} {cs : List Nat}
    {f g : Fm} (h : writeCells t fx r cs f = some g) : Keeps d f g := by
  induction cs generalizing f with
  | nil => cases h; exact .refl d _
  | cons c cs ih =>
    simp only [writeCells, Option.bind_eq_some_iff] at h
    obtain ⟨k, h1, h2⟩ := h
    exact (keeps_cell h1).trans (ih h2)

theorem keeps_rows {d : Str} {cfg : VwCfg} {t : Table} {fx : List (CellPos × Str)} {rs : List Nat}
    {f g : Fm} (h : writeRows cfg t fx rs f = some g) : Keeps d f g := by
  induction rs generalizing f with
  | nil => cases h; exact .refl d _
  | cons c cs ih =>
    simp only [writeRows, Option.bind_eq_some_iff, Option.map_eq_some_iff] at h
    obtain ⟨k, ⟨k', h1, rfl⟩, h2⟩ := h
    exact ((((((Keeps.refl d f).indent cfg).writeIf _ _).write _).trans (keeps_cells h1)).write _).trans
      (ih h2)

theorem keeps_head {d : Str} (L : OutLib) (cfg : VwCfg) (ty : ItemType) (sf : Suffix) (pos : Nat)
    (todo : Option Todo) (f : Fm) : Keeps d f (itemHead L cfg ty sf pos todo f) := by
  have h := (((Keeps.refl d f).indent cfg).write (ty.toPrefix L.rom pos sf)).write b!" "
  unfold itemHead
  cases todo with
  | none => exact h
  | some s => exact ((h.write _).write _).write _

mutual
theorem keeps_block {d : Str} (hd : Trimmed d) (L : OutLib) (cfg : VwCfg) :
    (b : Block) → ∀ {f g : Fm}, b.fmt L cfg f = some g → Keeps d f g
  | .blockquote ls, f, g, h => by
    simp only [Block.fmt, Option.some.injEq] at h; subst h
    exact keeps_quote hd cfg ls (.refl d f)
  | .code lang md ls, f, g, h => by
    simp only [Block.fmt, Option.some.injEq] at h; subst h
    exact ((keeps_rawLines cfg ls ((((((Keeps.refl d f).indent cfg).write _).write _).trans
      (.writes (writes_pairs _ _) _)).write _)).indent cfg).write _
  | .defs items, f, g, h => by
    simp only [Block.fmt, Option.some.injEq] at h; subst h
    exact keeps_defList hd L cfg items (.refl d f)
  | .divider, f, g, h => by
    simp only [Block.fmt, Option.some.injEq] at h; subst h
    exact (Keeps.refl d f).write _
  | .header c level centered, f, g, h => by
    simp only [Block.fmt, Option.some.injEq] at h; subst h
    exact ((((((((Keeps.refl d f).writeIf _ _).writeN _ _).writeIf _ _).trimIf hd _
      (writes_inlines L cfg c)).writeIf _ _).writeN _ _).write _)
  | .list items, f, g, h => by
    simp only [Block.fmt] at h
    exact keeps_items hd L cfg items h
  | .math ls env, f, g, h => by
    simp only [Block.fmt, Option.some.injEq] at h; subst h
    exact ((keeps_rawLines cfg ls (((((Keeps.refl d f).indent cfg).write _).write _).write
      _)).indent cfg).write _
  | .paragraph ls, f, g, h => by
    simp only [Block.fmt, Option.some.injEq] at h; subst h
    exact keeps_paragraph hd L cfg ls (.refl d f)
  | .placeholder p, f, g, h => by
    simp only [Block.fmt, Option.some.injEq] at h; subst h
    have r := Keeps.refl d f
    cases p with
    | title x => exact ((r.write _).write _).write _
    | noHtml => exact r.write _
    | template x => exact ((r.write _).write _).write _
    | date x => exact ((r.write _).write _).write _
    | other n v => exact ((((r.write _).write _).write _).write _).write _
  | .table t, f, g, h => by
    simp only [Block.fmt, Table.fmt] at h
    exact keeps_rows h
theorem keeps_items {d : Str} (hd : Trimmed d) (L : OutLib) (cfg : VwCfg) :
    (xs : List (Located (ItemF Block))) → ∀ {f g : Fm}, Block.fmtItems L cfg xs f = some g →
      Keeps d f g
  | [], f, g, h => by
    simp only [Block.fmtItems, Option.some.injEq] at h; subst h; exact .refl d f
  | ⟨⟨ty, sf, pos, cs, todo⟩, _⟩ :: xs, f, g, h => by
    simp only [Block.fmtItems, Option.bind_eq_some_iff] at h
    obtain ⟨k, h1, h2⟩ := h
    refine Keeps.trans ?_ (keeps_items hd L cfg xs h2)
    refine Keeps.trans ?_ (keeps_contents hd L cfg cs h1)
    split
    · exact .refl d f
    · exact keeps_head ..
theorem keeps_contents {d : Str} (hd : Trimmed d) (L : OutLib) (cfg : VwCfg) :
    (xs : List (Located Block)) → ∀ {f g : Fm}, Block.fmtContents L cfg xs f = some g →
      Keeps d f g
  | [], f, g, h => by
    simp only [Block.fmtContents, Option.some.injEq] at h; subst h; exact .refl d f
  | ⟨x, _⟩ :: xs, f, g, h => by
    simp only [Block.fmtContents, Option.bind_eq_some_iff, andIndent, Option.map_eq_some_iff] at h
    obtain ⟨k, ⟨k', h1, rfl⟩, h2⟩ := h
    refine Keeps.trans ?_ (keeps_contents hd L cfg xs h2)
    obtain ⟨e1, e2, e3⟩ := keeps_block hd L cfg x h1
    exact ⟨by simp only [e1]; omega, e2, e3⟩
end

theorem keeps_page {d : Str} (hd : Trimmed d) (L : OutLib) (cfg : VwCfg) (xs : List (Located Block))
    {f g : Fm} (h : pageFmt L cfg xs f = some g) : Keeps d f g := by
  induction xs generalizing f with
  | nil => simp only [pageFmt, Option.some.injEq] at h; subst h; exact .refl d f
  | cons x xs ih =>
    obtain ⟨x, reg⟩ := x
    cases xs with
    | nil => exact keeps_block hd L cfg x (by simpa [pageFmt] using h)
    | cons y ys =>
      simp only [pageFmt, Option.bind_eq_some_iff] at h
      obtain ⟨k, h1, h2⟩ := h
      exact ((keeps_block hd L cfg x h1).writeIf _ _).trans (ih h2)

/-! ## Elements that only append -/

/-- Whether the content is at the beginning of a line after `t` has been appended. -/
def bolAfter (b : Bool) (t : Str) : Bool := if t.isEmpty then b else t.getLast? == some 10

theorem bol_append (c t : Str) : bol (c ++ t) = bolAfter (bol c) t := by
  cases t with
  | nil => simp [bolAfter]
  | cons a t =>
    unfold bol bolAfter
    rw [List.getLast?_append]
    have : ((a :: t).getLast?).isSome := by simp
    obtain ⟨x, hx⟩ := Option.isSome_iff_exists.1 this
    simp [hx]

theorem writeN_eq (s : Str) (n : Nat) (c : Str) (i : Nat) :
    writeN s n ⟨c, i, false⟩ = ⟨c ++ (List.replicate n s).flatten, i, false⟩ := by
  induction n generalizing c with
  | zero => simp [writeN]
  | succ n ih => simp [writeN, Fm.write, ih, List.replicate_succ]

theorem writeIndent_eq (cfg : VwCfg) (c : Str) (i : Nat) :
    writeIndent cfg ⟨c, i, false⟩ = ⟨c ++ indentAt cfg i (bol c), i, false⟩ := by
  unfold writeIndent indentAt
  dsimp only
  split
  · rw [writeN_eq]; rfl
  · simp

theorem write_eq (s c : Str) (i : Nat) : Fm.write s ⟨c, i, false⟩ = ⟨c ++ s, i, false⟩ := rfl

theorem writeIf_eq (b : Bool) (s c : Str) (i : Nat) :
    Fm.writeIf b s ⟨c, i, false⟩ = ⟨c ++ (if b then s else []), i, false⟩ := by
  cases b <;> simp [Fm.writeIf, write_eq]

/-- A text that ends with an ASCII byte or is empty. -/
def EndsAscii (t : Str) : Prop := t = [] ∨ ∃ b, b < 128 ∧ t.getLast? = some b

theorem EndsAscii.of_append {t : Str} {b : Byte} (hb : b < 128) : EndsAscii (t ++ [b]) :=
  .inr ⟨b, hb, by simp⟩

/-- The operation appends a text that depends on the indentation and on being at the
beginning of a line only. -/
def Appends (w : Fm → Fm) : Prop :=
  ∃ T : Nat → Bool → Str, ∀ i c, w ⟨c, i, false⟩ = ⟨c ++ T i (bol c), i, false⟩

theorem Appends.id : Appends fun f => f := ⟨fun _ _ => [], fun i c => by simp⟩

theorem Appends.comp {w1 w2 : Fm → Fm} (h1 : Appends w1) (h2 : Appends w2) :
    Appends fun f => w2 (w1 f) := by
  obtain ⟨T1, e1⟩ := h1
  obtain ⟨T2, e2⟩ := h2
  refine ⟨fun i b => T1 i b ++ T2 i (bolAfter b (T1 i b)), fun i c => ?_⟩
  dsimp only
  rw [e1, e2, bol_append]; simp

theorem Appends.writes {w : Fm → Fm} {o : Str} (h : Writes w o) : Appends w :=
  ⟨fun _ _ => o, fun _ _ => h.plain _ rfl⟩

theorem Appends.indent (cfg : VwCfg) : Appends (writeIndent cfg) :=
  ⟨indentAt cfg, fun i c => writeIndent_eq cfg c i⟩

theorem Appends.write {w : Fm → Fm} (h : Appends w) (s : Str) : Appends fun f => write s (w f) :=
  h.comp (.writes (.write s))

theorem Appends.indent' {w : Fm → Fm} (h : Appends w) (cfg : VwCfg) :
    Appends fun f => writeIndent cfg (w f) := h.comp (.indent cfg)

theorem appends_rawLines (cfg : VwCfg) (ls : List Str) : Appends (rawLinesFmt cfg ls) := by
  induction ls with
  | nil => exact .id
  | cons l ls ih => exact (((Appends.indent cfg).write l).write b!"\n").comp ih

/-- As `Appends`, for texts before it that do not end inside a character and for
operations that may panic; what is appended ends with an ASCII byte. -/
def Puts (w : Fm → Option Fm) : Prop :=
  ∃ T : Nat → Bool → Option Str, (∀ i b t, T i b = some t → EndsAscii t) ∧
    ∀ i c, Whole c → w ⟨c, i, false⟩ = (T i (bol c)).map fun t => ⟨c ++ t, i, false⟩

/-- As `Puts`, for operations that do not panic. -/
def Puts1 (w : Fm → Fm) : Prop :=
  ∃ T : Nat → Bool → Str, (∀ i b, EndsAscii (T i b)) ∧
    ∀ i c, Whole c → w ⟨c, i, false⟩ = ⟨c ++ T i (bol c), i, false⟩

theorem Puts1.puts {w : Fm → Fm} (h : Puts1 w) : Puts fun f => some (w f) := by
  obtain ⟨T, h1, h2⟩ := h
  exact ⟨fun i b => some (T i b), fun i b t ht => by cases ht; exact h1 i b,
    fun i c hc => by dsimp only; rw [h2 i c hc]; rfl⟩

theorem Puts1.id : Puts1 fun f => f := ⟨fun _ _ => [], fun _ _ => .inl rfl, fun i c _ => by simp⟩

theorem Puts1.comp {w1 w2 : Fm → Fm} (h1 : Puts1 w1) (h2 : Puts1 w2) :
    Puts1 fun f => w2 (w1 f) := by
  obtain ⟨T1, a1, e1⟩ := h1
  obtain ⟨T2, a2, e2⟩ := h2
  refine ⟨fun i b => T1 i b ++ T2 i (bolAfter b (T1 i b)), fun i b => ?_, fun i c hc => ?_⟩
  · rcases a2 i (bolAfter b (T1 i b)) with h | ⟨x, hx, h⟩
    · dsimp only; rw [h, List.append_nil]; exact a1 i b
    · exact .inr ⟨x, hx, by dsimp only; rw [List.getLast?_append, h]; rfl⟩
  · dsimp only
    rw [e1 i c hc, e2 i _ (hc.append (a1 i _)), bol_append]; simp

theorem Puts.comp {w1 w2 : Fm → Option Fm} (h1 : Puts w1) (h2 : Puts w2) :
    Puts fun f => (w1 f).bind w2 := by
  obtain ⟨T1, a1, e1⟩ := h1
  obtain ⟨T2, a2, e2⟩ := h2
  refine ⟨fun i b => (T1 i b).bind fun t => (T2 i (bolAfter b t)).map (t ++ ·),
    fun i b t ht => ?_, fun i c hc => ?_⟩
  · simp only [Option.bind_eq_some_iff, Option.map_eq_some_iff] at ht
    obtain ⟨t1, h1, t2, h2, rfl⟩ := ht
    rcases a2 _ _ _ h2 with h | ⟨x, hx, h⟩
    · rw [h, List.append_nil]; exact a1 _ _ _ h1
    · exact .inr ⟨x, hx, by rw [List.getLast?_append, h]; rfl⟩
  · dsimp only
    rw [e1 i c hc]
    cases ht : T1 i (bol c) with
    | none => rfl
    | some t =>
      simp only [Option.map_some, Option.bind_some]
      rw [e2 i _ (hc.append (a1 _ _ _ ht)), bol_append, Option.map_map]
      simp [Function.comp_def]

theorem Puts.indented {w : Fm → Option Fm} (h : Puts w) : Puts (andIndent w) := by
  obtain ⟨T, a, e⟩ := h
  refine ⟨fun i b => T (i + 1) b, fun i b t ht => a _ _ _ ht, fun i c hc => ?_⟩
  simp only [andIndent]
  rw [e (i + 1) c hc, Option.map_map]
  rfl

theorem Appends.puts1 {w : Fm → Fm} (h : Appends w) {s : Str} {b : Byte} (hb : b < 128) :
    Puts1 fun f => Fm.write (s ++ [b]) (w f) := by
  obtain ⟨T, e⟩ := h
  refine ⟨fun i b' => T i b' ++ (s ++ [b]), fun i b' => ?_, fun i c _ => ?_⟩
  · simp only [← List.append_assoc]; exact .of_append hb
  · dsimp only
    rw [e, write_eq]; simp

/-! ## Trimming -/

/-- A text with a visible ASCII character. -/
def Vis (x : Str) : Prop := ∃ b ∈ x, 32 < b ∧ b < 128

theorem Vis.not_ws {x : Str} (h : Vis x) : ¬ WsText x := by
  obtain ⟨b, hb, h1, h2⟩ := h
  intro hw
  have := hw.bytes b hb
  omega

theorem Vis.append {x : Str} (h : Vis x) (y : Str) : Vis (x ++ y) := by
  obtain ⟨b, hb, h⟩ := h
  exact ⟨b, by simp [hb], h⟩

theorem Vis.append_left {y : Str} (h : Vis y) (x : Str) : Vis (x ++ y) := by
  obtain ⟨b, hb, h⟩ := h
  exact ⟨b, by simp [hb], h⟩

theorem Vis.trimEnd {x : Str} (h : Vis x) : Vis (trimEnd x) := by
  obtain ⟨b, hb, h⟩ := h
  obtain ⟨w, h1, h2⟩ := trimEnd_spec x
  rw [h2, List.mem_append] at hb
  rcases hb with hb | hb
  · exact ⟨b, hb, h⟩
  · have := h1.bytes b hb; omega

theorem andTrim_eq {w : Fm → Fm} {o : Str} (h : Writes w o) (flag : Bool) :
    ∃ q : Str → Str, (∀ x, Vis x → Vis (q x)) ∧ ∀ c x i, Whole c →
      (flag = true → Vis x ∨ (Whole x ∧ ¬ WsText o)) →
      andTrimIf flag w ⟨c ++ x, i, false⟩ = ⟨c ++ q x, i, false⟩ := by
  cases flag with
  | false =>
    refine ⟨fun x => x ++ o, fun x hx => hx.append _, fun c x i _ _ => ?_⟩
    simp only [andTrimIf]
    rw [if_neg (by simp), h.plain _ rfl]; simp
  | true =>
    obtain ⟨u, p, hu, rfl, e⟩ := h.skips
    refine ⟨fun x => Vw.trimEnd (x ++ p), fun x hx => (hx.append _).trimEnd, fun c x i hc hx => ?_⟩
    have hn : ¬ WsText (x ++ p) := by
      rcases hx rfl with hv | ⟨hw, ho⟩
      · exact (hv.append p).not_ws
      · intro hh
        exact ho (hu.append (WsText.split hw (List.suffix_refl _) hh).2)
    simp only [andTrimIf, if_true, andTrim, skipWhitespace, Fm.trimEnd]
    rw [e _ rfl]
    simp only [List.append_assoc]
    rw [trimEnd_append hc hn]

/-- Operations after a visible text: what they do does not depend on the text in
front of it. -/
def Rel (w : Fm → Fm) : Prop :=
  ∃ F : Nat → Str → Str, (∀ i x, Vis x → Vis (F i x)) ∧ ∀ i c x, Whole c → Vis x →
    w ⟨c ++ x, i, false⟩ = ⟨c ++ F i x, i, false⟩

theorem Rel.id : Rel fun f => f := ⟨fun _ x => x, fun _ _ h => h, fun _ _ _ _ _ => rfl⟩

theorem Rel.comp {w1 w2 : Fm → Fm} (h1 : Rel w1) (h2 : Rel w2) : Rel fun f => w2 (w1 f) := by
  obtain ⟨F1, a1, e1⟩ := h1
  obtain ⟨F2, a2, e2⟩ := h2
  exact ⟨fun i x => F2 i (F1 i x), fun i x h => a2 i _ (a1 i x h),
    fun i c x hc hx => by dsimp only; rw [e1 i c x hc hx, e2 i c _ hc (a1 i x hx)]⟩

theorem Rel.write (s : Str) : Rel (Fm.write s) :=
  ⟨fun _ x => x ++ s, fun _ _ h => h.append s, fun i c x _ _ => by rw [write_eq]; simp⟩

theorem Rel.writeIf (b : Bool) (s : Str) : Rel (Fm.writeIf b s) := by
  cases b with
  | true => exact .write s
  | false => exact .id

theorem Rel.writeN (s : Str) (n : Nat) : Rel (Fm.writeN s n) :=
  ⟨fun _ x => x ++ (List.replicate n s).flatten, fun _ _ h => h.append _,
    fun i c x _ _ => by rw [writeN_eq]; simp⟩

theorem Rel.indent (cfg : VwCfg) : Rel (writeIndent cfg) := by
  refine ⟨fun i x => x ++ indentAt cfg i (bol x), fun _ _ h => h.append _, fun i c x _ hx => ?_⟩
  rw [writeIndent_eq, bol_append]
  have : bolAfter (bol c) x = bol x := by
    obtain ⟨b, hb, -⟩ := hx
    cases x with
    | nil => cases hb
    | cons a x => simp [bolAfter, bol]
  rw [this]; simp

theorem Rel.trimIf {w : Fm → Fm} {o : Str} (h : Writes w o) (flag : Bool) :
    Rel (andTrimIf flag w) := by
  obtain ⟨q, h1, h2⟩ := andTrim_eq h flag
  exact ⟨fun _ => q, fun _ => h1, fun i c x hc hx => h2 c x i hc fun _ => .inl hx⟩

/-- An operation that writes a visible text, then something relative to it, then an
ASCII text. -/
theorem Rel.puts1 {w1 w2 : Fm → Fm} {S : Nat → Bool → Str} (hv : ∀ i b, Vis (S i b))
    (h1 : ∀ i c, Whole c → w1 ⟨c, i, false⟩ = ⟨c ++ S i (bol c), i, false⟩) (h2 : Rel w2)
    {s : Str} {b : Byte} (hb : b < 128) :
    Puts1 fun f => Fm.write (s ++ [b]) (w2 (w1 f)) := by
  obtain ⟨F, a, e⟩ := h2
  refine ⟨fun i b' => F i (S i b') ++ (s ++ [b]), fun i b' => ?_, fun i c hc => ?_⟩
  · simp only [← List.append_assoc]; exact .of_append hb
  · dsimp only
    rw [h1 i c hc, e i c _ hc (hv i _), write_eq]; simp

theorem whole_indentAt {cfg : VwCfg} (h : ValidUtf8 cfg.indentStr) (i : Nat) (b : Bool) :
    ValidUtf8 (indentAt cfg i b) := by
  unfold indentAt indentText
  split
  · induction i with
    | zero => exact .nil
    | succ i ih => rw [List.replicate_succ, List.flatten_cons]; exact h.append ih
  · exact .nil

theorem puts_quote {cfg : VwCfg} (hI : ValidUtf8 cfg.indentStr) {ls : List Str}
    (h : cfg.trimQuote = true → cfg.preferIndentedQuote = true → ∀ l ∈ ls, NotBlank l) :
    Puts1 (quoteFmt cfg ls) := by
  induction ls with
  | nil => exact .id
  | cons l ls ih =>
    have ih := ih fun h1 h2 l hl => h h1 h2 l (by simp [hl])
    refine Puts1.comp (w1 := fun f => Fm.write b!"\n" (andTrimIf cfg.trimQuote (Fm.write l)
      (Fm.write (if cfg.preferIndentedQuote then b!"    " else b!"> ") (writeIndent cfg f)))) ?_ ih
    obtain ⟨q, -, e⟩ := andTrim_eq (.write l) cfg.trimQuote
    refine ⟨fun i b => q (indentAt cfg i b ++ (if cfg.preferIndentedQuote then b!"    " else b!"> ")) ++
      b!"\n", fun i b => .of_append (by decide), fun i c hc => ?_⟩
    dsimp only
    rw [writeIndent_eq, write_eq, List.append_assoc, e c _ i hc, write_eq, List.append_assoc]
    intro ht
    by_cases hp : cfg.preferIndentedQuote = true
    · right
      rw [if_pos hp]
      exact ⟨((whole_indentAt hI _ _).append (.ascii (by decide))).whole, h ht hp l (by simp)⟩
    · left
      rw [if_neg hp]
      exact Vis.append_left ⟨c!">", by decide, by decide⟩ _

theorem puts_paragraph {L : OutLib} {cfg : VwCfg} (hI : ValidUtf8 cfg.indentStr) {ls : List Inlines}
    (h : cfg.trimParagraph = true → ∀ l ∈ ls, NotBlank (Inline.textAll L cfg l)) :
    Puts1 (paragraphFmt L cfg ls) := by
  induction ls with
  | nil => exact .id
  | cons l ls ih =>
    have ih := ih fun h1 l hl => h h1 l (by simp [hl])
    refine Puts1.comp (w1 := fun f => Fm.write b!"\n" (andTrimIf cfg.trimParagraph
      (Inline.fmtAll L cfg l) (writeIndent cfg f))) ?_ ih
    obtain ⟨q, -, e⟩ := andTrim_eq (writes_inlines L cfg l) cfg.trimParagraph
    refine ⟨fun i b => q (indentAt cfg i b) ++ b!"\n", fun i b => .of_append (by decide),
      fun i c hc => ?_⟩
    dsimp only
    rw [writeIndent_eq, e c _ i hc, write_eq, List.append_assoc]
    intro ht
    exact .inr ⟨(whole_indentAt hI _ _).whole, h ht l (by simp)⟩

/-- Definitions end with a line feed. -/
theorem defs_last (L : OutLib) (cfg : VwCfg) (b : Bool) (ds : List (Located Inlines)) (hd : ds ≠ []) :
    ∃ w, Rel w ∧ defsFmt L cfg b ds = fun f => Fm.write b!"\n" (w f) := by
  induction ds generalizing b with
  | nil => exact absurd rfl hd
  | cons d ds ih =>
    obtain ⟨d, reg⟩ := d
    have hr : Rel fun f => andTrimIf cfg.trimDefs (Inline.fmtAll L cfg d)
        (if b && !cfg.termAlone then Fm.write b!" " f
          else Fm.write b!":: " (writeIndent cfg f)) := by
      refine Rel.comp ?_ (.trimIf (writes_inlines L cfg d) _)
      split
      · exact .write _
      · exact (Rel.indent cfg).comp (.write _)
    by_cases h : ds = []
    · subst h
      exact ⟨_, hr, rfl⟩
    · obtain ⟨w, h1, h2⟩ := ih false h
      refine ⟨_, (hr.comp (.write b!"\n")).comp h1, ?_⟩
      funext f
      simp only [defsFmt, h2]

theorem puts_defList {L : OutLib} {cfg : VwCfg} (hI : ValidUtf8 cfg.indentStr)
    {xs : List (Located TermDefs)}
    (h : cfg.trimTerms = true → ∀ x ∈ xs, NotBlank (Inline.textAll L cfg x.inner.term.inner)) :
    Puts1 (defListFmt L cfg xs) := by
  induction xs with
  | nil => exact .id
  | cons x xs ih =>
    have ih := ih fun h1 x hx => h h1 x (by simp [hx])
    obtain ⟨⟨term, ds⟩, reg⟩ := x
    refine Puts1.comp (w1 := fun f => defsFmt L cfg true ds.inner
      (Fm.writeIf (cfg.termAlone || ds.inner.isEmpty) b!"\n"
        (Fm.write b!"::" (andTrimIf cfg.trimTerms (Inline.fmtAll L cfg term.inner)
          (writeIndent cfg f))))) ?_ ih
    obtain ⟨q, -, e⟩ := andTrim_eq (writes_inlines L cfg term.inner) cfg.trimTerms
    have h1 : ∀ i c, Whole c →
        Fm.write b!"::" (andTrimIf cfg.trimTerms (Inline.fmtAll L cfg term.inner)
          (writeIndent cfg ⟨c, i, false⟩)) =
        ⟨c ++ (q (indentAt cfg i (bol c)) ++ b!"::"), i, false⟩ := by
      intro i c hc
      rw [writeIndent_eq, e c _ i hc, write_eq, List.append_assoc]
      intro ht
      exact .inr ⟨(whole_indentAt hI _ _).whole, h ht ⟨⟨term, ds⟩, reg⟩ (by simp)⟩
    have hv : ∀ i b, Vis (q (indentAt cfg i b) ++ b!"::") :=
      fun i b => Vis.append_left ⟨c!":", by decide, by decide⟩ _
    by_cases hd : ds.inner = []
    · have hr := Rel.puts1 (w1 := fun f => Fm.write b!"::" (andTrimIf cfg.trimTerms (Inline.fmtAll L cfg term.inner)
          (writeIndent cfg f))) hv h1 .id (s := []) (b := 10) (by decide)
      rw [hd]
      simpa [defsFmt, Fm.writeIf] using hr
    · obtain ⟨w, hw, he⟩ := defs_last L cfg true ds.inner hd
      have hr := Rel.puts1 (w1 := fun f => Fm.write b!"::" (andTrimIf cfg.trimTerms (Inline.fmtAll L cfg term.inner)
          (writeIndent cfg f))) hv h1 ((Rel.writeIf (cfg.termAlone || ds.inner.isEmpty) b!"\n").comp hw)
        (s := []) (b := 10) (by decide)
      rw [he]
      exact hr

theorem puts_header {L : OutLib} {cfg : VwCfg} {c : Inlines} {level : Nat} {centered : Bool}
    (h : cfg.trimHeader = true → 0 < level ∨ NotBlank (Inline.textAll L cfg c)) :
    Puts1 (headerFmt L cfg c level centered) := by
  obtain ⟨q, -, e⟩ := andTrim_eq (writes_inlines L cfg c) cfg.trimHeader
  refine ⟨fun _ _ => (q ((if centered then b!"    " else []) ++ ((List.replicate level b!"=").flatten ++
    if !cfg.headerNoPadding then b!" " else [])) ++ ((if !cfg.headerNoPadding then b!" " else []) ++
      (List.replicate level b!"=").flatten)) ++ b!"\n", fun i b => .of_append (by decide), ?_⟩
  intro i c' hc
  unfold headerFmt
  rw [writeIf_eq, writeN_eq, writeIf_eq, List.append_assoc, List.append_assoc, e c' _ i hc,
    writeIf_eq, writeN_eq, write_eq]
  · simp
  · intro ht
    rcases h ht with h | h
    · left
      refine Vis.append_left (Vis.append ?_ _) _
      cases level with
      | zero => omega
      | succ n => exact ⟨c!"=", by simp [List.replicate_succ], by decide⟩
    · right
      refine ⟨ValidUtf8.whole (.ascii ?_), h⟩
      intro b hb
      rw [List.mem_append, List.mem_append] at hb
      rcases hb with hb | hb | hb
      · split at hb
        · simp at hb; omega
        · cases hb
      · simp at hb; omega
      · split at hb
        · simp at hb; omega
        · cases hb

/-! ## Tables -/

theorem cellText_eq (L : OutLib) (cfg : VwCfg) (c : Str) (i : Nat) (x : Cell) :
    cellText L cfg ⟨c, i, false⟩ x = cellStr L cfg x := by
  cases x with
  | content xs =>
    simp only [cellText, cellStr]
    rw [(writes_inlines L cfg xs).plain _ rfl]
    rfl
  | span s => cases s <;> rfl
  | align a => rfl

/-- The cells with text, when the formatter is not skipping. -/
def fixedOf (L : OutLib) (cfg : VwCfg) (t : Table) : List (CellPos × Str) :=
  fixedCells L cfg ⟨[], 0, false⟩ t

theorem fixedCells_eq (L : OutLib) (cfg : VwCfg) (t : Table) (c : Str) (i : Nat) :
    fixedCells L cfg ⟨c, i, false⟩ t = fixedOf L cfg t := by
  unfold fixedOf fixedCells
  simp only [cellText_eq]

/-- The text of a cell without fixed text; `none` is a panic. -/
def dividerText (n : Nat) : Option Cell → Option Str
  | some (.align .none) => some (rep c!"-" n)
  | some (.align .left) => if n < 1 then none else some (b!":" ++ rep c!"-" (n - 1))
  | some (.align .center) => if n < 2 then none else some (b!":" ++ (rep c!"-" (n - 2) ++ b!":"))
  | some (.align .right) => if n < 1 then none else some (rep c!"-" (n - 1) ++ b!":")
  | _ => some (rep c!" " n)

theorem writeDivider_eq (n : Nat) (x : Option Cell) (c : Str) (i : Nat) :
    writeDivider n x ⟨c, i, false⟩ = (dividerText n x).map fun t => ⟨c ++ t, i, false⟩ := by
  match x with
  | none => rfl
  | some (.content _) => rfl
  | some (.span _) => rfl
  | some (.align .none) => rfl
  | some (.align .left) => simp only [writeDivider, dividerText]; split <;> simp [write_eq]
  | some (.align .center) => simp only [writeDivider, dividerText]; split <;> simp [write_eq]
  | some (.align .right) => simp only [writeDivider, dividerText]; split <;> simp [write_eq]

/-- The text of a cell in the output; `none` is a panic. -/
def bodyText (t : Table) (fx : List (CellPos × Str)) (r c : Nat) : Option Str :=
  match lookupFixed fx ⟨r, c⟩ with
  | some s => some (s ++ rep c!" " (columnWidth t fx c - s.length))
  | none => dividerText (columnWidth t fx c) ((t.getCell r c).map Located.inner)

theorem writeBody_eq (t : Table) (fx : List (CellPos × Str)) (r k : Nat) (c : Str) (i : Nat) :
    writeBody t fx r k ⟨c, i, false⟩ = (bodyText t fx r k).map fun t => ⟨c ++ t, i, false⟩ := by
  unfold writeBody bodyText
  cases hs : lookupFixed fx ⟨r, k⟩ with
  | some s =>
    simp only [writeFixed, write_eq, writeIf_eq, Option.map_some]
    split
    · simp
    · next h =>
      have : columnWidth t fx k - s.length = 0 := by simp at h; omega
      simp [this, rep]
  | none => exact writeDivider_eq ..

/-- The cells of a row with the bars after them. -/
def cellsText (t : Table) (fx : List (CellPos × Str)) (r : Nat) : List Nat → Option (List Str)
  | [] => some []
  | k :: ks => (bodyText t fx r k).bind fun x => (cellsText t fx r ks).map (x :: ·)

theorem writeCells_eq (t : Table) (fx : List (CellPos × Str)) (r : Nat) (ks : List Nat) (c : Str)
    (i : Nat) : writeCells t fx r ks ⟨c, i, false⟩ =
      (cellsText t fx r ks).map fun cs => ⟨c ++ barred cs, i, false⟩ := by
  induction ks generalizing c with
  | nil => simp [writeCells, cellsText, barred]
  | cons k ks ih =>
    simp only [writeCells, writeCell, writeBody_eq, cellsText]
    cases bodyText t fx r k with
    | none => rfl
    | some x =>
      simp only [Option.map_some, write_eq, Option.bind_some, ih, Option.map_map]
      congr 1
      funext cs
      simp [barred]

/-- The lines of the table: the cells of each row. -/
def rowsText (t : Table) (fx : List (CellPos × Str)) : List Nat → Option (List (List Str))
  | [] => some []
  | r :: rs => (cellsText t fx r (List.range t.colCnt)).bind fun x =>
      (rowsText t fx rs).map (x :: ·)

theorem bolAfter_line (b : Bool) (x : Str) (centered : Bool) (cs : List Str) :
    bolAfter b (x ++ rowLine centered cs) = true := by
  have : (x ++ rowLine centered cs).getLast? = some 10 := by
    unfold rowLine
    rw [List.getLast?_append, List.getLast?_append, List.getLast?_append, List.getLast?_append]
    rfl
  unfold bolAfter
  split
  · next h => simp at h; rw [h.1, h.2] at this; simp at this
  · rw [this]; rfl

theorem writeRows_eq (cfg : VwCfg) (t : Table) (fx : List (CellPos × Str)) (rs : List Nat) (c : Str)
    (i : Nat) : writeRows cfg t fx rs ⟨c, i, false⟩ =
      (rowsText t fx rs).map fun rows => ⟨c ++ rowLines cfg t.centered i (bol c) rows, i, false⟩ := by
  induction rs generalizing c with
  | nil => simp [writeRows, rowsText, rowLines]
  | cons r rs ih =>
    simp only [writeRows, writeIndent_eq, writeIf_eq, write_eq, writeCells_eq, rowsText]
    cases cellsText t fx r (List.range t.colCnt) with
    | none => rfl
    | some cs =>
      simp only [Option.map_some, write_eq, Option.bind_some]
      have e : c ++ indentAt cfg i (bol c) ++ (if t.centered = true then b!"    " else []) ++ b!"|" ++
          barred cs ++ b!"\n" = c ++ (indentAt cfg i (bol c) ++ rowLine t.centered cs) := by
        simp [rowLine]
      rw [e, ih, bol_append, bolAfter_line, Option.map_map]
      congr 1
      funext rows
      simp [rowLines]

theorem table_eq (L : OutLib) (cfg : VwCfg) (t : Table) (c : Str) (i : Nat) :
    t.fmt L cfg ⟨c, i, false⟩ = (rowsText t (fixedOf L cfg t) (List.range t.rowCnt)).map
      fun rows => ⟨c ++ rowLines cfg t.centered i (bol c) rows, i, false⟩ := by
  unfold Table.fmt
  rw [fixedCells_eq, writeRows_eq]

theorem rowLines_ends (cfg : VwCfg) (centered : Bool) (i : Nat) (b : Bool) (rows : List (List Str)) :
    EndsAscii (rowLines cfg centered i b rows) := by
  induction rows generalizing b with
  | nil => exact .inl rfl
  | cons cs rows ih =>
    unfold rowLines
    right
    rcases ih true with h | ⟨x, hx, h⟩
    · rw [h]
      exact ⟨10, by decide, by
        rw [List.append_nil, rowLine, List.getLast?_append, List.getLast?_append, List.getLast?_append,
          List.getLast?_append]; rfl⟩
    · exact ⟨x, hx, by rw [List.getLast?_append, List.getLast?_append, h]; rfl⟩

theorem puts_table (L : OutLib) (cfg : VwCfg) (t : Table) : Puts (t.fmt L cfg) := by
  refine ⟨fun i b => (rowsText t (fixedOf L cfg t) (List.range t.rowCnt)).map
    (rowLines cfg t.centered i b), ?_, ?_⟩
  · intro i b x h
    simp only [Option.map_eq_some_iff] at h
    obtain ⟨rows, -, rfl⟩ := h
    exact rowLines_ends ..
  · intro i c _
    rw [table_eq, Option.map_map]
    rfl

/-! ## Blocks and pages -/

theorem puts_head (L : OutLib) (cfg : VwCfg) (ty : ItemType) (sf : Suffix) (pos : Nat)
    (todo : Option Todo) : Puts1 (itemHead L cfg ty sf pos todo) := by
  have h := (Appends.indent cfg).write (ty.toPrefix L.rom pos sf)
  cases todo with
  | none => exact h.puts1 (s := []) (b := 32) (by decide)
  | some s =>
    exact (((h.write b!" ").write b!"[").write (cfg.todoChar s)).puts1 (s := b!"]") (b := 32)
      (by decide)

theorem puts_code (cfg : VwCfg) (lang : Option Str) (md : Map) (ls : List Str) :
    Puts1 (codeFmt cfg lang md ls) :=
  (((((((Appends.indent cfg).write b!"{{{").write (lang.getD [])).comp
    (.writes (writes_pairs lang.isSome (sortedMap md)))).write b!"\n").comp
    (appends_rawLines cfg ls)).indent' cfg).puts1 (s := b!"}}}") (b := 10) (by decide)

theorem puts_math (cfg : VwCfg) (ls : List Str) (env : Option Str) : Puts1 (mathFmt cfg ls env) :=
  ((((((Appends.indent cfg).write b!"{{$").write (match env with
    | some e => b!"%" ++ e ++ b!"%"
    | none => [])).write b!"\n").comp (appends_rawLines cfg ls)).indent' cfg).puts1
    (s := b!"}}$") (b := 10) (by decide)

theorem puts_placeholder (L : OutLib) (p : Placeholder) : Puts1 (placeholderFmt L p) := by
  have hb : (10 : Nat) < 128 := by decide
  cases p with
  | title x => exact (((Appends.id.write b!"%title ").write x).puts1 (s := []) hb)
  | noHtml => exact (Appends.id.puts1 (s := b!"%nohtml") hb)
  | template x => exact (((Appends.id.write b!"%template ").write x).puts1 (s := []) hb)
  | date x => exact (((Appends.id.write b!"%date ").write (L.dateStr x)).puts1 (s := []) hb)
  | other n v =>
    exact (((((Appends.id.write b!"%").write n).write b!" ").write v).puts1 (s := []) hb)

mutual
theorem puts_block (L : OutLib) (cfg : VwCfg) (hI : ValidUtf8 cfg.indentStr) :
    (b : Block) → b.Solid L cfg → Puts (b.fmt L cfg)
  | .blockquote ls, h => by
    simp only [Block.Solid] at h
    exact (puts_quote hI h).puts
  | .code lang md ls, _ => (puts_code cfg lang md ls).puts
  | .defs items, h => by
    simp only [Block.Solid] at h
    exact (puts_defList hI h).puts
  | .divider, _ => (Appends.id.puts1 (s := b!"----") (b := 10) (by decide)).puts
  | .header c level centered, h => by
    simp only [Block.Solid] at h
    exact (puts_header h).puts
  | .list items, h => by
    simp only [Block.Solid] at h
    exact puts_items L cfg hI items h
  | .math ls env, _ => (puts_math cfg ls env).puts
  | .paragraph ls, h => by
    simp only [Block.Solid] at h
    exact (puts_paragraph hI h).puts
  | .placeholder p, _ => (puts_placeholder L p).puts
  | .table t, _ => puts_table L cfg t
theorem puts_items (L : OutLib) (cfg : VwCfg) (hI : ValidUtf8 cfg.indentStr) :
    (xs : List (Located (ItemF Block))) → Block.SolidItems L cfg xs → Puts (Block.fmtItems L cfg xs)
  | [], _ => Puts1.id.puts
  | ⟨⟨ty, sf, pos, cs, todo⟩, _⟩ :: xs, h => by
    simp only [Block.SolidItems] at h
    refine Puts.comp (w1 := fun f => Block.fmtContents L cfg cs
      (if cs.isEmpty then f else itemHead L cfg ty sf pos todo f)) ?_ (puts_items L cfg hI xs h.2)
    refine Puts.comp (w1 := fun f => some (if cs.isEmpty then f else itemHead L cfg ty sf pos todo f)) ?_
      (puts_contents L cfg hI cs h.1)
    cases cs.isEmpty with
    | true => exact Puts1.id.puts
    | false => exact (puts_head L cfg ty sf pos todo).puts
theorem puts_contents (L : OutLib) (cfg : VwCfg) (hI : ValidUtf8 cfg.indentStr) :
    (xs : List (Located Block)) → Block.SolidContents L cfg xs → Puts (Block.fmtContents L cfg xs)
  | [], _ => Puts1.id.puts
  | ⟨x, _⟩ :: xs, h => by
    simp only [Block.SolidContents] at h
    exact Puts.comp (w1 := andIndent (Block.fmt L cfg x)) (puts_block L cfg hI x h.1).indented
      (puts_contents L cfg hI xs h.2)
end

end Vw
