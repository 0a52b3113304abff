import Verif.Lemmas.QuoteFormat
import Verif.Props.Macros
import Verif.Spec.Demo

/-!
# C76 and C77: the elements that macros build
-/

namespace Vw

variable {α : Type} {env : Env} {c : QCtx α}

/-- What a macro does once its text is parsed. -/
theorem expandMacro_parsed {k : Kind} {raw : Bool} {token s : Str} {s' : Span} {x : Parsed}
    (ht : inputToString raw token = .ok s) (hp : k.fromLanguage env (.vimwiki s) = .ok s' x) :
    expandMacro env c k raw token = (c.parsed x 0).map (·.1) := by
  simp [expandMacro, ht, hp]

/-- C76: without formatting, a macro builds the element that its text is parsed to, for every
kind of element; only all depths become zero. -/
theorem C76_verbatim_partial {ue : Uri → Uri → Bool} {k : Kind} {raw : Bool} {token s : Str} {s' : Span} {x : Parsed}
    (hv : c.verbatim = true) (ht : inputToString raw token = .ok s)
    (hp : k.fromLanguage env (.vimwiki s) = .ok s' x)
    (hu : ∀ u ∈ x.uris, ∃ v, c.uri (c.uriText u) = some v ∧ ue u v = true) :
    ∃ y, expandMacro env c k raw token = .ok y ∧ x.Equal false ue y ∧ x.level.Equal true ue y := by
  have hx : x.Valid := k.parser_valid _ _ _ hp
  obtain ⟨y, h1, h2⟩ := QCtx.parsed_kept x hx hu (QCtx.keeps_verbatim hv _)
  refine ⟨y, by rw [expandMacro_parsed ht hp, h1]; rfl, (Parsed.equal_level x y).1 (h2 false), h2 true⟩

/-- C76: the macro reports an error exactly for texts that are refused, by the reader of
literals or by the parser. -/
theorem C76_refused {ue : Uri → Uri → Bool} {k : Kind} {raw : Bool} {token : Str} (hv : c.verbatim = true)
    (hu : ∀ s s' x, inputToString raw token = .ok s → k.fromLanguage env (.vimwiki s) = .ok s' x →
      ∀ u ∈ x.uris, ∃ v, c.uri (c.uriText u) = some v ∧ ue u v = true) :
    expandMacro env c k raw token = .error .reject ↔ inputToString raw token = .error .reject ∨
      ∃ s, inputToString raw token = .ok s ∧ k.fromLanguage env (.vimwiki s) = .err := by
  cases ht : inputToString raw token with
  | error e => simp [expandMacro, ht]
  | ok s =>
    cases hp : k.fromLanguage env (.vimwiki s) with
    | ok s' x =>
      obtain ⟨y, h1, -⟩ := C76_verbatim_partial (ue := ue) hv ht hp (hu s s' x ht hp)
      simp [h1, hp]
    | err => simp [expandMacro, ht, hp]
    | panic r => simp [expandMacro, ht, hp]
    | diverge => simp [expandMacro, ht, hp]

/-- A context for macros without formatting, with a URI library that reads and writes local
names. -/
def demoQuote : QCtx Str where
  verbatim := true
  args := ⟨[], []⟩
  format := fun call => some call.template
  uriText := fun u => List.intercalate b!"/" u.segments
  uri := demo.uri

/-- What depths an element has at its outermost part and at the first part inside it. -/
def Parsed.depths : Parsed → List Nat
  | .page p => (p.elements.map fun b => b.region.depth) ++ p.elements.flatMap fun b =>
      match b.inner with
      | .paragraph ls => ls.flatten.map fun x => x.region.depth
      | _ => []
  | _ => []

def MRes.test {β : Type} (f : β → Bool) : MRes β → Bool
  | .ok x => f x
  | .error _ => false

theorem MRes.of_test {β : Type} {r : MRes β} {f : β → Bool} (h : r.test f = true) : ∃ x, r = .ok x ∧ f x = true := by
  cases r with
  | ok x => exact ⟨x, rfl, h⟩
  | error e => cases h

/-- C76 is violated: the depths of the parsed page get lost. -/
theorem C76_depth_violated :
    (∃ s x, Kind.page.fromLanguage demo (.vimwiki b!"a [[b]]") = .ok s x ∧ x.depths = [0, 1, 1]) ∧
      ∃ y, expandMacro demo demoQuote .page false b!"\"a [[b]]\"" = .ok y ∧ y.depths = [0, 0, 0] := by
  constructor
  · obtain ⟨s, x, h1, h2⟩ := Res.of_test (r := Kind.page.fromLanguage demo (.vimwiki b!"a [[b]]"))
      (f := fun _ x => decide (x.depths = [0, 1, 1])) (by decide +kernel)
    exact ⟨s, x, h1, of_decide_eq_true h2⟩
  · obtain ⟨y, h1, h2⟩ := MRes.of_test (r := expandMacro demo demoQuote .page false b!"\"a [[b]]\"")
      (f := fun x => decide (x.depths = [0, 0, 0])) (by decide +kernel)
    exact ⟨y, h1, of_decide_eq_true h2⟩

/-- The hypotheses of C76 are met by a page with a link. -/
example : ∃ s s' x, inputToString false b!"\"a [[b]]\"" = .ok s ∧
    Kind.page.fromLanguage demo (.vimwiki s) = .ok s' x ∧
    (∀ u ∈ x.uris, ∃ v, demoQuote.uri (demoQuote.uriText u) = some v ∧ decide (u = v) = true) ∧ x.uris.length = 1 := by
  obtain ⟨s', x, h1, h2⟩ := Res.of_test (r := Kind.page.fromLanguage demo (.vimwiki b!"a [[b]]"))
    (f := fun _ x => decide (x.uris.length = 1 ∧ ∀ u ∈ x.uris, demoQuote.uri (demoQuote.uriText u) = some u)) (by decide +kernel)
  obtain ⟨h2, h3⟩ := of_decide_eq_true h2
  exact ⟨_, s', x, by decide +kernel, h1, fun u hu => ⟨u, h3 u hu, by simp⟩, h2⟩

/-! ## Formatting -/

theorem str_formatted {render : List (FOut α) → Option Str} (hv : c.verbatim = false)
    (ha : c.args.positional.length < 2 ^ 64) (hf : FormatSound c.format render) {n m : Nat} {ps : List FPart} {outs : List (FOut α)}
    (hs : ∀ p ∈ ps, p.Simple) (hn : n + ps.length < 2 ^ 64)
    (hm : formatMeaning c.args.positional c.args.named n ps = some (outs, m)) :
    c.str (formatText ps) n = match render outs with
      | some u => .ok (u, m)
      | none => .error .reject := by
  obtain ⟨call, ps', h1, h2, h3, h4, h5, h6, h7⟩ := C75_meaning_partial hs ha hn hm
  simp only [QCtx.str, hv, h1, hf call ps' outs h2 h3 h4 h5 h6 h7]
  cases render outs <;> rfl

theorem list_formatted {render : List (FOut α) → Option Str} (hv : c.verbatim = false)
    (ha : c.args.positional.length < 2 ^ 64) (hf : FormatSound c.format render) {n m : Nat} {ts us : List Str}
    (h : Formatted c.args render n ts us m) : Q.list c.str ts n = .ok (us, m) := by
  induction h with
  | nil n => rfl
  | cons simple small meaning shown rest ih =>
    have := str_formatted hv ha hf simple small meaning
    rw [shown] at this
    simp only [Q.list, Q.bind, Q.map, this, ih]
    rfl

/-- C77: a formatting macro builds the parsed element with every text replaced by what it
stands for. Empty placeholders take the arguments in the order of the texts. All else stays,
but for depths. -/
theorem C77_texts_partial {render : List (FOut α) → Option Str} {k : Kind} {raw : Bool} {token s : Str} {s' : Span}
    {x : Parsed} {us : List Str} {m : Nat} (hv : c.verbatim = false) (ha : c.args.positional.length < 2 ^ 64)
    (hf : FormatSound c.format render) (ht : inputToString raw token = .ok s)
    (hp : k.fromLanguage env (.vimwiki s) = .ok s' x) (hu : ∀ u ∈ x.uris, c.uri (c.uriText u) = some u)
    (hm : ∀ a ∈ x.maps, a.length ≤ 1) (h : Formatted c.args render 0 x.texts us m) :
    ∃ y, expandMacro env c k raw token = .ok y ∧ y.texts = us ∧ y.blank = x.level.blank := by
  have hx : x.Valid := k.parser_valid _ _ _ hp
  obtain ⟨y, h1, h2⟩ := ((QCtx.parsed_formats x hx hu hm) 0).1 us m (list_formatted hv ha hf h)
  exact ⟨y, by rw [expandMacro_parsed ht hp, h1]; rfl, h2⟩

/-- C77: if an argument is missing or cannot be written as asked for, the macro reports an
error. -/
theorem C77_missing_partial {render : List (FOut α) → Option Str} {k : Kind} {raw : Bool} {token s : Str} {s' : Span}
    {x : Parsed} (hv : c.verbatim = false) (ha : c.args.positional.length < 2 ^ 64)
    (hnames : ∀ e ∈ c.args.named, FormatName e.1)
    (hf : FormatSound c.format render) (ht : inputToString raw token = .ok s)
    (hp : k.fromLanguage env (.vimwiki s) = .ok s' x) (hu : ∀ u ∈ x.uris, c.uri (c.uriText u) = some u)
    (hm : ∀ a ∈ x.maps, a.length ≤ 1) (h : Lacking c.args render x.texts) :
    expandMacro env c k raw token = .error .reject := by
  have hx : x.Valid := k.parser_valid _ _ _ hp
  obtain ⟨a, b, us, n, ps, h1, h2, h3, h4, h5⟩ := h
  have he : c.str (formatText ps) n = .error .reject := by
    cases hm : formatMeaning c.args.positional c.args.named n ps with
    | none => simp only [QCtx.str, hv, C75_missing_partial h3 hnames h4 hm]; rfl
    | some r =>
      rw [str_formatted hv ha hf h3 h4 hm, h5 r.1 r.2 hm]
  have hl : Q.list c.str x.texts 0 = .error .reject := by
    rw [h1, Q.list_append]
    simp only [Q.bind, list_formatted hv ha hf h2, Q.map, Q.list, he]
  rw [expandMacro_parsed ht hp, ((QCtx.parsed_formats x hx hu hm) 0).2 _ hl]
  rfl

theorem quoteFormat_plain (args : FormatArgs α) (n : Nat) {t : Str} (h1 : c!"{" ∉ t) :
    quoteFormat args n t = .ok (⟨t, [], []⟩, n) := by
  have hp : fpieces t = t.map .byte := by
    have := fpiecesF_lit (s := t) (r := []) h1 0
    simpa [fpieces, fpiecesF] using this
  have hf := firstPass_lit ⟨n, [], []⟩ t []
  have hs := secondPass_lit [] t []
  simp only [List.append_nil] at hf hs
  unfold quoteFormat
  rw [hp, hf]
  simp only [firstPassAll, List.append_nil, hp, hs]
  simp [pickPositional, pickNamed, secondPassAll, Except.bind, Except.map]

/-- C77: a formatting macro does what the macro without formatting does if no text has a
brace, whatever its arguments. -/
theorem C77_plain {ue : Uri → Uri → Bool} {k : Kind} {raw : Bool} {token s : Str} {s' : Span} {x : Parsed}
    (hf : ∀ t, c!"{" ∉ t → c!"}" ∉ t → c.format ⟨t, [], []⟩ = some t) (ht : inputToString raw token = .ok s)
    (hp : k.fromLanguage env (.vimwiki s) = .ok s' x)
    (hu : ∀ u ∈ x.uris, ∃ v, c.uri (c.uriText u) = some v ∧ ue u v = true)
    (hb : ∀ t ∈ x.texts, c!"{" ∉ t ∧ c!"}" ∉ t) :
    ∃ y, expandMacro env c k raw token = .ok y ∧ x.Equal false ue y ∧ x.level.Equal true ue y := by
  have hx : x.Valid := k.parser_valid _ _ _ hp
  have hk : QCtx.Keeps c x.texts := by
    intro t hm
    funext n
    obtain ⟨h1, h2⟩ := hb t hm
    simp only [QCtx.str, quoteFormat_plain c.args n h1, hf t h1 h2, Q.ret]
    split <;> rfl
  obtain ⟨y, h1, h2⟩ := QCtx.parsed_kept x hx hu hk
  exact ⟨y, by rw [expandMacro_parsed ht hp, h1]; rfl, (Parsed.equal_level x y).1 (h2 false), h2 true⟩

/-! ### The hypotheses can be met -/

/-- Arguments are texts, and are written as they are. -/
def demoRender (outs : List (FOut Str)) : Option Str :=
  some (outs.flatMap fun
    | .lit s => s
    | .arg e _ => e)

/-- The text of a part of a template. -/
def demoPiece (call : FormatCall Str) : FPiece → Option Str
  | .byte b => some [b]
  | .hole arg _ =>
    if arg ≠ [] ∧ ∀ b ∈ arg, 48 ≤ b ∧ b ≤ 57 then call.positional[decValue arg]?
    else (call.named.find? fun e => e.1 = arg).map (·.2)

/-- All parts of a template. -/
def demoFPieces (call : FormatCall Str) : List FPiece → Option Str
  | [] => some []
  | p :: ps => (demoPiece call p).bind fun a => (demoFPieces call ps).map (a ++ ·)

theorem demoFPieces_bytes (call : FormatCall Str) (s : Str) (ps : List FPiece) :
    demoFPieces call (s.map .byte ++ ps) = (demoFPieces call ps).map (s ++ ·) := by
  induction s with
  | nil => cases h : demoFPieces call ps <;> simp [h]
  | cons b s ih => simp only [List.map_cons, List.cons_append, demoFPieces, demoPiece, ih]; cases demoFPieces call ps <;> simp

theorem formatMeaning_le {α} {pos : List α} {named : List (Str × α)} : ∀ {ps : List FPart} {n m : Nat} {r},
    formatMeaning pos named n ps = some (r, m) → n ≤ m
  | [], n, m, r, h => by simp [formatMeaning] at h; omega
  | .lit s :: ps, n, m, r, h => by
    simp only [formatMeaning, Option.map_eq_some_iff] at h
    obtain ⟨⟨r', m'⟩, h1, h2⟩ := h
    cases h2
    exact formatMeaning_le h1
  | .hole a spec :: ps, n, m, r, h => by
    simp only [formatMeaning, Option.bind_eq_some_iff, Option.map_eq_some_iff] at h
    obtain ⟨⟨e, n'⟩, h0, ⟨r', m'⟩, h1, h2⟩ := h
    cases h2
    have := formatMeaning_le h1
    cases a <;> simp [FArg.pick] at h0 <;> grind

theorem demoFormat_sound : FormatSound (fun call => demoFPieces call (fpieces call.template)) demoRender := by
  intro call ps outs ht hs hm a1 a2 a3
  simp only [ht, fpieces_parts hs]
  clear ht a1 a2 a3
  generalize hz : 0 = z at hm
  have hm' : formatMeaning call.positional call.named z ps = some (outs, z) := hm
  clear hm hz
  induction ps generalizing outs with
  | nil => simp [formatMeaning] at hm'; subst hm'; rfl
  | cons p ps ih =>
    have hps : ∀ p ∈ ps, p.Simple := fun q hq => hs q (by simp [hq])
    cases p with
    | lit s =>
      simp only [formatMeaning, Option.map_eq_some_iff] at hm'
      obtain ⟨⟨r', m'⟩, h1, h2⟩ := hm'
      cases h2
      simp only [List.flatMap_cons, FPart.pieces, demoFPieces_bytes, ih r' hps h1]
      rfl
    | hole a spec =>
      simp only [formatMeaning, Option.bind_eq_some_iff, Option.map_eq_some_iff] at hm'
      obtain ⟨⟨e, n'⟩, h0, ⟨r', m'⟩, h1, h2⟩ := hm'
      cases h2
      have hle := formatMeaning_le h1
      have hok := (hs (.hole a spec) (by simp)).1
      cases a with
      | next =>
        simp [FArg.pick] at h0
        obtain ⟨_, -, h0⟩ := h0
        simp at hle
        omega
      | num ds =>
        simp only [FArg.pick, Option.map_eq_some_iff] at h0
        obtain ⟨e', h0, h2⟩ := h0
        cases h2
        have : ds ≠ [] ∧ ∀ b ∈ ds, 48 ≤ b ∧ b ≤ 57 := hok
        simp only [List.flatMap_cons, FPart.pieces, FArg.text, List.cons_append, List.nil_append, demoFPieces, demoPiece, if_pos this, h0, ih r' hps h1]
        rfl
      | name s =>
        simp only [FArg.pick, Option.map_eq_some_iff] at h0
        obtain ⟨e', h0, h2⟩ := h0
        cases h2
        obtain ⟨⟨a, r, rfl, ha, -⟩, -⟩ : FormatName s := hok
        have : ¬ (a :: r ≠ [] ∧ ∀ b ∈ a :: r, 48 ≤ b ∧ b ≤ 57) := fun h => ha (h.2 a (by simp))
        simp only [List.flatMap_cons, FPart.pieces, FArg.text, List.cons_append, List.nil_append, demoFPieces, demoPiece, if_neg this, h0, ih r' hps h1]
        rfl

/-- A formatting macro with the arguments `X`, `Y` and `b = Z`. -/
def demoFormatting : QCtx Str :=
  { demoQuote with
    verbatim := false
    args := ⟨[b!"X", b!"Y"], [(b!"b", b!"Z")]⟩
    format := fun call => demoFPieces call (fpieces call.template) }

theorem simple_b : FPart.Simple (.hole (.name b!"b") none) :=
  demoParts_simple _ (by simp [demoParts])

/-- The hypotheses of C77 are met by a page with placeholders of all kinds in nested elements. -/
example : ∃ s s' x, inputToString true b!"\"* *{}* `{b}`: {}\"" = .ok s ∧
    Kind.page.fromLanguage demo (.vimwiki s) = .ok s' x ∧ (∀ u ∈ x.uris, demoFormatting.uri (demoFormatting.uriText u) = some u) ∧
    (∀ a ∈ x.maps, a.length ≤ 1) ∧ FormatSound demoFormatting.format demoRender ∧
    Formatted demoFormatting.args demoRender 0 x.texts [b!"X", b!" ", b!"Z", b!": Y"] 2 := by
  obtain ⟨s', x, h1, h2⟩ := Res.of_test (r := Kind.page.fromLanguage demo (.vimwiki b!"* *{}* `{b}`: {}"))
    (f := fun _ x => decide (x.uris = [] ∧ x.maps = [] ∧ x.texts = [b!"{}", b!" ", b!"{b}", b!": {}"])) (by decide +kernel)
  obtain ⟨h2, h3, h4⟩ := of_decide_eq_true h2
  refine ⟨_, s', x, by decide +kernel, h1, by simp [h2], by simp [h3], demoFormat_sound, ?_⟩
  rw [h4]
  refine .cons (ps := [.hole .next none]) (m := 1) (outs := [.arg b!"X" none]) ?_ (by simp) rfl rfl
    (.cons (ps := [.lit b!" "]) (m := 1) (outs := [.lit b!" "]) ?_ (by simp) rfl rfl
    (.cons (ps := [.hole (.name b!"b") none]) (m := 1) (outs := [.arg b!"Z" none]) ?_ (by simp) rfl rfl
    (.cons (ps := [.lit b!": ", .hole .next none]) (m := 2) (outs := [.lit b!": ", .arg b!"Y" none]) ?_ (by simp) rfl rfl (.nil 2))))
  · intro p hp; simp at hp; subst hp; exact ⟨trivial, by simp⟩
  · intro p hp; simp at hp; subst hp; exact ⟨by decide, by decide⟩
  · intro p hp; simp at hp; subst hp; exact simple_b
  · intro p hp
    simp at hp
    rcases hp with rfl | rfl
    · exact ⟨by decide, by decide⟩
    · exact ⟨trivial, by simp⟩

/-- A text without its argument. -/
example : Lacking demoFormatting.args demoRender [b!"{}", b!"{5}"] := by
  refine ⟨[b!"{}"], [], [b!"X"], 1, [.hole (.num b!"5") none], rfl,
    .cons (ps := [.hole .next none]) (m := 1) (outs := [.arg b!"X" none]) ?_ (by simp) rfl rfl (.nil 1), ?_, by simp, ?_⟩
  · intro p hp; simp at hp; subst hp; exact ⟨trivial, by simp⟩
  · intro p hp; simp at hp; subst hp; exact ⟨⟨by decide, by decide⟩, by simp⟩
  · intro outs m h; revert h; simp [formatMeaning, FArg.pick, demoFormatting, decValue]

/-- A table with an empty placeholder in each of two cells, in either order of its map. -/
def demoCells : List (CellPos × Located Cell) :=
  [(⟨0, 0⟩, ⟨.content [⟨.text b!"{}", ⟨1, 2, 2⟩⟩], ⟨1, 2, 1⟩⟩), (⟨0, 1⟩, ⟨.content [⟨.text b!"{}", ⟨4, 2, 2⟩⟩], ⟨4, 2, 1⟩⟩)]

/-- C77 is violated for tables: which argument goes to which cell depends on the order of a
hash map. Both orders of the parsed table's map are shown. -/
theorem C77_table_order_violated :
    (∃ s, Kind.table.fromLanguage demo (.vimwiki b!"|{}|{}|") = .ok s (.block ⟨.table ⟨demoCells.reverse, 1, 2, false⟩, ⟨0, 7, 0⟩⟩)) ∧
    ((demoFormatting.table ⟨demoCells, 1, 2, false⟩ 0).map fun r => (Table.lookupCell r.1.cells ⟨0, 0⟩).map fun c => c.inner.texts) =
      .ok (some [b!"X"]) ∧
    ((demoFormatting.table ⟨demoCells.reverse, 1, 2, false⟩ 0).map fun r => (Table.lookupCell r.1.cells ⟨0, 0⟩).map fun c => c.inner.texts) =
      .ok (some [b!"Y"]) := by
  refine ⟨⟨_, by rfl⟩, by decide +kernel, by decide +kernel⟩

/-- The hypotheses of `C77_plain` are met. -/
example : (∀ t, c!"{" ∉ t → c!"}" ∉ t → demoFormatting.format ⟨t, [], []⟩ = some t) ∧
    ∃ s s' x, inputToString true b!"\"= a =\"" = .ok s ∧ Kind.header.fromLanguage demo (.vimwiki s) = .ok s' x ∧
      x.texts = [b!"a"] := by
  constructor
  · intro t h1 h2
    have hp : fpieces t = t.map .byte := by
      have := fpiecesF_lit (s := t) (r := []) h1 0
      simpa [fpieces, fpiecesF] using this
    have := demoFPieces_bytes ⟨t, [], []⟩ t []
    simpa [demoFormatting, hp, demoFPieces] using this
  · obtain ⟨s', x, h1, h2⟩ := Res.of_test (r := Kind.header.fromLanguage demo (.vimwiki b!"= a ="))
      (f := fun _ x => decide (x.texts = [b!"a"])) (by decide +kernel)
    exact ⟨_, s', x, by decide +kernel, h1, of_decide_eq_true h2⟩

end Vw
