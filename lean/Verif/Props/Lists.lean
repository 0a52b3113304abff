import Verif.Lemmas.ListPrefix
import Verif.Lemmas.Items
import Verif.Lemmas.Uri
import Verif.Lemmas.Pieces
import Verif.Spec.Demo

/-!
# Properties of lists (C25, C28)
-/

namespace Vw

set_option maxRecDepth 20000

/-! ## C25 -/

theorem numberWord_hi {w r : Str} {ty : ItemType} (h : NumberWord w r ty) :
    w ≠ [] ∧ ∀ x ∈ w, 48 ≤ x := by
  cases ty <;> simp only [NumberWord] at h
  · exact ⟨h.1, fun x hx => by have := h.2.1 x hx; simp [DigitByte] at this; omega⟩
  · exact ⟨h.1.1, fun x hx => by have := h.1.2.1 x hx; simp [LowerByte] at this; omega⟩
  · exact ⟨h.1.1, fun x hx => by have := h.1.2.1 x hx; simp [UpperByte] at this; omega⟩
  · exact ⟨h.1, fun x hx => by have := h.2.1 x hx; simp [LowerRomanByte] at this; omega⟩
  · exact ⟨h.1, fun x hx => by have := h.2.1 x hx; simp [UpperRomanByte] at this; omega⟩

theorem word_unique {c : Byte} (hc : c < 48) : ∀ {w v r q : Str}, (∀ x ∈ w, 48 ≤ x) →
    (∀ x ∈ v, 48 ≤ x) → w ++ c :: r = v ++ c :: q → w = v := by
  intro w
  induction w with
  | nil =>
    intro v r q _ hv e
    cases v with
    | nil => rfl
    | cons y v =>
      simp at e
      have := hv y (by simp)
      omega
  | cons x w ih =>
    intro v r q hw hv e
    cases v with
    | nil =>
      simp at e
      have := hw x (by simp)
      omega
    | cons y v =>
      simp at e
      rw [e.1, ih (fun z hz => hw z (by simp [hz])) (fun z hz => hv z (by simp [hz])) e.2]

/-- The class of the number word of an ordered item. -/
def wordClass : ItemType → Byte → Prop
  | .number => DigitByte
  | .lowerAlpha => LowerByte
  | .lowerRoman => LowerRomanByte
  | _ => UpperByte

theorem toPrefix_word (rom : Int → Str) (hrom : ∀ n : Nat, 1 ≤ n → n < 4000 → rom n = romanNumeral n)
    {ty : ItemType} {pos : Nat} (hp : ty = .lowerRoman ∨ ty = .upperRoman → pos + 1 < 4000)
    (ho : ty.isOrdered = true) (hn : ty ≠ .pound) :
    ty.toPrefix rom pos .none ≠ [] ∧ (∀ x ∈ ty.toPrefix rom pos .none, wordClass ty x) ∧
      ∀ su, ty.toPrefix rom pos su = ty.toPrefix rom pos .none ++ su.text := by
  have hroman : pos + 1 < 4000 → rom (asI16 (pos + 1)) = romanNumeral (pos + 1) := by
    intro hp
    have e : asI16 (pos + 1) = ((pos + 1 : Nat) : Int) := by
      unfold asI16
      rw [Nat.mod_eq_of_lt (by omega), if_pos (by omega)]
    rw [e, hrom (pos + 1) (by omega) hp]
  have hne : pos + 1 < 4000 → romanNumeral (pos + 1) ≠ [] := by
    intro h e
    have := romanValue_numeral (pos + 1) h
    rw [e] at this
    simp [romanValue] at this
    omega
  cases ty <;> simp [ItemType.isOrdered] at ho hn
  all_goals refine ⟨?_, ?_, fun su => by simp [ItemType.toPrefix, Suffix.text]⟩
  all_goals simp only [ItemType.toPrefix, Suffix.text, List.append_nil, wordClass]
  · exact decStr_ne_nil _
  · exact decStr_digits _
  · exact (posToAlphabet_letters pos true).1
  · intro x hx
    have := (posToAlphabet_letters pos true).2 x hx
    simp at this
    exact ⟨this.1, by omega⟩
  · exact (posToAlphabet_letters pos false).1
  · intro x hx
    have := (posToAlphabet_letters pos false).2 x hx
    simp at this
    exact ⟨this.1, by omega⟩
  · rw [hroman (hp (by simp))]
    simpa using hne (hp (by simp))
  · rw [hroman (hp (by simp))]
    intro x hx
    obtain ⟨c, hc, rfl⟩ := List.mem_map.1 hx
    have key : ∀ b ∈ b!"IVXLCDM", toLowerByte b ∈ b!"ivxlcdm" := by decide
    exact key c (romanNumeral_letters _ c hc)
  · rw [hroman (hp (by simp))]
    exact hne (hp (by simp))
  · rw [hroman (hp (by simp))]
    intro x hx
    have key : ∀ b ∈ b!"IVXLCDM", 65 ≤ b ∧ b ≤ 90 := by decide
    exact key x (romanNumeral_letters _ x hx)

/-- The words read back, by the class of their letters. -/
theorem numberWord_iff {w q : Str} {c : Byte} (hc : c < 48) (hw : w ≠ []) :
    ((∀ x ∈ w, DigitByte x) → ∀ ty, NumberWord w (c :: q) ty ↔ ty = .number) ∧
    ((∀ x ∈ w, LowerByte x) → ∀ ty, NumberWord w (c :: q) ty ↔
      (ty = .lowerRoman ∧ ∀ x ∈ w, LowerRomanByte x) ∨
      (ty = .lowerAlpha ∧ ∀ x, w.head? = some x → ¬ LowerRomanByte x)) ∧
    ((∀ x ∈ w, UpperByte x) → ∀ ty, NumberWord w (c :: q) ty ↔
      (ty = .upperRoman ∧ ∀ x ∈ w, UpperRomanByte x) ∨
      (ty = .upperAlpha ∧ ∀ x, w.head? = some x → ¬ UpperRomanByte x)) := by
  obtain ⟨x, u, rfl⟩ : ∃ x u, w = x :: u := by
    cases w with
    | nil => exact absurd rfl hw
    | cons x u => exact ⟨x, u, rfl⟩
  have stop : ∀ {f : Byte → Prop}, (∀ y, f y → 48 ≤ y) → ∀ y, (c :: q).head? = some y → ¬ f y := by
    intro f hf y hy h
    simp at hy
    have := hf y h
    omega
  have hd : ∀ y, DigitByte y → 48 ≤ y := fun y h => h.1
  have hl : ∀ y, LowerByte y → 48 ≤ y := fun y h => by have := h.1; omega
  have hu : ∀ y, UpperByte y → 48 ≤ y := fun y h => by have := h.1; omega
  have hlr : ∀ y, LowerRomanByte y → LowerByte y := by
    intro y h; simp [LowerRomanByte, LowerByte] at *; omega
  have hur : ∀ y, UpperRomanByte y → UpperByte y := by
    intro y h; simp [UpperRomanByte, UpperByte] at *; omega
  have dis : ∀ y, ¬ (DigitByte y ∧ LowerByte y) ∧ ¬ (DigitByte y ∧ UpperByte y) ∧
      ¬ (LowerByte y ∧ UpperByte y) := by
    intro y; simp [DigitByte, LowerByte, UpperByte]; omega
  have hx : x ∈ x :: u := by simp
  refine ⟨fun h ty => ⟨fun hw => ?_, ?_⟩, fun h ty => ⟨fun hw => ?_, ?_⟩, fun h ty => ⟨fun hw => ?_, ?_⟩⟩
  · cases ty <;> simp only [NumberWord] at hw
    · rfl
    · exact absurd ⟨h x hx, hw.1.2.1 x hx⟩ (dis x).1
    · exact absurd ⟨h x hx, hw.1.2.1 x hx⟩ (dis x).2.1
    · exact absurd ⟨h x hx, hlr _ (hw.2.1 x hx)⟩ (dis x).1
    · exact absurd ⟨h x hx, hur _ (hw.2.1 x hx)⟩ (dis x).2.1
  · rintro rfl
    exact ⟨by simp, h, stop hd⟩
  · cases ty <;> simp only [NumberWord] at hw
    · exact absurd ⟨hw.2.1 x hx, h x hx⟩ (dis x).1
    · exact .inr ⟨rfl, hw.2⟩
    · exact absurd ⟨h x hx, hw.1.2.1 x hx⟩ (dis x).2.2
    · exact .inl ⟨rfl, hw.2.1⟩
    · exact absurd ⟨h x hx, hur _ (hw.2.1 x hx)⟩ (dis x).2.2
  · rintro (⟨rfl, h'⟩ | ⟨rfl, h'⟩)
    · exact ⟨by simp, h', stop fun y hy => hl y (hlr y hy)⟩
    · exact ⟨⟨by simp, h, stop hl⟩, h'⟩
  · cases ty <;> simp only [NumberWord] at hw
    · exact absurd ⟨hw.2.1 x hx, h x hx⟩ (dis x).2.1
    · exact absurd ⟨hw.1.2.1 x hx, h x hx⟩ (dis x).2.2
    · exact .inr ⟨rfl, hw.2⟩
    · exact absurd ⟨hlr _ (hw.2.1 x hx), h x hx⟩ (dis x).2.2
    · exact .inl ⟨rfl, hw.2.1⟩
  · rintro (⟨rfl, h'⟩ | ⟨rfl, h'⟩)
    · exact ⟨by simp, h', stop fun y hy => hu y (hur y hy)⟩
    · exact ⟨⟨by simp, h, stop hu⟩, h'⟩

/-- What a text with a number word and a suffix is read as. -/
theorem listItemPrefix_word {w rest : Str} {su : Suffix} (hn : w ≠ []) (hw : ∀ x ∈ w, 48 ≤ x)
    {ty : ItemType} :
    (∃ s', listItemPrefix (Span.ofStr (w ++ su.text ++ b!" " ++ rest)) = .ok s' (ty, su)) ↔
      su ≠ .none ∧ NumberWord w (su.text ++ b!" ") ty := by
  constructor
  · rintro ⟨s', h⟩
    obtain ⟨v, r, e, -, hv⟩ := listItemPrefix_inv (View.ofStr _) h
    cases hv with
    | hyphen =>
      cases w with
      | nil => exact absurd rfl hn
      | cons x u => simp at e; have := hw x (by simp); omega
    | asterisk =>
      cases w with
      | nil => exact absurd rfl hn
      | cons x u => simp at e; have := hw x (by simp); omega
    | pound =>
      cases w with
      | nil => exact absurd rfl hn
      | cons x u => simp at e; have := hw x (by simp); omega
    | period h' =>
      simp only [Suffix.text, List.append_assoc, List.cons_append, List.nil_append] at e
      have := word_unique (by decide) hw (numberWord_hi h').2 e
      subst this
      exact ⟨by simp, h'⟩
    | paren h' =>
      simp only [Suffix.text, List.append_assoc, List.cons_append, List.nil_append] at e
      have := word_unique (by decide) hw (numberWord_hi h').2 e
      subst this
      exact ⟨by simp, h'⟩
  · rintro ⟨h1, h2⟩
    cases su with
    | none => exact absurd rfl h1
    | period =>
      refine ⟨_, listItemPrefix_run (.period h2) (r := rest) ?_⟩
      have := View.ofStr (w ++ Suffix.period.text ++ b!" " ++ rest)
      simpa [Suffix.text] using this
    | paren =>
      refine ⟨_, listItemPrefix_run (.paren h2) (r := rest) ?_⟩
      have := View.ofStr (w ++ Suffix.paren.text ++ b!" " ++ rest)
      simpa [Suffix.text] using this

/-- C25, what holds: the printed prefix of an item, followed by a blank, is read as
an item prefix with the same suffix exactly for the readable items; it is then again
ordered or unordered as before, and for the first item of a list, which decides the
type of all, it has the same type. (C25 asks for all items.) The bound on roman
positions is that of the standard numerals. -/
theorem C25_prefix_partial (rom : Int → Str)
    (hrom : ∀ n : Nat, 1 ≤ n → n < 4000 → rom n = romanNumeral n) (ty : ItemType)
    (hty : ∀ s, ty ≠ .other s) (pos : Nat) (su : Suffix)
    (hp : ty = .lowerRoman ∨ ty = .upperRoman → pos + 1 < 4000) (rest : Str) :
    ((∃ s' ty', listItemPrefix (Span.ofStr (ty.toPrefix rom pos su ++ b!" " ++ rest)) =
      .ok s' (ty', su)) ↔ Readable (ty.toPrefix rom pos .none) su ty) ∧
    ∀ s' ty', listItemPrefix (Span.ofStr (ty.toPrefix rom pos su ++ b!" " ++ rest)) =
      .ok s' (ty', su) → ty'.isOrdered = ty.isOrdered ∧ (pos = 0 → ty' = ty) := by
  have fixed : ∀ (p : Str) (ty0 : ItemType), PrefixText ty0 .none (p ++ b!" ") →
      ((∃ s' ty', listItemPrefix (Span.ofStr (p ++ b!" " ++ rest)) = .ok s' (ty', su)) ↔ su = .none) ∧
      ∀ s' ty', listItemPrefix (Span.ofStr (p ++ b!" " ++ rest)) =
        .ok s' (ty', su) → ty'.isOrdered = ty0.isOrdered ∧ (pos = 0 → ty' = ty0) := by
    intro p ty0 hp
    have := listItemPrefix_run hp (View.ofStr (p ++ b!" " ++ rest))
    rw [this]
    refine ⟨⟨?_, ?_⟩, ?_⟩
    · rintro ⟨_, _, h⟩; cases h; rfl
    · rintro rfl; exact ⟨_, _, rfl⟩
    · intro _ _ h; cases h; exact ⟨rfl, fun _ => rfl⟩
  by_cases ho : ty.isOrdered = true ∧ ty ≠ .pound
  · obtain ⟨hne, hcl, hsu⟩ := toPrefix_word rom hrom hp ho.1 ho.2
    rw [hsu su]
    have h48 : ∀ x ∈ ty.toPrefix rom pos .none, 48 ≤ x := by
      intro x hx
      have := hcl x hx
      cases ty <;> simp [ItemType.isOrdered] at ho <;>
        simp [wordClass, DigitByte, LowerByte, UpperByte, LowerRomanByte] at this <;> omega
    have key : ∀ ty', (∃ s', listItemPrefix (Span.ofStr
        (ty.toPrefix rom pos .none ++ su.text ++ b!" " ++ rest)) = .ok s' (ty', su)) ↔
        su ≠ .none ∧ NumberWord (ty.toPrefix rom pos .none) (su.text ++ b!" ") ty' :=
      fun ty' => listItemPrefix_word hne h48
    have hnum : su ≠ .none → ∃ c q, su.text ++ b!" " = c :: q ∧ c < 48 := by
      intro h
      cases su <;> simp [Suffix.text] at h ⊢
    have hrest : ∀ ty', su ≠ .none → NumberWord (ty.toPrefix rom pos .none) (su.text ++ b!" ") ty' →
        ty'.isOrdered = ty.isOrdered ∧ (pos = 0 → ty' = ty) := by
      intro ty' hs hw
      obtain ⟨c, q, e, hc⟩ := hnum hs
      rw [e] at hw
      refine ⟨?_, ?_⟩
      · rw [ho.1]
        cases ty' <;> simp [NumberWord] at hw <;> rfl
      · rintro rfl
        obtain ⟨i1, i2, i3⟩ := numberWord_iff (q := q) hc hne
        have hr1 : rom 1 = b!"I" := by
          have := hrom 1 (by omega) (by omega)
          simpa [romanNumeral, romanPlace] using this
        have ha : asI16 (0 + 1) = 1 := by decide
        cases ty <;> simp [ItemType.isOrdered] at ho
        · exact (i1 hcl ty').1 hw
        · have w1 : ItemType.lowerAlpha.toPrefix rom 0 .none = b!"a" := by
            simp only [ItemType.toPrefix]; decide +kernel
          have := (i2 hcl ty').1 hw
          rw [w1] at this
          simpa [LowerRomanByte] using this
        · have w1 : ItemType.upperAlpha.toPrefix rom 0 .none = b!"A" := by
            simp only [ItemType.toPrefix]; decide +kernel
          have := (i3 hcl ty').1 hw
          rw [w1] at this
          simpa [UpperRomanByte] using this
        · have w1 : ItemType.lowerRoman.toPrefix rom 0 .none = b!"i" := by
            simp only [ItemType.toPrefix]; rw [ha, hr1]; decide
          rw [w1] at hw i2
          have := (i2 (by simp [LowerByte]) ty').1 hw
          simpa [LowerRomanByte] using this
        · have w1 : ItemType.upperRoman.toPrefix rom 0 .none = b!"I" := by
            simp only [ItemType.toPrefix]; rw [ha, hr1]; decide
          have := (i3 hcl ty').1 hw
          rw [w1] at this
          simpa [UpperRomanByte] using this
    refine ⟨⟨?_, ?_⟩, ?_⟩
    · rintro ⟨s', ty', h⟩
      obtain ⟨h1, h2⟩ := (key ty').1 ⟨s', h⟩
      obtain ⟨c, q, e, hc⟩ := hnum h1
      rw [e] at h2
      obtain ⟨i1, i2, i3⟩ := numberWord_iff (q := q) hc hne
      cases ty <;> simp [ItemType.isOrdered] at ho
      · exact h1
      · refine ⟨h1, ?_⟩
        rcases (i2 hcl ty').1 h2 with h | h
        · exact .inr h.2
        · exact .inl h.2
      · refine ⟨h1, ?_⟩
        rcases (i3 hcl ty').1 h2 with h | h
        · exact .inr h.2
        · exact .inl h.2
      · exact h1
      · refine ⟨h1, ?_⟩
        rcases (i3 hcl ty').1 h2 with h | h
        · exact .inr h.2
        · exact .inl h.2
    · intro hr
      have h1 : su ≠ .none := by
        cases ty <;> simp [ItemType.isOrdered] at ho <;> simp only [Readable] at hr
        · exact hr
        · exact hr.1
        · exact hr.1
        · exact hr
        · exact hr.1
      obtain ⟨c, q, e, hc⟩ := hnum h1
      obtain ⟨i1, i2, i3⟩ := numberWord_iff (q := q) hc hne
      have : ∃ ty', NumberWord (ty.toPrefix rom pos .none) (c :: q) ty' := by
        cases ty <;> simp [ItemType.isOrdered] at ho <;> simp only [Readable] at hr
        · exact ⟨_, (i1 hcl .number).2 rfl⟩
        · rcases hr.2 with h | h
          · exact ⟨_, (i2 hcl .lowerAlpha).2 (.inr ⟨rfl, h⟩)⟩
          · exact ⟨_, (i2 hcl .lowerRoman).2 (.inl ⟨rfl, h⟩)⟩
        · rcases hr.2 with h | h
          · exact ⟨_, (i3 hcl .upperAlpha).2 (.inr ⟨rfl, h⟩)⟩
          · exact ⟨_, (i3 hcl .upperRoman).2 (.inl ⟨rfl, h⟩)⟩
        · refine ⟨_, (i2 ?_ .lowerRoman).2 (.inl ⟨rfl, hcl⟩)⟩
          intro x hx
          have := hcl x hx
          simp [wordClass, LowerRomanByte, LowerByte] at *
          omega
        · rcases hr.2 with h | h
          · exact ⟨_, (i3 hcl .upperAlpha).2 (.inr ⟨rfl, h⟩)⟩
          · exact ⟨_, (i3 hcl .upperRoman).2 (.inl ⟨rfl, h⟩)⟩
      obtain ⟨ty', h⟩ := this
      obtain ⟨s', h⟩ := (key ty').2 ⟨h1, e ▸ h⟩
      exact ⟨s', ty', h⟩
    · intro s' ty' h
      obtain ⟨h1, h2⟩ := (key ty').1 ⟨s', h⟩
      exact hrest ty' h1 h2
  · cases ty <;> simp [ItemType.isOrdered] at ho hty
    · exact fixed b!"-" .hyphen .hyphen
    · exact fixed b!"*" .asterisk .asterisk
    · by_cases hs : su = .none
      · subst hs
        exact fixed b!"#" .pound .pound
      · have no : ∀ s' ty', listItemPrefix (Span.ofStr (ItemType.pound.toPrefix rom pos su ++ b!" " ++ rest)) ≠
            .ok s' (ty', su) := by
          intro s' ty' h
          obtain ⟨v, r, e, -, hv⟩ := listItemPrefix_inv (View.ofStr _) h
          have first : ∀ {c : Str} {v : Str}, NumberWord v c ty' →
              ItemType.pound.toPrefix rom pos su ++ b!" " ++ rest ≠ v ++ c ++ r := by
            intro c v hv e
            obtain ⟨h1, h2⟩ := numberWord_hi hv
            cases v with
            | nil => exact h1 rfl
            | cons x u =>
              simp [ItemType.toPrefix] at e
              have := h2 x (by simp)
              omega
          cases hv with
          | period h' => exact first h' e
          | paren h' => exact first h' e
          | _ => exact hs rfl
        refine ⟨⟨?_, fun h => absurd h hs⟩, fun s' ty' h => absurd h (no s' ty')⟩
        rintro ⟨s', ty', h⟩
        exact absurd h (no s' ty')

/-- Readable items: "28)" and, with one letter each, "i." as roman and "h." as
alphabetic. -/
example : Readable (ItemType.number.toPrefix (fun n => romanNumeral n.toNat) 27 .none) .paren .number ∧
    Readable (ItemType.lowerAlpha.toPrefix (fun n => romanNumeral n.toNat) 8 .none) .period .lowerAlpha ∧
    Readable (ItemType.lowerAlpha.toPrefix (fun n => romanNumeral n.toNat) 7 .none) .period .lowerAlpha := by
  refine ⟨by simp [Readable], ⟨by simp, .inr ?_⟩, ⟨by simp, .inl ?_⟩⟩
  · rw [show ItemType.toPrefix _ 8 .none .lowerAlpha = b!"i" by decide +kernel]
    simp [LowerRomanByte]
  · rw [show ItemType.toPrefix _ 7 .none .lowerAlpha = b!"h" by decide +kernel]
    simp [LowerRomanByte]

/-- C25 does not hold for all items: "XC." (upper roman, item 90) and "ca." (lower
alphabetic, item 79) are rejected, since the letters taken for roman digits end the
word, and so is "1", a number without suffix. -/
theorem C25_violated :
    ItemType.upperRoman.toPrefix (fun n => romanNumeral n.toNat) 89 .period = b!"XC." ∧
    listItemPrefix (Span.ofStr b!"XC. x") = .err ∧
    ItemType.lowerAlpha.toPrefix (fun n => romanNumeral n.toNat) 78 .period = b!"ca." ∧
    listItemPrefix (Span.ofStr b!"ca. x") = .err ∧
    ItemType.number.toPrefix (fun n => romanNumeral n.toNat) 0 .none = b!"1" ∧
    listItemPrefix (Span.ofStr b!"1 x") = .err := by
  decide +kernel

/-! ## C28 -/

/-- C28, what holds: in every list of a page, at any depth, the `i`-th item has
position `i`; all items have the type of the first one, which is the type of the
prefix written before the first item; the suffix of each item is the one written
before it. (C28 also asks that the type is roman only if every item of the list was
recognised as roman.) -/
theorem C28_numbering_partial {env : Env} {text : Str} {s : Span} {pg : Page}
    (h : parsePage env text = .ok s pg) {xs : List (Located ListItem)} {reg : Region}
    (hx : ⟨.list xs, reg⟩ ∈ pg.blocks) : xs ≠ [] ∧ ListForm text xs := by
  have hp := (parsePage_block h hx).2.2
  simp only at hp
  cases hp with
  | list h1 h2 _ => exact ⟨h1, h2⟩

/-- Items of a list nested in a list, with different suffixes. -/
example : ∃ s pg, parsePage demo b!"- x\n  1. y\n  7) z\n- w\n" = .ok s pg ∧
    ∃ x ∈ pg.blocks, ∃ xs ∈ x.inner.items?, xs.map (fun i => i.inner.pos) = [0, 1] ∧
      xs.map (fun i => i.inner.ty) = [.number, .number] ∧
      xs.map (fun i => i.inner.suffix) = [.period, .paren] :=
  page_test _ (by decide +kernel)

/-- The roman clause of C28 does not hold: "j." is no roman numeral. -/
theorem C28_violated : ∃ s pg, parsePage demo b!"i. x\nj. y\n" = .ok s pg ∧
    ∃ x ∈ pg.blocks, ∃ xs ∈ x.inner.items?,
      xs.map (fun i => i.inner.ty) = [.lowerRoman, .lowerRoman] :=
  page_test _ (by decide +kernel)

end Vw
