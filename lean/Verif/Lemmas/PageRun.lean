import Verif.Lemmas.NestRun
import Verif.Spec.PageText

/-!
# Pages are read back
-/

namespace Vw
open P Scan Fm

variable {env : Env} {ue : Uri → Uri → Bool} {L : OutLib} {cfg : VwCfg} {s s' s1 : Span} {t w r ws : Str}

/-- The text of a block on a page. -/
def topText (L : OutLib) (cfg : VwCfg) : Block → Str
  | .header c n ce => headerText L cfg c n ce
  | .paragraph ls => blockText L cfg 0 true (.paragraph ls)
  | .blockquote ls => blockText L cfg 0 true (.blockquote ls)
  | .defs xs => blockText L cfg 0 true (.defs xs)
  | .list xs => blockText L cfg 0 true (.list xs)
  | .code lang md ls => leafText L (.code lang md ls)
  | .math ls en => leafText L (.math ls en)
  | .placeholder p => leafText L (.placeholder p)
  | .divider => leafText L .divider
  | .table t => t.text L cfg 0 true

theorem indentText_zero : indentText cfg 0 = [] := rfl

/-! ## What the formatter writes -/

theorem top_text (hI : AllBlank cfg.indentStr) {x : Block} (h : TopOk env ue L cfg x) :
    x.toVimwiki L cfg = some (topText L cfg x) ∧ (topText L cfg x).getLast? = some 10 := by
  have nest : ∀ x : Block, NestOk env ue L cfg 0 x →
      x.toVimwiki L cfg = some (blockText L cfg 0 true x) ∧ (blockText L cfg 0 true x).getLast? = some 10 := by
    intro x h
    obtain ⟨h1, h2⟩ := block_text hI x 0 [] h Whole.nil
    refine ⟨?_, h2 true⟩
    unfold Block.toVimwiki new
    rw [h1]
    rfl
  cases x with
  | header c n ce =>
    obtain ⟨⟨h1, -, h2, -⟩, -⟩ := h
    refine ⟨?_, by unfold topText headerText; simp⟩
    unfold Block.toVimwiki new
    rw [Block.fmt, header_text h2.tight h1]
    rfl
  | paragraph ls =>
    obtain ⟨⟨h1, h2⟩, -⟩ := h
    refine ⟨?_, paraText_last ls true h1⟩
    unfold Block.toVimwiki new
    rw [Block.fmt, paragraph_text (allBlank_indent hI 0) ls [] (fun l hl => (h2 l hl).1.tight) Whole.nil]
    rfl
  | blockquote ls => exact nest _ (by rw [NestOk]; exact h)
  | defs xs => exact nest _ (by rw [NestOk]; exact h)
  | list xs => exact nest _ h
  | code lang md ls =>
    have h : LeafOk L env (.code lang md ls) := h
    exact ⟨leaf_text cfg h, leaf_last h⟩
  | math ls en =>
    have h : LeafOk L env (.math ls en) := h
    exact ⟨leaf_text cfg h, leaf_last h⟩
  | placeholder p =>
    have h : LeafOk L env (.placeholder p) := h
    exact ⟨leaf_text cfg h, leaf_last h⟩
  | divider => exact ⟨leaf_text (env := env) (b := .divider) cfg trivial, leaf_last (env := env) (b := .divider) (L := L) trivial⟩
  | table t =>
    refine ⟨?_, table_last (d := 0) h 0 true⟩
    unfold Block.toVimwiki new
    rw [Block.fmt, table_text (d := 0) h]
    rfl

/-! ## Solid -/

mutual
theorem nest_solid {d : Nat} : ∀ (x : Block), NestOk env ue L cfg d x → x.Solid L cfg
  | .paragraph ls, h => by
    simp only [NestOk] at h
    simp only [Block.Solid]
    exact fun _ l hl => (h.1.2 l hl).1.tight.notWs
  | .blockquote ls, h => by
    simp only [NestOk] at h
    simp only [Block.Solid]
    intro _ e
    rw [h.2.1] at e
    cases e
  | .defs xs, h => by
    simp only [NestOk] at h
    simp only [Block.Solid]
    exact fun _ x hx => (h.2 x hx).1.tight.notWs
  | .list xs, h => by
    simp only [NestOk] at h
    simp only [Block.Solid]
    exact items_solid xs 0 _ h.2
  | .code lang md ls, h => by simp only [Block.Solid]
  | .math ls en, h => by simp only [Block.Solid]
  | .header _ _ _, h => by simp only [NestOk] at h
  | .divider, h => by simp only [NestOk] at h
  | .placeholder _, h => by simp only [NestOk] at h
  | .table _, h => by simp only [Block.Solid]
theorem items_solid {d : Nat} : ∀ (xs : List (Located (ItemF Block))) (pos : Nat) (ty : Option ItemType),
    ItemsOk env ue L cfg d pos ty xs → Block.SolidItems L cfg xs
  | [], pos, ty, h => by simp only [Block.SolidItems]
  | ⟨⟨ty', su, p, cs, td⟩, _⟩ :: xs, pos, ty, h => by
    simp only [ItemsOk] at h
    obtain ⟨-, -, -, -, -, -, h7, h8⟩ := h
    simp only [Block.SolidItems]
    exact ⟨contents_solid cs h7, items_solid xs _ _ h8⟩
theorem contents_solid {d : Nat} : ∀ (cs : List (Located Block)), ContsOk env ue L cfg d cs → Block.SolidContents L cfg cs
  | [], h => by simp only [Block.SolidContents]
  | ⟨x, _⟩ :: xs, h => by
    simp only [ContsOk] at h
    simp only [Block.SolidContents]
    exact ⟨nest_solid x h.1, contents_solid xs h.2⟩
end

theorem top_solid {x : Block} (h : TopOk env ue L cfg x) : x.Solid L cfg := by
  cases x with
  | header c n ce =>
    simp only [Block.Solid]
    exact fun _ => .inl h.1.1
  | paragraph ls =>
    simp only [Block.Solid]
    exact fun _ l hl => (h.1.2 l hl).1.tight.notWs
  | blockquote ls => exact nest_solid (env := env) (ue := ue) (d := 0) _ (by rw [NestOk]; exact h)
  | defs xs => exact nest_solid (env := env) (ue := ue) (d := 0) _ (by rw [NestOk]; exact h)
  | list xs => exact nest_solid _ h
  | _ => simp only [Block.Solid]

/-! ## How the text of a block begins -/

theorem prefix_heads {ty : ItemType} {su : Suffix} (h : PrefixText ty su w) :
    w = b!"- " ∨ ∃ c q, w = c :: q ∧ c ≠ c!"=" ∧ c ≠ c!"{" ∧ c ≠ c!"%" ∧ c ≠ c!"-" ∧ c ≠ c!"|" ∧ 32 < c := by
  have num : ∀ {w r : Str}, NumberWord w r ty →
      ∃ c q, w = c :: q ∧ c ≠ c!"=" ∧ c ≠ c!"{" ∧ c ≠ c!"%" ∧ c ≠ c!"-" ∧ c ≠ c!"|" ∧ 32 < c := by
    intro w r h
    have key : ∀ {f : Byte → Prop}, (∀ x, f x → DigitByte x ∨ LowerByte x ∨ UpperByte x) → RunOf f w r →
        ∃ c q, w = c :: q ∧ c ≠ c!"=" ∧ c ≠ c!"{" ∧ c ≠ c!"%" ∧ c ≠ c!"-" ∧ c ≠ c!"|" ∧ 32 < c := fun hf h => by
      cases w with
      | nil => exact absurd rfl h.1
      | cons c q =>
        have := hf c (h.2.1 c (by simp))
        unfold DigitByte LowerByte UpperByte at this
        exact ⟨c, q, rfl, by simp only [ne_eq]; omega⟩
    cases ty with
    | number => exact key (fun x hx => .inl hx) h
    | lowerRoman => exact key (by intro x hx; unfold LowerRomanByte at hx; revert hx; unfold DigitByte LowerByte UpperByte; simp; omega) h
    | upperRoman => exact key (by intro x hx; unfold UpperRomanByte at hx; revert hx; unfold DigitByte LowerByte UpperByte; simp; omega) h
    | lowerAlpha => exact key (fun x hx => .inr (.inl hx)) h.1
    | upperAlpha => exact key (fun x hx => .inr (.inr hx)) h.1
    | _ => exact h.elim
  cases h with
  | hyphen => exact .inl rfl
  | period h => obtain ⟨c, q, rfl, hc⟩ := num h; exact .inr ⟨c, _, rfl, hc⟩
  | paren h => obtain ⟨c, q, rfl, hc⟩ := num h; exact .inr ⟨c, _, rfl, hc⟩
  | _ => exact .inr ⟨_, _, rfl, by decide⟩

/-- The first line of a block on a page, after its indentation. -/
structure TopHead (L : OutLib) (cfg : VwCfg) (y : Block) (ws x : Str) : Prop where
  blank : AllBlank ws
  head : ∃ c q, x = c :: q ∧ ¬ (c = 32 ∨ (9 ≤ c ∧ c ≤ 13))
  quote : y.kind ≠ .quote → ¬ b!"> " <+: x
  term : y.kind ≠ .defs → (∀ c n ce, y = .header c n ce → NoTermLine (headerText L cfg c n ce)) → NoTermLine (ws ++ x)
  item : y.kind ≠ .list → ∀ ty su w, PrefixText ty su w → ¬ w <+: x
  flat : ¬ y.Indented → ws = []
  bar : y.kind ≠ .table → x.head? ≠ some c!"|"

theorem noTermLine_left {a b : Str} (h : NoTermLine (a ++ 10 :: b)) : NoTermLine a := by
  intro u v e
  have := h u (v ++ 10 :: b) (by rw [e]; simp)
  exact this

theorem leaf_first {b : Block} (h : LeafOk L env b) : ∃ x t, leafText L b = x ++ 10 :: t ∧ TopHead L cfg b [] x := by
  obtain ⟨c, u, e1, hc, h2⟩ := leaf_head h []
  rw [List.append_nil] at e1 h2
  have hl := leaf_line h []
  rw [List.append_nil] at hl
  obtain ⟨x, t, e, hx⟩ := List.eq_append_cons_of_mem (List.mem_of_getLast? (leaf_last h))
  rw [e, lineOf_append hx] at hl
  rw [e] at e1 h2
  obtain ⟨q, rfl⟩ : ∃ q, x = c :: q := by
    cases x with
    | nil => simp at e1; omega
    | cons a q => simp at e1; exact ⟨q, by rw [e1.1]⟩
  refine ⟨c :: q, t, e, by intro y hy; simp at hy, ⟨c, q, rfl, by omega⟩, ?_, fun _ _ => hl.noTermLine, ?_, fun _ => rfl, fun _ e => by simp at e; omega⟩
  · rintro - ⟨v, hv⟩
    simp at hv
    omega
  · rintro - ty su w hw ⟨v, hv⟩
    rcases prefix_heads hw with rfl | ⟨d, p, rfl, hd⟩
    · exact h2 ⟨v ++ 10 :: t, by rw [← hv]; simp⟩
    · simp at hv
      rw [hv.1] at hd
      simp only [ne_eq] at hd
      omega

theorem nest_first (hI : AllBlank cfg.indentStr) {y : Block} (h : NestOk env ue L cfg 0 y) :
    ∃ x t, blockText L cfg 0 true y = x ++ 10 :: t ∧ TopHead L cfg y [] x := by
  obtain ⟨x, hx, ht⟩ := block_first hI y h
  obtain ⟨t, e, -⟩ := ht 0
  dsimp only at e
  refine ⟨x, t, by rw [blockText_true h, e]; rfl, by intro y hy; simp at hy, ?_, hx.quote, fun hk _ => hx.term hk,
    hx.item, fun _ => rfl, hx.table⟩
  cases x with
  | nil => exact absurd rfl hx.ne
  | cons c q => exact ⟨c, q, rfl, hx.head c rfl⟩

theorem top_first (hI : AllBlank cfg.indentStr) {y : Block} (h : TopOk env ue L cfg y) :
    ∃ ws x t, topText L cfg y = ws ++ (x ++ 10 :: t) ∧ TopHead L cfg y ws x := by
  have nil : AllBlank ([] : Str) := by intro y hy; simp at hy
  cases y with
  | header c n ce =>
    obtain ⟨⟨h1, h2, h3, h4, h5⟩, -⟩ := h
    obtain ⟨m, rfl⟩ : ∃ m, n = m + 1 := ⟨n - 1, by omega⟩
    refine ⟨if ce then b!"    " else [], rep c!"=" (m + 1) ++
      ((if cfg.headerNoPadding then [] else b!" ") ++ Inline.textAll L cfg c ++
      (if cfg.headerNoPadding then [] else b!" ") ++ rep c!"=" (m + 1)), [], by simp [topText, headerText], ?_⟩
    have hr : ∀ m, rep c!"=" (m + 1) = c!"=" :: rep c!"=" m := fun m => by rw [rep_eq, rep_eq, List.replicate_succ]
    refine ⟨?_, ⟨c!"=", _, by rw [hr]; rfl, by decide⟩, ?_, ?_, ?_, ?_, fun _ => by rw [hr]; simp⟩
    · cases ce <;> intro x hx <;> simp_all
    · rintro - ⟨v, hv⟩
      rw [hr] at hv
      simp at hv
    · intro _ hk
      refine noTermLine_left (b := []) ?_
      have := hk c (m + 1) ce rfl
      unfold headerText at this
      simpa using this
    · rintro - ty su w hw ⟨v, hv⟩
      rw [hr] at hv
      rcases prefix_heads hw with rfl | ⟨d, p, rfl, hd⟩
      · simp at hv
      · simp at hv
        exact hd.1 hv.1
    · intro hk
      cases ce with
      | false => rfl
      | true => exact absurd rfl hk
  | paragraph ls =>
    obtain ⟨⟨h1, h2⟩, -⟩ := h
    cases ls with
    | nil => exact absurd rfl h1
    | cons l ls =>
      obtain ⟨hc, hp⟩ := h2 l (by simp)
      refine ⟨[], Inline.textAll L cfg l, _, rfl, nil, ?_, fun _ => hp.quote, fun _ _ => hp.term, fun _ => hp.item,
        fun _ => rfl, fun _ => hp.table⟩
      have := hc.tight.head
      cases hx : Inline.textAll L cfg l with
      | nil => exact absurd hx hc.tight.1
      | cons c q => exact ⟨c, q, rfl, this c (by rw [hx]; rfl)⟩
  | blockquote ls =>
    obtain ⟨x, t, e, hx⟩ := nest_first hI (y := .blockquote ls) (env := env) (ue := ue) (L := L) (by rw [NestOk]; exact h)
    exact ⟨[], x, t, e, hx⟩
  | defs xs =>
    obtain ⟨x, t, e, hx⟩ := nest_first hI (y := .defs xs) (env := env) (ue := ue) (L := L) (by rw [NestOk]; exact h)
    exact ⟨[], x, t, e, hx⟩
  | list xs =>
    obtain ⟨x, t, e, hx⟩ := nest_first hI (y := .list xs) h
    exact ⟨[], x, t, e, hx⟩
  | code lang md ls =>
    obtain ⟨x, t, e, hx⟩ := leaf_first (env := env) (cfg := cfg) (b := .code lang md ls) h
    exact ⟨[], x, t, e, hx⟩
  | math ls en =>
    obtain ⟨x, t, e, hx⟩ := leaf_first (env := env) (cfg := cfg) (b := .math ls en) h
    exact ⟨[], x, t, e, hx⟩
  | placeholder p =>
    obtain ⟨x, t, e, hx⟩ := leaf_first (env := env) (cfg := cfg) (b := .placeholder p) h
    exact ⟨[], x, t, e, hx⟩
  | divider =>
    obtain ⟨x, t, e, hx⟩ := leaf_first (cfg := cfg) (L := L) (env := env) (b := .divider) trivial
    exact ⟨[], x, t, e, hx⟩
  | table t =>
    have h : TableOk env ue L cfg 0 t := h
    obtain ⟨t', e, -⟩ := table_lines hI h 0
    refine ⟨if t.centered then b!"    " else [], b!"|" ++ barred (t.rowAt L cfg 0), t', ?_, centered_blank _, ⟨_, _, rfl, by decide⟩,
      fun _ => by rintro ⟨q, hq⟩; simp at hq, fun _ _ => noTerm_append ?_ h.term, fun _ => no_item_of_first (.inr (.inr rfl)), fun hk => ?_,
      fun hk => absurd rfl hk⟩
    · rw [topText, tableText_true h, e]
      rfl
    · cases t.centered <;> decide
    · cases hc : t.centered with
      | false => rfl
      | true => exact absurd hc hk

/-! ## What follows a block -/

/-- What has to follow a block of the kind `k` on a page. -/
def TopEnd (env : Env) (r : Str) (s : Span) : BlockKind → Prop
  | .paragraph => Fails (paraLine env (list env) s)
  | .quote => NoQuote r
  | .defs => NoTermLine r
  | .list => EndsList 0 r
  | .table => NoRow r
  | _ => True

/-- The parser of the block on a page. -/
def topParser (env : Env) : Block → P (Located Block)
  | .header _ _ _ => header env
  | .paragraph _ => paragraph env
  | .blockquote _ => arrowBlockquote
  | .defs _ => definitionList env
  | .list _ => list env
  | .code _ _ _ => codeBlock
  | .math _ _ => mathBlock
  | .placeholder _ => placeholder env
  | .divider => divider
  | .table _ => table env

theorem topEnd_nil (hs : env.SchemeSound) (h : View s []) (k : BlockKind) : TopEnd env [] s k := by
  cases k with
  | paragraph => exact paraLine_end_nil hs h
  | quote => exact noQuote_nil (by simp [AllGap])
  | defs => intro u v e; simp at e
  | list =>
    refine ⟨[], [], rfl, by simp [AllBlank], by simp, by simp, fun _ ty su w hw hp => ?_⟩
    exact hw.head.1 (List.prefix_nil.1 hp)
  | table => exact noRow_nil
  | _ => trivial

/-- Before a blank line. -/
theorem topEnd_blank (hI : AllBlank cfg.indentStr) (hb : AtBol s) {y : Block} (hy : TopOk env ue L cfg y) {k : BlockKind}
    (h : View s (10 :: (topText L cfg y ++ r))) (hk : k = .quote → y.kind ≠ .quote) :
    TopEnd env (10 :: (topText L cfg y ++ r)) s k := by
  obtain ⟨ws, x, t, e, hx⟩ := top_first hI hy
  cases k with
  | paragraph => exact paraLine_end_blank hb h
  | quote =>
    obtain ⟨c, q, rfl, hc⟩ := hx.head
    have := noQuote_of (c := c) (w := 10 :: ws) (r := q ++ 10 :: (t ++ r)) (by
      intro y hy
      rcases List.mem_cons.1 hy with rfl | hy
      · exact .inr (.inr (.inl rfl))
      · have := hx.blank y hy; omega) (by omega)
      (fun hp => hx.quote (hk rfl) (prefix_of_line (r := t ++ r) hp (by decide)))
    rw [e]
    simpa [TopEnd] using this
  | defs =>
    intro u v e
    cases u with
    | nil => simp at e
    | cons a u => simp at e; simp [← e.1]
  | list =>
    refine ⟨[], _, rfl, by simp [AllBlank], by simp, by simp, fun _ ty su w hw hp => ?_⟩
    exact absurd (prefix_of_line (x := []) hp hw.no10) (fun h => hw.head.1 (List.prefix_nil.1 h))
  | table => exact ⟨[], _, rfl, by simp [AllBlank], by intro x hx; simp at hx; subst hx; decide⟩
  | _ => trivial

/-- Before a block. -/
theorem topEnd_next (hI : AllBlank cfg.indentStr) {x y : Block} (hy : TopOk env ue L cfg y)
    (hcfg : cfg.separate = false) (hxy : Beside L cfg x y) {Q : Located Block → Prop}
    (hg : Gives (topParser env y s) s' Q) : TopEnd env (topText L cfg y ++ r) s x.kind := by
  obtain ⟨ws, z, t, e, hz⟩ := top_first hI hy
  obtain ⟨c, q, hcq, hc⟩ := hz.head
  obtain ⟨b1, b2⟩ := hxy
  obtain ⟨b2, b3, b4, b5⟩ := b2 hcfg
  cases hk : x.kind with
  | paragraph =>
    refine .of_inv fun s' w e => ?_
    obtain ⟨hg', -⟩ := paraLine_inv e
    cases y with
    | paragraph _ => exact b2 hk rfl
    | header _ _ _ => rw [topParser, hg'.header] at hg; exact hg
    | blockquote _ => rw [topParser, hg'.arrow] at hg; exact hg
    | defs _ => rw [topParser, hg'.defs] at hg; exact hg
    | list _ => rw [topParser, hg'.list] at hg; exact hg
    | code _ _ _ => rw [topParser, hg'.code] at hg; exact hg
    | math _ _ => rw [topParser, hg'.math] at hg; exact hg
    | placeholder _ => rw [topParser, hg'.placeholder] at hg; exact hg
    | divider => rw [topParser, hg'.divider] at hg; exact hg
    | table _ => rw [topParser, hg'.table] at hg; exact hg
  | quote =>
    have := noQuote_of (c := c) (w := ws) (r := q ++ 10 :: (t ++ r)) (fun y hy => by have := hz.blank y hy; omega) (by omega)
      (fun hp => hz.quote (b1 hk) (prefix_of_line (r := t ++ r) (by rw [hcq]; exact hp) (by decide)))
    rw [e, hcq]
    simpa [TopEnd] using this
  | defs =>
    have := noTerm_line (r := t ++ r) (hz.term (b3 hk).1 (b3 hk).2)
    rw [e]
    simpa [TopEnd] using this
  | list =>
    have hw := hz.flat (b4 hk).2
    subst hw
    refine ⟨[], topText L cfg y ++ r, rfl, by simp [AllBlank], by simp, ?_, fun _ ty su w hw hp => ?_⟩
    · intro v hv
      rw [e, hcq] at hv
      simp at hv
      omega
    · rw [e, List.nil_append, List.append_assoc] at hp
      exact hz.item (b4 hk).1 ty su w hw (prefix_of_line hp hw.no10)
  | table =>
    have hb := hz.bar (b5 hk)
    rw [hcq] at hb
    refine ⟨ws, z ++ 10 :: (t ++ r), by rw [e]; simp, hz.blank, fun v hv => ?_⟩
    rw [hcq] at hv
    simp at hv hb
    subst hv
    exact ⟨by omega, hb⟩
  | _ => trivial

/-! ## Reading the blocks -/

theorem top_gives (hs : env.SchemeSound) (hI : AllBlank cfg.indentStr) (hn : cfg.indentStr ≠ []) {y : Block}
    (h : TopOk env ue L cfg y) (hb : AtBol s) (hd : s.depth = 0) (hv : View s (topText L cfg y ++ r))
    (he : TopEnd env r (adv s (topText L cfg y).length) y.kind) :
    Gives (topParser env y s) (adv s (topText L cfg y).length) fun x => x.inner.eqv false ue y = true := by
  cases y with
  | header c n ce => exact header_gives hs hb hv h.1 (by have := h.2; omega)
  | paragraph ls =>
    exact paragraph_gives hs (listLike_list env) (allBlank_indent hI 0) h.1.1 hv hb.lastWord
      (fun l hl => ⟨(h.1.2 l hl).1, (h.1.2 l hl).2, by have := h.2 l hl; omega⟩) he
  | blockquote ls =>
    exact block_gives (ue := ue) (L := L) hs hI hn (.blockquote ls) 0 0 true s r (by rw [NestOk]; exact h) hd hv hb.lastWord (.inl ⟨rfl, hb⟩) he
  | defs xs =>
    exact block_gives hs hI hn (.defs xs) 0 0 true s r (by rw [NestOk]; exact h) hd hv hb.lastWord (.inl ⟨rfl, hb⟩) he
  | list xs =>
    exact block_gives hs hI hn (.list xs) 0 s.remainingLen true s r h hd hv hb.lastWord (.inl ⟨rfl, hb⟩) he
  | code lang md ls =>
    obtain ⟨y, md', hrun, h2, h3⟩ := codeBlock_leaf (L := L) hv h.1 h.2
    exact .of_ok hrun (by rw [h2]; simp [Block.eqv, h3])
  | math ls en =>
    obtain ⟨y, hrun, h2⟩ := mathBlock_leaf (L := L) hv h.1 h.2
    exact .of_ok hrun (by rw [h2]; simp [Block.eqv])
  | placeholder p =>
    obtain ⟨y, hrun, h2⟩ := placeholder_leaf hb hv h
    exact .of_ok hrun (by rw [h2]; simp [Block.eqv])
  | divider =>
    obtain ⟨N, hN, hrun⟩ := divider_run hb hv ⟨4, 10 :: r, by decide, rfl, .inr (.inl ⟨r, rfl⟩)⟩
    refine .of_ok (hrun.trans (ok_congr ?_)) rfl
    rw [hN]; rfl
  | table t =>
    refine Gives.map (table_raw (d := 0) hs hI h hd hv he) fun y hy => ?_
    have h1 := hy.1
    rw [← hy.2 rfl] at h1
    exact h1

theorem Gives.reads {p : P (Located Block)} {Q : Located Block → Prop} {x : Located Block} (h : Gives (p s) s1 Q)
    (e : p s = .ok s' x) : s' = s1 ∧ Q x := by
  rw [e] at h
  exact h

theorem top_reads {C : Ctx} (hs : C.env.SchemeSound) (hI : AllBlank cfg.indentStr) (hn : cfg.indentStr ≠ []) {y : Block}
    (h : TopOk C.env ue L cfg y)
    (he : ∀ s, AtBol s → C.In 2 s → s.depth = 0 → View s (topText L cfg y ++ r) →
      TopEnd C.env r (adv s (topText L cfg y).length) y.kind) :
    Reads C (topText L cfg y) r fun x => x.eqv false ue y = true := by
  have leaf : ∀ b : Block, LeafOk L C.env b → topText L cfg b = leafText L b →
      Reads C (topText L cfg b) r fun x => x.eqv false ue b = true := fun b hb e => by
    rw [e]; exact leaf_reads hb r
  have other : y.kind = .paragraph ∨ y.kind = .quote ∨ y.kind = .defs ∨ y.kind = .list ∨ y.kind = .table ∨ (∃ c n ce, y = .header c n ce) →
      Reads C (topText L cfg y) r fun x => x.eqv false ue y = true := by
    intro hk
    refine ⟨(top_text hI h).2, fun s hb hi hd hv => ?_⟩
    have hg := top_gives hs hI hn h hb hd hv (he s hb hi hd hv)
    obtain ⟨ws, x, t, e, hx⟩ := top_first hI h
    obtain ⟨c, q, hcq, hc⟩ := hx.head
    have hv' : View s (ws ++ (x ++ 10 :: (t ++ r))) := by rw [e] at hv; simpa using hv
    refine ⟨blankLine_fails (c := c) (r := q ++ 10 :: (t ++ r)) (by rw [hcq] at hv'; exact hv') hx.blank (by omega), fun s' z ht => ?_⟩
    suffices hG : Gives (topLevel C.env s) (adv s (topText L cfg y).length) fun x => x.inner.eqv false ue y = true from
      Gives.reads hG ht
    have hh : ∀ y, (x ++ 10 :: (t ++ r)).head? = some y → ¬ (y = 32 ∨ y = 9) := by
      intro y hy
      rw [hcq] at hy
      simp at hy
      omega
    have no : ∀ p : Str, 10 ∉ p → p ≠ [] → (∀ y, p.head? = some y → ¬ (y = 32 ∨ y = 9)) → ¬ p <+: x →
        ¬ Begins (ws ++ (x ++ 10 :: (t ++ r))) p := by
      intro p h10 hne hph hpx hb
      exact hpx (prefix_of_line (hb.strip hx.blank hh hph hne) h10)
    have one : ∀ d : Byte, c ≠ d → ∀ p : Str, ¬ (d :: p) <+: x := by
      rintro d hd p ⟨q', hq'⟩
      rw [hcq] at hq'
      simp at hq'
      exact hd hq'.1.symm
    have fheader : c ≠ c!"=" → Fails (header C.env s) := fun hc => .of_inv fun s' y e =>
      no b!"=" (by decide) (by decide) (by decide) (one _ hc _) (header_begins hv' e)
    have fdefs : NoTermLine (ws ++ x) → Fails (definitionList C.env s) := fun hc => .of_inv fun s' y e => by
      obtain ⟨w, q, he, hw⟩ := defs_begins hv' e
      exact hw (noTerm_line (r := t ++ r) hc w q (by rw [← he]; simp))
    have flist : y.kind ≠ .list → Fails (list C.env s) := fun hk => .of_inv fun s' y e => by
      obtain ⟨ws', ty, su, w, q, he, hws', hw⟩ := listOf_begins hv' e
      exact hx.item hk ty su w hw (prefix_of_line (Begins.strip (p := w) ⟨ws', q, he, hws'⟩ hx.blank hh hw.head.2 hw.head.1)
        hw.no10)
    have ftable : c ≠ c!"|" → Fails (table C.env s) := fun hc => .of_inv fun s' y e =>
      no b!"|" (by decide) (by decide) (by decide) (one _ hc _) (table_begins hv' e)
    have fcode : c ≠ c!"{" → Fails (codeBlock s) := fun hc => .of_inv fun s' y e =>
      no _ (by decide) (by decide) (by decide) (one _ hc _) (code_begins hv' e)
    have fmath : c ≠ c!"{" → Fails (mathBlock s) := fun hc => .of_inv fun s' y e =>
      no _ (by decide) (by decide) (by decide) (one _ hc _) (math_begins hv' e)
    have fquote : y.kind ≠ .quote → ¬ y.Indented → Fails (blockquote s) := fun hk hf => .of_inv fun s' y e => by
      rcases quote_begins hv' e with hb | ⟨w, q', he, hw, hl⟩
      · exact no _ (by decide) (by decide) (by decide) (hx.quote hk) hb
      · have := hx.flat hf
        subst this
        cases w with
        | nil => simp at hl
        | cons a w =>
          rw [hcq] at he
          simp at he
          have := hw a (by simp)
          omega
    have hc0 : ¬ y.Indented → (topText L cfg y).head? = some c := fun hf => by
      rw [e, hx.flat hf, hcq]; rfl
    unfold topLevel
    cases y with
    | header _ _ _ => exact Gives.alts_fst hg
    | defs xs =>
      refine Gives.alts (fheader ?_) (Gives.alts_fst hg)
      rintro rfl
      have hc0 := hc0 (by simp [Block.Indented])
      cases xs with
      | nil => exact h.1 rfl
      | cons a as =>
        obtain ⟨h1, h2, -⟩ := h.2 a (by simp)
        refine h2.header ?_
        simp only [topText, blockText, defsText, indentText_zero] at hc0
        cases ht : Inline.textAll L cfg a.inner.term.inner with
        | nil => exact absurd ht h1.tight.1
        | cons d ds => rw [ht] at hc0; simpa using hc0
    | list xs =>
      have hc0 := hc0 (by simp [Block.Indented])
      have hne : c ≠ c!"=" := by
        simp only [TopOk, NestOk] at h
        obtain ⟨hne, h⟩ := h
        cases xs with
        | nil => exact absurd rfl hne
        | cons a as =>
          obtain ⟨⟨ty', su, p, cs, td⟩, reg⟩ := a
          simp only [ItemsOk] at h
          obtain ⟨-, -, ⟨ty2, h3, -⟩, -⟩ := h
          simp only [topText, blockText, itemsText, indentText_zero] at hc0
          rcases prefix_heads h3 with e | ⟨d, p, e, hd, -⟩
          · rw [e] at hc0
            simp at hc0
            rw [← hc0]
            decide
          · rw [e] at hc0
            simp at hc0
            rw [← hc0]
            exact hd
      exact Gives.alts (fheader hne) (Gives.alts (fdefs (hx.term (by simp [Block.kind]) (by simp))) (Gives.alts_fst hg))
    | blockquote ls =>
      have hc0 := hc0 (by simp [Block.Indented])
      have hne : c = c!">" := by
        cases ls with
        | nil => exact absurd rfl h.1
        | cons l ls =>
          simp only [topText, blockText, quoteText, indentText_zero] at hc0
          simp at hc0
          exact hc0.symm
      subst hne
      refine Gives.alts (fheader (by decide)) (Gives.alts (fdefs (hx.term (by simp [Block.kind]) (by simp)))
        (Gives.alts (flist (by simp [Block.kind])) (Gives.alts (ftable (by decide)) (Gives.alts (fcode (by decide))
        (Gives.alts (fmath (by decide)) (Gives.alts_fst ?_))))))
      refine Gives.alt (.of_inv fun s' y e' => ?_) hg
      obtain ⟨e', -⟩ := located_inv e'
      obtain ⟨_, e', -⟩ := map_inv e'
      obtain ⟨s1, a, e', -⟩ := bind_inv e'
      obtain ⟨s2, o, e', -⟩ := bind_inv e'
      obtain ⟨e', hl⟩ := verify_inv e'
      obtain ⟨w, q', he, hw, -, rfl, rfl⟩ := space0_inv hv e'
      cases w with
      | nil => rw [(View.cut (w := []) hv).remLen] at hl; simp at hl
      | cons a w =>
        have := hw a (by simp)
        rw [e, hx.flat (by simp [Block.Indented]), hcq] at he
        simp at he
        omega
    | paragraph ls =>
      have hp : OnlyPara C.env s := by
        cases ls with
        | nil => exact absurd rfl h.1.1
        | cons l ls =>
          obtain ⟨h1, h2⟩ := h.1.2 l (by simp)
          refine onlyPara (ws := []) (x := Inline.textAll L cfg l) (r := paraText L cfg [] true ls ++ r)
            (by intro y hy; simp at hy) ?_ h1.tight h2
          simpa [topText, blockText, paraText, indentText_zero] using hv
      exact Gives.alts hp.header (Gives.alts hp.defs (Gives.alts (hp.list _ (listLike_list _)) (Gives.alts hp.table
        (Gives.alts hp.code (Gives.alts hp.math (Gives.alts (fquote (by simp [Block.kind]) (by simp [Block.Indented]))
        (Gives.alts hp.divider (Gives.alts hp.placeholder hg))))))))
    | table t =>
      have hne : c = c!"|" := by
        obtain ⟨t', e', -⟩ := table_lines hI (env := C.env) (ue := ue) (d := 0) h 0
        rw [topText, tableText_true (d := 0) h, e', indentText_zero, List.nil_append] at e
        have h1 := congrArg (List.dropWhile fun x => decide (x = 32 ∨ x = 9)) e
        rw [List.dropWhile_append_of_pos (l₁ := if t.centered = true then [32, 32, 32, 32] else [])
            fun x hx => by simpa using centered_blank _ x hx,
          List.dropWhile_append_of_pos (l₁ := ws) fun x hy => by simpa using hx.blank x hy, hcq] at h1
        simp only [List.cons_append] at h1
        rw [List.dropWhile_cons_of_neg (by decide), List.dropWhile_cons_of_neg (by simp; omega)] at h1
        simp at h1
        exact h1.1.symm
      subst hne
      exact Gives.alts (fheader (by decide)) (Gives.alts (fdefs (hx.term (by simp [Block.kind]) (by simp)))
        (Gives.alts (flist (by simp [Block.kind])) (Gives.alts_fst hg)))
    | _ => simp [Block.kind] at hk
  cases y with
  | header c n ce => exact other (by simp)
  | paragraph _ => exact other (by simp [Block.kind])
  | blockquote _ => exact other (by simp [Block.kind])
  | defs _ => exact other (by simp [Block.kind])
  | list _ => exact other (by simp [Block.kind])
  | code lang md ls => exact leaf _ h rfl
  | math ls en => exact leaf _ h rfl
  | placeholder p => exact leaf _ h rfl
  | divider => exact leaf .divider trivial rfl
  | table _ => exact other (by simp [Block.kind])

/-- All blocks of a page are read. -/
theorem all_reads {C : Ctx} (hs : C.env.SchemeSound) (hI : AllBlank cfg.indentStr) (hn : cfg.indentStr ≠ []) :
    ∀ (xs : List (Located Block)), (∀ x ∈ xs, TopOk C.env ue L cfg x.inner) → AllBeside L cfg xs →
      ReadsAll C (if cfg.separate then b!"\n" else []) (wanted ue (topText L cfg) xs) ∧
      (cfg.separate = false → ∀ x rest, xs = x :: rest → ∀ s, AtBol s → s.depth = 0 →
        View s (topText L cfg x.inner ++ (wanted ue (topText L cfg) rest).flatMap ([] ++ ·.1)) →
        Gives (topParser C.env x.inner s) (adv s (topText L cfg x.inner).length) fun z => z.inner.eqv false ue x.inner = true)
  | [], _, _ => ⟨trivial, fun _ x rest e => by cases e⟩
  | x :: xs, h, ha => by
    obtain ⟨ih1, ih2⟩ := all_reads hs hI hn xs (fun y hy => h y (by simp [hy])) (by
      cases xs with
      | nil => trivial
      | cons y ys => exact ha.2)
    have hx := h x (by simp)
    have hend : ∀ s, AtBol s → s.depth = 0 → View s (topText L cfg x.inner ++
        (wanted ue (topText L cfg) xs).flatMap ((if cfg.separate then b!"\n" else []) ++ ·.1)) →
        TopEnd C.env ((wanted ue (topText L cfg) xs).flatMap ((if cfg.separate then b!"\n" else []) ++ ·.1))
          (adv s (topText L cfg x.inner).length) x.inner.kind := by
      intro s hb hd hv
      have hl := (top_text hI hx).2
      have hb' := AtBol.after hv hl
      have hv' := View.adv hv
      cases xs with
      | nil => exact topEnd_nil hs hv' _
      | cons y ys =>
        have hy := h y (by simp)
        cases hc : cfg.separate with
        | true =>
          rw [hc] at hv'
          exact topEnd_blank (r := (wanted ue (topText L cfg) ys).flatMap (b!"\n" ++ ·.1)) hI hb' hy (by
            simpa [wanted] using hv') ha.1.1
        | false =>
          rw [hc] at hv'
          have hg := ih2 hc y ys rfl _ hb' hd (by simpa [wanted] using hv')
          exact topEnd_next hI hy hc ha.1 hg
    refine ⟨⟨top_reads hs hI hn hx fun s hb _ => hend s hb, ih1⟩, fun hc y rest e s hb hd hv => ?_⟩
    obtain ⟨rfl, rfl⟩ := List.cons.inj e
    refine top_gives hs hI hn hx hb hd hv ?_
    have := hend s hb hd (by rw [hc]; exact hv)
    rw [hc] at this
    exact this

theorem pages_round_trip (hs : env.SchemeSound) (hI : AllBlank cfg.indentStr) (hn : cfg.indentStr ≠ []) (p : Page)
    (h : ∀ x ∈ p.elements, TopOk env ue L cfg x.inner) (ha : AllBeside L cfg p.elements) :
    ∃ text, p.toVimwiki L cfg = some text ∧ ∀ s pg, parsePage env text = .ok s pg → pg.same ue p = true := by
  refine page_round_trip ?_ p (txt := topText L cfg) (fun x hx => (top_text hI (h x hx)).1) (fun x hx => top_solid (h x hx))
    (fun x hx => (top_text hI (h x hx)).2) fun text => (all_reads (C := Ctx.ofText env text) hs hI hn p.elements h ha).1
  exact .ascii fun b hb => by have := hI b hb; omega

end Vw
