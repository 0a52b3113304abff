import Verif.Lemmas.CostLow
import Verif.Props.RoundTrip

/-!
# How often lists are read on a page
-/

namespace Vw
open P Scan K

variable {C : Ctx} {s s' : Span}

theorem topLevelLow {k : Nat} (hi : C.In (k + 2) s) {x : Located Block} (h : (topLevelK C.env s).1 = .ok s' x) :
    x.inner.weight ≤ (topLevelK C.env s).2 := by
  rcases lift_inv (plain_header _) h with h1 | ⟨-, h1, e1⟩
  · rw [h1.1]; omega
  rcases lift_inv (plain_defs _) h1 with h2 | ⟨-, h2, e2⟩
  · rw [h2.1]; omega
  have e1 : (topLevelK C.env s).2 = _ := e1
  rw [e1]
  refine Nat.le_trans ?_ (Nat.le_of_eq e2.symm)
  rcases K.alt_inv h2 with ⟨h3, e3⟩ | ⟨-, h3, -⟩
  · refine Nat.le_trans ?_ (Nat.le_of_eq e3.symm)
    exact listLow (er_nestedF _) (nestedF_ok _) (nestedLow _) hi (by rw [remainingLen_eq]; omega) h3
  · have : x.inner.weight = 0 := by
      rcases lift_inv (plain_table _) h3 with h | ⟨-, h, -⟩
      · exact h.1
      rcases lift_inv plain_code h with h | ⟨-, h, -⟩
      · exact h.1
      rcases lift_inv plain_math h with h | ⟨-, h, -⟩
      · exact h.1
      rcases lift_inv plain_quote h with h | ⟨-, h, -⟩
      · exact h.1
      rcases lift_inv plain_divider h with h | ⟨-, h, -⟩
      · exact h.1
      rcases lift_inv (plain_placeholder _) h with h | ⟨-, h, -⟩
      · exact h.1
      obtain ⟨⟨ls, hx⟩, -⟩ := paragraphK_end h
      rw [hx]
      rfl
    rw [this]
    omega

theorem pageLow {n : Nat} {es : List (Option (Located Block))} : Loop (maybeBlockK C.env) s es s' n → C.In 2 s →
    ((es.filterMap id).map fun x => x.inner.weight).sum ≤ n := by
  intro h
  induction h with
  | nil => intro _; simp
  | cons h1 _ ih =>
    rename_i t t1 t' e es n h2
    intro ht
    have hm := ok_of_run (maybeBlock_ok (k := 0) ht) (er_maybeBlock t ▸ h1)
    have hg : C.Good t t1 := by
      rcases hm with ⟨-, hb⟩ | ⟨x, -, hb, -⟩
      · exact hb.good
      · exact hb.good
    have := ih (ht.good hg)
    rcases K.alt_inv h1 with ⟨h3, -⟩ | ⟨h3, h4, e4⟩
    · obtain ⟨_, -, rfl⟩ := Vw.map_inv (p := blankLine) h3
      simp only [List.filterMap_cons, id]
      omega
    · obtain ⟨x, h5, rfl, e5⟩ := K.map_inv h4
      have hw := topLevelLow ht h5
      have e4 : (maybeBlockK C.env t).2 = _ := e4
      simp only [List.filterMap_cons, id, List.map_cons, List.sum_cons]
      rw [e4, e5]
      omega

theorem parsePageLow {env : Env} {text : Str} {pg : Page} (h : parsePage env text = .ok s pg) :
    pg.weight ≤ (parsePageK env text).2 := by
  have h : (pageK env (Span.ofStr text)).1 = .ok s pg := (parsePageK_fst env text).trans h
  obtain ⟨es, h1, rfl, e1⟩ := K.map_inv h
  have h2 : (K.many0 (maybeBlockK env) (Span.ofStr text)).1 = .ok s es := by
    have h1 : P.allConsuming (fun s => (K.many0 (maybeBlockK env) s).1) (Span.ofStr text) = .ok s es := h1
    unfold P.allConsuming at h1
    cases h3 : (K.many0 (maybeBlockK env) (Span.ofStr text)).1 with
    | ok s1 a =>
      simp only [h3] at h1
      split at h1
      · exact h1
      · cases h1
    | _ => simp only [h3] at h1; cases h1
  have := pageLow (C := Ctx.ofText env text) (K.many0_inv h2) (Ctx.ofText_in env text)
  have e2 : (parsePageK env text).2 = _ := e1
  rw [e2]
  exact this

/-! ## Lists in lists -/

/-- A list of `n + 1` levels with one item on each. -/
def deepList : Nat → Block
  | 0 => .list [⟨⟨.hyphen, .none, 0, [⟨.paragraph [[tx b!"a"]], ⟨0, 0, 0⟩⟩], none⟩, ⟨0, 0, 0⟩⟩]
  | n + 1 => .list [⟨⟨.hyphen, .none, 0, [⟨.paragraph [[tx b!"a"]], ⟨0, 0, 0⟩⟩, ⟨deepList n, ⟨0, 0, 0⟩⟩], none⟩, ⟨0, 0, 0⟩⟩]

/-- One blank for each level. -/
def deepCfg : VwCfg := { indentStr := b!" " }

theorem indent_deep (i : Nat) : indentText deepCfg i = List.replicate i 32 := by
  unfold indentText
  induction i with
  | zero => rfl
  | succ i ih => rw [List.replicate_succ, List.flatten_cons, ih]; rfl

theorem deepList_text : ∀ n i, blockText demoOut deepCfg i true (deepList n) = stairs i (n + 1) := by
  have pre : ItemType.toPrefix demoOut.rom 0 Suffix.none ItemType.hyphen ++ b!" " = b!"- " := by decide +kernel
  intro n
  induction n with
  | zero =>
    intro i
    simp only [deepList, blockText, itemsText, contentsText, stairs, paraText, Inline.textAll, Inline.textOf, todoText,
      indent_deep, if_true, pre]
    simp
  | succ n ih =>
    intro i
    have : blockText demoOut deepCfg i true (deepList (n + 1)) = List.replicate i 32 ++ (b!"- a\n" ++
        blockText demoOut deepCfg (i + 1) true (deepList n)) := by
      simp only [deepList, blockText, itemsText, contentsText, paraText, Inline.textAll, Inline.textOf, todoText,
        indent_deep, if_true, pre]
      simp
    rw [this, ih]
    rfl

theorem deepList_kind (n : Nat) : (deepList n).kind = .list := by cases n <;> rfl

theorem deepList_ok (env : Env) (ue : Uri → Uri → Bool) : ∀ n d, d + 2 * n + 3 ≤ 65535 →
    NestOk env ue demoOut deepCfg d (deepList n) := by
  have pre : ItemType.toPrefix demoOut.rom 0 Suffix.none ItemType.hyphen ++ b!" " = b!"- " := by decide +kernel
  have para : ∀ d, d + 1 ≤ 65535 → NestOk env ue demoOut deepCfg d (.paragraph [[tx b!"a"]]) := by
    intro d hd
    have he : Inline.textAll demoOut deepCfg [tx b!"a"] = b!"a" := by simp [Inline.textAll, Inline.textOf]
    refine ⟨⟨by simp, fun l hl => ?_⟩, fun l hl => ?_⟩
    · simp only [List.mem_cons, List.not_mem_nil, or_false] at hl
      subst hl
      refine ⟨contentOk_safe (tight_safe (by decide) (by decide) (by decide)) (by decide), ?_⟩
      rw [he]
      exact plainLine_safe ⟨by decide, by decide⟩
    · simp only [List.mem_cons, List.not_mem_nil, or_false] at hl
      subst hl
      rw [he]
      have hn : Inline.nestAll [tx b!"a"] = 0 := by decide
      exact ⟨by decide, by rw [hn]; exact hd⟩
  have todo : ∀ cs : Str, cs.head? = some c!"a" → TodoOk deepCfg cs none := by
    intro t ht s hs
    have := head_of_prefix hs (rfl : (todoText (some s)).head? = some c!"[")
    rw [ht] at this
    cases this
  have hd : ∀ cs, (contentsText demoOut deepCfg 0 false (⟨.paragraph [[tx b!"a"]], ⟨0, 0, 0⟩⟩ :: cs)).head? = some c!"a" := by
    intro cs
    simp only [contentsText, blockText, paraText, Inline.textAll, Inline.textOf]
    simp
  intro n
  induction n with
  | zero =>
    intro d h
    simp only [deepList, NestOk, ItemsOk]
    refine ⟨by simp, rfl, trivial, ⟨.hyphen, ?_, fun _ => rfl⟩, todo _ (hd _), by simp [Apart], ⟨_, _, rfl, .inl rfl⟩, ?_, trivial⟩
    · rw [pre]; exact .hyphen
    · rw [ContsOk]
      exact ⟨para _ (by omega), by rw [ContsOk]; trivial⟩
  | succ n ih =>
    intro d h
    simp only [deepList, NestOk, ItemsOk]
    refine ⟨by simp, rfl, trivial, ⟨.hyphen, ?_, fun _ => rfl⟩, todo _ (hd _), ?_, ⟨_, _, rfl, .inl rfl⟩, ?_, trivial⟩
    · rw [pre]; exact .hyphen
    · simp [Apart, deepList_kind]; simp [Block.kind]
    · rw [ContsOk, ContsOk, ContsOk]
      exact ⟨para _ (by omega), ih _ (by omega), trivial⟩

theorem deepList_weight (ue : Uri → Uri → Bool) : ∀ n x, Block.eqv false ue x (deepList n) = true →
    x.weight + 1 = 2 ^ (n + 1) := by
  have para : ∀ x, Block.eqv false ue x (.paragraph [[tx b!"a"]]) = true → x.isPara = true := by
    intro x h
    cases x <;> first | rfl | simp [Block.eqv] at h
  intro n
  induction n with
  | zero =>
    intro x h
    rw [deepList] at h
    cases x with
    | list xs =>
      rw [Block.eqv] at h
      match xs, h with
      | [], h => simp [Block.eqvItems] at h
      | [⟨⟨ty, su, po, cs, td⟩, r⟩], h =>
        simp only [Block.eqvItems, Bool.and_eq_true] at h
        have hc := h.1.1.1.2
        match cs, hc with
        | [], hc => simp [Block.eqvs] at hc
        | [⟨y, _⟩], hc =>
          simp only [Block.eqvs, Bool.and_eq_true] at hc
          have hp := para y hc.1.1
          simp [Block.weight, Block.weightItems, isPara_weight hp, Block.weightConts]
        | _ :: _ :: _, hc => simp [Block.eqvs] at hc
      | _ :: _ :: _, h => simp [Block.eqvItems] at h
    | _ => simp [Block.eqv] at h
  | succ n ih =>
    intro x h
    rw [deepList] at h
    cases x with
    | list xs =>
      rw [Block.eqv] at h
      match xs, h with
      | [], h => simp [Block.eqvItems] at h
      | [⟨⟨ty, su, po, cs, td⟩, r⟩], h =>
        simp only [Block.eqvItems, Bool.and_eq_true] at h
        have hc := h.1.1.1.2
        match cs, hc with
        | [], hc => simp [Block.eqvs] at hc
        | [_], hc => simp [Block.eqvs] at hc
        | [⟨y, _⟩, ⟨z, _⟩], hc =>
          simp only [Block.eqvs, Bool.and_eq_true] at hc
          have hp := para y hc.1.1
          have hz := ih z hc.2.1.1
          simp only [Block.weight, Block.weightItems, isPara_weight hp, Block.weightConts, hp, if_true]
          rw [Nat.pow_succ 2 (n + 1)]
          omega
        | _ :: _ :: _ :: _, hc => simp [Block.eqvs] at hc
      | _ :: _ :: _, h => simp [Block.eqvItems] at h
    | _ => simp [Block.eqv] at h

theorem stairs_length : ∀ n i, 2 * (stairs i n).length = n * (2 * i + n + 7) := by
  intro n
  induction n with
  | zero => intro i; simp [stairs]
  | succ n ih =>
    intro i
    have := ih (i + 1)
    simp only [stairs, List.length_append, List.length_replicate]
    rw [Nat.mul_add, Nat.mul_add, this]
    simp only [List.length_cons, List.length_nil]
    simp only [Nat.mul_add, Nat.add_mul]
    omega

theorem stairs_bytes : ∀ n i, ∀ b ∈ stairs i n, b ∈ b!"- a\n" := by
  intro n
  induction n with
  | zero => intro i b h; cases h
  | succ n ih =>
    intro i b h
    simp only [stairs, List.mem_append, List.mem_replicate] at h
    rcases h with ⟨-, rfl⟩ | h | h
    · decide
    · exact h
    · exact ih _ b h

theorem stairs_page (env : Env) (hs : env.SchemeSound) (n : Nat) (hn : 2 * n ≤ 65532) :
    ∀ s pg, parsePage env (stairs 0 (n + 1)) = .ok s pg → pg.weight + 1 = 2 ^ (n + 1) := by
  intro s pg h
  have hb : AllBlank deepCfg.indentStr := by unfold AllBlank; decide
  have hT : ∀ x ∈ [(⟨deepList n, ⟨0, 0, 0⟩⟩ : Located Block)], TopOk env (fun u v => u == v) demoOut deepCfg x.inner := by
    intro x hx
    simp only [List.mem_cons, List.not_mem_nil, or_false] at hx
    subst hx
    have := deepList_ok env (fun u v => u == v) n 0 (by omega)
    cases n <;> exact this
  obtain ⟨text, h1, h2⟩ := pages_round_trip (ue := fun u v => u == v) (env := env) (L := demoOut) (cfg := deepCfg) hs
    hb (by decide) ⟨[⟨deepList n, ⟨0, 0, 0⟩⟩]⟩ hT (by simp [AllBeside])
  have ht : text = stairs 0 (n + 1) := by
    have hx := fun x hx => top_text hb (hT x hx)
    have h3 := page_concat demoOut deepCfg (.ascii fun b hb' => by have := hb b hb'; omega) _
      (fun x hx => top_solid (hT x hx)) (.inr fun x hm t e => by
        rw [(hx x hm).1] at e
        cases e
        exact .inr (hx x hm).2) Whole.nil rfl
    rw [elementTexts_of fun x hm => (hx x hm).1] at h3
    have h4 := h1.symm.trans h3
    have h5 : topText demoOut deepCfg (deepList n) = stairs 0 (n + 1) := by
      rw [← deepList_text n 0]
      cases n <;> rfl
    rw [← h5]
    simpa [joined] using h4
  rw [ht] at h2
  have hsame := h2 s pg h
  obtain ⟨es⟩ := pg
  unfold Page.same at hsame
  match es, hsame with
  | [], h => simp [Block.eqvs] at h
  | [⟨y, _⟩], h =>
    simp only [Block.eqvs, Bool.and_eq_true] at h
    have := deepList_weight _ n y h.1.1
    simpa [Page.weight] using this
  | _ :: _ :: _, h => simp [Block.eqvs] at h

end Vw
