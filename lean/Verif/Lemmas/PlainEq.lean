import Verif.Lemmas.Equality

/-!
# Lemmas about `==`

Terms and definitions are compared as displayed, so `==` is sameness of structure of the pages in
which each of them is replaced by its text.
-/

namespace Vw

/-- The displayed text as a text element. -/
def asText (L : OutLib) (xs : Inlines) : Inlines := [⟨.text (Inline.displayAll L xs), .zero⟩]

def TermDefs.flat (L : OutLib) (x : TermDefs) : TermDefs :=
  ⟨⟨asText L x.term.inner, x.term.region⟩,
    ⟨x.defs.inner.map fun d => ⟨asText L d.inner, d.region⟩, x.defs.region⟩⟩

mutual
def Block.flat (L : OutLib) : Block → Block
  | .blockquote ls => .blockquote ls
  | .code l m ls => .code l m ls
  | .defs xs => .defs (xs.map fun x => ⟨x.inner.flat L, x.region⟩)
  | .divider => .divider
  | .header c n b => .header c n b
  | .list xs => .list (Block.flatItems L xs)
  | .math ls e => .math ls e
  | .paragraph rs => .paragraph rs
  | .placeholder p => .placeholder p
  | .table t => .table t
def Block.flatItems (L : OutLib) : List (Located (ItemF Block)) → List (Located (ItemF Block))
  | [] => []
  | ⟨⟨ty, su, pos, cs, td⟩, r⟩ :: xs => ⟨⟨ty, su, pos, Block.flats L cs, td⟩, r⟩ :: Block.flatItems L xs
def Block.flats (L : OutLib) : List (Located Block) → List (Located Block)
  | [] => []
  | ⟨x, r⟩ :: xs => ⟨Block.flat L x, r⟩ :: Block.flats L xs
end

section
variable {L : OutLib} {ue : Uri → Uri → Bool}

theorem valueEq_flat (x y : Inlines) : valueEq L x y = Inline.eqvs false ue (asText L x) (asText L y) := by
  simp [valueEq, asText, Inline.eqvs, Inline.eqv]

theorem vec_flat {r r' : α → α → Bool} {f : α → α} (h : ∀ x y, r x y = r' (f x) (f y)) :
    ∀ xs ys : List α, vecEq r xs ys = vecEq r' (xs.map f) (ys.map f)
  | [], [] => by simp [vecEq]
  | [], _ :: _ => by simp [vecEq]
  | _ :: _, [] => by simp [vecEq]
  | x :: xs, y :: ys => by simp [vecEq, h, vec_flat h xs ys]

theorem termDefs_flat (x y : TermDefs) : x.eq L y = (x.flat L).eqv false ue (y.flat L) := by
  simp only [TermDefs.eq, TermDefs.eqv, TermDefs.flat, locEq, Bool.not_false, Bool.true_or, Bool.and_true]
  rw [valueEq_flat (ue := ue), vec_flat]
  intro x y
  simp only [locEq, Bool.not_false, Bool.true_or, Bool.and_true]
  exact valueEq_flat _ _

mutual
theorem block_flat : ∀ x y : Block, Block.eq L ue x y = (x.flat L).eqv false ue (y.flat L)
  | .blockquote _, y => by cases y <;> simp [Block.eq, Block.flat, Block.eqv]
  | .code _ _ _, y => by cases y <;> simp [Block.eq, Block.flat, Block.eqv]
  | .defs xs, y => by
    cases y <;> simp [Block.eq, Block.flat, Block.eqv]
    refine vec_flat (fun x y => ?_) _ _
    simp only [locEq, Bool.not_false, Bool.true_or, Bool.and_true]
    exact termDefs_flat _ _
  | .divider, y => by cases y <;> simp [Block.eq, Block.flat, Block.eqv]
  | .header c _ _, y => by cases y <;> simp [Block.eq, Block.flat, Block.eqv]
  | .list xs, .list ys => by
    simp only [Block.eq, Block.flat, Block.eqv]
    exact items_flat xs ys
  | .list xs, .blockquote _ => by simp [Block.eq, Block.flat, Block.eqv]
  | .list xs, .code _ _ _ => by simp [Block.eq, Block.flat, Block.eqv]
  | .list xs, .defs _ => by simp [Block.eq, Block.flat, Block.eqv]
  | .list xs, .divider => by simp [Block.eq, Block.flat, Block.eqv]
  | .list xs, .header _ _ _ => by simp [Block.eq, Block.flat, Block.eqv]
  | .list xs, .math _ _ => by simp [Block.eq, Block.flat, Block.eqv]
  | .list xs, .paragraph _ => by simp [Block.eq, Block.flat, Block.eqv]
  | .list xs, .placeholder _ => by simp [Block.eq, Block.flat, Block.eqv]
  | .list xs, .table _ => by simp [Block.eq, Block.flat, Block.eqv]
  | .math _ _, y => by cases y <;> simp [Block.eq, Block.flat, Block.eqv]
  | .paragraph rs, y => by cases y <;> simp [Block.eq, Block.flat, Block.eqv]
  | .placeholder _, y => by cases y <;> simp [Block.eq, Block.flat, Block.eqv]
  | .table t, y => by cases y <;> simp [Block.eq, Block.flat, Block.eqv]
theorem items_flat : ∀ xs ys : List (Located (ItemF Block)),
    Block.eqItems L ue xs ys = Block.eqvItems false ue (Block.flatItems L xs) (Block.flatItems L ys)
  | [], [] => by simp [Block.eqItems, Block.flatItems, Block.eqvItems]
  | [], ⟨⟨_, _, _, _, _⟩, _⟩ :: _ => by simp [Block.eqItems, Block.flatItems, Block.eqvItems]
  | ⟨⟨_, _, _, _, _⟩, _⟩ :: _, [] => by simp [Block.eqItems, Block.flatItems, Block.eqvItems]
  | ⟨⟨_, _, _, cs, _⟩, _⟩ :: xs, ⟨⟨_, _, _, cs', _⟩, _⟩ :: ys => by
    simp [Block.eqItems, Block.flatItems, Block.eqvItems, blocks_flat cs cs', items_flat xs ys]
theorem blocks_flat : ∀ xs ys : List (Located Block),
    Block.eqs L ue xs ys = Block.eqvs false ue (Block.flats L xs) (Block.flats L ys)
  | [], [] => by simp [Block.eqs, Block.flats, Block.eqvs]
  | [], ⟨_, _⟩ :: _ => by simp [Block.eqs, Block.flats, Block.eqvs]
  | ⟨_, _⟩ :: _, [] => by simp [Block.eqs, Block.flats, Block.eqvs]
  | ⟨x, _⟩ :: xs, ⟨y, _⟩ :: ys => by
    simp [Block.eqs, Block.flats, Block.eqvs, block_flat x y, blocks_flat xs ys]
end

/-! ## Representation invariants -/

mutual
theorem block_flat_valid : ∀ x : Block, x.Valid → (x.flat L).Valid
  | .blockquote _, h => h
  | .code _ _ _, h => h
  | .defs xs, h => by
    simp only [Block.flat, Block.Valid, List.mem_map]
    rintro _ ⟨x, hx, rfl⟩
    refine ⟨by simp [TermDefs.flat, asText, Inline.Valids, Inline.Valid], ?_⟩
    simp only [TermDefs.flat, List.mem_map]
    rintro _ ⟨d, _, rfl⟩
    simp [asText, Inline.Valids, Inline.Valid]
  | .divider, h => h
  | .header _ _ _, h => h
  | .list xs, h => items_flat_valid xs h
  | .math _ _, h => h
  | .paragraph _, h => h
  | .placeholder _, h => h
  | .table _, h => h
theorem items_flat_valid : ∀ xs : List (Located (ItemF Block)), Block.ValidItems xs →
    Block.ValidItems (Block.flatItems L xs)
  | [], h => h
  | ⟨⟨_, _, _, cs, _⟩, _⟩ :: xs, h => ⟨blocks_flat_valid cs h.1, items_flat_valid xs h.2⟩
theorem blocks_flat_valid : ∀ xs : List (Located Block), Block.Valids xs → Block.Valids (Block.flats L xs)
  | [], h => h
  | ⟨x, _⟩ :: xs, h => ⟨block_flat_valid x h.1, blocks_flat_valid xs h.2⟩
end

/-! ## Regions -/

mutual
theorem display_erase : ∀ x : Inline, Inline.display L x.erase = Inline.display L x
  | .text _ => by simp [Inline.erase]
  | .decorated _ xs => by simp [Inline.erase, Inline.display, displayAll_erase xs]
  | .keyword _ => by simp [Inline.erase]
  | .link _ => by simp [Inline.erase]
  | .tags _ => by simp [Inline.erase]
  | .code _ => by simp [Inline.erase]
  | .math _ => by simp [Inline.erase]
  | .comment _ => by simp [Inline.erase]
theorem displayAll_erase : ∀ xs : List (Located Inline),
    Inline.displayAll L (Inline.erases xs) = Inline.displayAll L xs
  | [] => by simp [Inline.erases]
  | ⟨x, _⟩ :: xs => by simp [Inline.erases, Inline.displayAll, display_erase x, displayAll_erase xs]
end

theorem asText_erase (xs : Inlines) : asText L (Inline.erases xs) = Inline.erases (asText L xs) := by
  simp [asText, displayAll_erase, Inline.erases, Inline.erase]

theorem termDefs_flat_erase (x : TermDefs) : x.erase.flat L = (x.flat L).erase := by
  simp [TermDefs.flat, TermDefs.erase, asText_erase]

mutual
theorem block_flat_erase : ∀ x : Block, x.erase.flat L = (x.flat L).erase
  | .blockquote _ => by simp [Block.erase, Block.flat]
  | .code _ _ _ => by simp [Block.erase, Block.flat]
  | .defs xs => by simp [Block.erase, Block.flat, termDefs_flat_erase]
  | .divider => by simp [Block.erase, Block.flat]
  | .header _ _ _ => by simp [Block.erase, Block.flat]
  | .list xs => by simp [Block.erase, Block.flat, items_flat_erase xs]
  | .math _ _ => by simp [Block.erase, Block.flat]
  | .paragraph _ => by simp [Block.erase, Block.flat]
  | .placeholder _ => by simp [Block.erase, Block.flat]
  | .table _ => by simp [Block.erase, Block.flat]
theorem items_flat_erase : ∀ xs : List (Located (ItemF Block)),
    Block.flatItems L (Block.eraseItems xs) = Block.eraseItems (Block.flatItems L xs)
  | [] => by simp [Block.eraseItems, Block.flatItems]
  | ⟨⟨_, _, _, cs, _⟩, _⟩ :: xs => by
    simp [Block.eraseItems, Block.flatItems, blocks_flat_erase cs, items_flat_erase xs]
theorem blocks_flat_erase : ∀ xs : List (Located Block),
    Block.flats L (Block.erases xs) = Block.erases (Block.flats L xs)
  | [] => by simp [Block.erases, Block.flats]
  | ⟨x, _⟩ :: xs => by simp [Block.erases, Block.flats, block_flat_erase x, blocks_flat_erase xs]
end

/-! ## The same structure gives `==` -/

variable (hd : ∀ u v, ue u v = true → L.uriStr u = L.uriStr v)
include hd

theorem description_display : ∀ x y : Description, x.eqv ue y = true → x.display L = y.display L
  | .text _, .text _ => by simp [Description.eqv, Description.display]
  | .text _, .transclusion _ _ _ => by simp [Description.eqv]
  | .transclusion _ _ _, .text _ => by simp [Description.eqv]
  | .transclusion u none _, .transclusion v none _ => by
    simp only [Description.eqv, Bool.and_eq_true, Description.display]
    exact fun h => hd _ _ h.1
  | .transclusion _ none _, .transclusion _ (some _) _ => by simp [Description.eqv]
  | .transclusion _ (some _) _, .transclusion _ none _ => by simp [Description.eqv]
  | .transclusion _ (some d) _, .transclusion _ (some d') _ => by
    simp only [Description.eqv, Bool.and_eq_true, Description.display]
    exact fun h => description_display d d' h.1.2

theorem linkData_display (x y : LinkData) (h : x.eqv ue y = true) : x.display L = y.display L := by
  obtain ⟨u, d, p⟩ := x
  obtain ⟨v, e, q⟩ := y
  simp only [LinkData.eqv, Bool.and_eq_true] at h
  cases d <;> cases e <;> simp only [optEq, Bool.false_eq_true, and_false, false_and] at h
  · exact hd _ _ h.1.1
  · exact description_display hd _ _ h.1.2

theorem link_display (x y : Link) (h : x.eqv ue y = true) : x.display L = y.display L := by
  cases x <;> cases y <;> simp only [Link.eqv, Bool.and_eq_true, decide_eq_true_eq, Bool.false_eq_true] at h
  case diary.diary dt x dt' y =>
    obtain ⟨rfl, h⟩ := h
    obtain ⟨u, d, p⟩ := x
    obtain ⟨v, e, q⟩ := y
    simp only [LinkData.eqv, Bool.and_eq_true] at h
    cases d <;> cases e <;> simp only [optEq, Bool.false_eq_true, and_false, false_and] at h
    · rfl
    · exact description_display hd _ _ h.1.2
  case indexed.indexed => exact linkData_display hd _ _ h.2
  case named.named => exact linkData_display hd _ _ h.2
  all_goals exact linkData_display hd _ _ h

mutual
theorem inline_display : ∀ x y : Inline, x.eqv false ue y = true → Inline.display L x = Inline.display L y
  | .decorated _ xs, .decorated _ ys => by
    simp only [Inline.eqv, Inline.display, Bool.and_eq_true]
    exact fun h => inlines_display xs ys h.2
  | .decorated _ _, .text _ => by simp [Inline.eqv]
  | .decorated _ _, .keyword _ => by simp [Inline.eqv]
  | .decorated _ _, .link _ => by simp [Inline.eqv]
  | .decorated _ _, .tags _ => by simp [Inline.eqv]
  | .decorated _ _, .code _ => by simp [Inline.eqv]
  | .decorated _ _, .math _ => by simp [Inline.eqv]
  | .decorated _ _, .comment _ => by simp [Inline.eqv]
  | .text _, y => by cases y <;> simp [Inline.eqv, Inline.display]
  | .keyword _, y => by cases y <;> simp [Inline.eqv, Inline.display]; rintro rfl; rfl
  | .link _, y => by
    cases y <;> simp [Inline.eqv, Inline.display]
    exact link_display hd _ _
  | .tags _, y => by cases y <;> simp [Inline.eqv, Inline.display]; rintro rfl; rfl
  | .code _, y => by cases y <;> simp [Inline.eqv, Inline.display]
  | .math _, y => by cases y <;> simp [Inline.eqv, Inline.display]
  | .comment _, y => by cases y <;> simp [Inline.eqv, Inline.display]
theorem inlines_display : ∀ xs ys : List (Located Inline), Inline.eqvs false ue xs ys = true →
    Inline.displayAll L xs = Inline.displayAll L ys
  | [], [] => by simp
  | [], _ :: _ => by simp [Inline.eqvs]
  | _ :: _, [] => by simp [Inline.eqvs]
  | ⟨x, _⟩ :: xs, ⟨y, _⟩ :: ys => by
    simp only [Inline.eqvs, Inline.displayAll, Bool.and_eq_true]
    exact fun h => by rw [inline_display x y h.1.1, inlines_display xs ys h.2]
end

theorem value_plain (x y : Inlines) (h : Inline.eqvs false ue x y = true) : valueEq L x y = true := by
  simpa [valueEq] using inlines_display hd x y h

omit hd in
theorem vec_imp {r r' : α → α → Bool} (h : ∀ x y, r x y = true → r' x y = true) :
    ∀ xs ys : List α, vecEq r xs ys = true → vecEq r' xs ys = true
  | [], [] => by simp [vecEq]
  | [], _ :: _ => by simp [vecEq]
  | _ :: _, [] => by simp [vecEq]
  | x :: xs, y :: ys => by
    simp only [vecEq, Bool.and_eq_true]
    exact fun h1 => ⟨h _ _ h1.1, vec_imp h xs ys h1.2⟩

theorem termDefs_plain (x y : TermDefs) (h : x.eqv false ue y = true) : x.eq L y = true := by
  simp only [TermDefs.eq, TermDefs.eqv, locEq, Bool.not_false, Bool.true_or, Bool.and_true, Bool.and_eq_true] at h ⊢
  exact ⟨value_plain hd _ _ h.1, vec_imp (fun x y h => by simpa [locEq] using value_plain hd x.inner y.inner (by simpa [locEq] using h)) _ _ h.2⟩

mutual
theorem block_plain : ∀ x y : Block, x.eqv false ue y = true → Block.eq L ue x y = true
  | .blockquote _, y => by cases y <;> simp [Block.eq, Block.eqv]
  | .code _ _ _, y => by cases y <;> simp [Block.eq, Block.eqv]
  | .defs xs, y => by
    cases y <;> simp [Block.eq, Block.eqv]
    refine vec_imp (fun x y => ?_) _ _
    simp only [locEq, Bool.not_false, Bool.true_or, Bool.and_true]
    exact termDefs_plain hd _ _
  | .divider, y => by cases y <;> simp [Block.eq, Block.eqv]
  | .header c _ _, y => by cases y <;> simp [Block.eq, Block.eqv]
  | .list xs, .list ys => by
    simp only [Block.eq, Block.eqv]
    exact items_plain xs ys
  | .list xs, .blockquote _ => by simp [Block.eqv]
  | .list xs, .code _ _ _ => by simp [Block.eqv]
  | .list xs, .defs _ => by simp [Block.eqv]
  | .list xs, .divider => by simp [Block.eqv]
  | .list xs, .header _ _ _ => by simp [Block.eqv]
  | .list xs, .math _ _ => by simp [Block.eqv]
  | .list xs, .paragraph _ => by simp [Block.eqv]
  | .list xs, .placeholder _ => by simp [Block.eqv]
  | .list xs, .table _ => by simp [Block.eqv]
  | .math _ _, y => by cases y <;> simp [Block.eq, Block.eqv]
  | .paragraph rs, y => by cases y <;> simp [Block.eq, Block.eqv]
  | .placeholder _, y => by cases y <;> simp [Block.eq, Block.eqv]
  | .table t, y => by cases y <;> simp [Block.eq, Block.eqv]
theorem items_plain : ∀ xs ys : List (Located (ItemF Block)), Block.eqvItems false ue xs ys = true →
    Block.eqItems L ue xs ys = true
  | [], [] => by simp [Block.eqItems]
  | [], _ :: _ => by simp [Block.eqvItems]
  | _ :: _, [] => by simp [Block.eqvItems]
  | ⟨⟨_, _, _, cs, _⟩, _⟩ :: xs, ⟨⟨_, _, _, cs', _⟩, _⟩ :: ys => by
    simp only [Block.eqItems, Block.eqvItems, Bool.and_eq_true]
    exact fun ⟨⟨⟨⟨⟨⟨h1, h2⟩, h3⟩, h4⟩, h5⟩, _⟩, h7⟩ => ⟨⟨⟨⟨⟨h1, h2⟩, h3⟩, blocks_plain cs cs' h4⟩, h5⟩,
      items_plain xs ys h7⟩
theorem blocks_plain : ∀ xs ys : List (Located Block), Block.eqvs false ue xs ys = true →
    Block.eqs L ue xs ys = true
  | [], [] => by simp [Block.eqs]
  | [], _ :: _ => by simp [Block.eqvs]
  | _ :: _, [] => by simp [Block.eqvs]
  | ⟨x, _⟩ :: xs, ⟨y, _⟩ :: ys => by
    simp only [Block.eqs, Block.eqvs, Bool.and_eq_true]
    exact fun ⟨⟨h1, _⟩, h3⟩ => ⟨block_plain x y h1, blocks_plain xs ys h3⟩
end

theorem Page.same_eq {x y : Page} (h : x.same ue y = true) : x.eq L ue y = true := blocks_plain hd _ _ h

end
end Vw
