import Verif.Lemmas.InText
import Verif.Spec.Found

/-!
# What is written in a row is found there
-/

namespace Vw

variable {C : Ctx}

theorem WrittenAt.begins {env : Env} (hs : env.SchemeSound) {text : Str} {i b : Nat} {f}
    (h : WrittenAt env text i b f) (hb : b ≤ text.length) :
    ∃ k, BeginsAt env text (i + k) b ∧ (k = 0 ∨ ∃ (j : Nat) (sc : Str), i + k < j ∧ j ≤ b ∧ k = sc.length ∧
      sc ∈ linkSchemes ∧ (sc ++ b!":") <+: (sub text i j).map lowerByte ∧ ∀ x ∈ sub text i j, ¬ WsByte x) := by
  cases h with
  | @raw j u sc h1 h2 h3 h4 h5 h6 h7 h8 =>
    have hp := hs _ _ _ h6 h7 h8
    have hl := hp.length_le
    simp only [List.length_append, List.length_map, List.length_cons, List.length_nil] at hl
    rw [sub_length _ _ _ (by omega)] at hl
    refine ⟨sc.length, .raw (h := i) (j := j) (by omega) (by omega) h2 ?_ h3 h4 h5 h6 h7 h8,
      .inr ⟨j, sc, by omega, h2, rfl, h8, hp, h4⟩⟩
    obtain ⟨q, e⟩ := hp
    have := congrArg (fun l : Str => l[sc.length]?) e
    simp only [List.getElem?_append_right, Nat.le_refl, Nat.sub_self, List.getElem?_map, List.append_assoc,
      sub_getElem?] at this
    rw [if_pos (by omega)] at this
    cases hx : text[i + sc.length]? with
    | none => rw [hx] at this; cases this
    | some x =>
      rw [hx] at this
      simp only [List.cons_append, List.nil_append, List.getElem?_cons_zero, Option.map_some, Option.some.injEq] at this
      unfold lowerByte at this
      split at this
      · omega
      · rw [this]
  | code h => exact ⟨0, .code h, .inl rfl⟩
  | math h h' => exact ⟨0, .math h h', .inl rfl⟩
  | comment h => exact ⟨0, .comment h, .inl rfl⟩
  | keyword h => exact ⟨0, .keyword h, .inl rfl⟩
  | wiki h h' => exact ⟨0, .wiki h h', .inl rfl⟩
  | transclusion h h' => exact ⟨0, .transclusion h h', .inl rfl⟩
  | deco h h' => exact ⟨0, .deco h h', .inl rfl⟩
  | tags h1 h2 h3 h4 h5 h6 => exact ⟨0, .tags h1 h2 h3 h4 h5 h6, .inl rfl⟩

theorem Tile.starts {d a b : Nat} {xs : Inlines} (h : Tile C d a xs b) :
    ∀ x ∈ xs, a ≤ x.region.offset := by
  induction h with
  | nil => simp
  | leaf _ _ _ _ _ _ _ _ ih =>
    intro x hx
    rcases List.mem_cons.1 hx with rfl | hx
    · exact Nat.le_refl _
    · have := ih x hx; omega
  | deco _ _ _ _ _ _ _ _ _ _ _ ih =>
    intro x hx
    rcases List.mem_cons.1 hx with rfl | hx
    · exact Nat.le_refl _
    · have := ih x hx; omega

/-- Every place between two elements of a row is in an element. -/
theorem Tile.cover {d a b : Nat} {xs : Inlines} (h : Tile C d a xs b) {i : Nat} (hi : a ≤ i)
    {z : Located Inline} (hz : z ∈ xs) (hlt : i < z.region.offset + z.region.len) :
    ∃ x ∈ xs, x.region.offset ≤ i ∧ i < x.region.offset + x.region.len ∧
      x.region.offset + x.region.len ≤ z.region.offset + z.region.len := by
  induction h with
  | nil => cases hz
  | @leaf d a n x xs b _ _ _ _ _ ht _ _ ih =>
    rcases Nat.lt_or_ge i (a + n) with h | h
    · refine ⟨_, List.mem_cons_self .., hi, h, ?_⟩
      rcases List.mem_cons.1 hz with rfl | hz
      · exact Nat.le_refl _
      · have := ht.starts z hz
        simp only
        omega
    · rcases List.mem_cons.1 hz with rfl | hz
      · simp only at hlt; omega
      · obtain ⟨x, hx, h'⟩ := ih h hz
        exact ⟨x, List.mem_cons_of_mem _ hx, h'⟩
  | @deco d a n kind ys e xs b _ _ _ _ _ _ _ _ _ ht _ ih =>
    rcases Nat.lt_or_ge i (a + n) with h | h
    · refine ⟨_, List.mem_cons_self .., hi, h, ?_⟩
      rcases List.mem_cons.1 hz with rfl | hz
      · exact Nat.le_refl _
      · have := ht.starts z hz
        simp only
        omega
    · rcases List.mem_cons.1 hz with rfl | hz
      · simp only at hlt; omega
      · obtain ⟨x, hx, h'⟩ := ih h hz
        exact ⟨x, List.mem_cons_of_mem _ hx, h'⟩

theorem Tile.piece {d a b : Nat} {xs : Inlines} (h : Tile C d a xs b) : ∀ x ∈ xs, Piece C x := by
  have hall := h.all
  clear h
  intro x hx
  refine hall x ?_
  clear hall
  induction xs with
  | nil => cases hx
  | cons y ys ih =>
    obtain ⟨y, r⟩ := y
    simp only [Inline.all, List.mem_cons, List.mem_append]
    rcases List.mem_cons.1 hx with rfl | hx
    · exact .inl rfl
    · exact .inr (.inr (ih hx))

/-- How the text of an element begins. -/
def Lead (u : Str) : Inline → Prop
  | .text _ => True
  | .code _ => u.head? = some c!"`"
  | .math _ => u.head? = some c!"$"
  | .comment _ => u.head? = some c!"%"
  | .keyword k => k.bytes <+: u
  | .tags _ => u.head? = some c!":"
  | .link (.raw _) => ∃ sc ∈ linkSchemes, (sc ++ b!":") <+: u.map lowerByte
  | .link (.transclusion _) => u.head? = some c!"{"
  | .link _ => u.head? = some c!"["
  | .decorated k _ => u.head? = k.delim.head?

theorem head_of_lead {p u : Str} {x : Byte} (h : p <+: u) (hp : p.head? = some x) : u.head? = some x := by
  obtain ⟨q, rfl⟩ := h
  cases p with
  | nil => cases hp
  | cons y p => exact hp

theorem BracketOk.head {a b : Nat} {L R c u : Str} {x : Byte} (h : BracketOk C a b L R c)
    (hu : sub C.inner a b <+: u) (hL : L.head? = some x) : u.head? = some x := by
  refine head_of_lead hu ?_
  rw [h.eq]
  cases L with
  | nil => cases hL
  | cons y L => exact hL

theorem Piece.lead (hs : C.env.SchemeSound) {x : Located Inline} (h : Piece C x) {u : Str}
    (hu : sub C.inner x.region.offset (x.region.offset + x.region.len) <+: u) : Lead u x.inner := by
  obtain ⟨x, r⟩ := x
  rcases h.what with hp | ⟨k, ys, e, -, c, hb⟩
  · simp only at hp hu ⊢
    cases x with
    | text t => trivial
    | code c => exact hp.head hu rfl
    | math c => exact hp.1.head hu rfl
    | keyword k => rw [show sub _ _ _ = _ from hp] at hu; exact hu
    | tags ts => exact head_of_lead (hp.2.2.2.1.trans hu) rfl
    | comment c =>
      cases c with
      | line t => rw [hp.1] at hu; exact head_of_lead hu rfl
      | multi ls => obtain ⟨body, e, -⟩ := hp; rw [e] at hu; exact head_of_lead hu rfl
    | decorated k ys => exact hp.elim
    | link l =>
      cases l with
      | raw d =>
        obtain ⟨h1, ⟨sc, h2, h3⟩, -⟩ := hp
        exact ⟨sc, h3, (hs _ _ _ h1 h2 h3).trans (hu.map lowerByte)⟩
      | transclusion d => obtain ⟨⟨c, hb, -⟩, -⟩ := hp; exact hb.head hu rfl
      | wiki d => obtain ⟨⟨c, hb, -⟩, -⟩ := hp; exact hb.head hu rfl
      | indexed n d => obtain ⟨⟨c, hb, -⟩, -⟩ := hp; exact hb.head hu rfl
      | named n d => obtain ⟨⟨c, hb, -⟩, -⟩ := hp; exact hb.head hu rfl
      | diary n d => obtain ⟨⟨c, hb, -⟩, -⟩ := hp; exact hb.head hu rfl
  · simp only at e hb hu ⊢
    subst e
    cases k <;> exact hb.head hu rfl

/-- Two readings of what is between the same marks are the same. -/
theorem body_same {a e b : Nat} {L R c c' : Str} (h : BracketOk C a e L R c') (heb : e ≤ b) (hae : a ≤ e)
    (he : e ≤ C.inner.length) (hR : R ≠ []) (h' : BodyHere L R c (sub C.inner a b)) :
    c' = c ∧ e - a = c.length + (L.length + R.length) := by
  obtain ⟨q, e1, h1, h2, h3, h4⟩ := h'
  rw [← sub_append _ _ _ _ hae heb, h.eq] at e1
  simp only [List.append_assoc] at e1
  have e2 := List.append_cancel_left e1
  have hl := h4 c' (sub C.inner e b) h.ne e2.symm
  have e3 : c = c'.take c.length := by
    have := congrArg (List.take c.length) e2
    rw [List.take_append_of_le_length hl, List.take_left] at this
    exact this.symm
  have hlen : c.length = c'.length := by
    rcases Nat.lt_or_ge c.length c'.length with hlt | hge
    · exfalso
      refine h.first c.length (List.length_pos_iff.2 h1) hlt ?_
      have := congrArg (List.drop c.length) e2
      rw [List.drop_left, ← List.append_assoc, List.drop_append_of_le_length (by simp; omega)] at this
      have ht := congrArg (List.take R.length) this
      rw [List.take_left, List.take_append_of_le_length (by simp; omega)] at ht
      exact ht
    · omega
  have ec : c' = c := by rw [e3, hlen, List.take_length]
  refine ⟨ec, ?_⟩
  have := congrArg List.length h.eq
  rw [sub_length _ _ _ he] at this
  simp at this
  rw [this, ec]
  omega

theorem keyword_of_prefix {k k' : Keyword} {u : Str} (h : k.bytes <+: u) (h' : k'.display <+: u) : k = k' := by
  obtain ⟨q, rfl⟩ := h
  obtain ⟨q', e⟩ := h'
  cases k <;> cases k' <;> first | rfl | simp [Keyword.bytes, Keyword.display] at e

/-- How the elements other than texts and tags begin, in lower case. -/
def leads : List Str :=
  [b!"`", b!"$", b!"%", b!"*", b!"_", b!"~", b!"^", b!",", b!"[", b!"{", b!"todo", b!"done", b!"started", b!"fixme",
    b!"fixed", b!"xxx"] ++ linkSchemes.map (· ++ b!":")

theorem leads_far : ∀ sc ∈ linkSchemes, ∀ q ∈ List.range 8, 0 < q → q ≤ sc.length → ∀ l ∈ leads,
    (l.isPrefixOf (sc.drop q ++ b!":")) = false ∧ ((sc.drop q ++ b!":").isPrefixOf l) = false := by decide +kernel

theorem leads_near : ∀ sc ∈ linkSchemes, ∀ l ∈ leads.take 16,
    (l.isPrefixOf (sc ++ b!":")) = false ∧ ((sc ++ b!":").isPrefixOf l) = false := by decide +kernel

theorem Lead.leads {u : Str} {x : Inline} (h : Lead u x) (ht : ∀ t, x ≠ .text t) (hg : ∀ ts, x ≠ .tags ts) :
    ∃ l ∈ leads, l <+: u.map lowerByte ∧ ((∀ d, x ≠ .link (.raw d)) → l ∈ leads.take 16) := by
  have one : ∀ v : Byte, u.head? = some v → [lowerByte v] <+: u.map lowerByte := by
    intro v hv
    cases u with
    | nil => cases hv
    | cons w u => cases hv; exact ⟨u.map lowerByte, rfl⟩
  cases x with
  | text t => exact (ht t rfl).elim
  | tags t => exact (hg t rfl).elim
  | code c => exact ⟨b!"`", by decide, one _ h, fun _ => by decide⟩
  | math c => exact ⟨b!"$", by decide, one _ h, fun _ => by decide⟩
  | comment c => exact ⟨b!"%", by decide, one _ h, fun _ => by decide⟩
  | keyword k =>
    have : k.bytes.map lowerByte <+: u.map lowerByte := List.IsPrefix.map lowerByte h
    cases k <;> exact ⟨_, by decide, this, fun _ => by decide⟩
  | decorated k ys => cases k <;> exact ⟨_, by decide, one _ h, fun _ => by decide⟩
  | link l =>
    cases l with
    | raw d =>
      obtain ⟨sc, hm, hp⟩ := h
      exact ⟨_, List.mem_append_right _ (List.mem_map.2 ⟨sc, hm, rfl⟩), hp, fun h => (h d rfl).elim⟩
    | transclusion d => exact ⟨b!"{", by decide, one _ h, fun _ => by decide⟩
    | _ => exact ⟨b!"[", by decide, one _ h, fun _ => by decide⟩

theorem prefix_either {l m u : Str} (h : l <+: u) (h' : m <+: u) (h1 : l.isPrefixOf m = false)
    (h2 : m.isPrefixOf l = false) : False := by
  rcases List.prefix_or_prefix_of_prefix h h' with h | h
  · rw [List.isPrefixOf_iff_prefix.2 h] at h1; cases h1
  · rw [List.isPrefixOf_iff_prefix.2 h] at h2; cases h2

/-- No element begins inside of the scheme of an address. -/
theorem no_lead_in {text : Str} {i j m b : Nat} {sc : Str} {x : Inline} (hsc : sc ∈ linkSchemes)
    (hp : (sc ++ b!":") <+: (sub text i j).map lowerByte) (him : i < m) (hm : m ≤ i + sc.length)
    (hj : i + sc.length < j) (hjb : j ≤ b) (hl : Lead (sub text m b) x) (ht : ∀ t, x ≠ .text t)
    (hg : ∀ ts, x ≠ .tags ts) : False := by
  obtain ⟨l, hl1, hl2, -⟩ := hl.leads ht hg
  have h8 : sc.length < 8 := (by decide : ∀ sc ∈ linkSchemes, sc.length < 8) sc hsc
  have hd : (sc.drop (m - i) ++ b!":") <+: (sub text m b).map lowerByte := by
    obtain ⟨q, e⟩ := hp
    have h1 := congrArg (List.drop (m - i)) e
    rw [List.append_assoc, List.drop_append_of_le_length (by omega), ← List.map_drop] at h1
    have h2 : (sub text i j).drop (m - i) = sub text m j := by
      rw [← sub_append text i m j (by omega) (by omega)]
      rcases Nat.le_total m text.length with hle | hle
      · exact List.drop_left' (sub_length _ _ _ hle)
      · have e0 : sub text m j = [] := by simp [sub]; omega
        rw [e0, List.append_nil]
        exact List.drop_eq_nil_of_le (by simp [sub]; omega)
    rw [h2] at h1
    refine List.IsPrefix.trans ⟨q, ?_⟩ ((sub_prefix (by omega) hjb).map lowerByte)
    rw [← h1, List.append_assoc]
  obtain ⟨f1, f2⟩ := leads_far sc hsc (m - i) (List.mem_range.2 (by omega)) (by omega) (by omega) l hl1
  exact prefix_either hl2 hd f1 f2

theorem lead_raw {u : Str} {x : Byte} (h : ∃ sc ∈ linkSchemes, (sc ++ b!":") <+: u.map lowerByte)
    (hx : u.head? = some x) : lowerByte x = c!"h" ∨ lowerByte x = c!"f" ∨ lowerByte x = c!"l" ∨ lowerByte x = c!"m" := by
  obtain ⟨sc, hm, q, e⟩ := h
  cases u with
  | nil => cases hx
  | cons y u =>
    cases hx
    simp only [linkSchemes, List.mem_cons, List.not_mem_nil, or_false] at hm
    rcases hm with rfl | rfl | rfl | rfl | rfl | rfl <;>
      (simp only [List.map_cons, List.cons_append, List.cons.injEq] at e; rw [← e.1]; simp)

theorem lead_raw_keyword {u : Str} {k : Keyword} (h : ∃ sc ∈ linkSchemes, (sc ++ b!":") <+: u.map lowerByte)
    (hk : k.display <+: u) : False := by
  obtain ⟨sc, hm, q, e⟩ := h
  obtain ⟨r, rfl⟩ := hk
  simp only [linkSchemes, List.mem_cons, List.not_mem_nil, or_false] at hm
  rcases hm with rfl | rfl | rfl | rfl | rfl | rfl <;> cases k <;> simp [Keyword.display, lowerByte] at e

theorem lead_keyword {u : Str} {k : Keyword} {x : Byte} (hk : k.bytes <+: u) (hx : u.head? = some x) :
    65 ≤ x ∧ x ≤ 90 := by
  obtain ⟨r, rfl⟩ := hk
  cases k <;> simp [Keyword.bytes] at hx <;> omega

end Vw
