import Verif.Lemmas.Pieces

/-!
# Valid UTF-8
-/

namespace Vw

variable {C : Ctx}

theorem Cont8.isCont {b : Byte} (h : Cont8 b) : isCont b := ⟨h.1, by have := h.2; omega⟩

theorem Bdry.tail {a : Byte} {s : Str} {i : Nat} (h : Bdry (a :: s) (i + 1)) : Bdry s i := by
  intro b hb
  exact h b (by simpa using hb)

theorem ValidUtf8.append {a b : Str} (ha : ValidUtf8 a) (hb : ValidUtf8 b) : ValidUtf8 (a ++ b) := by
  induction ha with
  | nil => exact hb
  | one h _ ih => exact .one h ih
  | two h1 h2 h3 _ ih => exact .two h1 h2 h3 ih
  | three h1 h2 h3 h4 h5 h6 _ ih => exact .three h1 h2 h3 h4 h5 h6 ih
  | four h1 h2 h3 h4 h5 h6 h7 _ ih => exact .four h1 h2 h3 h4 h5 h6 h7 ih

theorem ValidUtf8.ascii {s : Str} (h : ∀ b ∈ s, b < 128) : ValidUtf8 s := by
  induction s with
  | nil => exact .nil
  | cons a s ih => exact .one (h a (by simp)) (ih fun b hb => h b (by simp [hb]))

namespace ValidUtf8

theorem drop {s : Str} (h : ValidUtf8 s) : ∀ {i : Nat}, Bdry s i → ValidUtf8 (s.drop i) := by
  induction h with
  | nil => intro i _; simp; exact .nil
  | one ha hr ih =>
    intro i hi
    match i with
    | 0 => exact .one ha hr
    | i + 1 => exact ih hi.tail
  | two h1 h2 h3 hr ih =>
    intro i hi
    match i with
    | 0 => exact .two h1 h2 h3 hr
    | 1 => exact absurd h3.isCont (hi _ rfl)
    | i + 2 => exact ih hi.tail.tail
  | three h1 h2 h3 h4 h5 h6 hr ih =>
    intro i hi
    match i with
    | 0 => exact .three h1 h2 h3 h4 h5 h6 hr
    | 1 => exact absurd h3.isCont (hi _ rfl)
    | 2 => exact absurd h6.isCont (hi _ rfl)
    | i + 3 => exact ih hi.tail.tail.tail
  | four h1 h2 h3 h4 h5 h6 h7 hr ih =>
    intro i hi
    match i with
    | 0 => exact .four h1 h2 h3 h4 h5 h6 h7 hr
    | 1 => exact absurd h3.isCont (hi _ rfl)
    | 2 => exact absurd h6.isCont (hi _ rfl)
    | 3 => exact absurd h7.isCont (hi _ rfl)
    | i + 4 => exact ih hi.tail.tail.tail.tail

theorem take {s : Str} (h : ValidUtf8 s) : ∀ {i : Nat}, Bdry s i → ValidUtf8 (s.take i) := by
  induction h with
  | nil => intro i _; simp; exact .nil
  | one ha hr ih =>
    intro i hi
    match i with
    | 0 => exact .nil
    | i + 1 => exact .one ha (ih hi.tail)
  | two h1 h2 h3 hr ih =>
    intro i hi
    match i with
    | 0 => exact .nil
    | 1 => exact absurd h3.isCont (hi _ rfl)
    | i + 2 => exact .two h1 h2 h3 (ih hi.tail.tail)
  | three h1 h2 h3 h4 h5 h6 hr ih =>
    intro i hi
    match i with
    | 0 => exact .nil
    | 1 => exact absurd h3.isCont (hi _ rfl)
    | 2 => exact absurd h6.isCont (hi _ rfl)
    | i + 3 => exact .three h1 h2 h3 h4 h5 h6 (ih hi.tail.tail.tail)
  | four h1 h2 h3 h4 h5 h6 h7 hr ih =>
    intro i hi
    match i with
    | 0 => exact .nil
    | 1 => exact absurd h3.isCont (hi _ rfl)
    | 2 => exact absurd h6.isCont (hi _ rfl)
    | 3 => exact absurd h7.isCont (hi _ rfl)
    | i + 4 => exact .four h1 h2 h3 h4 h5 h6 h7 (ih hi.tail.tail.tail.tail)

theorem zero {s : Str} (h : ValidUtf8 s) : Bdry s 0 := by
  intro b hb hc
  obtain ⟨c1, c2⟩ := hc
  cases h with
  | nil => cases hb
  | one | two | three | four => simp at hb; subst hb; omega

theorem utf8ish {s : Str} (h : ValidUtf8 s) : Utf8ish s := by
  refine ⟨h.zero, ?_⟩
  induction h with
  | nil => intro i b hb; simp at hb
  | one ha hr ih =>
    intro i b hb hlt
    match i with
    | 0 => intro c hc; exact hr.zero c (by simpa using hc)
    | i + 1 => intro c hc; exact ih i b (by simpa using hb) hlt c (by simpa using hc)
  | two h1 h2 h3 hr ih =>
    intro i b hb hlt
    match i with
    | 0 => simp at hb; omega
    | 1 => simp at hb; have := h3.1; omega
    | i + 2 => intro c hc; exact ih i b (by simpa using hb) hlt c (by simpa using hc)
  | three h1 h2 h3 _ _ h6 hr ih =>
    intro i b hb hlt
    match i with
    | 0 => simp at hb; omega
    | 1 => simp at hb; have := h3.1; omega
    | 2 => simp at hb; have := h6.1; omega
    | i + 3 => intro c hc; exact ih i b (by simpa using hb) hlt c (by simpa using hc)
  | four h1 h2 h3 _ _ h6 h7 hr ih =>
    intro i b hb hlt
    match i with
    | 0 => simp at hb; omega
    | 1 => simp at hb; have := h3.1; omega
    | 2 => simp at hb; have := h6.1; omega
    | 3 => simp at hb; have := h7.1; omega
    | i + 4 => intro c hc; exact ih i b (by simpa using hb) hlt c (by simpa using hc)

theorem sub {s : Str} (h : ValidUtf8 s) {i j : Nat} (hi : Bdry s i) (hj : Bdry s j) :
    ValidUtf8 (Vw.sub s i j) := by
  refine (h.take hj).drop ?_
  intro b hb
  rw [List.getElem?_take] at hb
  split at hb
  · exact hi b hb
  · cases hb

theorem split {p q : Str} {a : Byte} (h : ValidUtf8 (p ++ a :: q)) (ha : a < 128) :
    ValidUtf8 p ∧ ValidUtf8 q := by
  constructor
  · have := h.take (i := p.length) (by
      intro b hb hc
      simp at hb
      subst hb
      have := hc.1
      omega)
    simpa using this
  · have := h.drop (h.utf8ish.succ p.length a (by simp) ha)
    simpa using this

/-- Cutting off an ASCII prefix. -/
theorem of_prefix {p q : Str} (h : ValidUtf8 (p ++ q)) (hp : ∀ b ∈ p, b < 128) : ValidUtf8 q := by
  induction p with
  | nil => exact h
  | cons a p ih =>
    exact ih (h.split (p := []) (hp a (by simp))).2 fun b hb => hp b (by simp [hb])

/-- Cutting off an ASCII suffix. -/
theorem of_suffix {p q : Str} (h : ValidUtf8 (p ++ q)) (hq : ∀ b ∈ q, b < 128) : ValidUtf8 p := by
  cases q with
  | nil => simpa using h
  | cons a q => exact (h.split (hq a (by simp))).1

theorem lines {body : Str} {ls : List Str} (hl : LinesOf body ls) (h : ValidUtf8 body) :
    ∀ l ∈ ls, ValidUtf8 l := by
  induction hl with
  | nil => intro l hl; cases hl
  | last => intro l hl; simp at hl; subst hl; exact h
  | lf _ _ _ ih =>
    rw [List.append_assoc] at h
    obtain ⟨h1, h2⟩ := h.split (by decide)
    intro l hl
    rcases List.mem_cons.1 hl with rfl | hl
    · exact h1
    · exact ih h2 l hl
  | crlf _ _ ih =>
    rw [List.append_assoc] at h
    obtain ⟨h1, h2⟩ := h.split (by decide)
    intro l hl
    rcases List.mem_cons.1 hl with rfl | hl
    · exact h1
    · exact ih (h2.split (p := []) (by decide)).2 l hl

theorem tags {ts : List Str} {rest : Str} (h : ValidUtf8 (ts.flatMap (· ++ b!":") ++ rest)) :
    ∀ t ∈ ts, ValidUtf8 t := by
  induction ts with
  | nil => intro t ht; cases ht
  | cons x xs ih =>
    rw [List.flatMap_cons, List.append_assoc, List.append_assoc] at h
    obtain ⟨h1, h2⟩ := h.split (by decide)
    intro t ht
    rcases List.mem_cons.1 ht with rfl | ht
    · exact h1
    · exact ih h2 t ht

end ValidUtf8

theorem IsStr.valid {a b : Nat} {w : Str} (h : IsStr C a b w) (hv : ValidUtf8 C.inner) :
    ValidUtf8 w := by
  obtain ⟨i, j, _, _, _, hi, hj, rfl⟩ := h
  exact hv.sub (hi hv.utf8ish) (hj hv.utf8ish)

theorem BracketOk.valid {a b : Nat} {L R c : Str} (h : BracketOk C a b L R c)
    (hv : ValidUtf8 (sub C.inner a b)) (hL : ∀ b ∈ L, b < 128) (hR : ∀ b ∈ R, b < 128) :
    ValidUtf8 c := by
  rw [h.eq] at hv
  exact (hv.of_suffix hR).of_prefix hL

theorem Piece.valid {x : Located Inline} (h : Piece C x) (hv : ValidUtf8 C.inner) :
    ∀ w ∈ x.inner.strings, ValidUtf8 w := by
  have hs : ValidUtf8 (sub C.inner x.region.offset (x.region.offset + x.region.len)) :=
    hv.sub (h.bs hv.utf8ish) (h.be hv.utf8ish)
  obtain ⟨x, a, n, d⟩ := x
  rcases h.what with hp | ⟨kind, ys, he, _⟩
  · simp only at hp hs
    intro w hw
    cases x with
    | decorated => cases hw
    | keyword => cases hw
    | text t =>
      simp only [Inline.strings, List.mem_cons, List.not_mem_nil, or_false] at hw
      subst hw
      rw [hp.1]
      exact hs
    | code t =>
      simp only [Inline.strings, List.mem_cons, List.not_mem_nil, or_false] at hw
      subst hw
      exact hp.valid hs (by decide) (by decide)
    | math t =>
      simp only [Inline.strings, List.mem_cons, List.not_mem_nil, or_false] at hw
      subst hw
      exact hp.1.valid hs (by decide) (by decide)
    | tags ts =>
      obtain ⟨_, _, _, ⟨rest, hr⟩, _⟩ := hp
      rw [← hr, List.append_assoc] at hs
      exact (hs.of_prefix (by decide)).tags w hw
    | comment c =>
      cases c with
      | line t =>
        simp only [Inline.strings, List.mem_cons, List.not_mem_nil, or_false] at hw
        subst hw
        rw [hp.1] at hs
        exact hs.of_prefix (by decide)
      | multi ls =>
        obtain ⟨body, hb, _, hl⟩ := hp
        rw [hb] at hs
        exact ((hs.of_suffix (by decide)).of_prefix (by decide)).lines hl w hw
    | link l =>
      have hstr : StrsIn C a (a + n) l.strings := by
        cases l with
        | raw d =>
          obtain ⟨_, _, h1, h2, _⟩ := hp
          intro w hw
          simp [Link.strings, LinkData.strings, h1, h2, descStrings, propStrings] at hw
        | transclusion d => exact hp.2
        | wiki d => exact hp.2
        | indexed i d => exact hp.2
        | named n d => exact hp.2
        | diary t d => exact hp.2
      exact (hstr w hw).valid hv
  · simp only at he
    subst he
    intro w hw
    cases hw

theorem BlockAt.valid {d a b : Nat} {x : Block} (h : BlockAt C d a b x) (hv : ValidUtf8 C.inner) :
    ∀ w ∈ x.strings, ValidUtf8 w := by
  intro w hw
  cases h with
  | blockquote h _ => exact (h w hw).valid hv
  | code h1 h2 h3 _ =>
    simp only [Block.strings, List.mem_append, List.mem_flatMap] at hw
    rcases hw with (hw | ⟨e, he, hw⟩) | hw
    · exact (h1 w (by simpa using hw)).valid hv
    · simp only [List.mem_cons, List.not_mem_nil, or_false] at hw
      rcases hw with rfl | rfl
      · exact (h2 e he).1.valid hv
      · exact (h2 e he).2.valid hv
    · exact (h3 w hw).valid hv
  | math h1 h2 _ =>
    simp only [Block.strings, List.mem_append] at hw
    rcases hw with hw | hw
    · exact (h1 w hw).valid hv
    · exact (h2 w (by simpa using hw)).valid hv
  | title h _ =>
    simp only [Block.strings, List.mem_cons, List.not_mem_nil, or_false] at hw
    subst hw; exact h.valid hv
  | template h _ =>
    simp only [Block.strings, List.mem_cons, List.not_mem_nil, or_false] at hw
    subst hw; exact h.valid hv
  | other h1 h2 _ =>
    simp only [Block.strings, List.mem_cons, List.not_mem_nil, or_false] at hw
    rcases hw with rfl | rfl
    · exact h1.valid hv
    · exact h2.valid hv
  | _ => cases hw

end Vw
