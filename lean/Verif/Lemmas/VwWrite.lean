import Verif.Spec.VimwikiOut
import Verif.Lemmas.Uri
import Verif.Lemmas.Utf8

/-!
# Writing and trimming
-/

namespace Vw

open Fm

/-! ## Trimming the end of a text -/

theorem WsText.split {c u p : Str} (hc : Whole c) (hu : u <:+ c) (h : WsText (u ++ p)) :
    WsText u ∧ WsText p := by
  obtain ⟨cs, h1, h2⟩ := h
  induction cs generalizing u with
  | nil =>
    simp at h2
    obtain ⟨rfl, rfl⟩ := h2
    exact ⟨.nil, .nil⟩
  | cons ch cs ih =>
    have hch := h1 ch (by simp)
    by_cases h0 : u = []
    · subst h0
      exact ⟨.nil, ch :: cs, h1, by simpa using h2⟩
    · rw [List.flatten_cons, List.append_eq_append_iff] at h2
      rcases h2 with ⟨v, h3, h4⟩ | ⟨u', h3, h4⟩
      · by_cases hv : v = []
        · subst hv
          simp at h3 h4
          subst h3
          refine ⟨by simpa using WsText.cons hch .nil, cs, fun c h => h1 c (by simp [h]), h4⟩
        · exact absurd hu (hc u v h0 hv (h3 ▸ hch))
      · subst h3
        have := ih ((List.suffix_append _ _).trans hu) (fun c h => h1 c (by simp [h])) h4.symm
        exact ⟨WsText.cons hch this.1, this.2⟩

theorem Whole.nil : Whole [] := by
  intro u v hu _ _ hs
  exact hu (by simpa using hs)

theorem Whole.tail {a : Byte} {c : Str} (h : Whole (a :: c)) : Whole c := by
  intro u v hu hv hm hs
  exact h u v hu hv hm (hs.trans (List.suffix_cons _ _))

theorem Whole.of_last {c : Str} {b : Byte} (hb : b < 128) (h : c.getLast? = some b) : Whole c := by
  intro u v hu hv hm hs
  have key : ∀ ch ∈ wsChars, ∀ x ∈ ch.dropLast, 128 ≤ x := by decide
  obtain ⟨p, rfl⟩ := hs
  obtain ⟨u', x, rfl⟩ : ∃ u' x, u = u' ++ [x] :=
    ⟨u.dropLast, u.getLast hu, (List.dropLast_concat_getLast hu).symm⟩
  have e : b = x := by
    rw [← List.append_assoc, List.getLast?_append] at h
    simpa using h.symm
  have := key _ hm x (by
    rw [List.dropLast_append_of_ne_nil hv]
    simp)
  omega

theorem Whole.append {c t : Str} (hc : Whole c) (ht : t = [] ∨ ∃ b, b < 128 ∧ t.getLast? = some b) :
    Whole (c ++ t) := by
  rcases ht with rfl | ⟨b, hb, h⟩
  · simpa using hc
  · exact .of_last hb (by rw [List.getLast?_append, h]; rfl)

theorem ValidUtf8.whole {c : Str} (h : ValidUtf8 c) : Whole c := by
  intro u v hu hv hm hs
  obtain ⟨p, rfl⟩ := hs
  have key : ∀ ch ∈ wsChars, ∀ n ∈ [1, 2], ch.length ≤ n ∨
      ((ch.headD 0 < 128 ∨ 192 ≤ ch.headD 0) ∧
      ch.take n ∈ [[0xC2], [0xE1], [0xE2], [0xE3], [0xE1, 0x9A], [0xE2, 0x80], [0xE2, 0x81],
       [0xE3, 0x80]]) := by decide
  have hl : ∀ ch ∈ wsChars, ch.length ≤ 3 := by decide
  have h3 := hl _ hm
  have hul := List.length_pos_iff.2 hu
  have hvl := List.length_pos_iff.2 hv
  simp only [List.length_append] at h3
  rcases key _ hm u.length (by simp; omega) with k | ⟨k1, k2⟩
  · simp at k; omega
  rw [List.take_left] at k2
  have hd := h.drop (i := p.length) (by
    intro b hb hcb
    rw [List.getElem?_append_right (Nat.le_refl _), Nat.sub_self] at hb
    match u, hu, hb, k1 with
    | a :: u, _, hb, k1 =>
      simp at hb k1
      subst hb
      have := hcb.1
      have := hcb.2
      omega)
  rw [List.drop_left] at hd
  simp only [List.mem_cons, List.not_mem_nil, or_false] at k2
  rcases k2 with h | h | h | h | h | h | h | h <;> subst h <;> clear hm hu h3 hvl hul k1 h <;>
    cases hd <;> omega

theorem trimEnd_append {c p : Str} (hc : Whole c) (hp : ¬ WsText p) :
    trimEnd (c ++ p) = c ++ trimEnd p := by
  induction c with
  | nil => rfl
  | cons b c ih =>
    rw [List.cons_append, trimEnd, if_neg, ih hc.tail, List.cons_append]
    intro h
    exact hp (WsText.split hc (List.suffix_refl _) (leadingWs_all.1 h)).2

theorem prefix_trimEnd {d x : Str} (hd : Whole d) (h : trimEnd d = d) : d <+: trimEnd (d ++ x) := by
  induction d with
  | nil => simp
  | cons b d ih =>
    rw [List.cons_append, trimEnd]
    rw [trimEnd] at h
    split at h
    · cases h
    · next hn =>
      rw [if_neg]
      · simp only [List.cons.injEq, true_and] at h
        rw [List.cons_prefix_cons]
        exact ⟨rfl, ih hd.tail h⟩
      · intro hw
        exact hn (leadingWs_all.2 (WsText.split hd (List.suffix_refl _) (leadingWs_all.1 hw)).1)

theorem not_wsText_trimEnd {p : Str} (h : ¬ WsText p) : ¬ WsText (trimEnd p) := by
  intro hw
  obtain ⟨w, h1, h2⟩ := trimEnd_spec p
  exact h (h2 ▸ hw.append h1)

theorem trimEnd_idem (s : Str) (hs : ValidUtf8 s) :
    trimEnd (trimEnd s) = trimEnd s ∧ ValidUtf8 (trimEnd s) := by
  obtain ⟨w, h1, h2⟩ := trimEnd_spec s
  have hv : ValidUtf8 (trimEnd s) := by
    have := hs.take (i := (trimEnd s).length) (by
      intro b hb hc
      rw [show s[(trimEnd s).length]? = (trimEnd s ++ w)[(trimEnd s).length]? by rw [← h2],
        List.getElem?_append_right (Nat.le_refl _), Nat.sub_self] at hb
      obtain ⟨cs, h3, rfl⟩ := h1
      match cs, hb, h3 with
      | ch :: cs, hb, h3 =>
        have key : ∀ ch ∈ wsChars, ch ≠ [] ∧ (ch.headD 0 < 128 ∨ 192 ≤ ch.headD 0) := by decide
        have hk := key ch (h3 ch (by simp))
        match ch, hk.1, hk.2, hb with
        | a :: ch, _, hk, hb =>
          simp at hb hk
          subst hb
          have := hc.1
          have := hc.2
          omega)
    have e : s.take (trimEnd s).length = trimEnd s := by
      conv => lhs; arg 2; rw [h2]
      simp
    rwa [e] at this
  refine ⟨?_, hv⟩
  have hx : ∀ d x : Str, Whole d → WsText x → trimEnd (d ++ x) = d → trimEnd d = d := by
    intro d
    induction d with
    | nil => intro x _ _ _; rfl
    | cons b d ih =>
      intro x hd hx h
      rw [List.cons_append, trimEnd] at h
      rw [trimEnd]
      split at h
      · cases h
      · next hn =>
        rw [if_neg, ih x hd.tail hx (by simpa using h)]
        intro hw
        exact hn (leadingWs_all.2 (by
          have := (leadingWs_all.1 hw).append hx
          simpa using this))
  exact hx _ w hv.whole h1 (by rw [← h2])

/-! ## Writing -/

/-- The operation writes the text `o`; in skipping mode it leaves out whitespace at
the start of it. -/
structure Writes (w : Fm → Fm) (o : Str) : Prop where
  plain : ∀ f : Fm, f.skip = false → w f = { f with content := f.content ++ o }
  skips : ∃ ws p, WsText ws ∧ o = ws ++ p ∧ ∀ f : Fm, f.skip = true →
    w f = { f with content := f.content ++ p, skip := p.isEmpty }

namespace Writes

theorem write (s : Str) : Writes (write s) s := by
  refine ⟨fun f hf => by simp [Fm.write, hf], ?_⟩
  obtain ⟨w, h1, h2, -⟩ := trimStart_spec s
  exact ⟨w, trimStart s, h1, h2, fun f hf => by simp [Fm.write, hf]⟩

theorem id : Writes (fun f => f) [] :=
  ⟨fun f _ => by simp, [], [], .nil, rfl, fun f hf => by simp [← hf]⟩

theorem comp {w1 w2 : Fm → Fm} {o1 o2 : Str} (h1 : Writes w1 o1) (h2 : Writes w2 o2) :
    Writes (fun f => w2 (w1 f)) (o1 ++ o2) := by
  refine ⟨fun f hf => by rw [h1.plain f hf, h2.plain _ (by simpa using hf)]; simp, ?_⟩
  obtain ⟨u1, p1, hu1, rfl, e1⟩ := h1.skips
  obtain ⟨u2, p2, hu2, rfl, e2⟩ := h2.skips
  by_cases h : p1 = []
  · subst h
    refine ⟨u1 ++ u2, p2, hu1.append hu2, by simp, fun f hf => ?_⟩
    rw [e1 f hf, e2 _ (by rfl)]
    simp
  · refine ⟨u1, p1 ++ (u2 ++ p2), hu1, by simp, fun f hf => ?_⟩
    have hp : p1.isEmpty = false := by simpa using h
    rw [e1 f hf, h2.plain _ (by simpa using hp)]
    simp [hp, h]

theorem cast {w : Fm → Fm} {o o' : Str} (h : Writes w o) (e : o = o') : Writes w o' := e ▸ h

theorem writeIf (b : Bool) (s : Str) : Writes (writeIf b s) (if b then s else []) := by
  cases b with
  | true => exact write s
  | false => exact id

/-- Writing `s` after `w`. -/
theorem and {w : Fm → Fm} {o : Str} (h : Writes w o) (s : Str) :
    Writes (fun f => Fm.write s (w f)) (o ++ s) := h.comp (write s)

/-- Writing `s` after `w` if `b`. -/
theorem andIf {w : Fm → Fm} {o : Str} (h : Writes w o) (b : Bool) (s : Str) :
    Writes (fun f => Fm.writeIf b s (w f)) (o ++ if b then s else []) := h.comp (writeIf b s)

end Writes

theorem writes_pairs (sep : Bool) (m : Map) : Writes (writePairs sep m) (pairsText sep m) := by
  induction m generalizing sep with
  | nil => exact .id
  | cons e m ih =>
    obtain ⟨k, v⟩ := e
    exact ((((((Writes.writeIf sep b!" ").and k).and b!"=\"").and v).and b!"\"").comp
      (ih true)).cast (by simp [pairsText])

theorem writes_props (d : Bool) (p : Option Map) : Writes (writeProps d p) (propsText d p) := by
  cases p with
  | none => exact .id
  | some m =>
    exact (((Writes.writeIf (!d) b!"|").and b!"|").comp (writes_pairs false _)).cast (by
      cases d <;> simp [propsText])

theorem writes_description (L : OutLib) : (d : Description) → Writes (d.fmt L) (d.textOf L)
  | .text s => by
    exact ((Writes.write b!"|").and s).cast (by simp [Description.textOf])
  | .transclusion u none p => by
    exact (((((Writes.write b!"|").and b!"{{").and (decodedUri L u)).comp
      (writes_props false p)).and b!"}}").cast (by simp [Description.textOf])
  | .transclusion u (some d) p => by
    exact ((((((Writes.write b!"|").and b!"{{").and (decodedUri L u)).comp
      (writes_description L d)).comp (writes_props true p)).and b!"}}").cast
        (by simp [Description.textOf])

theorem writes_desc (L : OutLib) (d : Option Description) : Writes (descFmt L d) (descText L d) := by
  cases d with
  | none => exact .id
  | some d => exact writes_description L d

theorem writes_link (L : OutLib) (l : Link) : Writes (l.fmt L) (l.textOf L) := by
  cases l with
  | wiki d =>
    exact ((((Writes.write b!"[[").and (decodedUri L d.uri)).comp (writes_desc L d.desc)).and
      b!"]]").cast (by simp [Link.textOf])
  | indexed i d =>
    exact (((((((Writes.write b!"[[").and b!"wiki").and (decStr i)).and b!":").and
      (decodedUri L d.uri)).comp (writes_desc L d.desc)).and b!"]]").cast (by simp [Link.textOf])
  | named i d =>
    exact (((((((Writes.write b!"[[").and b!"wn.").and i).and b!":").and
      (decodedUri L d.uri)).comp (writes_desc L d.desc)).and b!"]]").cast (by simp [Link.textOf])
  | diary dt d =>
    refine (((((Writes.write b!"[[diary:").and (L.dateStr dt)).and (match d.toAnchor with
      | some a => a.display
      | none => [])).comp (writes_desc L d.desc)).and b!"]]").cast ?_
    cases h : d.toAnchor <;> simp [Link.textOf, h]
  | raw d => exact Writes.write _
  | transclusion d =>
    exact (((((Writes.write b!"{{").and (decodedUri L d.uri)).comp (writes_desc L d.desc)).comp
      (writes_props d.desc.isSome d.props)).and b!"}}").cast (by simp [Link.textOf])

theorem writes_tags (ts : List Str) : Writes (writeTags ts) (ts.flatMap (· ++ b!":")) := by
  induction ts with
  | nil => exact .id
  | cons t ts ih =>
    exact (((Writes.write t).and b!":").comp ih).cast (by simp)

theorem writes_commentLines (cfg : VwCfg) (ls : List Str) : Writes (writeCommentLines cfg ls)
    (joinWith b!"\n" (ls.map fun l => if cfg.trimComment then trim l else l)) := by
  induction ls with
  | nil => exact .id
  | cons l ls ih =>
    cases ls with
    | nil => exact Writes.write _
    | cons m ls =>
      exact (((Writes.write _).and b!"\n").comp ih).cast (by simp [joinWith])

theorem writes_comment (cfg : VwCfg) (c : Comment) : Writes (c.fmt cfg) (c.textOf cfg) := by
  cases c with
  | line s =>
    exact (((Writes.write b!"%%").andIf (!cfg.commentNoPadding) b!" ").and
      (if cfg.trimComment then trim s else s)).cast (by
        cases h : cfg.commentNoPadding <;> simp [Comment.textOf, h])
  | multi ls =>
    exact (((((Writes.write b!"%%+").andIf (!cfg.commentNoPadding) b!" ").comp
      (writes_commentLines cfg ls)).andIf (!cfg.commentNoPadding) b!" ").and b!"+%%").cast (by
        cases h : cfg.commentNoPadding <;> simp [Comment.textOf, h])

mutual
theorem writes_inline (L : OutLib) (cfg : VwCfg) :
    (x : Inline) → Writes (x.fmt L cfg) (x.textOf L cfg)
  | .text s => by exact Writes.cast (Writes.write s) (by simp [Inline.textOf])
  | .decorated k cs => by
    exact (((Writes.write k.marks).comp (writes_inlines L cfg cs)).and k.marks).cast (by
      simp [Inline.textOf])
  | .keyword k => by exact Writes.cast (Writes.write k.display) (by simp [Inline.textOf])
  | .link l => by exact Writes.cast (writes_link L l) (by simp [Inline.textOf])
  | .tags ts => by
    exact ((Writes.write b!":").comp (writes_tags ts)).cast (by simp [Inline.textOf])
  | .code s => by
    exact (((Writes.write b!"`").and s).and b!"`").cast (by simp [Inline.textOf])
  | .math s => by
    exact (((Writes.write b!"$").and s).and b!"$").cast (by simp [Inline.textOf])
  | .comment c => by exact Writes.cast (writes_comment cfg c) (by simp [Inline.textOf])
theorem writes_inlines (L : OutLib) (cfg : VwCfg) :
    (xs : List (Located Inline)) → Writes (Inline.fmtAll L cfg xs) (Inline.textAll L cfg xs)
  | [] => by exact Writes.cast (Writes.id) (by simp [Inline.textAll])
  | ⟨x, _⟩ :: xs => by
    exact ((writes_inline L cfg x).comp (writes_inlines L cfg xs)).cast (by simp [Inline.textAll])
end

end Vw
