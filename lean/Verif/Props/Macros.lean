import Verif.Lemmas.Format

/-!
# C74 and C75: the text a macro parses and the arguments it puts in
-/

namespace Vw

/-- C74, first clause: a macro of the raw kind parses the lines between the quotation marks
without the blank lines at both ends, joined by line feeds. -/
theorem C74_raw_partial {src c : Str} {ls body : List Str} (h : Literal src c) (hl : TextLines c ls)
    (hb : WithoutBlankEnds ls body) : inputToString true src = .ok (List.intercalate [10] body) := by
  rw [inputToString_literal true h, strLines_of hl, dropBlankEnds_iff hb, ← joinLines_eq]
  rfl

/-- Two lines between blank ones, the second one indented. -/
def macroLines : List Str := [[], b!"  a", b!"", b!"    b", b!" "]

theorem macroLines_of : TextLines (b!"\n  a\n\n    b\n ") macroLines := by
  rw [textLines_iff]; decide +kernel

theorem notWs_of {l : Str} (h : isBlankLine l = false) : ¬ WsText l := by
  intro hw; rw [isBlankLine_iff.2 hw] at h; cases h

example : Literal (b!"r#\"\n  a\n\n    b\n \"#") (b!"\n  a\n\n    b\n ") ∧
    TextLines (b!"\n  a\n\n    b\n ") macroLines ∧
    WithoutBlankEnds macroLines [b!"  a", b!"", b!"    b"] := by
  refine ⟨.raw 1 (b!"\n  a\n\n    b\n "), macroLines_of, [[]], [b!" "], rfl, ?_, ?_, ⟨_, rfl, notWs_of (by decide +kernel)⟩,
    _, rfl, notWs_of (by decide +kernel)⟩ <;>
  · intro l hl; simp at hl; subst hl; exact isBlankLine_iff.1 (by decide +kernel)

/-- C74: a literal of blank lines only is an error, an empty one is the empty text, in both
kinds of macros. -/
theorem C74_blank {src c : Str} {ls : List Str} (raw : Bool) (h : Literal src c) (hl : TextLines c ls)
    (hb : ∀ l ∈ ls, WsText l) : inputToString raw src = if c = [] then .ok [] else .error .reject := by
  rw [inputToString_literal raw h, strLines_of hl]
  by_cases h0 : c = []
  · rw [if_pos h0]
    subst h0
    cases raw <;> (cases (strLines_of hl).symm; rfl)
  · rw [if_neg h0]
    have hne : ls ≠ [] := by rintro rfl; exact h0 (textLines_nil hl)
    rcases dropBlankEnds_cases ls hne with ⟨b, -, p, q, rfl, -, -, ⟨l, h1, h2⟩, -⟩ | ⟨h1, -⟩
    · exfalso
      apply h2; apply hb
      have := List.mem_of_mem_head? h1
      simp [this]
    · rw [h1]; rfl

example : Literal (b!"\"" ++ b!" \n\t" ++ b!"\"") (b!" \n\t") ∧ TextLines (b!" \n\t") [b!" ", b!"\t"] ∧
    ∀ l ∈ [b!" ", b!"\t"], WsText l := by
  refine ⟨.plain _, ?_, ?_⟩
  · rw [textLines_iff]; decide +kernel
  · intro l hl
    simp at hl
    rcases hl with rfl | rfl <;> exact isBlankLine_iff.1 (by decide +kernel)

/-- C74: in the other kind of macros the smallest indentation of all these lines is taken
off. The macro panics exactly if that ends within a character of some line. -/
theorem C74_all_lines {src c : Str} {ls body : List Str} (h : Literal src c) (hs : src.length < 2 ^ 64)
    (hl : TextLines c ls) (hb : WithoutBlankEnds ls body) :
    ∃ k, LeastIndent (fun _ => True) body k ∧
      ((k = 0 ∨ ∀ l ∈ body, ¬ WithinChar k l) → inputToString false src = .ok (cutLines k body)) ∧
      (k ≠ 0 → (∃ l ∈ body, WithinChar k l) → inputToString false src = .error .panic) := by
  have hne : body ≠ [] := by
    rintro rfl
    obtain ⟨-, -, -, -, -, ⟨l, h1, -⟩, -⟩ := hb
    simp at h1
  have hlen : ∀ l ∈ body, l.length < 2 ^ 64 - 1 := by
    intro l hm
    have hm' : l ∈ ls := by
      obtain ⟨p, q, rfl, -⟩ := hb
      simp [hm]
    have h1 := textLines_length hl l hm'
    have h2 := literal_length h
    omega
  have hk := minIndent_least hne hlen
  refine ⟨_, hk, ?_, ?_⟩
  · intro hc
    rw [inputToString_literal false h, strLines_of hl, dropBlankEnds_iff hb]
    show (body.mapM (sliceFrom (minIndent body))).map joinLines = _
    rw [mapM_except_ok (g := fun l => l.drop (minIndent body))]
    · show Except.ok _ = _
      rw [joinLines_eq]; rfl
    · intro l hm
      apply sliceFrom_ok
      · have := leastIndent_le hk l hm
        have := leadingWs_le l
        omega
      · rcases hc with hc | hc
        · exact .inl hc
        · exact .inr (hc l hm)
  · rintro h0 ⟨l, hm, hc⟩
    rw [inputToString_literal false h, strLines_of hl, dropBlankEnds_iff hb]
    show (body.mapM (sliceFrom (minIndent body))).map joinLines = _
    rw [mapM_except_err (e := .panic)]
    · rfl
    · intro l' hm'
      by_cases hw : WithinChar (minIndent body) l'
      · exact .inl (sliceFrom_panic h0 hw)
      · refine .inr ⟨_, sliceFrom_ok ?_ (.inr hw)⟩
        have := leastIndent_le hk l' hm'
        have := leadingWs_le l'
        omega
    · exact ⟨l, hm, sliceFrom_panic h0 hc⟩

/-- C74, second clause: the indentation common to the lines with content is taken off if no
blank line among them is shorter and it does not end within a character. -/
theorem C74_dedent_partial {src c : Str} {ls body : List Str} {k : Nat} (h : Literal src c)
    (hs : src.length < 2 ^ 64) (hl : TextLines c ls) (hb : WithoutBlankEnds ls body)
    (hk : LeastIndent (fun l => ¬ WsText l) body k) (hblank : ∀ l ∈ body, WsText l → k ≤ l.length)
    (hc : ∀ l ∈ body, ¬ WithinChar k l) : inputToString false src = .ok (cutLines k body) := by
  obtain ⟨k', h1, h2, -⟩ := C74_all_lines h hs hl hb
  have hk' : LeastIndent (fun _ => True) body k := by
    refine ⟨?_, ?_⟩
    · intro l hm _
      by_cases hw : WsText l
      · exact ⟨_, indent_iff.2 (leadingWs_all.2 hw), hblank l hm hw⟩
      · exact hk.1 l hm hw
    · obtain ⟨l, hm, -, hi⟩ := hk.2
      exact ⟨l, hm, trivial, hi⟩
  obtain rfl := leastIndent_unique hk' h1
  exact h2 (.inr hc)

example : TextLines (b!"  a\n  \n    b") [b!"  a", b!"  ", b!"    b"] ∧
    WithoutBlankEnds [b!"  a", b!"  ", b!"    b"] [b!"  a", b!"  ", b!"    b"] ∧
    LeastIndent (fun l => ¬ WsText l) [b!"  a", b!"  ", b!"    b"] 2 ∧
    cutLines 2 [b!"  a", b!"  ", b!"    b"] = b!"a\n\n  b" := by
  refine ⟨by rw [textLines_iff]; decide +kernel,
    ⟨[], [], rfl, by simp, by simp, ⟨_, rfl, notWs_of (by decide +kernel)⟩, _, rfl, notWs_of (by decide +kernel)⟩,
    ⟨?_, b!"  a", by simp, notWs_of (by decide +kernel), indent_iff.2 (by decide +kernel)⟩, by decide +kernel⟩
  intro l hl _
  refine ⟨_, indent_iff.2 rfl, ?_⟩
  simp at hl
  rcases hl with rfl | rfl | rfl <;> decide +kernel

/-- C74, third clause: no literal makes a macro panic whose lines are only indented with
ASCII characters. -/
theorem C74_no_panic_partial {src c : Str} {ls : List Str} (raw : Bool) (h : Literal src c)
    (hs : src.length < 2 ^ 64) (hu : ValidUtf8 c) (hl : TextLines c ls)
    (ha : ∀ l ∈ ls, ∀ n, Indent l n → ∀ b ∈ l.take n, b < 128) : inputToString raw src ≠ .error .panic := by
  by_cases hne : ls = []
  · subst hne
    have := C74_blank raw h hl (by simp)
    rw [this]; split <;> simp
  rcases dropBlankEnds_cases ls hne with ⟨body, -, hb⟩ | ⟨-, hb⟩
  · cases raw with
    | true => rw [C74_raw_partial h hl hb]; simp
    | false =>
      obtain ⟨k, hk, h1, -⟩ := C74_all_lines h hs hl hb
      rw [h1]
      · simp
      · right
        rintro l hm ⟨b, hb1, hb2, hb3⟩
        have hm' : l ∈ ls := by
          obtain ⟨p, q, rfl, -⟩ := hb
          simp [hm]
        obtain ⟨n, ⟨w, r, rfl, hw, rfl, hr⟩, hkn⟩ := hk.1 l hm trivial
        have has := ha _ hm' w.length ⟨w, r, rfl, hw, rfl, hr⟩
        rw [List.take_left] at has
        by_cases hlt : k < w.length
        · rw [List.getElem?_append_left hlt] at hb1
          have := has b (List.mem_of_getElem? hb1)
          omega
        · have hke : k = w.length := by omega
          subst hke
          have hv := textLines_utf8 hl hu _ hm'
          have hr' : ValidUtf8 r := validUtf8_drop_ascii has hv
          rw [List.getElem?_append_right (Nat.le_refl _), Nat.sub_self] at hb1
          cases hr' with
          | nil => simp at hb1
          | one h => simp at hb1; omega
          | two h => simp at hb1; omega
          | three h => simp at hb1; omega
          | four h => simp at hb1; omega
  · have := C74_blank raw h hl hb
    rw [this]; split <;> simp

example : ValidUtf8 (b!" a\n\tb") ∧ TextLines (b!" a\n\tb") [b!" a", b!"\tb"] ∧
    ∀ l ∈ [b!" a", b!"\tb"], ∀ n, Indent l n → ∀ b ∈ l.take n, b < 128 := by
  refine ⟨.ascii (by decide), by rw [textLines_iff]; decide +kernel, ?_⟩
  intro l hl n _ b hb
  have hb := List.mem_of_mem_take hb
  simp at hl
  rcases hl with rfl | rfl <;> (simp at hb; omega)

/-- C74: tokens that do not start like a string literal are rejected. -/
theorem C74_no_literal (raw : Bool) {t : Str} (h : NoLiteral t) : inputToString raw t = .error .reject := by
  unfold inputToString
  have : looksLikeLiteral (trim t) = false := by
    apply Bool.eq_false_iff.2
    intro hl
    obtain ⟨u, w, hu, -, hs⟩ := trim_spec t
    apply h u (trim t ++ w) hu (by rw [← List.append_assoc]; exact hs)
    simp only [looksLikeLiteral, Bool.or_eq_true, List.isPrefixOf_iff_prefix] at hl
    rcases hl with ((hl | hl) | hl) | hl
    · exact .inl (hl.trans (List.prefix_append _ _))
    · exact .inr (.inl (hl.trans (List.prefix_append _ _)))
    · exact .inr (.inr (.inl (hl.trans (List.prefix_append _ _))))
    · exact .inr (.inr (.inr (hl.trans (List.prefix_append _ _))))
  simp [this]

example : NoLiteral b!"42" := by
  intro u r hu h
  have h4 : u = [] := by
    cases u with
    | nil => rfl
    | cons a u =>
      simp at h
      have := hu.bytes a (by simp)
      omega
  subst h4
  simp at h; subst h
  decide

/-- C74 is violated: an empty line between two indented ones keeps the macro from removing
their indentation. -/
theorem C74_blank_line_violated :
    Literal (b!"\"  a\n\n  b\"") (b!"  a\n\n  b") ∧ TextLines (b!"  a\n\n  b") [b!"  a", [], b!"  b"] ∧
      LeastIndent (fun l => ¬ WsText l) [b!"  a", [], b!"  b"] 2 ∧
      inputToString false (b!"\"  a\n\n  b\"") = .ok (b!"  a\n\n  b") := by
  refine ⟨.plain (b!"  a\n\n  b"), by rw [textLines_iff]; decide +kernel,
    ⟨?_, b!"  a", by simp, notWs_of (by decide +kernel), indent_iff.2 (by decide +kernel)⟩, by decide +kernel⟩
  intro l hl hw
  refine ⟨_, indent_iff.2 rfl, ?_⟩
  simp at hl
  rcases hl with rfl | rfl | rfl
  · decide +kernel
  · exact absurd .nil hw
  · decide +kernel

/-- C74 is violated: escapes in a literal are not replaced, so the parsed text is not the
value of the literal (`a`, a line feed, `b`). -/
theorem C74_escape_violated (raw : Bool) : inputToString raw (b!"\"a\\nb\"") = .ok (b!"a\\nb") := by
  cases raw <;> decide +kernel

/-- C74 is violated: macros of the raw kind do not take the literal as it is. -/
theorem C74_as_is_violated : Literal (b!"\"\n a\n\"") (b!"\n a\n") ∧
    inputToString true (b!"\"\n a\n\"") = .ok (b!" a") :=
  ⟨.plain (b!"\n a\n"), by decide +kernel⟩

/-- C74 is violated: a name that starts with `r` makes the macro panic, as does a literal
with lines indented by a no-break space and by a space. -/
theorem C74_panic_violated : inputToString false (b!"result") = .error .panic ∧
    ∃ src c, Literal src c ∧ ValidUtf8 c ∧ inputToString false src = .error .panic := by
  refine ⟨by decide +kernel, _, [0xC2, 0xA0, c!"a", 10, 32, c!"b"], .plain _, ?_, by decide +kernel⟩
  exact .two (by omega) (by omega) (by unfold Cont8; omega) (.ascii (by decide))

/-! ## Format texts -/

/-- C75: if every placeholder of a text has its argument, the generated `format!` call has
the same meaning as the text given to the macro, counting empty placeholders from the
argument the macro has come to. The call takes each of its arguments at least once and no
name twice. -/
theorem C75_meaning_partial {α} {args : FormatArgs α} {n n' : Nat} {ps : List FPart} {outs : List (FOut α)}
    (hp : ∀ p ∈ ps, p.Simple) (ha : args.positional.length < 2 ^ 64) (hn : n + ps.length < 2 ^ 64)
    (hm : formatMeaning args.positional args.named n ps = some (outs, n')) :
    ∃ call ps', quoteFormat args n (formatText ps) = .ok (call, n') ∧ call.template = formatText ps' ∧
      (∀ p ∈ ps', p.Simple) ∧ formatMeaning call.positional call.named 0 ps' = some (outs, 0) ∧
      (∀ i < call.positional.length, ∃ ds spec, FPart.hole (.num ds) spec ∈ ps' ∧ decValue ds = i) ∧
      (∀ e ∈ call.named, ∃ spec, FPart.hole (.name e.1) spec ∈ ps') ∧ (call.named.map (·.1)).Nodup := by
  have hex := explicit_simple hp n
  have hnn := explicit_noNext n ps
  rw [formatMeaning_explicit (m := 0), Option.map_eq_some_iff] at hm
  obtain ⟨⟨outs', m⟩, hm, he⟩ := hm
  simp only [Prod.mk.injEq] at he
  obtain ⟨rfl, rfl⟩ := he
  obtain rfl := formatMeaning_counter hnn hm
  obtain ⟨r1, r2⟩ := (formatMeaning_noNext hnn).1 ⟨_, hm⟩
  unfold quoteFormat
  rw [fpieces_parts hp, firstPass_parts hp n [] [] hn]
  simp only
  obtain ⟨s1, s2⟩ := foldPos (xs := numsOf (explicit n ps)) (l := []) (by simp)
  obtain ⟨t1, t2⟩ := foldNames (xs := namesOf (explicit n ps)) (l := []) (by simp)
  generalize (numsOf (explicit n ps)).foldl (fun l p => insertPos p l) [] = P at *
  generalize (namesOf (explicit n ps)).foldl (fun l s => insertName s l) [] = N at *
  have hP : ∀ k ∈ P, k < args.positional.length := by
    intro k hk
    obtain ⟨ds, spec, h1, rfl, -⟩ := numsOf_mem.1 (((s2 k).1 hk).resolve_left (by simp))
    exact r1 ds spec h1
  have hN : ∀ s ∈ N, ∃ spec, FPart.hole (.name s) spec ∈ explicit n ps := by
    intro s hs
    rcases namesOf_mem.1 (((t2 s).1 hs).resolve_left (by simp)) with h | ⟨spec, h, hl⟩
    · exact h
    · have := r1 s spec h
      omega
  obtain ⟨p1, p2, -⟩ := pickPositional_spec args.positional P
  obtain ⟨es, hes⟩ := p2.2 hP
  obtain ⟨q1, q2, -⟩ := pickNamed_spec args.named N
  obtain ⟨fs, hfs⟩ := q2.2 (fun s hs => let ⟨spec, h⟩ := hN s hs; r2 s spec h)
  rw [hes, hfs]
  have hPm : ∀ ds spec, FPart.hole (.num ds) spec ∈ explicit n ps → decValue ds < 2 ^ 64 ∧ decValue ds ∈ P := by
    intro ds spec h
    have hlt := r1 ds spec h
    refine ⟨by omega, (s2 _).2 (.inr (numsOf_mem.2 ⟨ds, spec, h, rfl, by omega⟩))⟩
  have sp := secondPass_parts hex hnn hPm
  simp only [Except.bind]
  rw [fpieces_parts hex, sp]
  obtain ⟨l1, l2⟩ := p1 es hes
  obtain ⟨l3, l4⟩ := q1 fs hfs
  refine ⟨_, renumber P (explicit n ps), rfl, rfl, renumber_simple hex, ?_, ?_, ?_, ?_⟩
  · rw [← hm]
    apply formatMeaning_renumber hnn
    · intro ds spec h
      have hmem := (hPm ds spec h).2
      apply l2
      rw [List.getElem?_eq_getElem (List.idxOf_lt_length_of_mem hmem)]
      simp
    · intro s spec h
      exact l4 s ((t2 s).2 (.inr (namesOf_mem.2 (.inl ⟨spec, h⟩))))
  · intro i hi
    simp only [l1] at hi
    have hmem : P[i] ∈ P := List.getElem_mem hi
    obtain ⟨ds, spec, h1, h2, -⟩ := numsOf_mem.1 (((s2 _).1 hmem).resolve_left (by simp))
    refine ⟨_, spec, mem_renumber_num h1, ?_⟩
    rw [decStr_value, h2]
    have hnd : P.Nodup := s1.imp (fun h => Nat.ne_of_lt h)
    exact hnd.idxOf_getElem i hi
  · intro e he
    have : e.1 ∈ N := by rw [← l3]; exact List.mem_map.2 ⟨e, he, rfl⟩
    obtain ⟨spec, h⟩ := hN e.1 this
    exact ⟨spec, mem_renumber_name h⟩
  · simp only [l3]; exact t1

/-- C75: if an argument is missing, the macro reports an error. -/
theorem C75_missing_partial {α} {args : FormatArgs α} {n : Nat} {ps : List FPart}
    (hp : ∀ p ∈ ps, p.Simple) (hnames : ∀ e ∈ args.named, FormatName e.1) (hn : n + ps.length < 2 ^ 64)
    (hm : formatMeaning args.positional args.named n ps = none) :
    quoteFormat args n (formatText ps) = .error .reject := by
  have hex := explicit_simple hp n
  have hnn := explicit_noNext n ps
  rw [formatMeaning_explicit (m := 0), Option.map_eq_none_iff] at hm
  unfold quoteFormat
  rw [fpieces_parts hp, firstPass_parts hp n [] [] hn]
  simp only
  obtain ⟨s1, s2⟩ := foldPos (xs := numsOf (explicit n ps)) (l := []) (by simp)
  obtain ⟨t1, t2⟩ := foldNames (xs := namesOf (explicit n ps)) (l := []) (by simp)
  generalize (numsOf (explicit n ps)).foldl (fun l p => insertPos p l) [] = P at *
  generalize (namesOf (explicit n ps)).foldl (fun l s => insertName s l) [] = N at *
  obtain ⟨-, p2, p3⟩ := pickPositional_spec args.positional P
  by_cases hP : ∀ k ∈ P, k < args.positional.length
  · obtain ⟨es, hes⟩ := p2.2 hP
    rw [hes]
    obtain ⟨-, -, q3⟩ := pickNamed_spec args.named N
    have hN : ¬ ∀ s ∈ N, ∃ e ∈ args.named, e.1 = s := by
      intro hN
      have : ∃ r, formatMeaning args.positional args.named 0 (explicit n ps) = some r := by
        rw [formatMeaning_noNext hnn]
        refine ⟨?_, ?_⟩
        · intro ds spec h
          by_cases hl : decValue ds < 2 ^ 64
          · exact hP _ ((s2 _).2 (.inr (numsOf_mem.2 ⟨ds, spec, h, rfl, hl⟩)))
          · obtain ⟨e, he, rfl⟩ := hN ds ((t2 _).2 (.inr (namesOf_mem.2 (.inr ⟨spec, h, by omega⟩))))
            obtain ⟨⟨a, r, hr, ha, -⟩, -⟩ := hnames e he
            have := (hex _ h).1.2 a (by rw [hr]; simp)
            exact absurd this ha
        · intro s spec h
          exact hN s ((t2 _).2 (.inr (namesOf_mem.2 (.inl ⟨spec, h⟩))))
      rw [hm] at this
      obtain ⟨r, h⟩ := this
      cases h
    simp only [Except.bind]
    rw [q3 hN]
  · rw [p3 hP]; rfl

/-- `{1} {:>4} {b} {0}`, to be given two arguments and one named `b`. -/
def demoParts : List FPart :=
  [.hole (.num b!"1") none, .lit b!" ", .hole .next (some b!">4"), .lit b!" ", .hole (.name b!"b") none,
   .lit b!" ", .hole (.num b!"0") none]

theorem demoParts_simple : ∀ p ∈ demoParts, p.Simple := by
  have hb : FormatName b!"b" := by
    have hw : ¬ ∃ w, w ≠ [] ∧ WsText w ∧ w <:+: b!"b" := by
      rintro ⟨w, h1, h2, h3⟩
      match w, h1 with
      | a :: w, _ =>
        have := h2.bytes a (by simp)
        have hm : a ∈ b!"b" := h3.subset (by simp)
        simp at hm; omega
    refine ⟨⟨c!"b", [], rfl, by decide, by decide⟩, by decide, by decide, by decide, ?_, ?_⟩
    · intro w r h hws
      exact Classical.byContradiction fun hne => hw ⟨w, hne, hws, [], r, by simp [h]⟩
    · intro w r h hws
      exact Classical.byContradiction fun hne => hw ⟨w, hne, hws, r, [], by simp [h]⟩
  have hs : SpecText b!">4" := ⟨by decide, by decide, by decide, by decide, by decide⟩
  intro p hm
  simp only [demoParts, List.mem_cons, List.not_mem_nil, or_false] at hm
  rcases hm with rfl | rfl | rfl | rfl | rfl | rfl | rfl
  · exact ⟨⟨by simp, by decide⟩, by simp⟩
  · exact ⟨by decide, by decide⟩
  · exact ⟨trivial, by intro s h; cases h; exact hs⟩
  · exact ⟨by decide, by decide⟩
  · exact ⟨hb, by simp⟩
  · exact ⟨by decide, by decide⟩
  · exact ⟨⟨by simp, by decide⟩, by simp⟩

example : formatText demoParts = b!"{1} {:>4} {b} {0}" ∧
    formatMeaning [10, 20] [(b!"a", 30), (b!"b", 40)] 0 demoParts =
      some ([.arg 20 none, .lit b!" ", .arg 10 (some b!">4"), .lit b!" ", .arg 40 none, .lit b!" ", .arg 10 none], 1) ∧
    formatMeaning [10, 20] [(b!"a", 30)] 0 demoParts = none := ⟨by decide +kernel, rfl, rfl⟩

/-- C75 is violated: doubled braces, which stand for braces in format texts, are taken for a
placeholder. -/
theorem C75_escape_violated :
    formatText [.lit b!"{x}"] = b!"{{x}}" ∧
      formatMeaning (α := Nat) [] [] 0 [.lit b!"{x}"] = some ([.lit b!"{x}"], 0) ∧
      (quoteFormat (α := Nat) ⟨[], []⟩ 0 b!"{{x}}").isOk = false := by
  refine ⟨by decide +kernel, rfl, by decide +kernel⟩

/-- C75 is violated: arguments named after the colon of a placeholder do not reach the
generated call. Here the width is to be argument 1, but the call has one argument only. -/
theorem C75_width_violated :
    ∃ call, quoteFormat (α := Nat) ⟨[7, 4], []⟩ 0 b!"{:1$}" = .ok (call, 1) ∧
      call.template = b!"{0:1$}" ∧ call.positional = [7] :=
  ⟨⟨b!"{0:1$}", [7], []⟩, by decide +kernel, rfl, rfl⟩

end Vw
