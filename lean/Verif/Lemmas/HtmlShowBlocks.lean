import Verif.Lemmas.HtmlShow
import Verif.Props.Tables
import Verif.Lemmas.VwEqual

/-! # What the writers of blocks write -/

namespace Vw
open W

variable {hs hs' : Headers} {L : HtmlLib} {c : HtmlCfg}

theorem each_put {α} (g : α → Str) (l : List α) : W.each (fun x => W.put (g x)) l = W.put (l.flatMap g) := by
  induction l with
  | nil => funext f; simp [W.each, W.nop, W.put]
  | cons x l ih => simp only [W.each, ih, ← put_append, List.flatMap_cons]

theorem render_flatMap {α} (g : α → List Html) (l : List α) :
    Html.renderAll (l.flatMap g) = l.flatMap fun x => Html.renderAll (g x) := by
  induction l with
  | nil => rfl
  | cons x l ih => simp only [List.flatMap_cons, renderAll_append, ih]

theorem quoteHtml_makes (lines : List Str) : Makes hs hs (quoteHtml lines) (· = quoteTree lines) := by
  simp only [quoteHtml, each_put, quoteTree]
  refine (Makes.elem b!"blockquote" [] [nl] [] (by decide) (by decide) (T := fun t => t =
    if (lineGroups lines).length > 1 then
      (lineGroups lines).flatMap fun g => [.elem b!"p" [] [.text (escapeHtml (joinWith b!" " (g.map trim)))], nl]
    else lines.map fun l => .text (escapeHtml l ++ b!"\n")) (.choose (fun h => ?_) (fun h => ?_))).mono ?_
  · rw [if_pos (of_decide_eq_true h)]
    exact .put _ (by rw [render_flatMap]; simp [Html.renderAll, Html.render, renderAttrs, nl])
  · rw [if_neg (of_decide_eq_false h)]
    refine .put _ ?_
    have : (lines.map fun l => Html.text (escapeHtml l ++ b!"\n")) = lines.flatMap fun l => [Html.text (escapeHtml l ++ b!"\n")] := by
      simp [List.map_eq_flatMap]
    rw [this, render_flatMap]
    simp [Html.renderAll, Html.render]
  · rintro t ⟨ts, rfl, rfl⟩
    rfl

theorem defs_makes (items : List (Located TermDefs)) : Makes hs hs (defListHtml L c items) fun t =>
    ∃ ts, EachShows (TermShows L c hs) items ts ∧ t = [.elem b!"dl" [] (nl :: ts)] := by
  refine Makes.elem b!"dl" [] [nl] [] (by decide) (by decide) (.each items fun x _ => ?_)
  simp only [termHtml]
  have h1 := Makes.elem b!"dt" [] [] [nl] (s := b!"<dt>") (e := b!"</dt>\n") (by decide) (by decide)
    (Inline.htmlAll_makes (L := L) (c := c) hs x.inner.term.inner)
  have h2 : Makes hs hs (W.each (defHtml L c) x.inner.defs.inner) (EachShows (DefShows L c hs) x.inner.defs.inner) :=
    .each _ fun d _ => (Makes.elem b!"dd" [] [] [nl] (by decide) (by decide) (Inline.htmlAll_makes hs d.inner)).mono
      fun t h => by simpa [DefShows] using h
  have h3 := h1.seq h2
  simp only [seq_assoc] at h3
  refine h3.mono ?_
  rintro t ⟨x, y, rfl, ⟨ts, h4, rfl⟩, h5⟩
  exact ⟨ts, y, h4, h5, by simp⟩

/-! ## Headers -/

theorem pathTo_append (n m : Nat) (i t : Str) (h : n = 0 ∨ n < m) : Headers.pathTo (hs ++ [(m, t)]) n i = hs.pathTo n i := by
  unfold Headers.pathTo
  have : ∀ l : List Nat, (∀ k ∈ l, k < m) → l.filterMap (Headers.latest (hs ++ [(m, t)])) = l.filterMap hs.latest := by
    intro l
    induction l with
    | nil => intro _; rfl
    | cons k l ih =>
      intro hl
      have hk := hl k (by simp)
      rw [List.filterMap_cons, List.filterMap_cons, ih fun x hx => hl x (by simp [hx]), latest_append, if_neg (by omega)]
  rw [this]
  intro k hk
  have := List.mem_range'_1.1 hk
  omega

theorem joinWith_last (sep : Str) (l : List Str) (i : Str) (h : l ≠ []) : (joinWith sep (l ++ [i])).length = (joinWith sep l).length + sep.length + i.length := by
  induction l with
  | nil => exact absurd rfl h
  | cons x xs ih =>
    cases xs with
    | nil => simp [joinWith]; omega
    | cons y ys =>
      have := ih (by simp)
      simp only [List.cons_append, joinWith, List.length_append] at this ⊢
      omega

theorem pathTo_ne (n : Nat) (i : Str) : hs.pathTo n i ≠ i ↔ ∃ l, 1 ≤ l ∧ l < n + 1 ∧ (hs.latest l).isSome := by
  unfold Headers.pathTo
  cases hc : (List.range' 1 n).filterMap hs.latest with
  | nil =>
    rw [List.filterMap_eq_nil_iff] at hc
    simp only [List.nil_append, joinWith, ne_eq, not_true_eq_false, false_iff]
    rintro ⟨l, h1, h2, h3⟩
    rw [hc l (List.mem_range'_1.2 (by omega))] at h3
    cases h3
  | cons x xs =>
    have hx : x ∈ (List.range' 1 n).filterMap hs.latest := by rw [hc]; simp
    obtain ⟨l, h1, h2⟩ := List.mem_filterMap.1 hx
    have := List.mem_range'_1.1 h1
    refine ⟨fun _ => ⟨l, by omega, by omega, by rw [h2]; rfl⟩, fun _ he => ?_⟩
    have := congrArg List.length he
    rw [joinWith_last _ _ _ (by simp)] at this
    simp at this

theorem completeId_level (f : HFm) (level : Nat) (i : Str) : f.completeId level i = f.completeId (level - 1 + 1) i := by
  cases level <;> rfl

theorem plainHeader_makes (xs : Inlines) (level : Nat) (i u : Str) (hs : Headers) :
    Makes (hs ++ [(level, i)]) (hs ++ [(level, i)]) (plainHeader L c xs level i u) fun t =>
      ∃ ts, Inline.ShowsAll L c (hs ++ [(level, i)]) xs ts ∧
        Either (∃ l, 1 ≤ l ∧ l < level ∧ (hs.latest l).isSome)
        (∃ v, Variant (hs.pathTo (level - 1) i) v ∧
          t = [.elem b!"div" [(b!"id", v)] [.elem (b!"h" ++ decStr level) [(b!"id", u), (b!"class", b!"header")]
            [.elem b!"a" [(b!"href", b!"#" ++ v)] ts]]])
        (t = [.elem (b!"h" ++ decStr level) [(b!"id", u), (b!"class", b!"header")]
          [.elem b!"a" [(b!"href", b!"#" ++ u)] ts]]) := by
  have ih := Inline.htmlAll_makes (L := L) (c := c) (hs ++ [(level, i)]) xs
  have key : ∀ v, Makes (hs ++ [(level, i)]) (hs ++ [(level, i)])
      (W.put (b!"<h" ++ decStr (level) ++ b!" id=\"" ++ u ++ b!"\" class=\"header\">") ⊳
        W.put (b!"<a href=\"#" ++ v ++ b!"\">") ⊳ Inline.htmlAll L c xs ⊳
        W.put (b!"</a></h" ++ decStr (level) ++ b!">")) fun t => ∃ ts, Inline.ShowsAll L c (hs ++ [(level, i)]) xs ts ∧
        t = [.elem (b!"h" ++ decStr (level)) [(b!"id", u), (b!"class", b!"header")] [.elem b!"a" [(b!"href", b!"#" ++ v)] ts]] := by
    intro v
    have h := Makes.elem (b!"h" ++ decStr (level)) [(b!"id", u), (b!"class", b!"header")] [] [] rfl rfl
      (Makes.elem b!"a" [(b!"href", b!"#" ++ v)] [] [] rfl rfl ih)
    simp only [seq_assoc, ← put_append] at h
    intro f g hf hw
    refine h.mono ?_ f g hf ?_
    · rintro t ⟨ts, ⟨us, h1, rfl⟩, rfl⟩
      exact ⟨us, h1, by simp⟩
    · rw [← hw]
      simp [renderAttrs, Html.renderAll]
  intro f g hf hw
  simp only [plainHeader] at hw
  rw [completeId_level, completeId_path hf, pathTo_append _ _ _ _ (by omega)] at hw
  split at hw
  · rename_i hne
    have hex := (pathTo_ne (level - 1) i).1 hne
    have h := Makes.withId (i := hs.pathTo (level - 1) i) fun v =>
      Makes.elem b!"div" [(b!"id", v)] [] [] (s := b!"<div id=\"" ++ v ++ b!"\">") (e := b!"</div>")
        (by simp [renderAttrs, Html.renderAll]) (by decide) (key v)
    simp only [seq_assoc] at h
    refine h.mono ?_ f g hf hw
    rintro t ⟨v, h1, ts, ⟨us, h2, rfl⟩, rfl⟩
    exact ⟨us, h2, .inl ⟨by obtain ⟨l, h3, h4, h5⟩ := hex; exact ⟨l, h3, by omega, h5⟩, v, h1, by simp⟩⟩
  · rename_i hne
    have hex := mt (pathTo_ne (level - 1) i).2 hne
    refine (key u).mono ?_ f g hf hw
    rintro t ⟨us, h2, rfl⟩
    exact ⟨us, h2, .inr ⟨fun ⟨l, h3, h4, h5⟩ => hex ⟨l, h3, by omega, h5⟩, rfl⟩⟩

theorem headerHtml_makes (xs : Inlines) (level : Nat) :
    Makes hs (hs ++ [(level, normalizeId L.lower (Inline.displayAll L.toOutLib xs))]) (headerHtml L c xs level)
      (HeaderShows L c hs xs level) := by
  show Makes hs _ _ fun t => HeaderShows L c hs xs level t
  simp only [headerHtml]
  unfold HeaderShows
  dsimp only
  generalize normalizeId L.lower (Inline.displayAll L.toOutLib xs) = i
  refine (Makes.withId fun u => (Makes.insertHeader level i).seq (B := fun t =>
    ∃ ts, Inline.ShowsAll L c (hs ++ [(level, i)]) xs ts ∧ Either (level = 1 ∧ trim (Inline.displayAll L.toOutLib xs) = c.toc)
      (t = [.elem b!"div" [(b!"class", b!"toc")] [.elem b!"h1" [(b!"id", u)] ts]])
      (Either (∃ l, 1 ≤ l ∧ l < level ∧ (hs.latest l).isSome)
        (∃ v, Variant (hs.pathTo (level - 1) i) v ∧
          t = [.elem b!"div" [(b!"id", v)] [.elem (b!"h" ++ decStr level) [(b!"id", u), (b!"class", b!"header")]
            [.elem b!"a" [(b!"href", b!"#" ++ v)] ts]]])
        (t = [.elem (b!"h" ++ decStr level) [(b!"id", u), (b!"class", b!"header")]
          [.elem b!"a" [(b!"href", b!"#" ++ u)] ts]]))) (.choose (fun h => ?_) (fun h => ?_))).mono ?_
  · simp only [Bool.and_eq_true, beq_iff_eq] at h
    obtain ⟨rfl, h⟩ := h
    have h1 : decStr 1 = b!"1" := by decide +kernel
    have h2 := Makes.elem b!"div" [(b!"class", b!"toc")] [] [] rfl rfl
      (Makes.elem b!"h1" [(b!"id", u)] [] [] rfl rfl (Inline.htmlAll_makes (L := L) (c := c) (hs ++ [(1, i)]) xs))
    simp only [seq_assoc, ← put_append] at h2
    intro f g hf hw
    refine h2.mono ?_ f g hf ?_
    · rintro t ⟨ts, ⟨us, h3, rfl⟩, rfl⟩
      exact ⟨us, h3, .inl ⟨⟨rfl, h⟩, by simp⟩⟩
    · rw [← hw, h1]
      simp [renderAttrs, Html.renderAll]
  · have h : ¬ (level = 1 ∧ trim (Inline.displayAll L.toOutLib xs) = c.toc) := by simpa using h
    refine (plainHeader_makes xs level i u hs).mono ?_
    rintro t ⟨ts, h1, h2⟩
    exact ⟨ts, h1, .inr ⟨h, h2⟩⟩
  · rintro t ⟨u, h1, x, y, rfl, rfl, ts, h2, h3⟩
    exact ⟨u, ts, h1, h2, h3⟩

/-! ## Other blocks -/

theorem codeLines_put (lines : List Str) : codeLines lines = W.put (escapeHtml (joinWith b!"\n" lines)) := by
  induction lines with
  | nil => funext f; simp [codeLines, W.nop, W.put, joinWith, escapeHtml]
  | cons l ls ih =>
    cases ls with
    | nil => rfl
    | cons m ms =>
      simp only [codeLines, ih, ← put_append, joinWith, escapeHtml_append]
      rfl

theorem codeHtml_makes (lang : Option Str) (md : Map) (lines : List Str) :
    Makes hs hs (codeHtml L c lang md lines) (CodeShows L c lang md lines) := by
  intro f g hf hw
  simp only [codeHtml] at hw
  unfold CodeShows
  split at hw
  · rename_i hc
    simp only [hc, if_true]
    split at hw
    · cases hw
    · rename_i s hs
      rw [← put_append] at hw
      exact (Makes.put [.text (s ++ b!"</pre>")] (by simp [Html.renderAll, Html.render])).mono
        (fun t ht => ⟨s, hs, ht⟩) f g hf hw
  · rename_i hc
    simp only [if_neg hc]
    rw [codeLines_put] at hw
    simp only [← put_append] at hw
    refine Makes.put _ ?_ f g hf hw
    rw [flatMap_attrText md (fun e => e.1) (fun e => e.2)]
    cases lang with
    | none => simp [Html.renderAll, Html.render, renderAttrs]
    | some l => simp [Html.renderAll, Html.render, renderAttrs, attrText]

theorem mathHtml_makes (lines : List Str) (env : Option Str) :
    Makes hs hs (mathHtml lines env) (· = [.text (mathTree lines env)]) := by
  unfold mathHtml
  cases env with
  | none =>
    simp only [each_put, ← put_append]
    exact .put _ (by simp [Html.renderAll, Html.render, mathTree])
  | some e =>
    simp only [each_put, ← put_append]
    exact .put _ (by simp [Html.renderAll, Html.render, mathTree])

theorem placeholderHtml_makes (p : Placeholder) : Makes hs hs (placeholderHtml p) (· = []) := by
  intro f g hf hw
  cases p <;> cases hw <;> exact ⟨hf, [], by simp [Html.renderAll], rfl⟩

theorem paraLines_makes (lines : List Inlines) : Makes hs hs (paraLines L c lines) (ParaShows L c hs lines) := by
  induction lines with
  | nil => exact .nop
  | cons l ls ih =>
    cases ls with
    | nil => exact Inline.htmlAll_makes hs l
    | cons m ms =>
      simp only [paraLines]
      have h : Makes hs hs (W.put (if c.ignoreNewline then b!" " else b!"<br />"))
          (· = [if c.ignoreNewline then .text b!" " else .void b!"br" []]) := by
        refine .put _ ?_
        cases c.ignoreNewline <;> decide
      refine ((Inline.htmlAll_makes hs l).seq (h.seq ih)).mono ?_
      rintro t ⟨x, y, rfl, h1, z, w, rfl, rfl, h2⟩
      exact ⟨x, w, h1, h2, by simp⟩

theorem blank_iff (lines : List Inlines) : blankParagraph lines = true ↔ ∀ l ∈ lines, ∀ x ∈ l, ∃ y, x.inner = .comment y := by
  simp only [blankParagraph, List.all_eq_true]
  refine forall_congr' fun l => forall_congr' fun _ => forall_congr' fun x => forall_congr' fun _ => ?_
  cases x.inner <;> simp [Inline.isComment]

theorem paragraphHtml_makes (lines : List Inlines) : Makes hs hs (paragraphHtml L c lines) (ParagraphShows L c hs lines) := by
  have h1 := paraLines_makes (hs := hs) (L := L) (c := c) lines
  simp only [paragraphHtml]
  cases hb : blankParagraph lines with
  | true =>
    refine ((Makes.nop (hs := hs)).seq (h1.seq .nop)).mono ?_
    rintro t ⟨x, y, rfl, rfl, z, w, rfl, h2, rfl⟩
    exact ⟨z, h2, .inl ⟨(blank_iff lines).1 hb, by simp⟩⟩
  | false =>
    refine (Makes.elem b!"p" [] [] [] rfl rfl h1).mono ?_
    rintro t ⟨ts, h2, rfl⟩
    exact ⟨ts, h2, .inr ⟨fun h => (by rw [(blank_iff lines).2 h] at hb; cases hb), by simp⟩⟩

/-! ## Tables -/

theorem cell_makes (t : Table) (tag : Str) (r i : Nat) (xs : Inlines) (reg : Region) :
    Makes hs hs (cellHtml L c t tag (⟨r, i⟩, ⟨.content xs, reg⟩)) fun h =>
      ∃ ts, Inline.ShowsAll L c hs xs ts ∧ h = [.elem tag (spanAttrs t r i) ts, nl] := by
  have h := Makes.elem tag (spanAttrs t r i) [] [nl] rfl rfl (Inline.htmlAll_makes (L := L) (c := c) hs xs)
  simp only [cellHtml, spanAttr_render]
  simp only [← seq_assoc, ← put_append] at h ⊢
  intro f g hf hw
  refine h.mono ?_ f g hf ?_
  · rintro t ⟨ts, h1, rfl⟩
    exact ⟨ts, h1, by simp⟩
  · rw [← hw]
    simp [spanAttrs, renderAttrs_append, Html.renderAll, Html.render, nl]

theorem cells_makes (t : Table) (tag : Str) (r : Nat) (l : List (Located Cell)) : ∀ n i,
    (∀ j, j ≤ l.length → t.getCell r (i + j) = l[j]?) → l.length < n →
    Makes hs hs (W.each (cellHtml L c t tag) (drain (Table.withPos (fun col => ⟨r, col⟩) (t.rowNext r)) n i))
      (CellsShow L c hs t tag r i l) := by
  induction l with
  | nil =>
    intro n i hj hn
    obtain ⟨n, rfl⟩ : ∃ m, n = m + 1 := ⟨n - 1, by simp at hn; omega⟩
    have h0 := hj 0 (by simp)
    simp only [Nat.add_zero, List.getElem?_nil] at h0
    have : drain (Table.withPos (fun col => (⟨r, col⟩ : CellPos)) (t.rowNext r)) (n + 1) i = [] := by
      simp only [drain, Table.withPos, Table.rowNext, h0, Option.map_none]
    rw [this]
    exact .nop
  | cons x l ih =>
    intro n i hj hn
    obtain ⟨n, rfl⟩ : ∃ m, n = m + 1 := ⟨n - 1, by simp at hn; omega⟩
    have h0 := hj 0 (by simp)
    simp only [Nat.add_zero, List.getElem?_cons_zero] at h0
    have : drain (Table.withPos (fun col => (⟨r, col⟩ : CellPos)) (t.rowNext r)) (n + 1) i =
        (⟨r, i⟩, x) :: drain (Table.withPos (fun col => (⟨r, col⟩ : CellPos)) (t.rowNext r)) n (i + 1) := by
      simp only [drain, Table.withPos, Table.rowNext, h0, Option.map_some]
    rw [this]
    have ih := ih n (i + 1) (fun j hj' => by
      have := hj (j + 1) (by simpa using hj')
      rw [Nat.add_assoc, Nat.add_comm 1 j, this]
      simp) (by simpa using hn)
    obtain ⟨x, reg⟩ := x
    cases x with
    | content xs =>
      refine ((cell_makes t tag r i xs reg).seq ih).mono ?_
      rintro h ⟨x, y, rfl, ⟨ts, h1, rfl⟩, h2⟩
      exact ⟨ts, y, h1, h2, rfl⟩
    | span s =>
      refine ((Makes.nop (hs := hs)).seq ih).mono ?_
      rintro h ⟨x, y, rfl, rfl, h2⟩
      exact h2
    | align a =>
      refine ((Makes.nop (hs := hs)).seq ih).mono ?_
      rintro h ⟨x, y, rfl, rfl, h2⟩
      exact h2

theorem row_makes {t : Table} (ht : t.Built) (tag : Str) (r : Nat) :
    Makes hs hs (rowHtml L c t tag r) (RowShows L c hs t tag r) := by
  obtain ⟨l, h1, h2, h3⟩ := ht.row r
  have hc := cells_makes (hs := hs) (L := L) (c := c) t tag r l (t.colCnt + 1) 0 (by simpa using h3) (by omega)
  have hany : t.rowHasContent r = true ↔ ∃ x ∈ l, ∃ xs, x.inner = .content xs := by
    simp only [Table.rowHasContent, h1.drain (t.colCnt + 1) (by omega), List.any_eq_true]
    refine exists_congr fun x => and_congr_right fun _ => ?_
    cases x.inner <;> simp [Table.isContent]
  simp only [rowHtml]
  cases hb : t.rowHasContent r with
  | true =>
    refine (Makes.elem b!"tr" [] [nl] [nl] (by decide) (by decide) hc).mono ?_
    rintro h ⟨ts, h4, rfl⟩
    exact ⟨l, ts, h3, h4, .inl ⟨hany.1 hb, rfl⟩⟩
  | false =>
    have hno : ¬ ∃ x ∈ l, ∃ xs, x.inner = .content xs := fun h => by rw [hany.2 h] at hb; cases hb
    have hshow : ∀ l : List (Located Cell), (¬ ∃ x ∈ l, ∃ xs, x.inner = .content xs) → ∀ i, CellsShow L c hs t tag r i l [] := by
      intro l
      induction l with
      | nil => intro _ i; rfl
      | cons x l ih =>
        intro hx i
        have h5 := ih (fun ⟨y, hy, h⟩ => hx ⟨y, by simp [hy], h⟩) (i + 1)
        obtain ⟨x, reg⟩ := x
        cases x with
        | content xs => exact absurd ⟨⟨.content xs, reg⟩, by simp, xs, rfl⟩ hx
        | span s => exact h5
        | align a => exact h5
    refine (Makes.nop (hs := hs)).mono ?_
    rintro h rfl
    exact ⟨l, [], h3, hshow l hno 0, .inr ⟨hno, rfl⟩⟩

theorem sorted_length {n : Nat} (l : List Nat) : ∀ lo, l.Pairwise (· < ·) → (∀ x ∈ l, lo ≤ x ∧ x < n) → l.length ≤ n - lo := by
  induction l with
  | nil => intro lo _ _; simp
  | cons x l ih =>
    intro lo h hb
    have h1 := List.pairwise_cons.1 h
    have h2 := hb x (by simp)
    have := ih (x + 1) h1.2 fun y hy => ⟨h1.1 y hy, (hb y (by simp [hy])).2⟩
    simp
    omega

theorem tableHtml_makes {t : Table} (ht : t.Built) : Makes hs hs (tableHtml L c t) (TableShows L c hs t) := by
  obtain ⟨H, B, hH, hB, h1, h2, h3⟩ := C20_rows_partition t
  have hp := List.pairwise_append.1 h1
  have hHl : H.length ≤ t.rowCnt := by
    have := sorted_length (n := t.rowCnt) H 0 hp.1 fun x hx => ⟨by omega, ((h2 x).1 (by simp [hx])).1⟩
    omega
  have hBl : B.length ≤ t.rowCnt := by
    have := sorted_length (n := t.rowCnt) B 0 hp.2.1 fun x hx => ⟨by omega, ((h2 x).1 (by simp [hx])).1⟩
    omega
  have hsome : ∀ (next : Nat → Option Nat × Nat) (s : Nat) (l : List Nat), Yields next s l → ((next s).1.isSome = true ↔ l ≠ []) := by
    intro next s l h
    cases h with
    | done h => simp [h]
    | more h _ => simp [h]
  have part : ∀ (p tag : Str) (s e : Str) (b : Bool) (rows : List Nat), s = b!"<" ++ p ++ b!">" ++ b!"\n" →
      e = b!"</" ++ p ++ b!">" ++ b!"\n" → (b = true ↔ rows ≠ []) →
      Makes hs hs (W.choose b (W.put s ⊳ W.each (rowHtml L c t tag) rows ⊳ W.put e) W.nop) (PartShows L c hs t p tag rows) := by
    intro p tag s e b rows hs1 he hb
    have hr : Makes hs hs (W.each (rowHtml L c t tag) rows) (EachShows (RowShows L c hs t tag) rows) :=
      .each rows fun r _ => row_makes ht tag r
    cases b with
    | true =>
      refine (Makes.elem p [] [nl] [nl] ?_ ?_ hr).mono ?_
      · rw [hs1]; simp [renderAttrs, Html.renderAll, Html.render, nl]
      · rw [he]; simp [Html.renderAll, Html.render, nl]
      · rintro h ⟨ts, h4, rfl⟩
        exact ⟨ts, h4, by rw [if_neg (hb.1 rfl)]; rfl⟩
    | false =>
      have : rows = [] := Classical.byContradiction fun h => by cases hb.2 h
      subst this
      refine (Makes.nop (hs := hs)).mono ?_
      rintro h rfl
      exact ⟨[], rfl, rfl⟩
  have hd := part b!"thead" b!"th" b!"<thead>\n" b!"</thead>\n" _ H (by decide) (by decide) (hsome _ _ _ hH)
  have bd := part b!"tbody" b!"td" b!"<tbody>\n" b!"</tbody>\n" _ B (by decide) (by decide) (hsome _ _ _ hB)
  rw [← hH.drain (t.rowCnt + 1) (by omega)] at hd
  rw [← hB.drain (t.rowCnt + 1) (by omega)] at bd
  rw [hH.drain (t.rowCnt + 1) (by omega)] at hd
  simp only [tableHtml]
  rw [hH.drain (t.rowCnt + 1) (by omega), hB.drain (t.rowCnt + 1) (by omega)]
  rw [hB.drain (t.rowCnt + 1) (by omega)] at bd
  have h := Makes.elem b!"table" (if t.centered then [(b!"class", b!"center")] else []) [nl] []
    (s := if t.centered then b!"<table class=\"center\">\n" else b!"<table>\n") (e := b!"</table>")
    (by cases t.centered <;> decide) (by decide) (hd.seq bd)
  simp only [seq_assoc] at h
  refine h.mono ?_
  rintro x ⟨ts, ⟨a, b, rfl, h4, h5⟩, rfl⟩
  exact ⟨H, B, a, b, h1, h2, h3, h4, h5, by simp⟩

/-! ## All blocks -/

theorem listTag_eq (items : List (Located (ItemF Block))) : listTag items = if orderedItems items then b!"ol" else b!"ul" := by
  cases items with
  | nil => rfl
  | cons x xs =>
    obtain ⟨⟨ty, _, _, _, _⟩, _⟩ := x
    cases ty <;> rfl

theorem itemOpen_eq (todo : Option Todo) : itemOpen todo = b!"<li" ++ renderAttrs (todoAttrs todo) ++ b!">" := by
  cases todo with
  | none => decide
  | some t => cases t <;> decide

mutual
theorem Block.html_makes : ∀ (x : Block), x.Valid → ∀ hs, Makes hs (hs ++ x.headers L) (Block.html L c x) (Block.Shows L c hs x)
  | .blockquote ls, _, hs => by
    simp only [Block.headers, List.append_nil]; exact quoteHtml_makes ls
  | .code lang md ls, _, hs => by
    simp only [Block.headers, List.append_nil]; exact codeHtml_makes lang md ls
  | .defs items, _, hs => by
    simp only [Block.headers, List.append_nil]; exact defs_makes items
  | .divider, _, hs => by
    simp only [Block.headers, List.append_nil]; exact Makes.put (s := b!"<hr />") [.void b!"hr" []] (by decide)
  | .header xs level _, _, hs => headerHtml_makes xs level
  | .list items, h, hs => by
    have h1 := Block.htmlItems_makes items h hs
    refine (Makes.elem (listTag items) [] [nl] [] ?_ ?_ h1).mono ?_
    · rw [listTag_eq]; cases orderedItems items <;> decide
    · rw [listTag_eq]; cases orderedItems items <;> decide
    · rintro t ⟨ts, h2, rfl⟩
      exact ⟨ts, h2, rfl⟩
  | .math ls env, _, hs => by
    simp only [Block.headers, List.append_nil]; exact mathHtml_makes ls env
  | .paragraph ls, _, hs => by
    simp only [Block.headers, List.append_nil]; exact paragraphHtml_makes ls
  | .placeholder p, _, hs => by
    simp only [Block.headers, List.append_nil]; exact placeholderHtml_makes p
  | .table t, h, hs => by
    simp only [Block.headers, List.append_nil]; exact tableHtml_makes (Table.Valid.built h)
theorem Block.htmlItems_makes : ∀ (xs : List (Located (ItemF Block))), Block.ValidItems xs → ∀ hs,
    Makes hs (hs ++ Block.headersItems L xs) (Block.htmlItems L c xs) (Block.ShowsItems L c hs xs)
  | [], _, hs => by
    simp only [Block.headersItems, List.append_nil]; exact Makes.nop
  | ⟨⟨_, _, _, cs, todo⟩, _⟩ :: xs, h, hs => by
    have h1 := Block.htmlContents_makes cs h.1 hs
    have h2 := Block.htmlItems_makes xs h.2 (hs ++ Block.headersAll L cs)
    have h3 := (Makes.elem b!"li" (todoAttrs todo) [] [nl] (s := itemOpen todo) (e := b!"</li>" ++ b!"\n")
      (by simp [itemOpen_eq, Html.renderAll]) (by decide) h1).seq h2
    simp only [seq_assoc, put_append] at h3
    rw [List.append_assoc] at h3
    refine h3.mono ?_
    rintro t ⟨x, y, rfl, ⟨ts, h4, rfl⟩, h5⟩
    exact ⟨ts, y, h4, h5, by simp⟩
theorem Block.htmlContents_makes : ∀ (xs : List (Located Block)), Block.Valids xs → ∀ hs,
    Makes hs (hs ++ Block.headersAll L xs) (Block.htmlContents L c xs) (Block.ShowsContents L c hs xs)
  | [], _, hs => by
    simp only [Block.headersAll, List.append_nil]; exact Makes.nop
  | ⟨x, _⟩ :: xs, h, hs => by
    have h3 := (Block.html_makes x h.1 hs).seq (Block.htmlContents_makes xs h.2 (hs ++ x.headers L))
    rw [List.append_assoc] at h3
    exact h3
end

theorem blocks_makes : ∀ (xs : List (Located Block)), Block.Valids xs → ∀ hs,
    Makes hs (hs ++ Block.headersAll L xs) (W.each (fun x => Block.html L c x.inner ⊳ W.put b!"\n") xs) (BlocksShow L c hs xs)
  | [], _, hs => by
    simp only [Block.headersAll, List.append_nil]; exact Makes.nop
  | ⟨x, _⟩ :: xs, h, hs => by
    have h3 := ((Block.html_makes (c := c) x h.1 hs).seq (Makes.put (hs := hs ++ x.headers L) (s := b!"\n") [nl] (by decide))).seq
      (blocks_makes xs h.2 (hs ++ x.headers L))
    rw [List.append_assoc] at h3
    refine h3.mono ?_
    rintro t ⟨a, b, rfl, ⟨u, v, rfl, h4, rfl⟩, h5⟩
    exact ⟨u, b, h4, h5, rfl⟩

/-! ## Sections -/

theorem range_filter (l n : Nat) (h : l ≤ n) : (List.range' 1 n).filter (fun k => decide (k < l + 1)) = List.range' 1 l := by
  obtain ⟨m, rfl⟩ := Nat.exists_eq_add_of_le h
  rw [← List.range'_append_1, List.filter_append]
  rw [List.filter_eq_self.2 fun k hk => by have := List.mem_range'_1.1 hk; simp; omega]
  rw [List.filter_eq_nil_iff.2 fun k hk => by have := List.mem_range'_1.1 hk; simp; omega, List.append_nil]

theorem filter_lt_filterMap (g : Nat → Option Str) (l : List Nat) (k : Nat) :
    (l.filterMap fun j => (g j).map fun t => (j, t)).filter (fun e => decide (e.1 < k)) =
      (l.filter fun j => decide (j < k)).filterMap fun j => (g j).map fun t => (j, t) := by
  induction l with
  | nil => rfl
  | cons j l ih =>
    cases hj : g j with
    | none =>
      by_cases hk : j < k <;> simp [hj, hk, ih]
    | some t =>
      by_cases hk : j < k <;> simp [hj, hk, ih]

theorem latest_levels (l : Nat) (i : Str) (k : Nat) (hk : k < l) :
    (List.range' 1 k).filterMap (fun j => (Headers.latest (hs ++ [(l, i)]) j).map fun t => (j, t)) =
      (List.range' 1 k).filterMap fun j => (hs.latest j).map fun t => (j, t) := by
  have : ∀ r : List Nat, (∀ j ∈ r, j < l) → r.filterMap (fun j => (Headers.latest (hs ++ [(l, i)]) j).map fun t => (j, t)) =
      r.filterMap fun j => (hs.latest j).map fun t => (j, t) := by
    intro r
    induction r with
    | nil => intro _; rfl
    | cons j r ih =>
      intro hr
      have hj := hr j (by simp)
      rw [List.filterMap_cons, List.filterMap_cons, ih fun x hx => hr x (by simp [hx]), latest_append, if_neg (by omega)]
  refine this _ fun j hj => ?_
  have := List.mem_range'_1.1 hj
  omega

theorem Headers.NoSkip.spec {n : Nat} (h : Headers.NoSkip hs n) :
    hs.sections = ((List.range' 1 n).filterMap fun j => (hs.latest j).map fun t => (j, t)) ∧
      ∀ j, 1 ≤ j → j ≤ n → (hs.latest j).isSome := by
  induction h with
  | nil => exact ⟨rfl, fun j h1 h2 => by omega⟩
  | @snoc hs n l i h h1 h2 ih =>
    obtain ⟨k, rfl⟩ : ∃ k, l = k + 1 := ⟨l - 1, by omega⟩
    refine ⟨?_, fun j h3 h4 => ?_⟩
    · rw [Headers.sections, List.foldl_append]
      change Headers.enter hs.sections (k + 1, i) = _
      rw [Headers.enter, ih.1, filter_lt_filterMap, range_filter k n (by omega), ← List.range'_append_1,
        List.filterMap_append, latest_levels (k + 1) i k (by omega)]
      simp [latest_append, Nat.add_comm]
    · rw [latest_append]
      split
      · rfl
      · exact ih.2 j h3 (by omega)

theorem Headers.NoSkip.path {n : Nat} (h : Headers.NoSkip hs n) {l : Nat} (hl : l ≤ n + 1) (i : Str) :
    hs.pathTo (l - 1) i = hs.sectionPath l i := by
  have key : ∀ r : List Nat, (r.filterMap fun j => (hs.latest j).map fun t => (j, t)).map (·.2) = r.filterMap hs.latest := by
    intro r
    induction r with
    | nil => rfl
    | cons j r ih =>
      cases hj : hs.latest j with
      | none => simp [hj, ih]
      | some t => simp [hj, ih]
  unfold Headers.pathTo Headers.sectionPath
  rw [h.spec.1, filter_lt_filterMap]
  cases l with
  | zero =>
    rw [List.filter_eq_nil_iff.2 fun j _ => by simp]
    rfl
  | succ k => rw [range_filter k n (by omega), key]; rfl

theorem BlocksShow.split (pre : List (Located Block)) (x : Located Block) (post : List (Located Block)) :
    ∀ (hs : Headers) (t : List Html), BlocksShow L c hs (pre ++ x :: post) t →
    ∃ a m b, t = a ++ m ++ b ∧ Block.Shows L c (hs ++ Block.headersAll L pre) x.inner m := by
  induction pre with
  | nil =>
    rintro hs t ⟨m, b, h1, _, rfl⟩
    exact ⟨[], m, [nl] ++ b, by simp, by simpa [Block.headersAll] using h1⟩
  | cons y pre ih =>
    rintro hs t ⟨u, v, _, h2, rfl⟩
    obtain ⟨a, m, b, rfl, h3⟩ := ih _ _ h2
    exact ⟨u ++ [nl] ++ a, m, b, by simp, by simpa [Block.headersAll] using h3⟩

end Vw
