import Verif.Lemmas.InlineRun
import Verif.Lemmas.Pieces
import Verif.Spec.Demo

/-!
# Properties of inline elements (C13, C14)
-/

namespace Vw

set_option maxRecDepth 20000

/-! ## C13 -/

/-- The text begins with a terminated multi-line comment. -/
def MultiComment (text : Str) : Prop := ∃ body r, text = b!"%%+" ++ (body ++ (b!"+%%" ++ r))

theorem firstAfter_exists {pat t : Str} (hp : pat ≠ []) (h : pat <:+: t) :
    ∃ c r, t = c ++ (pat ++ r) ∧ FirstAfter pat c r := by
  have key := offset_res pat t hp
  cases hm : Scan.offsetLoop pat t (memchrIter (fun b => b == pat.headD 0) t) with
  | none =>
    rw [hm] at key
    obtain ⟨c, r, e⟩ := h
    exact absurd (by rw [← e, List.append_assoc]; exact at_append _ _ _) (key c.length)
  | some n =>
    rw [hm] at key
    obtain ⟨h1, h2⟩ := key
    obtain ⟨c, r, e, hc⟩ := h1.split (by have := h1.le hp; omega)
    refine ⟨c, r, e, fun c' r' e' => ?_⟩
    apply Classical.byContradiction
    intro hn
    refine h2 c'.length (by omega) ?_
    rw [e, e']
    exact at_append _ _ _

/-- C13 for the element parser, what holds: on every text, `parse::<Comment>` gives
the multi-line comment up to the first terminator if the text begins with a
terminated one, and holds its lines; otherwise, if the text begins with the marker of
line comments, a line comment with exactly the rest of the line; otherwise it fails.
(C13 asks that the lines joined by newlines are the text of the comment; a last line
break is not kept and `\r\n` becomes a line end.) -/
theorem C13_comments_partial (text : Str) :
    (MultiComment text → ∃ body r ls, text = b!"%%+" ++ (body ++ (b!"+%%" ++ r)) ∧
      FirstAfter b!"+%%" body r ∧ LinesOf body ls ∧
      ∃ s', comment (Span.ofStr text) = .ok s' ⟨.comment (.multi ls), ⟨0, body.length + 6, 0⟩⟩) ∧
    (¬ MultiComment text → ∀ l r, text = b!"%%" ++ (l ++ r) → LineSplit l r →
      ∃ s', comment (Span.ofStr text) = .ok s' ⟨.comment (.line l), ⟨0, l.length + 2, 0⟩⟩) ∧
    (¬ b!"%%" <+: text → comment (Span.ofStr text) = .err) := by
  have hv := View.ofStr text
  refine ⟨?_, ?_, ?_⟩
  · rintro ⟨body, r, rfl⟩
    obtain ⟨c, r', e, hf⟩ := firstAfter_exists (pat := b!"+%%") (t := body ++ (b!"+%%" ++ r)) (by simp)
      ⟨body, r, by simp⟩
    rw [e] at hv ⊢
    obtain ⟨ls, h1, h2⟩ := multiLineComment_run hv hf
    exact ⟨c, r', ls, rfl, hf, h1, _, alt_ok h2⟩
  · intro hm l r he hl
    have hme : multiLineComment (Span.ofStr text) = .err := by
      refine located_er ?_
      by_cases hp : b!"%%+" <+: text
      · obtain ⟨t, rfl⟩ := hp
        rw [bind_ok (tag_run hv)]
        refine bind_er (mapParser_er (takeUntil_run_err hv.adv (by simp) ?_))
        rintro ⟨c, q, e⟩
        exact hm ⟨c, q, by rw [← e]; simp⟩
      · exact bind_er (tag_run_err hv hp)
    subst he
    exact ⟨_, (alt_er hme).trans (lineComment_run hv hl)⟩
  · intro hn
    refine (alt_er (located_er (bind_er (tag_run_err hv ?_)))).trans
      (located_er (bind_er (tag_run_err hv hn)))
    rintro ⟨t, e⟩
    exact hn ⟨b!"+" ++ t, by rw [← e]; simp⟩

/-- Both kinds of text exist: an unterminated multi-line comment is a line comment. -/
example : MultiComment b!"%%+ a\nb +%% c +%%" ∧ ¬ MultiComment b!"%%+ a\nb" ∧
    LineSplit b!"+ a" b!"\nb" := by
  refine ⟨⟨b!" a\nb ", b!" c +%%", rfl⟩, ?_, by decide, .inr (.inl ⟨_, rfl, by decide⟩)⟩
  rintro ⟨body, r, h⟩
  have h : b!" a\nb" = body ++ (b!"+%%" ++ r) := by simpa using h
  have : c!"+" ∈ b!" a\nb" := by rw [h]; simp
  exact absurd this (by decide)

/-- C13 in a page: a multi-line comment ends at the first terminator after its opening
and holds the lines between; a line comment is on one line. -/
theorem C13_comments_in_page {env : Env} {text : Str} {s : Span} {pg : Page}
    (h : parsePage env text = .ok s pg) {c : Comment} {r : Region}
    (hc : ⟨.comment c, r⟩ ∈ pg.inlines) :
    (∃ l, c = .line l ∧ r.source text = b!"%%" ++ l ∧ 10 ∉ l) ∨
    ∃ ls body, c = .multi ls ∧ r.source text = b!"%%+" ++ body ++ b!"+%%" ∧
      FirstAfter b!"+%%" body [] ∧ LinesOf body ls := by
  have hp := parsePage_piece h hc
  rcases hp.what with hw | ⟨_, _, he, _⟩
  · cases c with
    | line l => exact .inl ⟨l, rfl, hw.1, hw.2⟩
    | multi ls =>
      obtain ⟨body, h1, h2, h3⟩ := hw
      refine .inr ⟨ls, body, rfl, h1, ?_, h3⟩
      intro c' r' e
      apply Classical.byContradiction
      intro hn
      have hlen := congrArg List.length e
      have : ∃ u, body = c' ++ u := by
        refine ⟨body.drop c'.length, ?_⟩
        have := congrArg (List.take c'.length) e
        rw [List.take_append_of_le_length (by omega), List.take_append_of_le_length (by omega),
          List.take_length] at this
        exact (congrArg (· ++ body.drop c'.length) this ▸ (List.take_append_drop _ _).symm)
      obtain ⟨u, rfl⟩ := this
      simp only [List.append_assoc, List.append_cancel_left_eq, List.append_nil] at e
      simp at hn
      match u, e with
      | [], _ => simp at hn
      | [x], e => simp at e
      | [x, y], e => simp at e
      | x :: y :: z :: v, e =>
        simp at e
        obtain ⟨rfl, rfl, rfl, -⟩ := e
        exact h2 ⟨c', v, by simp⟩
  · cases he

/-- A comment over three lines inside a paragraph. -/
example : ∃ s pg, parsePage demo b!"a %%+b\nc\n\n+%% d %% e\n" = .ok s pg ∧
    pg.inlines.filterMap (fun x => x.inner.comment?) =
      [.multi [b!"b", b!"c", b!""], .line b!" e"] := page_test _ (by decide +kernel)

/-- The lines of a comment joined by newlines are not always its text. -/
theorem C13_violated : ∃ s', comment (Span.ofStr b!"%%+a\n+%%") =
    .ok s' ⟨.comment (.multi [b!"a"]), ⟨0, 8, 0⟩⟩ := ⟨_, rfl⟩

/-! ## C14 -/

/-- The delimiters of an inline element, if it is of a delimited form. -/
def Inline.delims : Inline → Option (Str × Str)
  | .code _ => some (b!"`", b!"`")
  | .math _ => some (b!"$", b!"$")
  | .decorated k _ => some (k.delim, k.delim)
  | .link (.raw _) => none
  | .link (.transclusion _) => some (b!"{{", b!"}}")
  | .link _ => some (b!"[[", b!"]]")
  | _ => none

/-- C14, what is captured: every delimited element of a page is its opening
delimiter, the shortest non-empty body on one line that is followed by the closing
delimiter, and that delimiter; the body holds no comment marker. The body of code and
math is exactly their content. -/
theorem C14_bodies_partial {env : Env} {text : Str} {s : Span} {pg : Page}
    (h : parsePage env text = .ok s pg) {x : Located Inline} (hx : x ∈ pg.inlines) {L R : Str}
    (hd : x.inner.delims = some (L, R)) :
    ∃ c, Between (x.region.source text) L R c ∧
      (∀ c', x.inner = .code c' ∨ x.inner = .math c' → c' = c) := by
  have hp := parsePage_piece h hx
  obtain ⟨x, r⟩ := x
  rcases hp.what with hw | ⟨kind, ys, he, _, c, hb⟩
  · cases x with
    | code c => cases hd; exact ⟨c, BracketOk.between hw, by rintro _ (e | e) <;> cases e; rfl⟩
    | math c => cases hd; exact ⟨c, BracketOk.between hw.1, by rintro _ (e | e) <;> cases e; rfl⟩
    | link l =>
      cases l with
      | raw d => cases hd
      | _ =>
        cases hd
        obtain ⟨⟨c, hc, -⟩, -⟩ := hw
        exact ⟨c, hc.between, by rintro _ (e | e) <;> cases e⟩
    | decorated k ys => exact hw.elim
    | _ => cases hd
  · simp only at he
    subst he
    cases hd
    exact ⟨c, hb.between, by rintro _ (e | e) <;> cases e⟩

/-- Elements of four delimited forms. -/
example : ∃ s pg, parsePage demo b!"`a` $b$ *c* ,,d,, [[e]] {{f}}" = .ok s pg ∧
    (pg.inlines.filterMap (fun x => x.inner.delims)).length = 6 := page_test _ (by decide +kernel)

theorem bracket_text {env : Env} {text : Str} {n : Nat} {L c : Str} {ch : Byte}
    (h : BracketOk (Ctx.ofText env text) 0 n L [ch] c) :
    ∃ r, text = L ++ (c ++ ([ch] ++ r)) ∧ ShortestBody [ch] c r := by
  refine ⟨text.drop n, ?_, ?_⟩
  · have h1 : text.take n = L ++ c ++ [ch] := h.eq
    have h2 := List.take_append_drop n text
    rw [h1] at h2
    exact h2.symm.trans (by simp)
  · intro c' r' hne e
    apply Classical.byContradiction
    intro hn
    refine h.first c'.length (List.length_pos_iff.2 hne) (by omega) (at_singleton.2 ?_)
    have h3 := congrArg (·[c'.length]?) e
    rw [List.getElem?_append_left (by omega), List.getElem?_append_right (by omega)] at h3
    rw [List.getElem?_append_left (by omega), h3]
    simp

/-- C14, recognition of code: on any text, `parse::<CodeInline>` succeeds iff the text
begins with a back tick, a shortest non-empty body on one line without comment marker,
and a back tick; the body is the content. -/
theorem C14_code_recognised (text c : Str) :
    (∃ s' r, codeInline (Span.ofStr text) = .ok s' ⟨.code c, r⟩) ↔
      ∃ r, text = b!"`" ++ (c ++ (b!"`" ++ r)) ∧ c ≠ [] ∧ 10 ∉ c ∧ ShortestBody b!"`" c r ∧
        ¬ b!"%%" <:+: c := by
  constructor
  · rintro ⟨s', r, h⟩
    have hk := (ok_of_run (codeInline_ok (Ctx.ofText_in demo text)) h).tile
    cases hk with
    | leaf h1 h2 h3 h4 h5 h6 =>
      have h5 : BracketOk _ 0 _ _ _ _ := h5
      obtain ⟨r, e, hs⟩ := bracket_text h5
      exact ⟨r, e, h5.ne, h5.noNl, hs, h5.noComment⟩
  · rintro ⟨r, rfl, hc, h10, hs, hn⟩
    exact ⟨_, _, codeInline_run (View.ofStr _) hc h10 hs hn⟩

/-- A body that begins with the delimiter. -/
example : ShortestBody b!"`" b!"`a" b!" b` c" := by
  intro c' r' hne e
  match c', hne, e with
  | [x], _, e => simp at e
  | x :: y :: z, _, _ => simp

/-- C14, recognition of math: on any text, `parse::<MathInline>` succeeds iff the text
begins with a dollar sign, a non-empty body on one line without dollar sign and comment
marker, and a dollar sign; the body is the content. -/
theorem C14_math_recognised (text c : Str) :
    (∃ s' r, mathInline (Span.ofStr text) = .ok s' ⟨.math c, r⟩) ↔
      ∃ r, text = b!"$" ++ (c ++ (b!"$" ++ r)) ∧ c ≠ [] ∧ 10 ∉ c ∧ c!"$" ∉ c ∧
        ¬ b!"%%" <:+: c := by
  constructor
  · rintro ⟨s', r, h⟩
    have hk := (ok_of_run (mathInline_ok (Ctx.ofText_in demo text)) h).tile
    cases hk with
    | leaf h1 h2 h3 h4 h5 h6 =>
      have h5 : BracketOk _ 0 _ _ _ _ ∧ _ := h5
      obtain ⟨h5, hd⟩ := h5
      obtain ⟨r, e, hs⟩ := bracket_text h5
      exact ⟨r, e, h5.ne, h5.noNl, hd, h5.noComment⟩
  · rintro ⟨r, rfl, hc, h10, hs, hn⟩
    exact ⟨_, _, mathInline_run (View.ofStr _) hc h10 hs hn⟩

/-- Two texts of delimited form that are not recognised: math whose shortest body
begins with the delimiter, and bold text around code. -/
theorem C14_violated :
    (ShortestBody b!"$" b!"$a" [] ∧ ∀ s' x, mathInline (Span.ofStr b!"$$a$") ≠ .ok s' x) ∧
    ShortestBody b!"*" b!"`b`" [] ∧ ∀ s' x, decoratedText demo (Span.ofStr b!"*`b`*") ≠ .ok s' x := by
  refine ⟨⟨?_, ?_⟩, ?_, ?_⟩
  · intro c' r' hne e
    match c', hne, e with
    | [x], _, e => simp at e
    | x :: y :: z, _, _ => simp
  · have : mathInline (Span.ofStr b!"$$a$") = .err := by rfl
    rw [this]; intro _ _ h; cases h
  · intro c' r' hne e
    match c', hne, e with
    | [x], _, e => simp at e
    | [x, y], _, e => simp at e
    | x :: y :: z :: t, _, _ => simp
  · have : (decoratedText demo (Span.ofStr b!"*`b`*")).isErr = true := by decide +kernel
    intro _ _ h; rw [h] at this; cases this

end Vw
