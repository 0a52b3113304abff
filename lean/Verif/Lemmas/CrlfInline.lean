import Verif.Lemmas.CrlfPrims
import Verif.Spec.Equality

/-!
# Inline elements of a text with other line endings
-/

namespace Vw
open P Scan
open Mv (All Opt Both)
namespace Cr

variable {M : Cr} {α β γ : Type} {env : Env}

/-- The same inline element, but for the places in it. -/
def Inl (x y : Inline) : Prop := y.erase = x.erase

/-- The same inline elements, but for the places in them. -/
def Inls (x y : Inlines) : Prop := Inline.erases y = Inline.erases x

theorem Inl.rfl {x : Inline} : Inl x x := Eq.refl _

theorem inls {xs ys : Inlines} (h : All (M.Loc Inl) xs ys) : Inls xs ys := by
  unfold Inls
  induction h with
  | nil => exact Eq.refl _
  | @cons a b as bs h _ ih =>
    cases a; cases b
    obtain ⟨h1, h2⟩ := h
    simp only [Inl] at h1 h2
    rw [Inline.erases, Inline.erases, h1, ih]

namespace Par

theorem mapParserL {S : β → β → Prop} {p q : P Span} {p' q' : P β} (hp : M.Par M.Line p q)
    (hq : M.Par S p' q') : M.Par S (P.mapParser p p') (P.mapParser q q') := mapParser hp fun a b h => hq a b h.1

theorem fuel {R : α → α → Prop} {p q : Nat → P α} (h : ∀ n m, M.Par R (p n) (q m)) (f : Nat → Nat) :
    M.Par R (fun s => p (f s.remainingLen) s) (fun s => q (f s.remainingLen) s) :=
  fun s t hs => h _ _ s t hs

/-- A loop ends where its parser fails. -/
theorem loop_stop {p : P α} : ∀ (n : Nat) (s s' : Span) (xs : List α), P.many0Loop p n s = .ok s' xs → p s' = .err
  | 0, _, _, _, h => by cases h
  | n + 1, s, s', xs, h => by
    unfold P.many0Loop at h
    cases h1 : p s with
    | err => rw [h1] at h; cases h; exact h1
    | panic => rw [h1] at h; cases h
    | diverge => rw [h1] at h; cases h
    | ok s1 a =>
      rw [h1] at h
      dsimp only at h
      split at h
      · cases h
      · cases hl : P.many0Loop p n s1 with
        | ok s2 as => rw [hl] at h; cases h; exact loop_stop n s1 s' as hl
        | err => rw [hl] at h; cases h
        | panic => rw [hl] at h; cases h
        | diverge => rw [hl] at h; cases h

/-- A line with its end can be read where there is an end of line. -/
theorem line_ends {s : Span} (hn : 13 ∉ s.asRemaining) (h : P.terminated (Scan.strOf Scan.takeUntilEol) P.lineEnding s = .err) :
    10 ∉ s.asRemaining := by
  obtain ⟨l, hl, e | ⟨r, e⟩⟩ := line_split s.asRemaining
  · rw [e]; exact hl
  · exfalso
    rw [e] at hn
    have h13 : 13 ∉ l := fun hm => hn (by simp [hm])
    have hle : l.length ≤ s.asRemaining.length := by rw [e, List.length_append]; omega
    have h1 : Scan.strOf Scan.takeUntilEol s = .ok (s.sliceFrom l.length) (s.sliceTo l.length).asRemaining := by
      unfold Scan.strOf P.mapParser Scan.takeUntilEol
      dsimp only
      rw [e, memchr_nl hl]
      dsimp only
      rw [crAdjust_nl h13]
      rfl
    have hr : (s.sliceFrom l.length).asRemaining = 10 :: r := by
      rw [sliceFrom_remaining hle, e, List.drop_left]
    have h2 : P.lineEnding (s.sliceFrom l.length) = .ok ((s.sliceFrom l.length).sliceFrom 1) ((s.sliceFrom l.length).sliceTo 1) := by
      simp [P.lineEnding, P.alt, P.tag, hr, List.isPrefixOf, P.takeSplit]
    unfold P.terminated P.bind at h
    rw [h1] at h
    dsimp only at h
    rw [h2] at h
    cases h

theorem commentRest (ls : List Str) : M.ParL Eq
    (P.bind P.restLen fun n => if n > 0 then P.map (Scan.strOf P.rest) (fun l => ls ++ [l]) else P.pure ls)
    (P.bind P.restLen fun n => if n > 0 then P.map (Scan.strOf P.rest) (fun l => ls ++ [l]) else P.pure ls) := by
  intro s t hs
  unfold P.bind P.restLen
  dsimp only
  rw [hs.remaining]
  split
  · unfold P.map Scan.strOf P.mapParser P.rest Scan.cowStr
    dsimp only
    rw [hs.remaining]
    exact .ok (hs.1.sliceFrom (hs.img (Nat.le_refl _))) rfl
  · exact .ok hs.1 rfl

theorem commentLines : M.Par Eq Vw.commentLines Vw.commentLines := by
  intro s t hs
  have h := many0E (M := M) (terminated (strOf takeUntilEol) lineEnding) s t hs
  unfold Vw.commentLines
  rw [P.bind, P.bind]
  revert h
  generalize hx : P.many0 (P.terminated (Scan.strOf Scan.takeUntilEol) P.lineEnding) s = x
  generalize P.many0 (P.terminated (Scan.strOf Scan.takeUntilEol) P.lineEnding) t = y
  intro h
  cases h with
  | @ok s' t' a b h1 h2 =>
    subst h2
    exact commentRest a s' t' ⟨h1, line_ends h1.no (loop_stop _ _ _ _ hx)⟩
  | err => exact .err
  | panic => exact .panic
  | left => exact .left
  | right => exact .right

theorem codeInline : M.Par (M.Loc Inl) Vw.codeInline Vw.codeInline :=
  located (mapE (strOf (notContains _ (surroundInLine1 (by decide) (by decide) (by decide) (by decide)))) fun _ => rfl)

theorem mathInline : M.Par (M.Loc Inl) Vw.mathInline Vw.mathInline :=
  located (mapE (strOf (delimited (char (by decide) (by decide)) (notContains _ (takeLineUntil1 (by decide) (by decide) (by decide))) (char (by decide) (by decide)))) fun _ => rfl)

theorem tagContent : M.Par Eq Vw.tagContent Vw.tagContent := strOf (takeLineUntil31 (by decide) (by decide) (by decide) (by decide) (by decide) (by decide))

theorem tagsInner : M.Par Eq Vw.tagsInner Vw.tagsInner :=
  bind_ (char (by decide) (by decide)) (many1E (terminated tagContent (char (by decide) (by decide))))

theorem tags : M.Par (M.Loc Inl) Vw.tags Vw.tags :=
  located (mapE (mapParserL wholeWord tagsInner) fun _ => rfl)

theorem lineComment : M.Par (M.Loc Inl) Vw.lineComment Vw.lineComment :=
  located (bind_ (tag (by decide)) (mapE (strOf takeUntilEol) fun _ => rfl))

theorem multiLineComment : M.Par (M.Loc Inl) Vw.multiLineComment Vw.multiLineComment :=
  located (bind_ (tag (by decide)) (bindE (mapParser (takeUntil (by decide)) commentLines) fun _ => bind_ (tag (by decide)) (pure rfl)))

theorem comment : M.Par (M.Loc Inl) Vw.comment Vw.comment := alt multiLineComment lineComment

theorem keyword : M.Par (M.Loc Inl) Vw.keyword Vw.keyword :=
  located (alts_cons (value (tag (by decide)) rfl) rfl (alts_cons (value (tag (by decide)) rfl) rfl (alts_cons (value (tag (by decide)) rfl) rfl
    (alts_cons (value (tag (by decide)) rfl) rfl (alts_cons (value (tag (by decide)) rfl) rfl (alts_cons (value (tag (by decide)) rfl) rfl alts_nil))))))

theorem uriRef : M.Par Eq (Vw.uriRef env) (Vw.uriRef env) :=
  mapOptE uriText fun _ _ h => by rw [h.remaining]

theorem rawLink : M.Par (M.Loc Inl) (Vw.rawLink env) (Vw.rawLink env) :=
  located (mapE (verify uriRef fun _ _ h => by rw [h]) fun _ => rfl)

theorem linkUriRef : M.Par Eq (Vw.linkUriRef env) (Vw.linkUriRef env) :=
  mapOptE (takeLineUntil31 (by decide) (by decide) (by decide) (by decide) (by decide) (by decide)) fun _ _ h => by rw [h.remaining]

theorem linkProperties : M.Par Eq Vw.linkProperties Vw.linkProperties :=
  bind_ (tag (by decide)) (mapE ((separatedList1 space1 ((separatedPair (strOf (takeLineUntil1 (by decide) (by decide) (by decide))) (tag (by decide))
    (strOf (delimited (tag (by decide)) (takeLineUntil (by decide) (by decide) (by decide)) (tag (by decide))))).mono fun _ _ => Both.eq)).mono fun _ _ => All.eq) fun _ => rfl)

theorem braces : M.Par M.Line Vw.braces Vw.braces := notContains _ (surroundInLine1 (by decide) (by decide) (by decide) (by decide))

theorem brackets : M.Par M.Line Vw.brackets Vw.brackets := notContains _ (surroundInLine1 (by decide) (by decide) (by decide) (by decide))

theorem transclusionOf {p q : P LinkData} (hp : M.Par Eq p q) :
    M.Par (M.Loc Eq) (Vw.transclusionOf p) (Vw.transclusionOf q) := located (mapParserL braces hp)

theorem linkDescriptionOf {p q : P LinkData} (hp : M.Par Eq p q) :
    M.Par Eq (Vw.linkDescriptionOf p) (Vw.linkDescriptionOf q) :=
  bind_ (tag (by decide)) (mapParser (takeLineUntil (by decide) (by decide) (by decide))
    (ParL.alt (map (transclusionOf hp) fun _ _ h => by rw [h.1]).line
    (ParL.map rest fun _ _ h => by rw [h.remaining])))

theorem linkDataF (n : Nat) : ∀ m, M.Par Eq (Vw.linkDataF env n) (Vw.linkDataF env m) := by
  induction n with
  | zero => exact fun _ _ _ _ => .left
  | succ n ih =>
    intro m
    cases m with
    | zero => exact fun _ _ _ => .right
    | succ m =>
    exact bindE linkUriRef fun _ => bindE (optE (linkDescriptionOf (ih m))) fun _ => bindE (optE linkProperties) fun _ => pure rfl

theorem linkData : M.Par Eq (Vw.linkData env) (Vw.linkData env) := fuel linkDataF (· + 1)

theorem linkDescription : M.Par Eq (Vw.linkDescription env) (Vw.linkDescription env) := linkDescriptionOf linkData

theorem transclusionLink : M.Par (M.Loc Inl) (Vw.transclusionLink env) (Vw.transclusionLink env) :=
  map (transclusionOf linkData) fun _ _ h => ⟨by simp only [Located.map, h.1]; rfl, h.2⟩

theorem wikiLink : M.Par (M.Loc Inl) (Vw.wikiLink env) (Vw.wikiLink env) :=
  located (mapE (mapParserL brackets linkData) fun _ => rfl)

theorem indexedInterwikiLink : M.Par (M.Loc Inl) (Vw.indexedInterwikiLink env) (Vw.indexedInterwikiLink env) :=
  located (mapParserL brackets (bindE (mapOptE (delimited (tag (by decide)) (takeLineUntil1 (by decide) (by decide) (by decide)) (tag (by decide))) fun _ _ h => by rw [h.remaining])
    fun _ => bindE linkUriRef fun _ => bindE (optE linkDescription) fun _ => pure rfl))

theorem namedInterwikiLink : M.Par (M.Loc Inl) (Vw.namedInterwikiLink env) (Vw.namedInterwikiLink env) :=
  located (mapParserL brackets (bindE (strOf (delimited (tag (by decide)) (takeLineUntil1 (by decide) (by decide) (by decide)) (tag (by decide))))
    fun _ => bindE linkUriRef fun _ => bindE (optE linkDescription) fun _ => pure rfl))

theorem linkAnchor : M.Par Eq Vw.linkAnchor Vw.linkAnchor :=
  mapOptE (takeLineUntil (by decide) (by decide) (by decide)) fun _ _ h => by rw [h.remaining]

theorem newDiaryLink {date : Date} {d : Option Description} {a : Option Anchor} :
    M.Par Inl (Vw.newDiaryLink env date d a) (Vw.newDiaryLink env date d a) := by
  intro s t hs
  unfold Vw.newDiaryLink
  split
  · exact .ok hs rfl
  · exact .panic

theorem diaryLink : M.Par (M.Loc Inl) (Vw.diaryLink env) (Vw.diaryLink env) :=
  located (mapParserL brackets (bind_ (tag (by decide)) (bindE (mapOptE (takeLineUntil21 (by decide) (by decide) (by decide) (by decide) (by decide) (by decide)) fun _ _ h => by rw [h.remaining])
    fun _ => bindE (optE linkAnchor) fun _ => bindE (optE linkDescription) fun _ => newDiaryLink)))

theorem link : M.Par (M.Loc Inl) (Vw.link env) (Vw.link env) :=
  alts_cons diaryLink rfl (alts_cons indexedInterwikiLink rfl (alts_cons namedInterwikiLink rfl
    (alts_cons wikiLink rfl (alts_cons rawLink rfl (alts_cons transclusionLink rfl alts_nil)))))

theorem decorated1 {p q : P Inlines} (hp : M.Par Inls p q) (d : Deco) {x : Str} (hx : Plain2 x) (h0 : x ≠ []) (h2 : x.length ≤ 2) :
    M.Par Inl (Vw.decorated1 p d x) (Vw.decorated1 q d x) :=
  map (mapParserL (notContains _ (surroundInLine1 hx hx h0 h2)) (deeper hp)) fun _ _ h => by
    unfold Inl; rw [Inline.erase, Inline.erase, h]

theorem decoratedOf {p q : P Inlines} (hp : M.Par Inls p q) :
    M.Par (M.Loc Inl) (Vw.decoratedOf p) (Vw.decoratedOf q) :=
  located (alts_cons (decorated1 hp _ (by decide) (by decide) (by decide)) rfl (alts_cons (decorated1 hp _ (by decide) (by decide) (by decide)) rfl (alts_cons (decorated1 hp _ (by decide) (by decide) (by decide)) rfl
    (alts_cons (decorated1 hp _ (by decide) (by decide) (by decide)) rfl (alts_cons (decorated1 hp _ (by decide) (by decide) (by decide)) rfl alts_nil)))))


/-! ## The word before -/

theorem backtrackLen_crlf (c : Str) : backtrackLen (crlf c) = backtrackLen c := by
  unfold backtrackLen
  generalize hr : c.reverse = r
  have hc : c = r.reverse := by rw [← hr, List.reverse_reverse]
  subst hc
  clear hr
  induction r with
  | nil => rfl
  | cons b r ih =>
    rw [List.reverse_cons, crlf_append, List.reverse_append]
    by_cases hb : b = 10
    · subst hb; rfl
    · rw [show crlf [b] = [b] from crlf_line (by simpa using fun e => hb (Eq.symm e))]
      simp only [List.reverse_cons, List.reverse_nil, List.nil_append, List.cons_append, List.takeWhile_cons]
      split
      · simp only [List.length_cons, ih]
      · rfl

theorem backtrackLen_eq {s t : Span} (hs : M.Rel s t) : backtrackLen t.asConsumed = backtrackLen s.asConsumed := by
  rw [hs.consumed, backtrackLen_crlf]

theorem backtrackLen_le (s : Span) : backtrackLen s.asConsumed ≤ s.start := by
  unfold backtrackLen
  refine Nat.le_trans (List.takeWhile_sublist _).length_le ?_
  rw [List.length_reverse, Span.asConsumed, List.length_take]
  omega

theorem backtrack_line (s : Span) :
    10 ∉ (s.inner.drop (s.start - backtrackLen s.asConsumed)).take (backtrackLen s.asConsumed) := by
  have hle := backtrackLen_le s
  have e : (s.inner.drop (s.start - backtrackLen s.asConsumed)).take (backtrackLen s.asConsumed)
      = s.asConsumed.drop (s.start - backtrackLen s.asConsumed) := by
    unfold Span.asConsumed
    rw [List.drop_take]
    congr 1
    unfold Span.asConsumed at hle
    omega
  rw [e]
  intro hm
  have hc : s.asConsumed.length ≤ s.start := by rw [Span.asConsumed, List.length_take]; omega
  have hm' : 10 ∈ s.asConsumed.drop (s.asConsumed.length - backtrackLen s.asConsumed) :=
    (List.drop_subset_drop_left _ (by omega)) hm
  have hw : s.asConsumed.drop (s.asConsumed.length - backtrackLen s.asConsumed)
      = (s.asConsumed.reverse.takeWhile (fun c => !isAsciiWs c)).reverse := by
    have h1 := List.prefix_iff_eq_take.1 (List.takeWhile_prefix (fun c => !isAsciiWs c) (l := s.asConsumed.reverse))
    rw [h1, List.reverse_take, List.reverse_reverse, List.length_reverse]
    rfl
  rw [hw, List.mem_reverse] at hm'
  have := (List.all_eq_true.1 (List.all_takeWhile (l := s.asConsumed.reverse) (p := fun c => !isAsciiWs c))) 10 hm'
  cases this

theorem backtrack {s t : Span} (hs : M.Rel s t) :
    M.Rel (s.backtrackStartBy (backtrackLen s.asConsumed)) (t.backtrackStartBy (backtrackLen t.asConsumed)) := by
  have hl := backtrack_line s
  have h1 := backtrackLen_le s
  have h2 := backtrackLen_le t
  rw [backtrackLen_eq hs] at h2 ⊢
  generalize backtrackLen s.asConsumed = n at h1 h2 hl
  refine Rel.mk' hs.1 hs.inner ?_ hs.stop hs.depth
  have hp := crlfPos_add M.text (s.start - n) n
  rw [Nat.sub_add_cancel h1, ← hs.1, List.count_eq_zero.2 hl, hs.1, ← hs.start] at hp
  unfold Span.backtrackStartBy
  rw [if_neg (by omega), if_neg (by omega)]
  dsimp only
  omega

theorem rawLinkBack : M.Par (M.Loc Inl) (Vw.rawLinkBack env) (Vw.rawLinkBack env) :=
  fun _ _ hs => rawLink _ _ (backtrack hs)

theorem nonTextOf {p q : P (Located Inline)} (hp : M.Par (M.Loc Inl) p q) :
    M.Par (M.Loc Inl) (Vw.nonTextOf env p) (Vw.nonTextOf env q) :=
  alts_cons (preceded (peek (char (by decide) (by decide))) comment) rfl (alts_cons (preceded (peek (char (by decide) (by decide))) codeInline) rfl
    (alts_cons (preceded (peek (char (by decide) (by decide))) mathInline) rfl (alts_cons (preceded (peek (char (by decide) (by decide))) tags) rfl
    (alts_cons (preceded (peek (alt (char (by decide) (by decide)) (char (by decide) (by decide)))) link) rfl (alts_cons (preceded (peek (oneOf (by decide))) hp) rfl
    (alts_cons keyword rfl (alts_cons (preceded (peek (char (by decide) (by decide))) rawLinkBack) rfl alts_nil)))))))



/-! ## Where elements begin -/

/-- An element begins where it is read. -/
def Here (p : P (Located α)) : Prop := ∀ s s' x, p s = .ok s' x → x.region.offset = s.start

/-- An element begins where it is read or where the word begins that is read. -/
def Near (p : P (Located α)) : Prop := ∀ s s' x, p s = .ok s' x →
  x.region.offset = s.start ∨ x.region.offset = (s.backtrackStartBy (backtrackLen s.asConsumed)).start

theorem Here.near {p : P (Located α)} (h : Here p) : Near p := fun s s' x e => .inl (h s s' x e)

theorem withLength_start {s : Span} {n : Nat} : (s.withLength n).start = s.start := by
  unfold Span.withLength; split <;> rfl

theorem withLength_inner {s : Span} {n : Nat} : (s.withLength n).inner = s.inner := by
  unfold Span.withLength; split <;> rfl

theorem here_located (p : P α) : Here (Scan.located p) := by
  intro s s' x h
  unfold Scan.located at h
  cases h1 : p s with
  | ok s1 a =>
    rw [h1] at h
    dsimp only at h
    split at h
    · cases h
    · cases h; exact withLength_start
  | err => rw [h1] at h; cases h
  | panic => rw [h1] at h; cases h
  | diverge => rw [h1] at h; cases h

theorem Here.alt {p q : P (Located α)} (hp : Here p) (hq : Here q) : Here (P.alt p q) := by
  intro s s' x h
  unfold P.alt at h
  cases h1 : p s with
  | ok s1 a => rw [h1] at h; cases h; exact hp _ _ _ h1
  | err => rw [h1] at h; exact hq _ _ _ h
  | panic => rw [h1] at h; cases h
  | diverge => rw [h1] at h; cases h

theorem Near.alt {p q : P (Located α)} (hp : Near p) (hq : Near q) : Near (P.alt p q) := by
  intro s s' x h
  unfold P.alt at h
  cases h1 : p s with
  | ok s1 a => rw [h1] at h; cases h; exact hp _ _ _ h1
  | err => rw [h1] at h; exact hq _ _ _ h
  | panic => rw [h1] at h; cases h
  | diverge => rw [h1] at h; cases h

theorem Near.peeked {p : P (Located α)} {q : P β} (hp : Near p) : Near (P.preceded (P.peek q) p) := by
  intro s s' x h
  unfold P.preceded P.bind P.peek at h
  cases h1 : q s with
  | ok s1 a => rw [h1] at h; exact hp _ _ _ h
  | err => rw [h1] at h; cases h
  | panic => rw [h1] at h; cases h
  | diverge => rw [h1] at h; cases h

theorem Here.map {p : P (Located α)} {f : Located α → Located β} (hp : Here p) (hf : ∀ a, (f a).region = a.region) : Here (P.map p f) := by
  intro s s' x h
  unfold P.map at h
  cases h1 : p s with
  | ok s1 a => rw [h1] at h; cases h; rw [hf]; exact hp _ _ _ h1
  | err => rw [h1] at h; cases h
  | panic => rw [h1] at h; cases h
  | diverge => rw [h1] at h; cases h

theorem here_link : Here (Vw.link env) :=
  (here_located _).alt ((here_located _).alt ((here_located _).alt ((here_located _).alt ((here_located _).alt
    ((here_located _).map fun _ => Eq.refl _)))))

theorem near_nonText {deco : P (Located Inline)} (h : Here deco) : Near (Vw.nonTextOf env deco) :=
  ((here_located _).alt (here_located _)).near.peeked.alt ((here_located _).near.peeked.alt
    ((here_located _).near.peeked.alt ((here_located _).near.peeked.alt (here_link.near.peeked.alt
    (h.near.peeked.alt ((here_located _).near.alt (Near.peeked fun _ _ _ e => .inr (here_located _ _ _ _ e))))))))

/-! ## Text -/

theorem atLineEnd_crlf {u : Str} (h : 13 ∉ u) : atLineEnd (crlf u) = atLineEnd u := by
  cases u with
  | nil => rfl
  | cons b u =>
    by_cases hb : b = 10
    · subst hb; rfl
    · have h13 : b ≠ 13 := fun e => h (by simp [e])
      rw [crlf_cons_ne hb]
      unfold atLineEnd
      split <;> split <;> simp_all

theorem atLineEnd_head {u : Str} {b : Byte} (h : atLineEnd (b :: u) = false) : b ≠ 10 := by
  intro e; subst e; cases h

/-- The place `n` bytes further on in the same line. -/
theorem pos_line {s t : Span} (hs : M.Rel s t) {n : Nat} (h : 10 ∉ (s.inner.drop s.start).take n) :
    crlfPos M.text (s.start + n) = t.start + n := by
  rw [crlfPos_add, ← hs.1, List.count_eq_zero.2 h, hs.1, hs.start]; rfl

theorem advance_line {s t : Span} (hs : M.Rel s t) {n : Nat} (h : 10 ∉ (s.inner.drop s.start).take n) :
    M.Rel (s.advanceStartBy n) (t.advanceStartBy n) := by
  have hp := pos_line hs h
  refine Rel.mk' hs.1 hs.inner ?_ hs.stop hs.depth
  have hc : t.start + n > t.stop ↔ s.start + n > s.stop := by
    rw [← hp, hs.stop]; exact crlfPos_lt
  unfold Span.advanceStartBy
  simp only [hc]
  split
  · exact hs.stop
  · exact hp.symm

theorem withLength_line {s t : Span} (hs : M.Rel s t) {n : Nat} (h : 10 ∉ (s.inner.drop s.start).take n) :
    M.Line (s.withLength n) (t.withLength n) := by
  have hp := pos_line hs h
  have hc : n < t.remainingLen ↔ n < s.remainingLen := by
    have hc : t.start + n < t.stop ↔ s.start + n < s.stop := by
      rw [← hp, hs.stop]; exact crlfPos_lt
    rw [remainingLen_eq, remainingLen_eq]
    omega
  have hm : ∀ {m : Nat}, m ≤ n → 10 ∉ (s.inner.drop s.start).take m := fun hle hm =>
    h ((List.take_subset_take_left _ hle) hm)
  unfold Span.withLength
  by_cases hn : n < s.remainingLen
  · rw [if_pos hn, if_pos (hc.2 hn)]
    refine ⟨Rel.mk' hs.1 hs.inner hs.start hp.symm hs.depth, ?_⟩
    unfold Span.asRemaining
    dsimp only
    rw [List.drop_take]
    exact hm (by omega)
  · rw [if_neg hn, if_neg (fun h => hn (hc.1 h))]
    refine ⟨hs, ?_⟩
    unfold Span.asRemaining
    rw [List.drop_take]
    rw [remainingLen_eq] at hn
    exact hm (by omega)

theorem textLoop_line (p : P (Located Inline)) : ∀ (n : Nat) (s s' : Span) (len len' : Nat), Vw.textLoop p n s len = .ok s' len' →
    ∃ j, len' ≤ len + j ∧ 10 ∉ (s.inner.drop s.start).take j
  | 0, _, _, _, _, h => by cases h
  | n + 1, s, s', len, len', h => by
    unfold Vw.textLoop at h
    split at h
    · rename_i hr
      split at h
      · cases h; exact ⟨0, Nat.le_refl _, by simp⟩
      · rename_i he
        cases h1 : p s with
        | ok s1 x =>
          rw [h1] at h
          refine ⟨0, ?_, by simp⟩
          dsimp only at h
          split at h
          · split at h
            · cases h
            · cases h; omega
          · cases h; omega
        | err =>
          rw [h1] at h
          obtain ⟨j, hj1, hj2⟩ := textLoop_line p n _ _ _ _ h
          refine ⟨j + 1, by omega, ?_⟩
          rw [remainingLen_eq] at hr
          have e1 : (s.advanceStartBy 1).start = s.start + 1 := by
            unfold Span.advanceStartBy
            rw [if_neg (by omega)]
          have e2 : (s.advanceStartBy 1).inner = s.inner := rfl
          rw [e1, e2] at hj2
          rw [← List.drop_drop] at hj2
          cases hd : s.inner.drop s.start with
          | nil => simp
          | cons b u =>
            rw [hd, List.drop_one] at hj2
            have hb : b ≠ 10 := by
              have hrem : s.asRemaining = b :: (u.take (s.stop - s.start - 1)) := by
                unfold Span.asRemaining
                rw [List.drop_take, hd]
                obtain ⟨m, hm⟩ : ∃ m, s.stop - s.start = m + 1 := ⟨s.stop - s.start - 1, by omega⟩
                rw [hm, List.take_succ_cons]; rfl
              rw [hrem] at he
              exact atLineEnd_head (by simpa using he)
            rw [List.take_succ_cons, List.mem_cons, not_or]
            exact ⟨fun e => hb (Eq.symm e), hj2⟩
        | panic => rw [h1] at h; cases h
        | diverge => rw [h1] at h; cases h
    · cases h; exact ⟨0, Nat.le_refl _, by simp⟩

theorem textLoop {p q : P (Located Inline)} (hp : M.Par (M.Loc Inl) p q) (hn : Near p) (n : Nat) :
    ∀ m len, M.Par Eq (fun s => Vw.textLoop p n s len) (fun s => Vw.textLoop q m s len) := by
  induction n with
  | zero => exact fun _ _ _ _ _ => .left
  | succ n ih =>
    intro m len s t hs
    cases m with
    | zero => exact .right
    | succ m =>
    have h := hp s t hs
    have hn' := hn s
    have hz : t.remainingLen > 0 ↔ s.remainingLen > 0 := by
      have := hs.empty; omega
    simp only [Vw.textLoop, hz]
    rw [hs.remaining, atLineEnd_crlf hs.no]
    split
    · rename_i hr
      split
      · exact .ok hs rfl
      · rename_i he
        revert h hn'
        generalize p s = x
        generalize q t = y
        intro h hn'
        cases h with
        | @ok s' t' a b h1 h2 =>
          have hr : b.region.offset = crlfPos M.text a.region.offset := by rw [h2.2]; rfl
          have hl : b.region.offset < t.start ↔ a.region.offset < s.start := by
            rw [hr, hs.start]; exact crlfPos_lt
          have hd : t.start - b.region.offset = s.start - a.region.offset := by
            rw [hr]
            rcases hn' _ _ rfl with e | e
            · rw [e, hs.start]; omega
            · have hb := (backtrack hs).start
              rw [← e] at hb
              rw [← hb, e]
              have hlen := backtrackLen_eq hs
              have h2 := backtrackLen_le s
              have h3 := backtrackLen_le t
              unfold Span.backtrackStartBy
              rw [hlen] at h3 ⊢
              rw [if_neg (by omega), if_neg (by omega)]
              dsimp only
              omega
          simp only [hd, hl]
          split
          · split
            · exact .panic
            · exact .ok hs rfl
          · exact .ok hs rfl
        | err =>
          refine ih _ _ _ _ (advance_line hs ?_)
          rw [remainingLen_eq] at hr
          cases hd : s.inner.drop s.start with
          | nil => simp
          | cons b u =>
            have hb : b ≠ 10 := by
              have hrem : s.asRemaining = b :: (u.take (s.stop - s.start - 1)) := by
                unfold Span.asRemaining
                rw [List.drop_take, hd]
                obtain ⟨m, hm⟩ : ∃ m, s.stop - s.start = m + 1 := ⟨s.stop - s.start - 1, by omega⟩
                rw [hm, List.take_succ_cons]; rfl
              rw [hrem] at he
              exact atLineEnd_head (by simpa using he)
            simpa using fun e => hb (Eq.symm e)
        | panic => exact .panic
        | left => exact .left
        | right => exact .right
    · exact .ok hs rfl

theorem textOf {p q : P (Located Inline)} (hp : M.Par (M.Loc Inl) p q) (hn : Here p) :
    M.Par (M.Loc Inl) (Vw.textOf env p) (Vw.textOf env q) := by
  refine located fun s t hs => ?_
  have h := textLoop (nonTextOf (env := env) hp) (near_nonText hn) (s.remainingLen + 1) (t.remainingLen + 1) 0 s t hs
  revert h
  dsimp only
  generalize hx : Vw.textLoop (Vw.nonTextOf env p) _ _ _ = x
  generalize Vw.textLoop (Vw.nonTextOf env q) _ _ _ = y
  intro h
  cases h with
  | @ok s' t' a b h1 h2 =>
    subst h2
    dsimp only
    obtain ⟨j, hj1, hj2⟩ := textLoop_line _ _ _ _ _ _ hx
    have hl : 10 ∉ (s.inner.drop s.start).take a := fun hm => hj2 ((List.take_subset_take_left _ (by omega)) hm)
    split
    · exact .ok (advance_line hs hl) (by rw [(withLength_line hs hl).remaining]; exact Inl.rfl)
    · exact .err
  | err => exact .err
  | panic => exact .panic
  | left => exact .left
  | right => exact .right

theorem here_decorated (p : P Inlines) : Here (Vw.decoratedOf p) := here_located _

theorem decoContentsF (n : Nat) : ∀ m, M.Par Inls (Vw.decoContentsF env n) (Vw.decoContentsF env m) := by
  induction n with
  | zero => exact fun _ _ _ _ => .left
  | succ n ih =>
    intro m
    cases m with
    | zero => exact fun _ _ _ => .right
    | succ m =>
    exact (many1 (R := M.Loc Inl)
      (p := P.alts [Vw.link env, Vw.keyword, Vw.decoratedOf (Vw.decoContentsF env n), Vw.textOf env (Vw.decoratedOf (Vw.decoContentsF env n))])
      (q := P.alts [Vw.link env, Vw.keyword, Vw.decoratedOf (Vw.decoContentsF env m), Vw.textOf env (Vw.decoratedOf (Vw.decoContentsF env m))])
      (alts_cons link rfl (alts_cons keyword rfl (alts_cons (decoratedOf (ih m)) rfl
      (alts_cons (textOf (decoratedOf (ih m)) (here_decorated _)) rfl alts_nil))))).mono fun _ _ => inls

theorem decoratedText : M.Par (M.Loc Inl) (Vw.decoratedText env) (Vw.decoratedText env) :=
  fuel (p := fun n => Vw.decoratedOf (Vw.decoContentsF env n)) (fun n m => decoratedOf (decoContentsF n m)) id

theorem here_decoratedText : Here (Vw.decoratedText env) := fun _ _ _ h => here_decorated _ _ _ _ h

theorem text : M.Par (M.Loc Inl) (Vw.text env) (Vw.text env) := textOf decoratedText here_decoratedText

theorem inlineElement : M.Par (M.Loc Inl) (Vw.inlineElement env) (Vw.inlineElement env) :=
  alts_cons comment rfl (alts_cons mathInline rfl (alts_cons codeInline rfl (alts_cons tags rfl (alts_cons link rfl
    (alts_cons decoratedText rfl (alts_cons keyword rfl (alts_cons text rfl alts_nil)))))))

theorem inlineContainer : M.Par (M.Loc Inls) (Vw.inlineContainer env) (Vw.inlineContainer env) :=
  located ((many1 (deeper inlineElement)).mono fun _ _ => inls)

theorem inlines : M.Par Inls (P.map (Vw.inlineContainer env) (·.inner)) (P.map (Vw.inlineContainer env) (·.inner)) :=
  map inlineContainer fun _ _ h => h.1

end Par
end Cr
end Vw
