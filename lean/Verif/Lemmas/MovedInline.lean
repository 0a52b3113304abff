import Verif.Lemmas.Moved

/-!
# Inline elements further on
-/

namespace Vw
open P Scan
namespace Mv

variable {M : Mv} {α β γ : Type} {env : Env}

/-- The same inline element further on. -/
def Inl (M : Mv) (x y : Inline) : Prop := y = x.moved M.k

/-- The same inline elements further on. -/
def Inls (M : Mv) (x y : Inlines) : Prop := y = Inline.allMoved M.k x

theorem Loc.eq {R : α → α → Prop} {x y : Located α} (h : M.Loc R x y) (g : α → α) (hg : R x.inner y.inner → y.inner = g x.inner) :
    y = ⟨g x.inner, x.region.moved M.k⟩ := by
  obtain ⟨h1, h2⟩ := h
  cases y
  simp only at h1 h2 hg
  rw [h2, hg h1]

theorem All.inls {xs ys : Inlines} (h : All (M.Loc M.Inl) xs ys) : M.Inls xs ys := by
  unfold Inls
  induction h with
  | nil => rfl
  | @cons a b as bs h _ ih =>
    cases a; cases b
    obtain ⟨h1, h2⟩ := h
    simp only [Inl] at h1 h2
    rw [h1, h2, ih, Inline.allMoved]

namespace Par

theorem fuel {R : α → α → Prop} {p q : Nat → P α} (h : ∀ n, M.Par R (p n) (q n)) (f : Nat → Nat) :
    M.Par R (fun s => p (f s.remainingLen) s) (fun s => q (f s.remainingLen) s) := by
  intro s t hs
  dsimp only
  rw [hs.len]
  exact h _ s t hs

theorem codeInline : M.Par (M.Loc M.Inl) Vw.codeInline Vw.codeInline :=
  located (mapE (strOf (notContains _ (surroundInLine1 _ _))) fun _ => rfl)

theorem mathInline : M.Par (M.Loc M.Inl) Vw.mathInline Vw.mathInline :=
  located (mapE (strOf (delimited (char _) (notContains _ (takeLineUntil1 _)) (char _))) fun _ => rfl)

theorem tagContent : M.Par Eq Vw.tagContent Vw.tagContent := strOf (takeLineUntil31 _ _ _)

theorem tagsInner : M.Par Eq Vw.tagsInner Vw.tagsInner :=
  bind_ (char _) (many1E (terminated tagContent (char _)))

theorem tags : M.Par (M.Loc M.Inl) Vw.tags Vw.tags :=
  located (mapE (mapParser wholeWord tagsInner) fun _ => rfl)

theorem lineComment : M.Par (M.Loc M.Inl) Vw.lineComment Vw.lineComment :=
  located (bind_ (tag _) (mapE (strOf takeUntilEol) fun _ => rfl))

theorem commentLines : M.Par Eq Vw.commentLines Vw.commentLines := by
  refine bindE (many0E (terminated (strOf takeUntilEol) lineEnding)) fun ls => bindE restLen fun n => ?_
  split
  · exact mapE (strOf rest) fun _ => rfl
  · exact pure rfl

theorem multiLineComment : M.Par (M.Loc M.Inl) Vw.multiLineComment Vw.multiLineComment :=
  located (bind_ (tag _) (bindE (mapParser (takeUntil _) commentLines) fun _ => bind_ (tag _) (pure rfl)))

theorem comment : M.Par (M.Loc M.Inl) Vw.comment Vw.comment := alt multiLineComment lineComment

theorem keyword : M.Par (M.Loc M.Inl) Vw.keyword Vw.keyword :=
  located (alts_cons (value (tag _) rfl) rfl (alts_cons (value (tag _) rfl) rfl (alts_cons (value (tag _) rfl) rfl
    (alts_cons (value (tag _) rfl) rfl (alts_cons (value (tag _) rfl) rfl (alts_cons (value (tag _) rfl) rfl alts_nil))))))

theorem uriText : M.Par M.Rel Vw.uriText Vw.uriText :=
  recognize (many1E (pairE (not singleMultispace) anychar))

theorem uriRef : M.Par Eq (Vw.uriRef env) (Vw.uriRef env) :=
  mapOptE uriText fun _ _ h => by rw [h.remaining]

theorem rawLink : M.Par (M.Loc M.Inl) (Vw.rawLink env) (Vw.rawLink env) :=
  located (mapE (verify uriRef fun _ _ h => by rw [h]) fun _ => rfl)

theorem linkUriRef : M.Par Eq (Vw.linkUriRef env) (Vw.linkUriRef env) :=
  mapOptE (takeLineUntil31 _ _ _) fun _ _ h => by rw [h.remaining]

theorem linkProperties : M.Par Eq Vw.linkProperties Vw.linkProperties :=
  bind_ (tag _) (mapE ((separatedList1 space1 ((separatedPair (strOf (takeLineUntil1 _)) (tag _)
    (strOf (delimited (tag _) (takeLineUntil _) (tag _)))).mono fun _ _ => Both.eq)).mono fun _ _ => All.eq) fun _ => rfl)

theorem braces : M.Par M.Rel Vw.braces Vw.braces := notContains _ (surroundInLine1 _ _)

theorem brackets : M.Par M.Rel Vw.brackets Vw.brackets := notContains _ (surroundInLine1 _ _)

theorem transclusionOf {p q : P LinkData} (hp : M.Par Eq p q) :
    M.Par (M.Loc Eq) (Vw.transclusionOf p) (Vw.transclusionOf q) := located (mapParser braces hp)

theorem linkDescriptionOf {p q : P LinkData} (hp : M.Par Eq p q) :
    M.Par Eq (Vw.linkDescriptionOf p) (Vw.linkDescriptionOf q) :=
  bind_ (tag _) (mapParser (takeLineUntil _) (alt (map (transclusionOf hp) fun _ _ h => by rw [h.1])
    (map rest fun _ _ h => by rw [h.remaining])))

theorem linkDataF (n : Nat) : M.Par Eq (Vw.linkDataF env n) (Vw.linkDataF env n) := by
  induction n with
  | zero => exact fun _ _ _ => .diverge
  | succ n ih =>
    exact bindE linkUriRef fun _ => bindE (optE (linkDescriptionOf ih)) fun _ => bindE (optE linkProperties) fun _ => pure rfl

theorem linkData : M.Par Eq (Vw.linkData env) (Vw.linkData env) := fuel linkDataF (· + 1)

theorem linkDescription : M.Par Eq (Vw.linkDescription env) (Vw.linkDescription env) := linkDescriptionOf linkData

theorem transclusionLink : M.Par (M.Loc M.Inl) (Vw.transclusionLink env) (Vw.transclusionLink env) :=
  map (transclusionOf linkData) fun _ _ h => ⟨by simp only [Located.map, h.1]; rfl, h.2⟩

theorem wikiLink : M.Par (M.Loc M.Inl) (Vw.wikiLink env) (Vw.wikiLink env) :=
  located (mapE (mapParser brackets linkData) fun _ => rfl)

theorem indexedInterwikiLink : M.Par (M.Loc M.Inl) (Vw.indexedInterwikiLink env) (Vw.indexedInterwikiLink env) :=
  located (mapParser brackets (bindE (mapOptE (delimited (tag _) (takeLineUntil1 _) (tag _)) fun _ _ h => by rw [h.remaining])
    fun _ => bindE linkUriRef fun _ => bindE (optE linkDescription) fun _ => pure rfl))

theorem namedInterwikiLink : M.Par (M.Loc M.Inl) (Vw.namedInterwikiLink env) (Vw.namedInterwikiLink env) :=
  located (mapParser brackets (bindE (strOf (delimited (tag _) (takeLineUntil1 _) (tag _)))
    fun _ => bindE linkUriRef fun _ => bindE (optE linkDescription) fun _ => pure rfl))

theorem linkAnchor : M.Par Eq Vw.linkAnchor Vw.linkAnchor :=
  mapOptE (takeLineUntil _) fun _ _ h => by rw [h.remaining]

theorem newDiaryLink {date : Date} {d : Option Description} {a : Option Anchor} :
    M.Par M.Inl (Vw.newDiaryLink env date d a) (Vw.newDiaryLink env date d a) := by
  intro s t hs
  unfold Vw.newDiaryLink
  split
  · exact .ok hs rfl
  · exact .panic

theorem diaryLink : M.Par (M.Loc M.Inl) (Vw.diaryLink env) (Vw.diaryLink env) :=
  located (mapParser brackets (bind_ (tag _) (bindE (mapOptE (takeLineUntil21 _ _) fun _ _ h => by rw [h.remaining])
    fun _ => bindE (optE linkAnchor) fun _ => bindE (optE linkDescription) fun _ => newDiaryLink)))

theorem link : M.Par (M.Loc M.Inl) (Vw.link env) (Vw.link env) :=
  alts_cons diaryLink rfl (alts_cons indexedInterwikiLink rfl (alts_cons namedInterwikiLink rfl
    (alts_cons wikiLink rfl (alts_cons rawLink rfl (alts_cons transclusionLink rfl alts_nil)))))

theorem decorated1 {p q : P Inlines} (hp : M.Par M.Inls p q) (d : Deco) (x : Str) :
    M.Par M.Inl (Vw.decorated1 p d x) (Vw.decorated1 q d x) :=
  map (mapParser (notContains _ (surroundInLine1 _ _)) (deeper hp)) fun _ _ h => by
    unfold Inl; rw [h, Inline.moved]

theorem decoratedOf {p q : P Inlines} (hp : M.Par M.Inls p q) :
    M.Par (M.Loc M.Inl) (Vw.decoratedOf p) (Vw.decoratedOf q) :=
  located (alts_cons (decorated1 hp _ _) rfl (alts_cons (decorated1 hp _ _) rfl (alts_cons (decorated1 hp _ _) rfl
    (alts_cons (decorated1 hp _ _) rfl (alts_cons (decorated1 hp _ _) rfl alts_nil)))))

theorem backtrackLen_eq {s t : Span} (hs : M.Rel s t) : backtrackLen t.asConsumed = backtrackLen s.asConsumed := by
  rw [hs.consumed]
  unfold backtrackLen
  rw [List.reverse_append]
  rcases M.bol with e | e
  · rw [e]; simp
  · have hr : M.pre.reverse = 10 :: M.pre.reverse.tail := by
      cases h : M.pre.reverse with
      | nil => rw [List.reverse_eq_nil_iff] at h; rw [h] at e; cases e
      | cons x xs =>
        rw [← List.head?_reverse, h] at e
        cases e
        rfl
    rw [hr]
    generalize s.asConsumed.reverse = l
    generalize M.pre.reverse.tail = l'
    induction l with
    | nil => rfl
    | cons a l ih =>
      simp only [List.cons_append, List.takeWhile_cons]
      split
      · simp only [List.length_cons, ih]
      · rfl

theorem backtrack {s t : Span} (hs : M.Rel s t) :
    M.Rel (s.backtrackStartBy (backtrackLen s.asConsumed)) (t.backtrackStartBy (backtrackLen t.asConsumed)) := by
  rw [backtrackLen_eq hs]
  have h1 : backtrackLen s.asConsumed ≤ s.start := by
    unfold backtrackLen
    refine Nat.le_trans (List.takeWhile_sublist _).length_le ?_
    rw [List.length_reverse, Span.asConsumed, List.length_take]
    omega
  generalize backtrackLen s.asConsumed = n at h1
  refine ⟨hs.1, ?_⟩
  have ht : t.start = M.k + s.start := by rw [hs.2]; rfl
  unfold Span.backtrackStartBy
  rw [if_neg (by omega), if_neg (by omega), hs.2]
  simp only [Span.later, Span.mk.injEq, true_and, and_true]
  omega

theorem rawLinkBack : M.Par (M.Loc M.Inl) (Vw.rawLinkBack env) (Vw.rawLinkBack env) :=
  fun _ _ hs => rawLink _ _ (backtrack hs)

theorem nonTextOf {p q : P (Located Inline)} (hp : M.Par (M.Loc M.Inl) p q) :
    M.Par (M.Loc M.Inl) (Vw.nonTextOf env p) (Vw.nonTextOf env q) :=
  alts_cons (preceded (peek (char _)) comment) rfl (alts_cons (preceded (peek (char _)) codeInline) rfl
    (alts_cons (preceded (peek (char _)) mathInline) rfl (alts_cons (preceded (peek (char _)) tags) rfl
    (alts_cons (preceded (peek (alt (char _) (char _))) link) rfl (alts_cons (preceded (peek (oneOf _)) hp) rfl
    (alts_cons keyword rfl (alts_cons (preceded (peek (char _)) rawLinkBack) rfl alts_nil)))))))

theorem textLoop {p q : P (Located Inline)} (hp : M.Par (M.Loc M.Inl) p q) (n : Nat) :
    ∀ len, M.Par Eq (fun s => Vw.textLoop p n s len) (fun s => Vw.textLoop q n s len) := by
  induction n with
  | zero => exact fun _ _ _ _ => .diverge
  | succ n ih =>
    intro len s t hs
    have h := hp s t hs
    simp only [Vw.textLoop, hs.len, hs.remaining]
    split
    · split
      · exact .ok hs rfl
      · revert h
        generalize p s = x
        generalize q t = y
        intro h
        cases h with
        | @ok s' t' a b h1 h2 =>
          have ht : t.start = M.k + s.start := by rw [hs.2]; rfl
          have hr : b.region.offset = M.k + a.region.offset := by rw [h2.2]; rfl
          have hd : t.start - b.region.offset = s.start - a.region.offset := by omega
          have hl : b.region.offset < t.start ↔ a.region.offset < s.start := by omega
          simp only [hd, hl]
          split
          · split
            · exact .panic
            · exact .ok hs rfl
          · exact .ok hs rfl
        | err => exact ih _ _ _ (hs.advance 1)
        | panic => exact .panic
        | diverge => exact .diverge
    · exact .ok hs rfl

theorem textOf {p q : P (Located Inline)} (hp : M.Par (M.Loc M.Inl) p q) :
    M.Par (M.Loc M.Inl) (Vw.textOf env p) (Vw.textOf env q) := by
  refine located fun s t hs => ?_
  have h := textLoop (nonTextOf (env := env) hp) (s.remainingLen + 1) 0 s t hs
  rw [hs.len]
  revert h
  dsimp only
  generalize Vw.textLoop (Vw.nonTextOf env p) _ _ _ = x
  generalize Vw.textLoop (Vw.nonTextOf env q) _ _ _ = y
  intro h
  cases h with
  | ok h1 h2 =>
    subst h2
    dsimp only
    split
    · exact .ok (hs.advance _) (by rw [(hs.withLength _).remaining]; rfl)
    · exact .err
  | err => exact .err
  | panic => exact .panic
  | diverge => exact .diverge

theorem decoContentsF (n : Nat) : M.Par M.Inls (Vw.decoContentsF env n) (Vw.decoContentsF env n) := by
  induction n with
  | zero => exact fun _ _ _ => .diverge
  | succ n ih =>
    exact (many1 (alts_cons link rfl (alts_cons keyword rfl (alts_cons (decoratedOf ih) rfl
      (alts_cons (textOf (decoratedOf ih)) rfl alts_nil))))).mono fun _ _ => All.inls

theorem decoratedText : M.Par (M.Loc M.Inl) (Vw.decoratedText env) (Vw.decoratedText env) :=
  fuel (fun n => decoratedOf (decoContentsF n)) id

theorem text : M.Par (M.Loc M.Inl) (Vw.text env) (Vw.text env) := textOf decoratedText

theorem inlineElement : M.Par (M.Loc M.Inl) (Vw.inlineElement env) (Vw.inlineElement env) :=
  alts_cons comment rfl (alts_cons mathInline rfl (alts_cons codeInline rfl (alts_cons tags rfl (alts_cons link rfl
    (alts_cons decoratedText rfl (alts_cons keyword rfl (alts_cons text rfl alts_nil)))))))

theorem inlineContainer : M.Par (M.Loc M.Inls) (Vw.inlineContainer env) (Vw.inlineContainer env) :=
  located ((many1 (deeper inlineElement)).mono fun _ _ => All.inls)

theorem inlines : M.Par M.Inls (P.map (Vw.inlineContainer env) (·.inner)) (P.map (Vw.inlineContainer env) (·.inner)) :=
  map inlineContainer fun _ _ h => h.1

end Par
end Mv
end Vw
