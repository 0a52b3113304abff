import Verif.Spec.Template
import Verif.Lemmas.HtmlText

/-! # Replacing variables in templates -/

namespace Vw

theorem replaceF_nil (pat to : Str) (n : Nat) : replaceF pat to n [] = [] := by cases n <;> rfl

theorem replaceF_fuel (pat to : Str) (hp : pat ≠ []) : ∀ (n m : Nat) (s : Str), s.length ≤ n → s.length ≤ m →
    replaceF pat to n s = replaceF pat to m s := by
  intro n
  induction n with
  | zero =>
    intro m s h1 h2
    have : s = [] := List.length_eq_zero_iff.1 (by omega)
    subst this
    rw [replaceF_nil, replaceF_nil]
  | succ n ih =>
    intro m s h1 h2
    cases s with
    | nil => rw [replaceF_nil, replaceF_nil]
    | cons b bs =>
      cases m with
      | zero => simp at h2
      | succ m =>
        simp only [List.length_cons] at h1 h2
        simp only [replaceF]
        have hl : 0 < pat.length := List.length_pos_iff.2 hp
        split
        · rw [ih m _ (by simp; omega) (by simp; omega)]
        · rw [ih m _ (by omega) (by omega)]

theorem replace_hit (pat to r : Str) (hp : pat ≠ []) : replace pat to (pat ++ r) = to ++ replace pat to r := by
  cases pat with
  | nil => exact absurd rfl hp
  | cons c cs =>
    simp only [replace, List.cons_append, List.length_cons, replaceF]
    have : (c :: cs).isPrefixOf (c :: (cs ++ r)) = true := by
      rw [List.isPrefixOf_iff_prefix]
      exact ⟨r, rfl⟩
    rw [if_pos this]
    simp only [List.drop_succ_cons, List.drop_left]
    rw [replaceF_fuel _ _ hp _ r.length r (by simp) (Nat.le_refl _)]

theorem replace_miss (pat to : Str) (b : Byte) (r : Str) (h : ¬ pat <+: b :: r) :
    replace pat to (b :: r) = b :: replace pat to r := by
  simp only [replace, List.length_cons, replaceF]
  rw [if_neg (by rw [List.isPrefixOf_iff_prefix]; exact h)]

theorem replace_skip (pat to : Str) (l r : Str)
    (h : ∀ a b, l = a ++ b → b ≠ [] → ¬ pat <+: b ++ r) : replace pat to (l ++ r) = l ++ replace pat to r := by
  induction l with
  | nil => rfl
  | cons c cs ih =>
    rw [List.cons_append, replace_miss pat to c (cs ++ r) (h [] (c :: cs) rfl (by simp)), ih fun a b e hb =>
      h (c :: a) b (by rw [e]; rfl) hb]
    rfl

theorem TVar.name_bytes (v : TVar) : ∀ b ∈ v.name, NameByte b := by
  have : ∀ b ∈ v.name, isLower b = true ∨ b = c!"_" := by cases v <;> decide
  exact this

theorem TVar.name_ne (v : TVar) : v.name ≠ [] := by cases v <;> decide

theorem percent_not_name : ¬ NameByte c!"%" := by
  simp only [NameByte]
  decide

theorem nameByte_ne {b : Byte} (h : NameByte b) : b ≠ c!"%" := fun e => percent_not_name (e ▸ h)

/-- Two texts of name bytes before a percent sign. -/
theorem name_cut {a b r s : Str} (ha : ∀ x ∈ a, NameByte x) (hb : ∀ x ∈ b, NameByte x)
    (h : a ++ c!"%" :: r = b ++ c!"%" :: s) : a = b ∧ r = s := by
  induction a generalizing b with
  | nil =>
    cases b with
    | nil => simp at h; exact ⟨rfl, h⟩
    | cons y b =>
      simp at h
      exact absurd h.1.symm (nameByte_ne (hb y (by simp)))
  | cons x a ih =>
    cases b with
    | nil =>
      simp at h
      exact absurd h.1 (nameByte_ne (ha x (by simp)))
    | cons y b =>
      simp only [List.cons_append, List.cons.injEq] at h
      obtain ⟨rfl, h⟩ := h
      obtain ⟨rfl, h⟩ := ih (fun z hz => ha z (by simp [hz])) (fun z hz => hb z (by simp [hz])) h
      exact ⟨rfl, by simpa using h⟩

/-- Pieces that are apart do not begin with a percent sign. -/
theorem VarApart.noPercent {ts : List TPiece} (ht : VarApart ts) (ho : PiecesOk ts) {r : Str} :
    ts.flatMap TPiece.text ≠ c!"%" :: r := by
  induction ts with
  | nil => intro h; simp at h
  | cons t ts ih =>
    intro h3
    cases t with
    | var v => exact ht.elim
    | lit u =>
      cases u with
      | nil => exact ih (ht.resolve_left (by simp)) ho.2 (by simpa [TPiece.text] using h3)
      | cons y u =>
        simp only [List.flatMap_cons, TPiece.text, List.cons_append, List.cons.injEq] at h3
        obtain ⟨⟨z, hz, _⟩, _⟩ := ho.1 [] u (by rw [h3.1]; rfl)
        simp at hz

/-- No name followed by a percent sign begins pieces that are apart. -/
theorem VarApart.noName {ts : List TPiece} (ht : VarApart ts) (ho : PiecesOk ts) {n r : Str} (hn : ∀ b ∈ n, NameByte b)
    (hne : n ≠ []) : piecesText ts ≠ n ++ c!"%" :: r := by
  induction ts generalizing n with
  | nil => intro h; simp [piecesText] at h
  | cons t ts ih =>
    cases t with
    | var v => exact ht.elim
    | lit s =>
      intro h
      simp only [piecesText, List.flatMap_cons, TPiece.text] at h
      -- either the name ends in `s`, or `s` is part of it
      rcases List.append_eq_append_iff.1 h with ⟨x, h1, h2⟩ | ⟨x, h1, h2⟩
      · rcases ht with ⟨b, hb, hb'⟩ | ht
        · exact hb' (hn b (by rw [h1]; simp [hb]))
        · cases x with
          | nil =>
            -- the pieces left begin with a percent sign
            simp only [List.nil_append] at h2
            exact ht.noPercent ho.2 h2
          | cons y x =>
            exact ih ht ho.2 (n := y :: x) (fun b hb => hn b (by rw [h1]; exact List.mem_append_right _ hb)) (by simp) h2
      · -- the percent sign is in `s`
        cases x with
        | nil =>
          simp only [List.append_nil] at h1
          simp only [List.nil_append] at h2
          subst h1
          rcases ht with ⟨b, hb, hb'⟩ | ht
          · exact hb' (hn b hb)
          · exact ht.noPercent ho.2 h2.symm
        | cons y x =>
          simp only [List.cons_append, List.cons.injEq] at h2
          obtain ⟨⟨z, hz, hz'⟩, _⟩ := ho.1 n x (by rw [h1, ← h2.1])
          exact hz' (hn z (List.mem_of_getLast? hz))

/-- One variable replaced by text. -/
def TPiece.subst (v : TVar) (x : Str) : TPiece → TPiece
  | .lit s => .lit s
  | .var w => if w = v then .lit x else .var w

theorem replace_pieces (v : TVar) (x : Str) (ts : List TPiece) (h : PiecesOk ts) :
    replace (b!"%" ++ v.name ++ b!"%") x (piecesText ts) = piecesText (ts.map (TPiece.subst v x)) := by
  have hp : b!"%" ++ v.name ++ b!"%" ≠ [] := by simp
  induction ts with
  | nil => rfl
  | cons t ts ih =>
    cases t with
    | lit s =>
      simp only [piecesText, List.map_cons, List.flatMap_cons, TPiece.text, TPiece.subst]
      rw [replace_skip _ _ s _ ?_]
      · rw [← piecesText, ih h.2]; rfl
      · rintro a b rfl hb ⟨r, hr⟩
        cases b with
        | nil => exact hb rfl
        | cons y b =>
          simp only [List.append_assoc, List.cons_append, List.nil_append, List.cons.injEq] at hr
          obtain ⟨rfl, hr⟩ := hr
          obtain ⟨_, z, hz, hz'⟩ := h.1 a b rfl
          cases b with
          | nil => cases hz
          | cons w b =>
            simp only [List.head?_cons, Option.some.injEq] at hz
            subst hz
            cases hn : v.name with
            | nil => exact v.name_ne hn
            | cons m n =>
              rw [hn] at hr
              simp only [List.cons_append, List.cons.injEq] at hr
              exact hz' (by rw [← hr.1]; exact v.name_bytes m (by rw [hn]; simp))
    | var w =>
      simp only [piecesText, List.map_cons, List.flatMap_cons, TPiece.text, TPiece.subst]
      by_cases hw : w = v
      · subst hw
        rw [if_pos rfl, replace_hit _ _ _ hp, ← piecesText, ih h.2]
        rfl
      · rw [if_neg hw, replace_skip _ _ _ _ ?_]
        · rw [← piecesText, ih h.2]; rfl
        · rintro a b hab hb ⟨r, hr⟩
          simp only [List.append_assoc, List.cons_append, List.nil_append] at hr
          cases b with
          | nil => exact hb rfl
          | cons y b =>
            simp only [List.cons_append, List.cons.injEq] at hr
            obtain ⟨rfl, hr⟩ := hr
            cases a with
            | nil =>
              simp only [List.cons_append, List.nil_append, List.cons.injEq, true_and] at hab
              rw [← hab] at hr
              simp only [List.append_assoc, List.cons_append, List.nil_append] at hr
              have := (name_cut v.name_bytes w.name_bytes hr).1
              apply hw
              revert this
              cases v <;> cases w <;> decide
            | cons z a =>
              simp only [List.cons_append, List.nil_append, List.cons.injEq] at hab
              obtain ⟨_, hab⟩ := hab
              -- the percent sign is the last one
              rcases List.append_eq_append_iff.1 hab with ⟨k, h1, h2⟩ | ⟨k, h1, h2⟩
              · cases k with
                | nil =>
                  simp at h2
                  subst h2
                  simp only [List.nil_append] at hr
                  exact h.1.noName h.2 v.name_bytes v.name_ne hr.symm
                | cons k ks =>
                  simp only [List.cons_append, List.cons.injEq] at h2
                  have := congrArg List.length h2.2
                  simp at this
              · cases k with
                | nil =>
                  simp at h2
                  subst h2
                  simp only [List.nil_append] at hr
                  exact h.1.noName h.2 v.name_bytes v.name_ne hr.symm
                | cons k ks =>
                  simp only [List.cons_append, List.cons.injEq] at h2
                  exact nameByte_ne (w.name_bytes k (by rw [h1]; simp)) h2.1.symm

theorem VarApart.subst {v : TVar} {x : Str} {ts : List TPiece} (h : VarApart ts) : VarApart (ts.map (TPiece.subst v x)) := by
  induction ts with
  | nil => trivial
  | cons t ts ih =>
    cases t with
    | var w => exact h.elim
    | lit s =>
      rcases h with h | h
      · exact .inl h
      · exact .inr (ih h)

theorem harmless_of {x : Str} (h : c!"%" ∉ x) : Harmless x := by
  rintro a b rfl
  simp at h

theorem harmless_one {p q : Str} (hp : c!"%" ∉ p) (hq : c!"%" ∉ q) (h1 : ∃ x, p.getLast? = some x ∧ ¬ NameByte x)
    (h2 : ∃ x, q.head? = some x ∧ ¬ NameByte x) : Harmless (p ++ c!"%" :: q) := by
  intro a b e
  rcases List.append_eq_append_iff.1 e with ⟨x, rfl, e2⟩ | ⟨x, rfl, e2⟩
  · cases x with
    | nil =>
      simp only [List.nil_append, List.cons.injEq, true_and] at e2
      subst e2
      exact ⟨by rw [List.append_nil]; exact h1, h2⟩
    | cons y x =>
      simp only [List.cons_append, List.cons.injEq] at e2
      exact absurd (by rw [e2.2]; simp) hq
  · cases x with
    | nil =>
      simp only [List.nil_append, List.cons.injEq, true_and] at e2
      subst e2
      exact ⟨by rw [List.append_nil] at h1; exact h1, h2⟩
    | cons y x =>
      simp only [List.cons_append, List.cons.injEq] at e2
      exact absurd (by rw [← e2.1]; simp) hp

theorem PiecesOk.subst {v : TVar} {x : Str} (hx : c!"%" ∉ x) {ts : List TPiece} (h : PiecesOk ts) :
    PiecesOk (ts.map (TPiece.subst v x)) := by
  induction ts with
  | nil => trivial
  | cons t ts ih =>
    cases t with
    | lit s => exact ⟨h.1, ih h.2⟩
    | var w =>
      simp only [List.map_cons, TPiece.subst]
      split
      · exact ⟨harmless_of hx, ih h.2⟩
      · exact ⟨h.1.subst, ih h.2⟩

/-! ## What a page sets -/

open W

variable {L : HtmlLib} {c : HtmlCfg}

/-- The title, date and template after `w` are the last ones set by the blocks, or those before. -/
def Vars (w : W) (bs : List (Located Block)) : Prop :=
  ∀ f f', w f = .ok f' →
    f'.title = ((bs.filterMap fun x => x.inner.setTitle).getLast?).or f.title ∧
    f'.date = ((bs.filterMap fun x => x.inner.setDate).getLast?).or f.date ∧
    f'.template = ((bs.filterMap fun x => x.inner.setTemplate).getLast?).or f.template

theorem Vars.put (s : Str) : Vars (W.put s) [] := by
  rintro f f' h
  simp only [W.put, Except.ok.injEq] at h
  subst h
  simp

theorem Vars.nop : Vars W.nop [] := by
  rintro f f' h
  simp only [W.nop, Except.ok.injEq] at h
  subst h
  simp

theorem Vars.seqAll {a b : W} {x y : List (Located Block)} (ha : Vars a x) (hb : Vars b y) : Vars (a ⊳ b) (x ++ y) := by
  intro f f' h
  simp only [W.seq] at h
  cases h1 : a f with
  | error e => rw [h1] at h; cases h
  | ok g =>
    rw [h1] at h
    obtain ⟨a1, a2, a3⟩ := ha f g h1
    obtain ⟨b1, b2, b3⟩ := hb g f' h
    simp only [List.filterMap_append, List.getLast?_append]
    refine ⟨?_, ?_, ?_⟩
    · rw [b1, a1, Option.or_assoc]
    · rw [b2, a2, Option.or_assoc]
    · rw [b3, a3, Option.or_assoc]

theorem Vars.seq {a b : W} (ha : Vars a []) (hb : Vars b []) : Vars (a ⊳ b) [] := by
  simpa using ha.seqAll hb

theorem Vars.each {α} {w : α → W} (l : List α) (h : ∀ x, Vars (w x) []) : Vars (W.each w l) [] := by
  induction l with
  | nil => exact .nop
  | cons x l ih => exact (h x).seq ih

theorem Vars.choose {b : Bool} {x y : W} (hx : Vars x []) (hy : Vars y []) : Vars (W.choose b x y) [] := by
  cases b
  · exact hy
  · exact hx

theorem Vars.withId {i : Str} {k : Str → W} (h : ∀ u, Vars (k u) []) : Vars (W.withId i k) [] := by
  intro f f' e
  simp only [W.withId] at e
  split at e
  · cases e
  · simpa using h _ _ _ e

theorem Vars.insertHeader (l : Nat) (i : Str) : Vars (W.insertHeader l i) [] := by
  intro f f' e
  simp only [W.insertHeader, Except.ok.injEq] at e
  subst e
  simp

theorem Vars.error (e : HtmlErr) : Vars (fun _ => .error e) [] := by
  intro f f' h
  cases h

theorem writeImg_vars (u : Uri) (d : Option Description) (p : Option Map) : Vars (writeImg L u d p) [] :=
  (Vars.put _).seq ((Vars.put _).seq ((Vars.put _).seq (.put _)))

theorem fmtImg_vars (d : LinkData) : Vars (fmtImg L c d) [] := by
  unfold fmtImg
  cases resolveHere L c (.transclusion d) with
  | error e => exact .error e
  | ok u => exact writeImg_vars u _ _

theorem writeDesc_vars (u : Uri) (d : Option Description) : Vars (writeDesc L c u d) [] := by
  match d with
  | some (.text s) => exact .put _
  | some (.transclusion u d p) => exact fmtImg_vars _
  | none => exact .put _

theorem Link.html_vars (l : Link) : Vars (l.html L c) [] := by
  unfold Link.html
  split
  · exact fmtImg_vars _
  · intro f f' e
    dsimp only at e
    split at e
    · cases e
    · exact ((Vars.put _).seq ((Vars.put _).seq ((Vars.put _).seq ((writeDesc_vars _ _).seq (.put _))))) f f' e

theorem writeAnchor_vars (i : Str) : Vars (writeAnchor i) [] := by
  unfold writeAnchor
  intro f f' e
  dsimp only at e
  split at e
  · exact Vars.nop f f' e
  · exact Vars.withId (fun u => .put _) f f' e

mutual
theorem Inline.html_vars : ∀ x : Inline, Vars (Inline.html L c x) []
  | .text s => .put _
  | .decorated .bold cs => .withId fun u => (writeAnchor_vars _).seq ((Vars.put _).seq ((Inline.htmlAll_vars cs).seq (.put _)))
  | .decorated .italic cs => (Vars.put _).seq ((Inline.htmlAll_vars cs).seq (.put _))
  | .decorated .strikeout cs => (Vars.put _).seq ((Inline.htmlAll_vars cs).seq (.put _))
  | .decorated .superscript cs => (Vars.put _).seq ((Inline.htmlAll_vars cs).seq (.put _))
  | .decorated .subscript cs => (Vars.put _).seq ((Inline.htmlAll_vars cs).seq (.put _))
  | .keyword k => by cases k <;> exact .put _
  | .link l => Link.html_vars l
  | .tags ts => .each ts fun t => .withId fun u => (writeAnchor_vars _).seq (.put _)
  | .code s => .put _
  | .math s => .put _
  | .comment (.line s) => .choose (.put _) .nop
  | .comment (.multi ls) => .choose ((Vars.put _).seq ((Vars.each ls fun l => .put _).seq (.put _))) .nop
theorem Inline.htmlAll_vars : ∀ xs : List (Located Inline), Vars (Inline.htmlAll L c xs) []
  | [] => .nop
  | ⟨x, _⟩ :: xs => (Inline.html_vars x).seq (Inline.htmlAll_vars xs)
end

theorem headerHtml_vars (xs : Inlines) (level : Nat) : Vars (headerHtml L c xs level) [] := by
  refine .withId fun u => (Vars.insertHeader _ _).seq (.choose ?_ ?_)
  · exact (Vars.put _).seq ((Vars.put _).seq ((Inline.htmlAll_vars xs).seq (.put _)))
  · unfold plainHeader
    intro f f' e
    dsimp only at e
    split at e
    · exact Vars.withId (fun u => (Vars.put _).seq ((Vars.put _).seq ((Vars.put _).seq ((Inline.htmlAll_vars xs).seq
        ((Vars.put _).seq (.put _)))))) f f' e
    · exact ((Vars.put _).seq ((Vars.put _).seq ((Inline.htmlAll_vars xs).seq (.put _)))) f f' e

theorem codeLines_vars : ∀ ls : List Str, Vars (codeLines ls) []
  | [] => .nop
  | [_] => .put _
  | _ :: l :: ls => (Vars.put _).seq (codeLines_vars (l :: ls))

theorem paraLines_vars : ∀ ls : List Inlines, Vars (paraLines L c ls) []
  | [] => .nop
  | [l] => Inline.htmlAll_vars l
  | x :: l :: ls => (Inline.htmlAll_vars x).seq ((Vars.put _).seq (paraLines_vars (l :: ls)))

theorem codeHtml_vars (lang : Option Str) (md : Map) (ls : List Str) : Vars (codeHtml L c lang md ls) [] := by
  unfold codeHtml
  intro f f' e
  dsimp only at e
  split at e
  · split at e
    · cases e
    · exact ((Vars.put _).seq (.put _)) f f' e
  · exact ((Vars.put _).seq ((Vars.put _).seq ((Vars.put _).seq ((Vars.put _).seq ((Vars.put _).seq
      ((codeLines_vars ls).seq (.put _))))))) f f' e

theorem tableHtml_vars (t : Table) : Vars (tableHtml L c t) [] := by
  have hc : ∀ tag e, Vars (cellHtml L c t tag e) [] := by
    intro tag e
    unfold cellHtml
    split
    · exact (Vars.put _).seq ((Vars.put _).seq ((Vars.put _).seq ((Vars.put _).seq ((Inline.htmlAll_vars _).seq (.put _)))))
    · exact .nop
  have hr : ∀ tag r, Vars (rowHtml L c t tag r) [] := fun tag r =>
    .choose ((Vars.put _).seq ((Vars.each _ (hc tag)).seq (.put _))) .nop
  exact (Vars.put _).seq ((Vars.choose ((Vars.put _).seq ((Vars.each _ (hr _)).seq (.put _))) .nop).seq
    ((Vars.choose ((Vars.put _).seq ((Vars.each _ (hr _)).seq (.put _))) .nop).seq (.put _)))

theorem Vars.cons {w : W} {x : Block} {r : Region} (h : Vars w []) (h1 : x.setTitle = none) (h2 : x.setDate = none)
    (h3 : x.setTemplate = none) : Vars w [⟨x, r⟩] := by
  intro f f' e
  simpa [List.filterMap_cons, h1, h2, h3] using h f f' e

mutual
theorem Block.html_vars : ∀ (x : Block) (r : Region), Vars (Block.html L c x) (⟨x, r⟩ :: x.inside)
  | .blockquote ls, r => .cons ((Vars.put _).seq ((Vars.choose (.each _ fun _ => .put _) (.each _ fun _ => .put _)).seq (.put _)))
      rfl rfl rfl
  | .code lang md ls, r => .cons (codeHtml_vars lang md ls) rfl rfl rfl
  | .defs items, r => .cons ((Vars.put _).seq ((Vars.each _ fun x => (Vars.put _).seq ((Inline.htmlAll_vars _).seq ((Vars.put _).seq
      (.each _ fun d => (Vars.put _).seq ((Inline.htmlAll_vars _).seq (.put _)))))).seq (.put _))) rfl rfl rfl
  | .divider, r => .cons (.put _) rfl rfl rfl
  | .header xs level _, r => .cons (headerHtml_vars xs level) rfl rfl rfl
  | .list items, r => by
    have h := (Vars.cons (x := .list items) (r := r)
      (Vars.put (if orderedItems items then b!"<ol>\n" else b!"<ul>\n")) rfl rfl rfl).seqAll ((Block.htmlItems_vars items).seqAll (.put (if orderedItems items then b!"</ol>" else b!"</ul>")))
    rw [List.append_nil] at h
    exact h
  | .math ls env, r => by
    refine .cons ?_ rfl rfl rfl
    simp only [Block.html, mathHtml]
    split
    · exact (Vars.put _).seq ((Vars.each _ fun _ => .put _).seq (.put _))
    · exact (Vars.put _).seq ((Vars.each _ fun _ => .put _).seq (.put _))
  | .paragraph ls, r => .cons ((Vars.choose (.put _) .nop).seq ((paraLines_vars ls).seq (.choose (.put _) .nop))) rfl rfl rfl
  | .placeholder p, r => by
    intro f f' e
    cases p <;> simp only [Block.html, placeholderHtml, W.nop, Except.ok.injEq] at e <;> subst e <;>
      simp [Block.inside, Block.setTitle, Block.setDate, Block.setTemplate]
  | .table t, r => .cons (tableHtml_vars t) rfl rfl rfl
theorem Block.htmlItems_vars : ∀ xs : List (Located (ItemF Block)), Vars (Block.htmlItems L c xs) (Block.itemBlocks xs)
  | [] => .nop
  | ⟨⟨_, _, _, cs, todo⟩, _⟩ :: xs => by
    have h := (Vars.put (itemOpen todo)).seqAll ((Block.htmlContents_vars cs).seqAll ((Vars.put b!"</li>").seqAll
      ((Vars.put b!"\n").seqAll (Block.htmlItems_vars xs))))
    simp only [List.nil_append] at h
    exact h
theorem Block.htmlContents_vars : ∀ xs : List (Located Block), Vars (Block.htmlContents L c xs) (Block.allBlocks xs)
  | [] => .nop
  | ⟨x, r⟩ :: xs => (Block.html_vars x r).seqAll (Block.htmlContents_vars xs)
end

theorem blocks_vars : ∀ xs : List (Located Block),
    Vars (W.each (fun x => Block.html L c x.inner ⊳ W.put b!"\n") xs) (Block.allBlocks xs)
  | [] => .nop
  | ⟨x, r⟩ :: xs => by
    have h := ((Block.html_vars (L := L) (c := c) x r).seqAll (.put b!"\n")).seqAll (blocks_vars xs)
    rw [List.append_nil] at h
    exact h

theorem pageHtml_vars {p : Page} {f : HFm} (h : pageHtml L c p {} = .ok f) :
    f.title = p.lastTitle ∧ f.date = p.lastDate ∧ f.template = p.lastTemplate := by
  have := blocks_vars (L := L) (c := c) p.elements {} f h
  simp only [Option.or_none] at this
  exact this

end Vw
