import Verif.Lemmas.HtmlOut
import Verif.Lemmas.TableIter
import Verif.Spec.HtmlShow

/-! # What the writers of HTML write -/

namespace Vw
open W

/-- The formatter knows the last header of each level. -/
def Seen (f : HFm) (hs : Headers) : Prop := ∀ l, f.headerText l = hs.latest l

/-- A writer that succeeds after the headers `hs` writes a piece as told and leaves the headers
`hs'`. -/
def Makes (hs hs' : Headers) (w : W) (T : List Html → Prop) : Prop :=
  ∀ f g, Seen f hs → w f = .ok g → Seen g hs' ∧ ∃ t, g.content = f.content ++ Html.renderAll t ∧ T t

variable {hs hs' hs1 : Headers} {w a b : W} {T A B : List Html → Prop}

theorem Makes.mono (h : Makes hs hs' w T) (hi : ∀ t, T t → A t) : Makes hs hs' w A := by
  intro f g hf hw
  obtain ⟨h1, t, h2, h3⟩ := h f g hf hw
  exact ⟨h1, t, h2, hi t h3⟩

theorem Makes.nop : Makes hs hs W.nop (· = []) := by
  intro f g hf hw
  cases hw
  exact ⟨hf, [], by simp [Html.renderAll], rfl⟩

theorem Makes.put {s : Str} (t : List Html) (h : s = Html.renderAll t) : Makes hs hs (W.put s) (· = t) := by
  intro f g hf hw
  cases hw
  exact ⟨hf, t, by simp [h], rfl⟩

theorem Makes.seq (ha : Makes hs hs1 a A) (hb : Makes hs1 hs' b B) :
    Makes hs hs' (a ⊳ b) fun t => ∃ x y, t = x ++ y ∧ A x ∧ B y := by
  intro f g hf hw
  obtain ⟨i, h1, h2⟩ := seq_ok hw
  obtain ⟨h3, x, h4, h5⟩ := ha f i hf h1
  obtain ⟨h6, y, h7, h8⟩ := hb i g h3 h2
  exact ⟨h6, x ++ y, by rw [h7, h4, renderAll_append, List.append_assoc], x, y, rfl, h5, h8⟩

theorem Makes.elem {s e : Str} (n : Str) (as : List (Str × Str)) (pre post : List Html)
    (h1 : s = b!"<" ++ n ++ renderAttrs as ++ b!">" ++ Html.renderAll pre)
    (h2 : e = b!"</" ++ n ++ b!">" ++ Html.renderAll post) (h : Makes hs hs' w T) :
    Makes hs hs' (W.put s ⊳ w ⊳ W.put e) fun t => ∃ ts, T ts ∧ t = .elem n as (pre ++ ts) :: post := by
  intro f g hf hw
  obtain ⟨i, h3, h4⟩ := seq_ok hw
  obtain ⟨j, h5, h6⟩ := seq_ok h4
  cases h3
  cases h6
  obtain ⟨h7, t, h8, h9⟩ := h { f with content := f.content ++ s } j hf h5
  refine ⟨h7, _, ?_, t, h9, rfl⟩
  simp only at h8
  simp [h8, h1, h2, Html.renderAll, Html.render, renderAll_append]

theorem Makes.choose {c : Bool} (ha : c = true → Makes hs hs' a T) (hb : c = false → Makes hs hs' b T) :
    Makes hs hs' (W.choose c a b) T := by
  cases c with
  | true => exact ha rfl
  | false => exact hb rfl

theorem Makes.each {α} {w : α → W} {S : α → List Html → Prop} (l : List α) (h : ∀ x ∈ l, Makes hs hs (w x) (S x)) :
    Makes hs hs (W.each w l) (EachShows S l) := by
  induction l with
  | nil => exact .nop
  | cons x xs ih => exact (h x (by simp)).seq (ih fun y hy => h y (by simp [hy]))

/-! ## Ids -/

theorem loop_variant {i u : Str} (n : Nat) : ∀ (c c' : IdCache) (j : Str), Variant i j → IdCache.loop n c j = some (u, c') →
    Variant i u := by
  induction n with
  | zero => intro c c' j _ h; simp [IdCache.loop] at h
  | succ n ih =>
    intro c c' j hj h
    simp only [IdCache.loop] at h
    split at h
    · cases h; exact hj
    · split at h
      · exact ih _ _ _ (.numbered _ hj) h
      · exact ih _ _ _ (.numbered _ hj) h

theorem unique_variant {c c' : IdCache} {i u : Str} (h : c.unique i = some (u, c')) : Variant i u := by
  simp only [IdCache.unique] at h
  split at h
  · exact loop_variant _ _ _ _ .same h
  · cases h; exact .same

theorem Makes.withId {i : Str} {k : Str → W} {T : Str → List Html → Prop} (h : ∀ u, Makes hs hs' (k u) (T u)) :
    Makes hs hs' (W.withId i k) fun t => ∃ u, Variant i u ∧ T u t := by
  intro f g hf hw
  simp only [W.withId] at hw
  split at hw
  · cases hw
  · rename_i u c hu
    obtain ⟨h1, t, h2, h3⟩ := h u { f with ids := c } g hf hw
    exact ⟨h1, t, h2, u, unique_variant hu, h3⟩

/-! ## Headers -/

theorem latest_append (l n : Nat) (t : Str) : Headers.latest (hs ++ [(n, t)]) l = if n = l then some t else hs.latest l := by
  unfold Headers.latest
  rw [List.filter_append]
  by_cases h : n = l
  · simp [h]
  · simp [h]

theorem latest_some {l : Nat} : (hs.latest l).isSome ↔ ∃ e ∈ hs, e.1 = l := by
  unfold Headers.latest
  rw [Option.isSome_map]
  cases hc : hs.filter fun e => e.1 = l with
  | nil =>
    have := List.filter_eq_nil_iff.1 hc
    simp only [List.getLast?_nil, Option.isSome_none, Bool.false_eq_true, false_iff]
    rintro ⟨e, he, h1⟩
    exact this e he (by simpa using h1)
  | cons x xs =>
    have hx : x ∈ hs.filter fun e => e.1 = l := by rw [hc]; simp
    simp only [List.getLast?_cons, Option.isSome_some, true_iff]
    exact ⟨x, (List.mem_filter.1 hx).1, by simpa using (List.mem_filter.1 hx).2⟩

theorem Makes.insertHeader (l : Nat) (i : Str) : Makes hs (hs ++ [(l, i)]) (W.insertHeader l i) (· = []) := by
  intro f g hf hw
  cases hw
  refine ⟨fun n => ?_, [], by simp [Html.renderAll], rfl⟩
  rw [latest_append, ← hf n]
  simp only [HFm.headerText]
  by_cases h : l = n
  · simp [h]
  · rw [List.find?_cons_of_neg (by simpa using h), if_neg h, List.find?_filter]
    congr 2
    funext e
    by_cases he : e.1 = n
    · simp [he, Ne.symm h]
    · simp [he]

theorem idPrefix_join {f : HFm} (hf : Seen f hs) (i : Str) (ls : List Nat) :
    f.idPrefix ls ++ i = joinWith b!"-" (ls.filterMap hs.latest ++ [i]) := by
  induction ls with
  | nil => rfl
  | cons l ls ih =>
    simp only [HFm.idPrefix]
    rw [hf l, List.append_assoc, ih]
    cases h : hs.latest l with
    | none => rw [List.filterMap_cons_none h]; rfl
    | some t =>
      rw [List.filterMap_cons_some h]
      cases h2 : ls.filterMap hs.latest with
      | nil => simp [joinWith]
      | cons x xs => simp [joinWith]

theorem completeId_path {f : HFm} (hf : Seen f hs) (n : Nat) (i : Str) : f.completeId (n + 1) i = hs.pathTo n i := by
  simp only [HFm.completeId, Headers.pathTo]
  rw [idPrefix_join hf]
  have : (List.range (n + 1)).drop 1 = List.range' 1 n := by
    rw [List.range_eq_range', List.drop_range']
    simp
  rw [this]

theorem maxLevel_spec (l : List (Nat × Str)) (o : Option Nat) :
    let r := l.foldl (fun m e => some (match m with | none => e.1 | some n => max n e.1)) o
    (r = none ↔ o = none ∧ l = []) ∧ ∀ m, r = some m → (o = some m ∨ ∃ e ∈ l, e.1 = m) ∧ (∀ x, o = some x → x ≤ m) ∧ ∀ e ∈ l, e.1 ≤ m := by
  induction l generalizing o with
  | nil =>
    refine ⟨by simp, fun m hm => ?_⟩
    simp only [List.foldl_nil] at hm
    exact ⟨.inl hm, fun x hx => by rw [hm] at hx; cases hx; exact Nat.le_refl _, by simp⟩
  | cons e l ih =>
    simp only [List.foldl_cons]
    have h := ih (some (match o with | none => e.1 | some n => max n e.1))
    refine ⟨by rw [h.1]; simp, fun m hm => ?_⟩
    obtain ⟨h1, h2, h3⟩ := h.2 m hm
    have h4 := h2 _ rfl
    cases o with
    | none =>
      simp only at h1 h4
      refine ⟨.inr ?_, by simp, ?_⟩
      · rcases h1 with h1 | ⟨y, hy, h1⟩
        · exact ⟨e, by simp, by simpa using h1⟩
        · exact ⟨y, by simp [hy], h1⟩
      · intro y hy
        rcases List.mem_cons.1 hy with rfl | hy
        · exact h4
        · exact h3 y hy
    | some n =>
      simp only [Option.some.injEq] at h1 h4
      refine ⟨?_, fun x hx => by cases hx; omega, ?_⟩
      · rcases h1 with h1 | ⟨y, hy, h1⟩
        · rcases Nat.le_total n e.1 with hle | hle
          · exact .inr ⟨e, by simp, by omega⟩
          · exact .inl (by congr 1; omega)
        · exact .inr ⟨y, by simp [hy], h1⟩
      · intro y hy
        rcases List.mem_cons.1 hy with rfl | hy
        · omega
        · exact h3 y hy

theorem headerText_some {f : HFm} {l : Nat} : (f.headerText l).isSome ↔ ∃ e ∈ f.headers, e.1 = l := by
  simp [HFm.headerText]

theorem Seen.levels {f : HFm} (hf : Seen f hs) (l : Nat) : (∃ e ∈ f.headers, e.1 = l) ↔ ∃ e ∈ hs, e.1 = l := by
  rw [← headerText_some, hf l, latest_some]

theorem writeAnchor_makes (i : Str) : Makes hs hs (writeAnchor i) (AnchorShows hs i) := by
  intro f g hf hw
  simp only [writeAnchor] at hw
  have hm := maxLevel_spec f.headers none
  simp only [true_and] at hm
  change (f.maxLevel = none ↔ _) ∧ ∀ m, f.maxLevel = some m → _ at hm
  split at hw
  · rename_i h
    cases hw
    refine ⟨hf, [], by simp [Html.renderAll], .inl ⟨?_, rfl⟩⟩
    cases hh : hs with
    | nil => rfl
    | cons e es =>
      obtain ⟨x, hx, -⟩ := (hf.levels e.1).2 ⟨e, by simp [hh], rfl⟩
      rw [hm.1.1 h] at hx
      cases hx
  · rename_i m h
    obtain ⟨h1, -, h2⟩ := hm.2 m h
    have h1 := h1.resolve_left (by simp)
    rw [completeId_path hf] at hw
    refine (Makes.withId (T := fun u t => t = [.elem b!"span" [(b!"id", u)] []]) fun u => ?_).mono ?_ f g hf hw
    · exact .put _ (by simp [Html.renderAll, Html.render, renderAttrs])
    · rintro t ⟨u, h3, h4⟩
      refine .inr ⟨m, u, (hf.levels m).1 h1, fun e he => ?_, h3, h4⟩
      obtain ⟨x, hx, h5⟩ := (hf.levels e.1).2 ⟨e, he, rfl⟩
      rw [← h5]
      exact h2 x hx

/-! ## Inline elements -/

variable {L : HtmlLib} {c : HtmlCfg}

theorem propsHtml_attrs (p : Option Map) : propsHtml p = renderAttrs (linkAttrs p) := propsHtml_render p

theorem writeImg_makes (u : Uri) (d : Option Description) (p : Option Map) :
    Makes hs hs (writeImg L u d p) (· = [imgHtml L u d p]) := by
  simp only [writeImg, ← put_append]
  refine .put _ ?_
  rw [propsHtml_attrs]
  cases d with
  | none => simp [Html.renderAll, Html.render, imgHtml, renderAttrs]
  | some d => simp [Html.renderAll, Html.render, imgHtml, renderAttrs, attrText]

theorem fmtImg_makes (d : LinkData) : Makes hs hs (fmtImg L c d) fun t =>
    ∃ u, resolveHere L c (.transclusion d) = .ok u ∧ t = [imgHtml L u d.desc d.props] := by
  intro f g hf hw
  simp only [fmtImg] at hw
  split at hw
  · cases hw
  · rename_i u hu
    exact (writeImg_makes u _ _).mono (fun t ht => ⟨u, hu, ht⟩) f g hf hw

theorem writeDesc_makes (l : Link) (u : Uri) (hl : ∀ d, l ≠ .transclusion d) :
    Makes hs hs (writeDesc L c u (l.descOr L)) (DescShows L c l u) := by
  have key : ∀ s : Str, Makes hs hs (W.put (escapeHtml s)) (· = [.text (escapeHtml s)]) := fun s =>
    .put _ (by simp [Html.renderAll, Html.render])
  unfold Link.descOr DescShows
  cases hd : l.data.desc with
  | some d =>
    cases d with
    | text s => simpa only [writeDesc, hd] using key s
    | transclusion v d p => simpa only [writeDesc, hd] using fmtImg_makes ⟨v, d, p⟩
  | none =>
    cases l with
    | transclusion d => exact absurd rfl (hl d)
    | raw d => exact .put _ (by simp [Html.renderAll, Html.render])
    | diary dt d => exact key _
    | wiki d => exact key _
    | indexed i d => exact key _
    | named n d => exact key _

theorem Link.html_makes (l : Link) : Makes hs hs (l.html L c) (LinkShows L c l) := by
  have key : ∀ l : Link, (∀ d, l ≠ .transclusion d) → Makes hs hs (fun f =>
      match resolveHere L c l with
      | .error e => .error e
      | .ok u => (W.put (b!"<a href=\"" ++ L.uriStr u ++ b!"\"") ⊳ W.put (propsHtml l.data.props) ⊳
        W.put b!">" ⊳ writeDesc L c u (l.descOr L) ⊳ W.put b!"</a>") f) fun t =>
      ∃ u, resolveHere L c l = .ok u ∧
        ∃ ts, DescShows L c l u ts ∧ t = [.elem b!"a" ((b!"href", L.uriStr u) :: linkAttrs l.data.props) ts] := by
    intro l hl f g hf hw
    simp only at hw
    split at hw
    · cases hw
    · rename_i u hu
      have h := Makes.elem b!"a" ((b!"href", L.uriStr u) :: linkAttrs l.data.props) [] [] rfl rfl
        (writeDesc_makes (hs := hs) (L := L) (c := c) l u hl)
      simp only [← seq_assoc, ← put_append] at hw h
      refine (h.mono ?_) f g hf ?_
      · rintro t ⟨ts, h1, rfl⟩
        exact ⟨u, hu, ts, h1, by simp⟩
      · rw [← hw, propsHtml_attrs]
        simp [renderAttrs, Html.renderAll]
  unfold Link.html LinkShows
  cases l with
  | transclusion d => exact fmtImg_makes d
  | raw d => exact key _ (by simp)
  | diary dt d => exact key _ (by simp)
  | wiki d => exact key _ (by simp)
  | indexed i d => exact key _ (by simp)
  | named n d => exact key _ (by simp)

theorem writeTag_makes (tag : Str) : Makes hs hs (writeTag L tag) (TagShows L hs tag) := by
  refine (Makes.withId fun u => (writeAnchor_makes (hs := hs) _).seq (.put
    [.elem b!"span" [(b!"class", b!"tag"), (b!"id", u)] [.text (normalizeId L.lower tag)]] ?_)).mono ?_
  · simp [Html.renderAll, Html.render, renderAttrs]
  · rintro t ⟨u, h1, x, y, rfl, h2, rfl⟩
    exact ⟨x, u, h2, h1, rfl⟩

theorem comment_makes (x : Comment) : Makes hs hs (x.html c) (· = commentHtml c x) := by
  cases x with
  | line s =>
    simp only [Comment.html, commentHtml]
    cases c.comments with
    | false => exact .nop
    | true => exact .put _ (by simp [Html.renderAll, Html.render])
  | multi ls =>
    simp only [Comment.html, commentHtml]
    cases c.comments with
    | false => exact .nop
    | true =>
      have : ∀ ls : List Str, W.each (fun l => W.put (l ++ b!"\n")) ls = W.put (ls.flatMap fun l => l ++ b!"\n") := by
        intro ls
        induction ls with
        | nil => funext f; simp [W.each, W.nop, W.put]
        | cons l ls ih => simp only [W.each, ih, ← put_append, List.flatMap_cons]
      simp only [W.choose, if_true, this, ← put_append]
      exact .put _ (by simp [Html.renderAll, Html.render])

mutual
theorem Inline.html_makes (hs : Headers) : ∀ x : Inline, Makes hs hs (Inline.html L c x) (Inline.Shows L c hs x)
  | .text s => by
    simp only [Inline.html, Inline.Shows]
    exact .put _ (by simp [Html.renderAll, Html.render])
  | .decorated .bold cs => by
    simp only [Inline.html, Inline.Shows]
    have ih := Inline.htmlAll_makes hs cs
    refine (Makes.withId fun u => (writeAnchor_makes (hs := hs) _).seq
      (Makes.elem b!"strong" [(b!"id", u)] [] [] (by simp [renderAttrs, Html.renderAll]) (by simp [Html.renderAll]) ih)).mono ?_
    rintro t ⟨u, h1, x, y, rfl, h2, ts, h3, rfl⟩
    exact ⟨x, u, ts, h2, h1, h3, by simp⟩
  | .decorated .italic cs => by
    simp only [Inline.html, Inline.Shows]
    exact (Makes.elem b!"em" [] [] [] rfl rfl (Inline.htmlAll_makes hs cs)).mono fun t h => by simpa using h
  | .decorated .strikeout cs => by
    simp only [Inline.html, Inline.Shows]
    exact (Makes.elem b!"del" [] [] [] rfl rfl (Inline.htmlAll_makes hs cs)).mono fun t h => by simpa using h
  | .decorated .superscript cs => by
    simp only [Inline.html, Inline.Shows]
    have h := Makes.elem b!"sup" [] [] [] rfl rfl (Makes.elem b!"small" [] [] [] rfl rfl (Inline.htmlAll_makes hs cs))
    simp only [seq_assoc, ← put_append] at h
    rw [← seq_assoc, ← put_append] at h
    refine h.mono ?_
    rintro t ⟨ts, ⟨us, h1, rfl⟩, rfl⟩
    exact ⟨us, h1, by simp⟩
  | .decorated .subscript cs => by
    simp only [Inline.html, Inline.Shows]
    have h := Makes.elem b!"sub" [] [] [] rfl rfl (Makes.elem b!"small" [] [] [] rfl rfl (Inline.htmlAll_makes hs cs))
    simp only [seq_assoc, ← put_append] at h
    rw [← seq_assoc, ← put_append] at h
    refine h.mono ?_
    rintro t ⟨ts, ⟨us, h1, rfl⟩, rfl⟩
    exact ⟨us, h1, by simp⟩
  | .keyword k => by
    simp only [Inline.html]
    cases k <;> simp only [Inline.Shows] <;> exact .put _ (by decide)
  | .link l => by
    simp only [Inline.html, Inline.Shows]
    exact Link.html_makes l
  | .tags ts => by
    simp only [Inline.html, Inline.Shows]
    exact .each ts fun t _ => writeTag_makes t
  | .code s => by
    simp only [Inline.html, Inline.Shows]
    exact .put _ (by simp [Html.renderAll, Html.render, renderAttrs])
  | .math s => by
    simp only [Inline.html, Inline.Shows]
    exact .put _ (by simp [Html.renderAll, Html.render])
  | .comment x => by
    simp only [Inline.html, Inline.Shows]
    exact comment_makes x
theorem Inline.htmlAll_makes (hs : Headers) : ∀ xs : List (Located Inline),
    Makes hs hs (Inline.htmlAll L c xs) (Inline.ShowsAll L c hs xs)
  | [] => by
    simp only [Inline.htmlAll, Inline.ShowsAll]
    exact .nop
  | ⟨x, _⟩ :: xs => by
    simp only [Inline.htmlAll, Inline.ShowsAll]
    exact (Inline.html_makes hs x).seq (Inline.htmlAll_makes hs xs)
end

end Vw
