import Verif.Lemmas.HtmlText
import Verif.Lemmas.Ids
import Verif.Lemmas.TableIter

/-! # The output is a forest, and its ids are those handed out -/

namespace Vw
open W IdCache

/-! ## Trees -/

theorem renderAll_append (a b : List Html) : Html.renderAll (a ++ b) = Html.renderAll a ++ Html.renderAll b := by
  induction a with
  | nil => rfl
  | cons x a ih => simp [Html.renderAll, ih]

theorem okAll_append (a b : List Html) : Html.OkAll (a ++ b) ↔ Html.OkAll a ∧ Html.OkAll b := by
  induction a with
  | nil => simp [Html.OkAll]
  | cons x a ih => simp [Html.OkAll, ih, and_assoc]

theorem idsAll_append (a b : List Html) : Html.idsAll (a ++ b) = Html.idsAll a ++ Html.idsAll b := by
  induction a with
  | nil => rfl
  | cons x a ih => simp [Html.idsAll, ih]

/-! ## Ids joined -/

theorem Joined.append {B : Str → Prop} {x y : Str} (hx : Joined B x) (hy : Joined B y) :
    Joined B (x ++ b!"-" ++ y) := by
  induction hx with
  | one h => exact .more h hy
  | @more a b h _ ih =>
    have : a ++ b!"-" ++ b ++ b!"-" ++ y = a ++ b!"-" ++ (b ++ b!"-" ++ y) := by simp
    rw [this]
    exact .more h ih

theorem Joined.quote {B : Str → Prop} (hB : ∀ x, B x → c!"\"" ∉ x) {x : Str} (h : Joined B x) :
    c!"\"" ∉ x := by
  induction h with
  | one h => exact hB _ h
  | more h _ ih =>
    intro hm
    simp only [List.mem_append, List.mem_singleton] at hm
    rcases hm with (hm | hm) | hm
    · exact hB _ h hm
    · cases hm
    · exact ih hm

/-! ## Steps -/

section
variable (B : Str → Prop) (k : Prop)

/-- What holds of a formatter at any time. -/
structure HFm.Inv (f : HFm) : Prop where
  keys : ∀ i, f.ids.get i ≠ none → Joined B i
  texts : ∀ l t, (l, t) ∈ f.headers → B t

/-- The formatter went from `f` to `g` and wrote the forest `h`, in which the ids are
those handed out and those in `x`. -/
structure HtmlStep (x : List Str) (f g : HFm) (h : List Html) : Prop where
  inv : g.Inv B
  content : g.content = f.content ++ Html.renderAll h
  ok : Html.OkAll h
  calls : ∃ rs os, Calls f.ids rs os g.ids ∧ (∀ r ∈ rs, Joined B r) ∧ (k → (Html.idsAll h).Perm (x ++ os))

/-- A writer writes forests in which the ids are those handed out and those in `x`. -/
def HtmlWrites (x : List Str) (w : W) : Prop :=
  ∀ f g, f.Inv B → w f = .ok g → ∃ h, HtmlStep B k x f g h
end

variable {B : Str → Prop} {k : Prop}

theorem HtmlStep.append {x y : List Str} {f g i : HFm} {h h' : List Html} (a : HtmlStep B k x f g h)
    (b : HtmlStep B k y g i h') : HtmlStep B k (x ++ y) f i (h ++ h') := by
  obtain ⟨rs, os, c1, r1, p1⟩ := a.calls
  obtain ⟨rs', os', c2, r2, p2⟩ := b.calls
  refine ⟨b.inv, ?_, (okAll_append _ _).2 ⟨a.ok, b.ok⟩, rs ++ rs', os ++ os', c1.append c2, ?_, ?_⟩
  · rw [b.content, a.content, renderAll_append, List.append_assoc]
  · intro r hr
    rcases List.mem_append.1 hr with hr | hr
    · exact r1 r hr
    · exact r2 r hr
  · intro hk
    rw [idsAll_append]
    refine ((p1 hk).append (p2 hk)).trans ?_
    rw [List.append_assoc, List.append_assoc]
    refine List.Perm.append_left x ?_
    rw [← List.append_assoc, ← List.append_assoc]
    exact List.Perm.append_right os' List.perm_append_comm

theorem HtmlWrites.perm {x y : List Str} {w : W} (h : HtmlWrites B k x w) (hp : x.Perm y) : HtmlWrites B k y w := by
  intro f g hi hw
  obtain ⟨h', hs⟩ := h f g hi hw
  obtain ⟨rs, os, c1, r1, p1⟩ := hs.calls
  exact ⟨h', hs.inv, hs.content, hs.ok, rs, os, c1, r1, fun hk => (p1 hk).trans (hp.append_right os)⟩

theorem seq_ok {a b : W} {f g : HFm} (h : (a ⊳ b) f = .ok g) : ∃ i, a f = .ok i ∧ b i = .ok g := by
  simp only [W.seq] at h
  cases ha : a f with
  | error e => rw [ha] at h; cases h
  | ok i => rw [ha] at h; exact ⟨i, rfl, h⟩

theorem HtmlWrites.seq {x y : List Str} {a b : W} (ha : HtmlWrites B k x a) (hb : HtmlWrites B k y b) :
    HtmlWrites B k (x ++ y) (a ⊳ b) := by
  intro f g hi hw
  obtain ⟨i, h1, h2⟩ := seq_ok hw
  obtain ⟨u, s1⟩ := ha f i hi h1
  obtain ⟨v, s2⟩ := hb i g s1.inv h2
  exact ⟨_, s1.append s2⟩

theorem HtmlWrites.then {x : List Str} {a b : W} (ha : HtmlWrites B k x a) (hb : HtmlWrites B k [] b) :
    HtmlWrites B k x (a ⊳ b) := by
  have := ha.seq hb
  rwa [List.append_nil] at this

theorem HtmlWrites.nop : HtmlWrites B k [] nop := by
  intro f g hi hw
  cases hw
  exact ⟨[], hi, by simp [Html.renderAll], trivial, [], [], .nil _, by simp, fun _ => by simp [Html.idsAll]⟩

theorem HtmlWrites.choose {x : List Str} {c : Bool} {a b : W} (ha : c = true → HtmlWrites B k x a)
    (hb : c = false → HtmlWrites B k x b) : HtmlWrites B k x (choose c a b) := by
  cases c with
  | false => exact hb rfl
  | true => exact ha rfl

theorem HtmlWrites.each {α} {w : α → W} {l : List α} (h : ∀ x ∈ l, HtmlWrites B k [] (w x)) :
    HtmlWrites B k [] (each w l) := by
  induction l with
  | nil => exact HtmlWrites.nop
  | cons x l ih =>
    exact (h x (by simp)).seq (ih fun y hy => h y (by simp [hy]))

/-- A piece whose text is put at once. -/
theorem HtmlWrites.piece {x : List Str} {s : Str} (t : List Html) (hs : s = Html.renderAll t) (hok : Html.OkAll t)
    (hx : k → (Html.idsAll t).Perm x) : HtmlWrites B k x (put s) := by
  intro f g hi hw
  cases hw
  exact ⟨t, ⟨hi.1, hi.2⟩, by rw [hs], hok, [], [], .nil _, by simp, fun hk => by simpa using hx hk⟩

/-- Text without `<` and `>`. -/
def Textual (s : Str) : Prop := c!"<" ∉ s ∧ c!">" ∉ s

theorem Textual.append {s t : Str} (hs : Textual s) (ht : Textual t) : Textual (s ++ t) := by
  refine ⟨?_, ?_⟩
  · intro h
    rcases List.mem_append.1 h with h | h
    · exact hs.1 h
    · exact ht.1 h
  · intro h
    rcases List.mem_append.1 h with h | h
    · exact hs.2 h
    · exact ht.2 h

theorem textual_escape (s : Str) : Textual (escapeHtml s) :=
  ⟨fun h => (escapeHtml_noMarkup s _ h).1 rfl, fun h => (escapeHtml_noMarkup s _ h).2.1 rfl⟩

theorem quote_escape (s : Str) : c!"\"" ∉ escapeHtml s := fun h => (escapeHtml_noMarkup s _ h).2.2.1 rfl

theorem HtmlWrites.text {s : Str} (hs : Textual s) : HtmlWrites B k [] (put s) :=
  .piece [.text s] (by simp [Html.renderAll, Html.render]) ⟨hs, trivial⟩ (fun _ => by simp [Html.idsAll, Html.ids])

/-- An element around what a writer writes. -/
theorem HtmlWrites.elem {x : List Str} {w : W} {s t : Str} (n : Str) (as : List (Str × Str)) (post : Str)
    (hs : s = b!"<" ++ n ++ renderAttrs as ++ b!">") (ht : t = b!"</" ++ n ++ b!">" ++ post)
    (hn : NameOk n) (hv : n ∉ voidNames) (ha : AttrsOk as) (hpost : Textual post)
    (hw : HtmlWrites B k x w) : HtmlWrites B k (idsOf as ++ x) (put s ⊳ w ⊳ put t) := by
  intro f g hi h
  obtain ⟨f1, h1, h2⟩ := seq_ok h
  obtain ⟨f2, h3, h4⟩ := seq_ok h2
  cases h1
  cases h4
  obtain ⟨i, st⟩ := hw { f with content := f.content ++ s } f2 ⟨hi.1, hi.2⟩ h3
  obtain ⟨rs, os, c1, r1, p1⟩ := st.calls
  refine ⟨[.elem n as i, .text post], ⟨st.inv.1, st.inv.2⟩, ?_, ⟨⟨hn, hv, ha, st.ok⟩, hpost, trivial⟩,
    rs, os, c1, r1, ?_⟩
  · simp only [st.content, Html.renderAll, Html.render, hs, ht, List.append_assoc, List.append_nil]
  · intro hk
    simp only [Html.idsAll, Html.ids, List.append_nil, List.append_assoc]
    exact List.Perm.append_left _ (p1 hk)

/-- An element without attributes. -/
theorem HtmlWrites.plain {x : List Str} {w : W} {s t : Str} (n : Str) (post : Str)
    (hs : s = b!"<" ++ n ++ b!">") (ht : t = b!"</" ++ n ++ b!">" ++ post)
    (hn : NameOk n) (hv : n ∉ voidNames) (hpost : Textual post)
    (hw : HtmlWrites B k x w) : HtmlWrites B k x (put s ⊳ w ⊳ put t) := by
  have := HtmlWrites.elem n [] post (by simpa [renderAttrs] using hs) ht hn hv (by simp [AttrsOk]) hpost hw
  simpa [idsOf] using this

theorem put_append (a b : Str) : put (a ++ b) = (put a ⊳ put b) := by
  funext f
  simp only [put, W.seq, Except.bind, List.append_assoc]

theorem seq_assoc (a b c : W) : ((a ⊳ b) ⊳ c) = (a ⊳ b ⊳ c) := by
  funext f
  simp only [W.seq]
  cases a f <;> rfl

/-! ## Ids -/

theorem decStr_quote (n : Nat) : c!"\"" ∉ decStr n := fun h => by
  have := decStr_digits n _ h
  omega

theorem unique_quote (hB : ∀ x, B x → c!"\"" ∉ x) {c c' : IdCache} {i u : Str}
    (hc : ∀ i, c.get i ≠ none → Joined B i) (hi : Joined B i) (h : c.unique i = some (u, c')) :
    c!"\"" ∉ u := by
  have hnum : ∀ y n, Joined B y → c!"\"" ∉ numbered y n := by
    intro y n hy hm
    simp only [numbered, List.mem_append, List.mem_singleton] at hm
    rcases hm with (hm | hm) | hm
    · exact hy.quote hB hm
    · cases hm
    · exact decStr_quote n hm
  obtain ⟨_, ⟨_, rfl, _⟩ | ⟨_, k', m, hk, ⟨rfl, _⟩ | ⟨rfl, _⟩⟩⟩ := unique_spec h
  · exact hi.quote hB
  · exact hnum _ _ (hc _ (by rw [hk]; simp))
  · exact hnum _ _ (hc _ (by rw [hk]; simp))

/-- What a writer given an id writes, in one state. -/
theorem withId_step (hB : ∀ x, B x → c!"\"" ∉ x) {x : List Str} {i : Str} {w : Str → W} {f g : HFm}
    (hi : f.Inv B) (hj : Joined B i)
    (hw : ∀ u, c!"\"" ∉ u → HtmlWrites B k (u :: x) (w u)) (h : withId i w f = .ok g) :
    ∃ h, HtmlStep B k x f g h := by
  simp only [withId] at h
  cases hu : f.ids.unique i with
  | none => rw [hu] at h; cases h
  | some p =>
    obtain ⟨u, c⟩ := p
    rw [hu] at h
    have hq := unique_quote hB hi.keys hj hu
    obtain ⟨t, st⟩ := hw u hq { f with ids := c } g ⟨fun j hg => by
      rcases (unique_keys hu j).1 hg with h | rfl
      · exact hi.keys j h
      · exact hj, hi.texts⟩ h
    obtain ⟨rs, os, c1, r1, p1⟩ := st.calls
    refine ⟨t, st.inv, st.content, st.ok, i :: rs, u :: os, .cons hu c1, ?_, ?_⟩
    · intro r hr
      rcases List.mem_cons.1 hr with rfl | hr
      · exact hj
      · exact r1 r hr
    · intro hk
      exact (p1 hk).trans (List.perm_middle.symm)

theorem HtmlWrites.withId (hB : ∀ x, B x → c!"\"" ∉ x) {x : List Str} {i : Str} {w : Str → W}
    (hj : Joined B i) (hw : ∀ u, c!"\"" ∉ u → HtmlWrites B k (u :: x) (w u)) :
    HtmlWrites B k x (W.withId i w) := fun _ _ hi h => withId_step hB hi hj hw h

theorem find_mem {l : List (Nat × Str)} {n : Nat} {e : Nat × Str}
    (h : l.find? (fun e => e.1 == n) = some e) : e ∈ l := List.mem_of_find?_eq_some h

theorem HFm.Inv.headerText {f : HFm} (h : f.Inv B) {n : Nat} {t : Str} (ht : f.headerText n = some t) :
    B t := by
  simp only [HFm.headerText, Option.map_eq_some_iff] at ht
  obtain ⟨e, he, rfl⟩ := ht
  exact h.texts e.1 e.2 (find_mem he)

theorem HFm.Inv.prefix {f : HFm} (h : f.Inv B) {x : Str} (hx : Joined B x) (l : List Nat) :
    Joined B (f.idPrefix l ++ x) := by
  induction l with
  | nil => exact hx
  | cons i l ih =>
    simp only [HFm.idPrefix]
    cases ht : f.headerText i with
    | none => simpa using ih
    | some t =>
      have := Joined.more (h.headerText ht) ih
      simpa using this

theorem HFm.Inv.complete {f : HFm} (h : f.Inv B) {x : Str} (hx : B x) (n : Nat) :
    Joined B (f.completeId n x) := h.prefix (.one hx) _

theorem normalizeId_quote (lower : Str → Str) (s : Str) : c!"\"" ∉ normalizeId lower s := quote_escape _

theorem normalizeId_textual (lower : Str → Str) (s : Str) : Textual (normalizeId lower s) := textual_escape _

/-! ## Attributes -/

theorem renderAttrs_append (a b : List (Str × Str)) : renderAttrs (a ++ b) = renderAttrs a ++ renderAttrs b := by
  induction a with
  | nil => rfl
  | cons e a ih =>
    obtain ⟨x, y⟩ := e
    simp [renderAttrs, ih]

theorem attrText_render (a b : Str) : attrText a b = renderAttrs [(a, b)] := by
  simp [attrText, renderAttrs]

theorem flatMap_attrText {α} (l : List α) (u v : α → Str) :
    (l.flatMap fun e => attrText (u e) (v e)) = renderAttrs (l.map fun e => (u e, v e)) := by
  induction l with
  | nil => rfl
  | cons e l ih =>
    rw [List.flatMap_cons, ih]
    simp [renderAttrs, attrText]

theorem AttrsOk.append {a b : List (Str × Str)} (ha : AttrsOk a) (hb : AttrsOk b) : AttrsOk (a ++ b) := by
  intro x hx
  rcases List.mem_append.1 hx with h | h
  · exact ha x h
  · exact hb x h

theorem idsOf_append (a b : List (Str × Str)) : idsOf (a ++ b) = idsOf a ++ idsOf b := by
  simp [idsOf]

theorem idsOf_nil {l : List (Str × Str)} (h : ∀ e ∈ l, e.1 ≠ b!"id") : idsOf l = [] := by
  simp only [idsOf, List.map_eq_nil_iff, List.filter_eq_nil_iff]
  intro e he
  simpa using h e he

/-! ## Inline elements -/

/-- The properties of a link as attributes. -/
def propAttrs : Option Map → List (Str × Str)
  | none => []
  | some m => m.map fun e => (e.1, escapeHtml e.2)

theorem propsHtml_render (p : Option Map) : propsHtml p = renderAttrs (propAttrs p) := by
  cases p with
  | none => rfl
  | some m => exact flatMap_attrText m (fun e => e.1) (fun e => escapeHtml e.2)

theorem propAttrs_keys (p : Option Map) : (propAttrs p).map (·.1) = propKeys p := by
  cases p with
  | none => rfl
  | some m => simp [propAttrs, propKeys]

theorem propAttrs_ok {p : Option Map} (h : ∀ x ∈ propKeys p, KeyOk x ∧ (k → x ≠ b!"id")) :
    AttrsOk (propAttrs p) ∧ (k → idsOf (propAttrs p) = []) := by
  have hm : ∀ e ∈ propAttrs p, e.1 ∈ propKeys p := by
    intro e he
    rw [← propAttrs_keys]
    exact List.mem_map_of_mem he
  refine ⟨?_, fun hk => idsOf_nil fun e he => (h _ (hm e he)).2 hk⟩
  intro e he
  refine ⟨(h _ (hm e he)).1, ?_⟩
  cases p with
  | none => cases he
  | some m =>
    simp only [propAttrs, List.mem_map] at he
    obtain ⟨y, _, rfl⟩ := he
    exact quote_escape _

theorem keyOk_src : KeyOk b!"src" := by decide
theorem keyOk_alt : KeyOk b!"alt" := by decide
theorem keyOk_href : KeyOk b!"href" := by decide
theorem keyOk_id : KeyOk b!"id" := by decide
theorem keyOk_class : KeyOk b!"class" := by decide

theorem AttrsOk.cons {a b : Str} {l : List (Str × Str)} (ha : KeyOk a) (hb : c!"\"" ∉ b) (hl : AttrsOk l) :
    AttrsOk ((a, b) :: l) := by
  intro x hx
  rcases List.mem_cons.1 hx with rfl | hx
  · exact ⟨ha, hb⟩
  · exact hl x hx

theorem AttrsOk.nil : AttrsOk [] := by intro x hx; cases hx

section
variable {L : HtmlLib} {c : HtmlCfg} (hL : L.Sound)
include hL

theorem uri_quote (u : Uri) : c!"\"" ∉ L.uriStr u := fun h => (hL.uri u _ h).1 rfl

theorem uri_textual (u : Uri) : Textual (L.uriStr u) :=
  ⟨fun h => (hL.uri u _ h).2.1 rfl, fun h => (hL.uri u _ h).2.2 rfl⟩

theorem writeImg_writes (href : Uri) (desc : Option Description) (props : Option Map)
    (hp : ∀ x ∈ propKeys props, KeyOk x ∧ (k → x ≠ b!"id")) :
    HtmlWrites B k [] (writeImg L href desc props) := by
  obtain ⟨h1, h2⟩ := propAttrs_ok hp
  simp only [writeImg, ← put_append, propsHtml_render]
  cases desc with
  | none =>
    refine .piece [.void b!"img" ((b!"src", L.uriStr href) :: propAttrs props)] ?_
      ⟨⟨by decide, .cons keyOk_src (uri_quote hL href) h1⟩, trivial⟩ ?_
    · simp [Html.renderAll, Html.render, renderAttrs]
    · intro hk
      have := h2 hk
      simp only [idsOf] at this
      simp [Html.idsAll, Html.ids, idsOf, this]
  | some d =>
    refine .piece [.void b!"img" ((b!"src", L.uriStr href) :: (b!"alt", escapeHtml (d.display L.toOutLib)) ::
      propAttrs props)] ?_
      ⟨⟨by decide, .cons keyOk_src (uri_quote hL href) (.cons keyOk_alt (quote_escape _) h1)⟩, trivial⟩ ?_
    · simp [Html.renderAll, Html.render, renderAttrs, attrText]
    · intro hk
      have := h2 hk
      simp only [idsOf] at this
      simp [Html.idsAll, Html.ids, idsOf, this]

theorem fmtImg_writes (d : LinkData) (hp : ∀ x ∈ propKeys d.props, KeyOk x ∧ (k → x ≠ b!"id")) :
    HtmlWrites B k [] (fmtImg L c d) := by
  intro f g hi h
  simp only [fmtImg] at h
  cases hr : resolveHere L c (.transclusion d) with
  | error e => rw [hr] at h; cases h
  | ok u =>
    rw [hr] at h
    exact writeImg_writes hL u d.desc d.props hp f g hi h

theorem writeDesc_writes (u : Uri) (d : Option Description)
    (hp : ∀ a b p, d = some (.transclusion a b p) → ∀ x ∈ propKeys p, KeyOk x ∧ (k → x ≠ b!"id")) :
    HtmlWrites B k [] (writeDesc L c u d) := by
  cases d with
  | none => exact .text (uri_textual hL u)
  | some d =>
    cases d with
    | text s => exact .text (textual_escape s)
    | transclusion a b p => exact fmtImg_writes hL _ (hp a b p rfl)

theorem Link.html_writes (l : Link) (hp : ∀ x ∈ l.data.keys, KeyOk x ∧ (k → x ≠ b!"id")) :
    HtmlWrites B k [] (l.html L c) := by
  have hprops : ∀ x ∈ propKeys l.data.props, KeyOk x ∧ (k → x ≠ b!"id") := fun x hx =>
    hp x (by simp only [LinkData.keys]; exact List.mem_append_left _ hx)
  have hdesc : ∀ a b p, l.descOr L = some (.transclusion a b p) →
      ∀ x ∈ propKeys p, KeyOk x ∧ (k → x ≠ b!"id") := by
    intro a b p he x hx
    refine hp x ?_
    simp only [LinkData.keys]
    refine List.mem_append_right _ ?_
    simp only [Link.descOr] at he
    cases hd : l.data.desc with
    | some y =>
      rw [hd] at he
      cases he
      exact hx
    | none =>
      rw [hd] at he
      cases l <;> simp at he
  have key : ∀ u, HtmlWrites B k [] (put (b!"<a href=\"" ++ L.uriStr u ++ b!"\"") ⊳
      put (propsHtml l.data.props) ⊳ put b!">" ⊳ writeDesc L c u (l.descOr L) ⊳ put b!"</a>") := by
    intro u
    obtain ⟨h1, h2⟩ := propAttrs_ok hprops
    rw [← seq_assoc, ← seq_assoc, ← put_append, ← put_append]
    have := HtmlWrites.elem (B := B) (k := k) (x := []) (w := writeDesc L c u (l.descOr L))
      (s := b!"<a href=\"" ++ L.uriStr u ++ b!"\"" ++ propsHtml l.data.props ++ b!">") (t := b!"</a>")
      b!"a" ((b!"href", L.uriStr u) :: propAttrs l.data.props) []
      (by simp [renderAttrs, propsHtml_render]) (by simp) (by decide) (by decide)
      (.cons keyOk_href (uri_quote hL u) h1) (by simp [Textual]) (writeDesc_writes hL u _ hdesc)
    intro f g hi hw
    obtain ⟨t, st⟩ := this f g hi hw
    obtain ⟨rs, os, c1, r1, p1⟩ := st.calls
    refine ⟨t, st.inv, st.content, st.ok, rs, os, c1, r1, fun hk => ?_⟩
    have h3 := p1 hk
    have h4 := h2 hk
    simp only [idsOf] at h4
    simpa [idsOf, h4] using h3
  cases l with
  | transclusion d => exact fmtImg_writes hL d hprops
  | _ =>
    intro f g hi h
    simp only [Link.html] at h
    split at h
    · cases h
    · exact key _ f g hi h

end

/-- An element whose only id is `u`. -/
theorem HtmlWrites.ided {x : List Str} {w : W} {s t : Str} (n u : Str) (as : List (Str × Str)) (post : Str)
    (hs : s = b!"<" ++ n ++ renderAttrs as ++ b!">") (ht : t = b!"</" ++ n ++ b!">" ++ post)
    (hn : NameOk n) (hv : n ∉ voidNames) (ha : AttrsOk as) (hpost : Textual post) (hi : idsOf as = [u])
    (hw : HtmlWrites B k x w) : HtmlWrites B k (u :: x) (put s ⊳ w ⊳ put t) := by
  have := HtmlWrites.elem n as post hs ht hn hv ha hpost hw
  rwa [hi] at this

theorem Textual.nil : Textual [] := by simp [Textual]

theorem writeAnchor_writes (hB : ∀ x, B x → c!"\"" ∉ x) {i : Str} (hi : B i) :
    HtmlWrites B k [] (writeAnchor i) := by
  intro f g hf h
  simp only [writeAnchor] at h
  cases hm : f.maxLevel with
  | none =>
    rw [hm] at h
    exact HtmlWrites.nop f g hf h
  | some m =>
    rw [hm] at h
    refine withId_step hB hf (hf.complete hi _) ?_ h
    intro u hu
    refine .piece [.elem b!"span" [(b!"id", u)] []] ?_ ⟨⟨by decide, by decide, .cons keyOk_id hu .nil, trivial⟩, trivial⟩ ?_
    · simp [Html.renderAll, Html.render, renderAttrs]
    · intro _
      simp [Html.idsAll, Html.ids, idsOf]

theorem writeTag_writes {L : HtmlLib} (hB : ∀ x, B x → c!"\"" ∉ x) {tag : Str}
    (hi : B (normalizeId L.lower tag)) : HtmlWrites B k [] (writeTag L tag) := by
  refine .withId hB (.one hi) ?_
  intro u hu
  refine (writeAnchor_writes hB hi).seq (y := [u]) ?_
  refine .piece [.elem b!"span" [(b!"class", b!"tag"), (b!"id", u)] [.text (normalizeId L.lower tag)]] ?_
    ⟨⟨by decide, by decide, .cons keyOk_class (by decide) (.cons keyOk_id hu .nil),
      normalizeId_textual _ _, trivial⟩, trivial⟩ ?_
  · simp [Html.renderAll, Html.render, renderAttrs]
  · intro _
    simp [Html.idsAll, Html.ids, idsOf]

theorem Keyword.html_writes (x : Keyword) : HtmlWrites B k [] x.html := by
  cases x with
  | todo =>
    refine .piece [.elem b!"span" [(b!"class", b!"todo")] [.text b!"TODO"]] (by decide)
      ⟨⟨by decide, by decide, .cons keyOk_class (by decide) .nil, ⟨by decide, by decide⟩, trivial⟩, trivial⟩ ?_
    intro _
    simp [Html.idsAll, Html.ids, idsOf]
  | _ => exact .text ⟨by decide, by decide⟩

/-- What is needed of inline elements. -/
def NeedInline (B : Str → Prop) (k : Prop) (L : HtmlLib) (xs : List (Located Inline)) : Prop :=
  ∀ x ∈ xs, x.inner.Clean k ∧ ∀ i ∈ x.inner.baseIds L, B i

theorem put_split {a b c : Str} (h : a = b ++ c) (w : W) : (put a ⊳ w) = (put b ⊳ put c ⊳ w) := by
  rw [h, put_append, seq_assoc]

mutual
theorem Inline.html_writes {L : HtmlLib} {c : HtmlCfg} (hL : L.Sound) (hc : c.comments = false)
    (hB : ∀ x, B x → c!"\"" ∉ x) : ∀ (x : Inline) (r : Region),
    NeedInline B k L (⟨x, r⟩ :: Inline.inside x) → HtmlWrites B k [] (Inline.html L c x)
  | .text s, _, _ => by
    simp only [Inline.html]
    exact .text (textual_escape s)
  | .decorated d cs, r, h => by
    have ih := Inline.htmlAll_writes hL hc hB cs (fun y hy => h y (by simp [Inline.inside, hy]))
    cases d with
    | bold =>
      have hb : B (normalizeId L.lower (Inline.displayAll L.toOutLib cs)) :=
        (h ⟨.decorated .bold cs, r⟩ (by simp)).2 _ (by simp [Inline.baseIds])
      simp only [Inline.html]
      refine .withId hB (.one hb) ?_
      intro u hu
      refine (writeAnchor_writes hB hb).seq (y := [u]) ?_
      exact .ided b!"strong" u [(b!"id", u)] [] (by simp [renderAttrs]) (by simp) (by decide) (by decide)
        (.cons keyOk_id hu .nil) .nil (by simp [idsOf]) ih
    | italic =>
      simp only [Inline.html]
      exact .plain b!"em" [] (by simp) (by simp) (by decide) (by decide) .nil ih
    | strikeout =>
      simp only [Inline.html]
      exact .plain b!"del" [] (by simp) (by simp) (by decide) (by decide) .nil ih
    | superscript =>
      simp only [Inline.html]
      have h1 : HtmlWrites B k [] (put b!"<sup>" ⊳ (put b!"<small>" ⊳ Inline.htmlAll L c cs ⊳ put b!"</small>") ⊳ put b!"</sup>") :=
        .plain b!"sup" [] (by simp) (by simp) (by decide) (by decide) .nil
          (.plain b!"small" [] (by simp) (by simp) (by decide) (by decide) .nil ih)
      rwa [seq_assoc, seq_assoc, ← put_append, ← put_split rfl] at h1
    | subscript =>
      simp only [Inline.html]
      have h1 : HtmlWrites B k [] (put b!"<sub>" ⊳ (put b!"<small>" ⊳ Inline.htmlAll L c cs ⊳ put b!"</small>") ⊳ put b!"</sub>") :=
        .plain b!"sub" [] (by simp) (by simp) (by decide) (by decide) .nil
          (.plain b!"small" [] (by simp) (by simp) (by decide) (by decide) .nil ih)
      rwa [seq_assoc, seq_assoc, ← put_append, ← put_split rfl] at h1
  | .keyword w, _, _ => by
    simp only [Inline.html]
    exact w.html_writes
  | .link l, r, h => by
    simp only [Inline.html]
    exact l.html_writes hL (h ⟨.link l, r⟩ (by simp)).1
  | .tags ts, r, h => by
    simp only [Inline.html]
    exact .each fun t ht => writeTag_writes hB ((h ⟨.tags ts, r⟩ (by simp)).2 _ (by
      simp only [Inline.baseIds]
      exact List.mem_map_of_mem ht))
  | .code s, _, _ => by
    simp only [Inline.html]
    refine .piece [.elem b!"code" [] [.text (escapeHtml s)]] (by simp [Html.renderAll, Html.render, renderAttrs])
      ⟨⟨by decide, by decide, .nil, textual_escape s, trivial⟩, trivial⟩ ?_
    intro _
    simp [Html.idsAll, Html.ids, idsOf]
  | .math s, _, _ => by
    simp only [Inline.html]
    exact .text (.append (.append ⟨by decide, by decide⟩ (textual_escape s)) ⟨by decide, by decide⟩)
  | .comment x, _, _ => by
    simp only [Inline.html]
    cases x with
    | line s => simp only [Comment.html, hc, W.choose]; exact .nop
    | multi ls => simp only [Comment.html, hc, W.choose]; exact .nop

theorem Inline.htmlAll_writes {L : HtmlLib} {c : HtmlCfg} (hL : L.Sound) (hc : c.comments = false)
    (hB : ∀ x, B x → c!"\"" ∉ x) : ∀ xs : List (Located Inline),
    NeedInline B k L (Inline.all xs) → HtmlWrites B k [] (Inline.htmlAll L c xs)
  | [], _ => by simp only [Inline.htmlAll]; exact .nop
  | ⟨x, r⟩ :: xs, h => by
    simp only [Inline.htmlAll]
    have h1 := Inline.html_writes hL hc hB x r (fun y hy => h y (by
      simp only [Inline.all, List.mem_cons, List.mem_append] at hy ⊢
      rcases hy with hy | hy
      · exact .inl hy
      · exact .inr (.inl hy)))
    have h2 := Inline.htmlAll_writes hL hc hB xs (fun y hy => h y (by
      simp only [Inline.all, List.mem_cons, List.mem_append]
      exact .inr (.inr hy)))
    exact h1.then h2
end

/-! ## Blocks -/

/-- An element without attributes that starts with text. -/
theorem HtmlWrites.around {x : List Str} {w : W} {s t : Str} (n pre post : Str)
    (hs : s = b!"<" ++ n ++ b!">" ++ pre) (ht : t = b!"</" ++ n ++ b!">" ++ post)
    (hn : NameOk n) (hv : n ∉ voidNames) (hpre : Textual pre) (hpost : Textual post)
    (hw : HtmlWrites B k x w) : HtmlWrites B k x (put s ⊳ w ⊳ put t) := by
  have h := HtmlWrites.plain (B := B) (k := k) (x := x) n post rfl ht hn hv hpost
    (show HtmlWrites B k ([] ++ x) (put pre ⊳ w) from (HtmlWrites.text hpre).seq hw)
  rwa [seq_assoc, ← put_split hs] at h

theorem textual_nl : Textual b!"\n" := ⟨by decide, by decide⟩
theorem textual_blank : Textual b!" " := ⟨by decide, by decide⟩

theorem textual_decStr (n : Nat) : Textual (decStr n) := by
  refine ⟨fun h => ?_, fun h => ?_⟩ <;> (have := decStr_digits n _ h; omega)

theorem quoteHtml_writes (lines : List Str) : HtmlWrites B k [] (quoteHtml lines) := by
  simp only [quoteHtml]
  refine .around b!"blockquote" b!"\n" [] (by simp) (by simp) (by decide) (by decide) textual_nl .nil ?_
  refine .choose (fun _ => .each fun g _ => ?_) (fun _ => .each fun l _ => ?_)
  · refine .piece [.elem b!"p" [] [.text (escapeHtml (joinWith b!" " (g.map trim)))], .text b!"\n"]
      (by simp [Html.renderAll, Html.render, renderAttrs])
      ⟨⟨by decide, by decide, .nil, textual_escape _, trivial⟩, textual_nl, trivial⟩ ?_
    intro _
    simp [Html.idsAll, Html.ids, idsOf]
  · exact .text (.append (textual_escape l) textual_nl)

theorem mathLines_writes (lines : List Str) : HtmlWrites B k [] (W.each (fun l => put (escapeHtml l ++ b!"\n")) lines) :=
  .each fun l _ => .text (.append (textual_escape l) textual_nl)

theorem mathHtml_writes (lines : List Str) (env : Option Str) (h : ∀ e ∈ env, Textual e) :
    HtmlWrites B k [] (mathHtml lines env) := by
  cases env with
  | none =>
    simp only [mathHtml]
    exact (HtmlWrites.text ⟨by decide, by decide⟩).then ((mathLines_writes lines).then (.text ⟨by decide, by decide⟩))
  | some e =>
    have he := h e rfl
    simp only [mathHtml]
    exact (HtmlWrites.text (.append (.append ⟨by decide, by decide⟩ he) ⟨by decide, by decide⟩)).then
      ((mathLines_writes lines).then (.text (.append (.append ⟨by decide, by decide⟩ he) ⟨by decide, by decide⟩)))

theorem placeholderHtml_writes (p : Placeholder) : HtmlWrites B k [] (placeholderHtml p) := by
  have key : ∀ f g : HFm, f.Inv B → g.ids = f.ids → g.headers = f.headers → g.content = f.content →
      ∃ h, HtmlStep B k [] f g h := by
    intro f g hi h1 h2 h3
    refine ⟨[], ⟨?_, ?_⟩, by simp [Html.renderAll, h3], trivial, [], [], by rw [h1]; exact .nil _, by simp,
      fun _ => by simp [Html.idsAll]⟩
    · rw [h1]; exact hi.keys
    · rw [h2]; exact hi.texts
  cases p with
  | noHtml => exact .nop
  | other _ _ => exact .nop
  | _ =>
    intro f g hi hw
    cases hw
    exact key _ _ hi rfl rfl rfl

theorem codeLines_writes (lines : List Str) : HtmlWrites B k [] (codeLines lines) := by
  induction lines with
  | nil => exact .nop
  | cons l ls ih =>
    cases ls with
    | nil => exact .text (textual_escape l)
    | cons m ms => exact (HtmlWrites.text (.append (textual_escape l) textual_nl)).then ih

theorem codeHtml_writes {L : HtmlLib} {c : HtmlCfg} (hL : L.Sound) (lang : Option Str) (md : Map)
    (lines : List Str) (h1 : ∀ l ∈ lang, c!"\"" ∉ l)
    (h2 : ∀ e ∈ md, KeyOk e.1 ∧ c!"\"" ∉ e.2 ∧ (k → e.1 ≠ b!"id")) :
    HtmlWrites B k [] (codeHtml L c lang md lines) := by
  intro f g hi h
  simp only [codeHtml] at h
  split at h
  · cases hh : L.highlight lang lines with
    | error e => rw [hh] at h; cases h
    | ok s =>
      rw [hh] at h
      simp only at h
      obtain ⟨as, cs, h3, h4, h5⟩ := hL.highlight lang lines s hh
      rw [← put_append] at h
      refine HtmlWrites.piece [.elem b!"pre" as cs] ?_ ⟨h4, trivial⟩ ?_ f g hi h
      · simp only [Html.renderAll, h3, List.append_nil]
      · intro _
        simp [Html.idsAll, h5]
  · have hmd : (md.flatMap fun e => attrText e.1 e.2) = renderAttrs (md.map fun e => (e.1, e.2)) :=
      flatMap_attrText md (fun e => e.1) (fun e => e.2)
    have hmo : AttrsOk (md.map fun e => (e.1, e.2)) := by
      intro e he
      simp only [List.mem_map] at he
      obtain ⟨y, hy, rfl⟩ := he
      exact ⟨(h2 y hy).1, (h2 y hy).2.1⟩
    have hmi : k → idsOf (md.map fun e => (e.1, e.2)) = [] := fun hk => idsOf_nil (by
      intro e he
      simp only [List.mem_map] at he
      obtain ⟨y, hy, rfl⟩ := he
      exact (h2 y hy).2.2 hk)
    have key : ∀ as : List (Str × Str), AttrsOk as → (k → idsOf as = []) →
        (put b!"<pre>" ⊳ put b!"<code" ⊳ put (renderAttrs as) ⊳ put b!">" ⊳ codeLines lines ⊳
          put b!"</code></pre>") f = .ok g → ∃ h, HtmlStep B k [] f g h := by
      intro as ha hi' hw
      have hcode : HtmlWrites B k (idsOf as ++ []) (put b!"<pre>" ⊳
          (put (b!"<code" ++ renderAttrs as ++ b!">") ⊳ codeLines lines ⊳ put b!"</code>") ⊳ put b!"</pre>") :=
        .plain b!"pre" [] (by simp) (by simp) (by decide) (by decide) .nil
          (.elem b!"code" as [] (by simp) (by simp) (by decide) (by decide) ha .nil (codeLines_writes lines))
      rw [seq_assoc, seq_assoc, ← put_append, put_append, put_append, seq_assoc, seq_assoc] at hcode
      obtain ⟨t, st⟩ := hcode f g hi hw
      obtain ⟨rs, os, c1, r1, p1⟩ := st.calls
      refine ⟨t, st.inv, st.content, st.ok, rs, os, c1, r1, fun hk => ?_⟩
      have h3 := p1 hk
      rwa [hi' hk] at h3
    rw [hmd, ← seq_assoc (put _) (put _) (put b!">" ⊳ _)] at h
    cases lang with
    | none => exact key _ hmo hmi (by rwa [← put_append] at h)
    | some l =>
      simp only [attrText_render, ← put_append, ← renderAttrs_append] at h
      refine key _ (.append (.cons keyOk_class (h1 l rfl) .nil) hmo) ?_ h
      intro hk
      rw [idsOf_append, hmi hk]
      simp [idsOf]

theorem defListHtml_writes {L : HtmlLib} {c : HtmlCfg} (hL : L.Sound) (hc : c.comments = false)
    (hB : ∀ x, B x → c!"\"" ∉ x) (items : List (Located TermDefs))
    (h : NeedInline B k L (Block.inlines (.defs items))) : HtmlWrites B k [] (defListHtml L c items) := by
  have hrow : ∀ x ∈ items, ∀ y ∈ x.inner.term :: x.inner.defs.inner,
      HtmlWrites B k [] (Inline.htmlAll L c y.inner) := by
    intro x hx y hy
    refine Inline.htmlAll_writes hL hc hB _ ?_
    intro z hz
    refine h z ?_
    simp only [Block.inlines, List.mem_flatMap]
    exact ⟨x, hx, y, hy, hz⟩
  simp only [defListHtml]
  refine .around b!"dl" b!"\n" [] (by simp) (by simp) (by decide) (by decide) textual_nl .nil ?_
  refine .each fun x hx => ?_
  simp only [termHtml]
  have h1 : HtmlWrites B k [] (put b!"<dt>" ⊳ Inline.htmlAll L c x.inner.term.inner ⊳ put b!"</dt>\n") :=
    .plain b!"dt" b!"\n" (by simp) (by simp) (by decide) (by decide) textual_nl (hrow x hx _ (by simp))
  have h2 : HtmlWrites B k [] (W.each (defHtml L c) x.inner.defs.inner) := .each fun y hy =>
    .plain b!"dd" b!"\n" (by simp) (by simp) (by decide) (by decide) textual_nl
      (hrow x hx y (by simp [hy]))
  have h3 := h1.then h2
  rwa [seq_assoc, seq_assoc] at h3

theorem insertHeader_writes (level : Nat) {i : Str} (hi : B i) : HtmlWrites B k [] (W.insertHeader level i) := by
  intro f g hf hw
  cases hw
  refine ⟨[], ⟨hf.keys, ?_⟩, by simp [Html.renderAll], trivial, [], [], .nil _, by simp,
    fun _ => by simp [Html.idsAll]⟩
  intro l t ht
  rcases List.mem_cons.1 ht with he | ht
  · cases he; exact hi
  · exact hf.texts l t (List.mem_filter.1 ht).1

theorem nameOk_h (n : Nat) : NameOk (b!"h" ++ decStr n) := by
  refine ⟨by simp, ?_⟩
  intro b hb
  simp only [List.mem_append, List.mem_singleton] at hb
  rcases hb with rfl | hb
  · exact .inl (by decide)
  · have := decStr_digits n b hb
    refine .inr ?_
    simp only [isDigit, Bool.and_eq_true, decide_eq_true_eq]
    exact this

theorem void_h (n : Nat) : b!"h" ++ decStr n ∉ voidNames := by
  intro h
  simp only [voidNames, List.mem_cons, List.not_mem_nil, or_false] at h
  rcases h with h | h | h
  · cases h
  · have h' : decStr n = b!"r" := by simpa using h
    have := decStr_digits n c!"r" (by rw [h']; simp)
    omega
  · cases h

theorem plainHeader_writes {L : HtmlLib} {c : HtmlCfg} (hL : L.Sound) (hc : c.comments = false)
    (hB : ∀ x, B x → c!"\"" ∉ x) (content : Inlines) (level : Nat) (i u : Str) (hi : B i)
    (hu : c!"\"" ∉ u) (h : NeedInline B k L (Inline.all content)) :
    HtmlWrites B k [u] (plainHeader L c content level i u) := by
  have ih := Inline.htmlAll_writes hL hc hB content h
  have key : ∀ v, c!"\"" ∉ v → HtmlWrites B k [u]
      (put (b!"<h" ++ decStr level ++ b!" id=\"" ++ u ++ b!"\" class=\"header\">") ⊳
        (put (b!"<a href=\"#" ++ v ++ b!"\">") ⊳ Inline.htmlAll L c content ⊳ put b!"</a>") ⊳
        put (b!"</h" ++ decStr level ++ b!">")) := by
    intro v hv
    refine .ided (b!"h" ++ decStr level) u [(b!"id", u), (b!"class", b!"header")] [] (by simp [renderAttrs])
      (by simp) (nameOk_h level) (void_h level) (.cons keyOk_id hu (.cons keyOk_class (by decide) .nil)) .nil
      (by simp [idsOf]) ?_
    exact .elem b!"a" [(b!"href", b!"#" ++ v)] [] (by simp [renderAttrs]) (by simp) (by decide) (by decide)
      (.cons keyOk_href (by simpa using hv) .nil) .nil ih
  have hend : ∀ w, (put b!"</a>" ⊳ put (b!"</h" ++ decStr level ++ b!">") ⊳ w) =
      (put (b!"</a></h" ++ decStr level ++ b!">") ⊳ w) := by
    intro w
    rw [← put_split]
    simp
  intro f g hf hw
  simp only [plainHeader] at hw
  split at hw
  · refine withId_step hB hf (hf.complete hi level) ?_ hw
    intro v hv
    have := HtmlWrites.ided (B := B) (k := k) b!"div" v [(b!"id", v)] [] (s := b!"<div id=\"" ++ v ++ b!"\">")
      (t := b!"</div>") (by simp [renderAttrs]) (by simp) (by decide) (by decide) (.cons keyOk_id hv .nil) .nil
      (by simp [idsOf]) (key v hv)
    simp only [seq_assoc, hend] at this
    exact this
  · refine key u hu f g hf ?_
    simp only [seq_assoc]
    rw [← put_append]
    have : b!"</a>" ++ (b!"</h" ++ decStr level ++ b!">") = b!"</a></h" ++ decStr level ++ b!">" := by simp
    rw [this]
    exact hw

theorem headerHtml_writes {L : HtmlLib} {c : HtmlCfg} (hL : L.Sound) (hc : c.comments = false)
    (hB : ∀ x, B x → c!"\"" ∉ x) (content : Inlines) (level : Nat)
    (hi : B (normalizeId L.lower (Inline.displayAll L.toOutLib content)))
    (h : NeedInline B k L (Inline.all content)) : HtmlWrites B k [] (headerHtml L c content level) := by
  have ih := Inline.htmlAll_writes hL hc hB content h
  simp only [headerHtml]
  refine .withId hB (.one hi) ?_
  intro u hu
  refine (insertHeader_writes level hi).seq (y := [u]) (.choose (fun _ => ?_) (fun _ => ?_))
  · have h1 : HtmlWrites B k [u] (put (b!"<h" ++ decStr level ++ b!" id=\"" ++ u ++ b!"\">") ⊳
        Inline.htmlAll L c content ⊳ put (b!"</h" ++ decStr level ++ b!">")) :=
      .ided (b!"h" ++ decStr level) u [(b!"id", u)] [] (by simp [renderAttrs]) (by simp) (nameOk_h level)
        (void_h level) (.cons keyOk_id hu .nil) .nil (by simp [idsOf]) ih
    have h2 := HtmlWrites.elem (B := B) (k := k) b!"div" [(b!"class", b!"toc")] [] (s := b!"<div class=\"toc\">")
      (t := b!"</div>") (by simp [renderAttrs]) (by simp) (by decide) (by decide)
      (.cons keyOk_class (by decide) .nil) .nil h1
    simp only [seq_assoc, ← put_append] at h2
    have : b!"</h" ++ decStr level ++ b!">" ++ b!"</div>" = b!"</h" ++ decStr level ++ b!"></div>" := by simp
    rw [this] at h2
    exact h2
  · exact plainHeader_writes hL hc hB content level _ u hi hu h

theorem paraLines_writes {L : HtmlLib} {c : HtmlCfg} (lines : List Inlines)
    (h : ∀ l ∈ lines, HtmlWrites B k [] (Inline.htmlAll L c l)) : HtmlWrites B k [] (paraLines L c lines) := by
  induction lines with
  | nil => exact .nop
  | cons l ls ih =>
    cases ls with
    | nil => exact h l (by simp)
    | cons m ms =>
      refine (h l (by simp)).then (HtmlWrites.then ?_ (ih fun y hy => h y (by simp [hy])))
      cases c.ignoreNewline with
      | true => exact .text textual_blank
      | false =>
        exact .piece [.void b!"br" []] (by decide) ⟨⟨by decide, .nil⟩, trivial⟩
          (fun _ => by simp [Html.idsAll, Html.ids, idsOf])

theorem paragraphHtml_writes {L : HtmlLib} {c : HtmlCfg} (lines : List Inlines)
    (h : ∀ l ∈ lines, HtmlWrites B k [] (Inline.htmlAll L c l)) : HtmlWrites B k [] (paragraphHtml L c lines) := by
  have h1 := paraLines_writes lines h
  simp only [paragraphHtml]
  cases blankParagraph lines with
  | true => exact HtmlWrites.nop.then (h1.then .nop)
  | false => exact .plain b!"p" [] (by simp) (by simp) (by decide) (by decide) .nil h1

theorem drain_mem {σ α} {next : σ → Option α × σ} {x : α} : ∀ (n : Nat) (s : σ), x ∈ drain next n s →
    ∃ s', (next s').1 = some x := by
  intro n
  induction n with
  | zero => intro s h; cases h
  | succ n ih =>
    intro s h
    simp only [drain] at h
    cases hn : next s with
    | mk a s' =>
      rw [hn] at h
      cases a with
      | none => cases h
      | some y =>
        rcases List.mem_cons.1 h with rfl | h
        · exact ⟨s, by rw [hn]⟩
        · exact ih s' h

theorem row_cells {t : Table} (ht : t.Built) {row n s : Nat} {e : CellPos × Located Cell}
    (h : e ∈ drain (Table.withPos (fun col => ⟨row, col⟩) (t.rowNext row)) n s) : e.2 ∈ t.allCells := by
  obtain ⟨s', hs⟩ := drain_mem n s h
  simp only [Table.withPos, Option.map_eq_some_iff] at hs
  obtain ⟨x, hx, rfl⟩ := hs
  have hg : t.getCell row s' = some x := by
    simp only [Table.rowNext] at hx
    cases hc : t.getCell row s' with
    | none => rw [hc] at hx; cases hx
    | some y => rw [hc] at hx; cases hx; rfl
  obtain ⟨h1, h2⟩ := Table.Built.bound ht hg
  simp only [Table.allCells, List.mem_flatMap, List.mem_range, List.mem_filterMap]
  exact ⟨row, h1, s', h2, hg⟩

theorem spanAttr_render (n : Str) (m : Nat) : spanAttr n m = renderAttrs (if m > 1 then [(n, decStr m)] else []) := by
  simp only [spanAttr]
  split
  · exact attrText_render _ _
  · rfl

theorem tableHtml_writes {L : HtmlLib} {c : HtmlCfg} (hL : L.Sound) (hc : c.comments = false)
    (hB : ∀ x, B x → c!"\"" ∉ x) {t : Table} (ht : t.Built) (h : NeedInline B k L (Block.inlines (.table t))) :
    HtmlWrites B k [] (tableHtml L c t) := by
  have hcell : ∀ tag, NameOk tag → tag ∉ voidNames → ∀ e : CellPos × Located Cell, e.2 ∈ t.allCells →
      HtmlWrites B k [] (cellHtml L c t tag e) := by
    intro tag hn hv e he
    simp only [cellHtml]
    split
    · rename_i x hx
      have ih := Inline.htmlAll_writes hL hc hB x (fun z hz => h z (by
        simp only [Block.inlines, List.mem_flatMap]
        exact ⟨e.2, he, by rw [hx]; exact hz⟩))
      have hr : ∀ n (m : Nat), KeyOk n → AttrsOk (if m > 1 then [(n, decStr m)] else []) := by
        intro n m hk
        split
        · exact .cons hk (decStr_quote m) .nil
        · exact .nil
      have hi : ∀ n (m : Nat), n ≠ b!"id" → idsOf (if m > 1 then [(n, decStr m)] else []) = [] := by
        intro n m hk
        split
        · exact idsOf_nil (by simpa using hk)
        · rfl
      have := HtmlWrites.elem (B := B) (k := k) tag
        ((if t.rowspan e.1.row e.1.col > 1 then [(b!"rowspan", decStr (t.rowspan e.1.row e.1.col))] else []) ++
          if t.colspan e.1.row e.1.col > 1 then [(b!"colspan", decStr (t.colspan e.1.row e.1.col))] else [])
        b!"\n" rfl (t := b!"</" ++ tag ++ b!">\n") (by simp) hn hv
        (.append (hr _ _ (by decide)) (hr _ _ (by decide))) textual_nl ih
      rw [idsOf_append, hi _ _ (by decide), hi _ _ (by decide), renderAttrs_append, ← spanAttr_render,
        ← spanAttr_render] at this
      simp only [← seq_assoc, ← put_append] at this ⊢
      simpa using this
    · exact .nop
  have hrow : ∀ tag, NameOk tag → tag ∉ voidNames → ∀ row, HtmlWrites B k [] (rowHtml L c t tag row) := by
    intro tag hn hv row
    simp only [rowHtml]
    refine .choose (fun _ => ?_) (fun _ => .nop)
    exact .around b!"tr" b!"\n" b!"\n" (by simp) (by simp) (by decide) (by decide) textual_nl textual_nl
      (.each fun e he => hcell tag hn hv e (row_cells ht he))
  have hth : HtmlWrites B k [] (W.choose (t.headerNext 0).1.isSome
      (put b!"<thead>\n" ⊳ W.each (rowHtml L c t b!"th") (drain t.headerNext (t.rowCnt + 1) 0) ⊳
        put b!"</thead>\n") W.nop) :=
    .choose (fun _ => .around b!"thead" b!"\n" b!"\n" (by simp) (by simp) (by decide) (by decide) textual_nl
      textual_nl (.each fun e _ => hrow _ (by decide) (by decide) e)) (fun _ => .nop)
  have htb : HtmlWrites B k [] (W.choose (t.bodyNext t.bodyStart).1.isSome
      (put b!"<tbody>\n" ⊳ W.each (rowHtml L c t b!"td") (drain t.bodyNext (t.rowCnt + 1) t.bodyStart) ⊳
        put b!"</tbody>\n") W.nop) :=
    .choose (fun _ => .around b!"tbody" b!"\n" b!"\n" (by simp) (by simp) (by decide) (by decide) textual_nl
      textual_nl (.each fun e _ => hrow _ (by decide) (by decide) e)) (fun _ => .nop)
  simp only [tableHtml]
  cases t.centered with
  | false =>
    have := HtmlWrites.around (B := B) (k := k) b!"table" b!"\n" [] (s := b!"<table>\n") (t := b!"</table>")
      (by simp) (by simp) (by decide) (by decide) textual_nl .nil (hth.then htb)
    rwa [seq_assoc] at this
  | true =>
    have := HtmlWrites.elem (B := B) (k := k) b!"table" [(b!"class", b!"center")] []
      (s := b!"<table class=\"center\">") (t := b!"</table>")
      (by simp [renderAttrs]) (by simp) (by decide) (by decide) (.cons keyOk_class (by decide) .nil) .nil
      ((HtmlWrites.text textual_nl).then (hth.then htb))
    rw [seq_assoc, seq_assoc, ← put_split rfl] at this
    exact this

/-- What is needed of blocks. -/
def NeedBlock (B : Str → Prop) (k : Prop) (L : HtmlLib) (xs : List (Located Block)) : Prop :=
  ∀ x ∈ xs, x.inner.Clean k ∧ ∀ i ∈ x.inner.baseIds L, B i

theorem itemOpen_cases (todo : Option Todo) : (∃ v, itemOpen todo = b!"<" ++ b!"li" ++ renderAttrs [(b!"class", v)] ++ b!">" ∧
    c!"\"" ∉ v) ∨ itemOpen todo = b!"<li>" := by
  cases todo with
  | none => exact .inr rfl
  | some x =>
    cases x with
    | incomplete => exact .inl ⟨b!"done0", by decide, by decide⟩
    | partial1 => exact .inl ⟨b!"done1", by decide, by decide⟩
    | partial2 => exact .inl ⟨b!"done2", by decide, by decide⟩
    | partial3 => exact .inl ⟨b!"done3", by decide, by decide⟩
    | complete => exact .inl ⟨b!"done4", by decide, by decide⟩
    | rejected => exact .inl ⟨b!"rejected", by decide, by decide⟩

mutual
theorem Block.html_writes {L : HtmlLib} {c : HtmlCfg} (hL : L.Sound) (hc : c.comments = false)
    (hB : ∀ x, B x → c!"\"" ∉ x) : ∀ (x : Block) (r : Region),
    NeedInline B k L (Block.inlines x) → NeedBlock B k L (⟨x, r⟩ :: Block.inside x) →
    HtmlWrites B k [] (Block.html L c x)
  | .blockquote ls, _, _, _ => by simp only [Block.html]; exact quoteHtml_writes ls
  | .code lang md ls, r, _, h => by
    simp only [Block.html]
    have := (h ⟨.code lang md ls, r⟩ (by simp)).1
    exact codeHtml_writes hL lang md ls this.1 this.2
  | .defs items, _, h, _ => by simp only [Block.html]; exact defListHtml_writes hL hc hB items h
  | .divider, _, _, _ => by
    simp only [Block.html]
    exact .piece [.void b!"hr" []] (by decide) ⟨⟨by decide, .nil⟩, trivial⟩
      (fun _ => by simp [Html.idsAll, Html.ids, idsOf])
  | .header x level ctr, r, h, h' => by
    simp only [Block.html]
    exact headerHtml_writes hL hc hB x level ((h' ⟨.header x level ctr, r⟩ (by simp)).2 _ (by simp [Block.baseIds])) h
  | .list items, r, h, h' => by
    simp only [Block.html]
    have ih := Block.htmlItems_writes hL hc hB items (fun y hy => h y (by simpa [Block.inlines] using hy))
      (fun y hy => h' y (by simp [Block.inside, hy]))
    cases orderedItems items with
    | true => exact .around b!"ol" b!"\n" [] (by simp) (by simp) (by decide) (by decide) textual_nl .nil ih
    | false => exact .around b!"ul" b!"\n" [] (by simp) (by simp) (by decide) (by decide) textual_nl .nil ih
  | .math ls env, r, _, h => by
    simp only [Block.html]
    exact mathHtml_writes ls env (h ⟨.math ls env, r⟩ (by simp)).1
  | .paragraph ls, _, h, _ => by
    simp only [Block.html]
    exact paragraphHtml_writes ls fun l hl => Inline.htmlAll_writes hL hc hB l fun y hy => h y (by
      simp only [Block.inlines, List.mem_flatMap]
      exact ⟨l, hl, hy⟩)
  | .placeholder p, _, _, _ => by simp only [Block.html]; exact placeholderHtml_writes p
  | .table t, r, h, h' => by
    simp only [Block.html]
    exact tableHtml_writes hL hc hB (h' ⟨.table t, r⟩ (by simp)).1 h

theorem Block.htmlItems_writes {L : HtmlLib} {c : HtmlCfg} (hL : L.Sound) (hc : c.comments = false)
    (hB : ∀ x, B x → c!"\"" ∉ x) : ∀ xs : List (Located (ItemF Block)),
    NeedInline B k L (Block.itemInlines xs) → NeedBlock B k L (Block.itemBlocks xs) →
    HtmlWrites B k [] (Block.htmlItems L c xs)
  | [], _, _ => by simp only [Block.htmlItems]; exact .nop
  | ⟨⟨a, b, d, cs, todo⟩, r⟩ :: xs, h, h' => by
    simp only [Block.htmlItems]
    have h1 := Block.htmlContents_writes hL hc hB cs
      (fun y hy => h y (by simp only [Block.itemInlines]; exact List.mem_append_left _ hy))
      (fun y hy => h' y (by simp only [Block.itemBlocks]; exact List.mem_append_left _ hy))
    have h2 := Block.htmlItems_writes hL hc hB xs
      (fun y hy => h y (by simp only [Block.itemInlines]; exact List.mem_append_right _ hy))
      (fun y hy => h' y (by simp only [Block.itemBlocks]; exact List.mem_append_right _ hy))
    have h3 : HtmlWrites B k [] (put (itemOpen todo) ⊳ Block.htmlContents L c cs ⊳ put b!"</li>") := by
      rcases itemOpen_cases todo with ⟨v, hv, hq⟩ | hv
      · have := HtmlWrites.elem (B := B) (k := k) b!"li" [(b!"class", v)] [] hv (t := b!"</li>") (by simp) (by decide)
          (by decide) (.cons keyOk_class hq .nil) .nil h1
        simpa [idsOf] using this
      · exact .plain b!"li" [] (by rw [hv]; simp) (by simp) (by decide) (by decide) .nil h1
    have h4 := h3.then ((HtmlWrites.text textual_nl).then h2)
    rwa [seq_assoc, seq_assoc] at h4

theorem Block.htmlContents_writes {L : HtmlLib} {c : HtmlCfg} (hL : L.Sound) (hc : c.comments = false)
    (hB : ∀ x, B x → c!"\"" ∉ x) : ∀ xs : List (Located Block),
    NeedInline B k L (Block.allInlines xs) → NeedBlock B k L (Block.allBlocks xs) →
    HtmlWrites B k [] (Block.htmlContents L c xs)
  | [], _, _ => by simp only [Block.htmlContents]; exact .nop
  | ⟨x, r⟩ :: xs, h, h' => by
    simp only [Block.htmlContents]
    have h1 := Block.html_writes hL hc hB x r
      (fun y hy => h y (by simp only [Block.allInlines]; exact List.mem_append_left _ hy))
      (fun y hy => h' y (by
        simp only [Block.allBlocks, List.mem_cons, List.mem_append] at hy ⊢
        rcases hy with hy | hy
        · exact .inl hy
        · exact .inr (.inl hy)))
    have h2 := Block.htmlContents_writes hL hc hB xs
      (fun y hy => h y (by simp only [Block.allInlines]; exact List.mem_append_right _ hy))
      (fun y hy => h' y (by
        simp only [Block.allBlocks, List.mem_cons, List.mem_append]
        exact .inr (.inr hy)))
    exact h1.then h2
end

theorem pageHtml_writes {L : HtmlLib} {c : HtmlCfg} (hL : L.Sound) (hc : c.comments = false)
    (hB : ∀ x, B x → c!"\"" ∉ x) (p : Page) (h : NeedInline B k L p.inlines) (h' : NeedBlock B k L p.blocks) :
    HtmlWrites B k [] (pageHtml L c p) := by
  have key : ∀ xs : List (Located Block), NeedInline B k L (Block.allInlines xs) →
      NeedBlock B k L (Block.allBlocks xs) →
      HtmlWrites B k [] (W.each (fun x => Block.html L c x.inner ⊳ put b!"\n") xs) := by
    intro xs
    induction xs with
    | nil => intro _ _; exact .nop
    | cons x xs ih =>
      obtain ⟨x, r⟩ := x
      intro h h'
      have h1 := Block.html_writes hL hc hB x r
        (fun y hy => h y (by simp only [Block.allInlines]; exact List.mem_append_left _ hy))
        (fun y hy => h' y (by
          simp only [Block.allBlocks, List.mem_cons, List.mem_append] at hy ⊢
          rcases hy with hy | hy
          · exact .inl hy
          · exact .inr (.inl hy)))
      have h2 := ih
        (fun y hy => h y (by simp only [Block.allInlines]; exact List.mem_append_right _ hy))
        (fun y hy => h' y (by
          simp only [Block.allBlocks, List.mem_cons, List.mem_append]
          exact .inr (.inr hy)))
      exact (h1.then (.text textual_nl)).then h2
  exact key p.elements h h'

/-! ## Tags of a forest -/

theorem tagEnd_length (q : Bool) (s : Str) : (tagEnd q s).2.length ≤ s.length := by
  induction s generalizing q with
  | nil => simp [tagEnd]
  | cons b s ih =>
    simp only [tagEnd]
    split
    · simp
    · have := ih (if b = c!"\"" then !q else q)
      simp only [List.length_cons]
      omega

theorem tagsF_fuel (n : Nat) : ∀ (s : Str), s.length ≤ n → tagsF n s = htmlTags s := by
  induction n using Nat.strongRecOn with
  | ind n ih =>
    intro s hs
    cases n with
    | zero =>
      have : s = [] := List.length_eq_zero_iff.1 (by omega)
      subst this
      rfl
    | succ n =>
      cases s with
      | nil => rfl
      | cons b s =>
        simp only [htmlTags, List.length_cons, tagsF]
        cases hd : (b :: s).dropWhile (fun b => b ≠ c!"<") with
        | nil => rfl
        | cons x r =>
          simp only
          have h1 : r.length ≤ s.length := by
            have := (List.dropWhile_suffix (l := b :: s) fun b => b ≠ c!"<").length_le
            rw [hd] at this
            simpa using this
          have h2 := tagEnd_length false r
          simp only [List.length_cons] at hs
          rw [ih n (by omega) _ (by omega)]
          by_cases hlt : s.length < n + 1
          · rw [ih s.length (by omega) _ (by omega)]
          · omega

theorem htmlTags_text {t : Str} (ht : c!"<" ∉ t) (s : Str) : htmlTags (t ++ s) = htmlTags s := by
  induction t with
  | nil => rfl
  | cons b t ih =>
    have hb : b ≠ c!"<" := fun e => ht (by simp [e])
    rw [← ih (fun h => ht (by simp [h]))]
    simp only [List.cons_append]
    rw [htmlTags, List.length_cons, ← tagsF_fuel (t ++ s).length.succ (t ++ s) (by omega)]
    simp only [tagsF]
    rw [List.dropWhile_cons_of_pos (by simpa using hb)]

theorem htmlTags_tag {body s : Str} (h : tagEnd false (body ++ c!">" :: s) = (body, s)) :
    htmlTags (c!"<" :: (body ++ c!">" :: s)) = tagOf body :: htmlTags s := by
  rw [htmlTags, List.length_cons]
  simp only [tagsF]
  rw [List.dropWhile_cons_of_neg (by simp)]
  simp only [h]
  rw [tagsF_fuel _ _ (by simp; omega)]

theorem tagEnd_plain {t : Str} (h : ∀ b ∈ t, b ≠ c!"\"" ∧ b ≠ c!">") (s : Str) :
    tagEnd false (t ++ s) = (t ++ (tagEnd false s).1, (tagEnd false s).2) := by
  induction t with
  | nil => rfl
  | cons b t ih =>
    have hb := h b (by simp)
    simp only [List.cons_append, tagEnd, hb.1, hb.2, if_false, false_and,
      ih fun x hx => h x (by simp [hx])]

theorem tagEnd_quoted {t : Str} (h : c!"\"" ∉ t) (s : Str) :
    tagEnd true (t ++ s) = (t ++ (tagEnd true s).1, (tagEnd true s).2) := by
  induction t with
  | nil => rfl
  | cons b t ih =>
    have hb : b ≠ c!"\"" := fun e => h (by simp [e])
    simp only [List.cons_append, tagEnd, hb, if_false, Bool.true_eq_false, and_false,
      ih fun x => h (by simp [x])]

theorem tagEnd_attrs {as : List (Str × Str)} (h : AttrsOk as) (s : Str) :
    tagEnd false (renderAttrs as ++ s) = (renderAttrs as ++ (tagEnd false s).1, (tagEnd false s).2) := by
  induction as with
  | nil => rfl
  | cons e as ih =>
    obtain ⟨x, v⟩ := e
    have h1 := h (x, v) (by simp)
    have h2 := ih fun y hy => h y (by simp [hy])
    have e1 : renderAttrs ((x, v) :: as) ++ s = (b!" " ++ x ++ b!"=") ++ (c!"\"" :: (v ++ (c!"\"" :: (renderAttrs as ++ s)))) := by
      simp [renderAttrs]
    rw [e1, tagEnd_plain]
    · have hq : ∀ q r, tagEnd q (c!"\"" :: r) = (c!"\"" :: (tagEnd (!q) r).1, (tagEnd (!q) r).2) := by
        intro q r
        simp [tagEnd]
      rw [hq, Bool.not_false, tagEnd_quoted h1.2, hq, Bool.not_true, h2]
      simp [renderAttrs]
    · intro b hb
      simp only [List.mem_append, List.mem_singleton] at hb
      rcases hb with (rfl | hb) | rfl
      · decide
      · have := h1.1.2 b hb
        exact ⟨this.2.1, this.2.2.2.1⟩
      · decide

theorem tagName_stop {n r : Str} (hn : ∀ b ∈ n, isLower b ∨ isDigit b)
    (hr : ∀ b, r.head? = some b → isLower b = false ∧ isDigit b = false) : tagName (n ++ r) = n := by
  simp only [tagName]
  rw [List.takeWhile_append_of_pos (fun b hb => by simpa using hn b hb)]
  cases r with
  | nil => simp
  | cons b r =>
    have := hr b rfl
    rw [List.takeWhile_cons_of_neg (by simp [this])]
    simp

theorem NameOk.plain {n : Str} (h : NameOk n) : ∀ b ∈ n, b ≠ c!"\"" ∧ b ≠ c!">" := by
  intro b hb
  have := h.2 b hb
  simp only [isLower, isDigit, Bool.and_eq_true, decide_eq_true_eq] at this
  omega

theorem NameOk.slash {n : Str} (h : NameOk n) (r : Str) : ∀ s, n ++ r ≠ c!"/" :: s := by
  intro s he
  cases n with
  | nil => exact h.1 rfl
  | cons b n =>
    have := h.2 b (by simp)
    simp only [List.cons_append, List.cons.injEq] at he
    rw [he.1] at this
    simp [isLower, isDigit] at this

theorem tagOf_open {t : Str} (h : ∀ s, t ≠ c!"/" :: s) :
    tagOf t = if tagName t ∈ voidNames then .single (tagName t) else .opening (tagName t) := by
  cases t with
  | nil => rfl
  | cons b t =>
    unfold tagOf
    split
    · rename_i s he
      exact absurd he (h s)
    · rfl

theorem renderAttrs_head (as : List (Str × Str)) (t : Str) (ht : ∀ b, t.head? = some b → isLower b = false ∧ isDigit b = false) :
    ∀ b, (renderAttrs as ++ t).head? = some b → isLower b = false ∧ isDigit b = false := by
  cases as with
  | nil => exact ht
  | cons e as =>
    obtain ⟨x, v⟩ := e
    intro b hb
    simp [renderAttrs] at hb
    subst hb
    decide

theorem voidNames_ok {n : Str} (h : n ∈ voidNames) : NameOk n := by
  simp only [voidNames, List.mem_cons, List.not_mem_nil, or_false] at h
  rcases h with rfl | rfl | rfl <;> decide

mutual
/-- The tags of a well-formed piece can be closed whatever is open. -/
theorem Html.tags_piece : ∀ (x : Html), x.Ok → ∀ (st : List Str) (s : Str),
    balanced st (htmlTags (x.render ++ s)) = balanced st (htmlTags s)
  | .text t, h, st, s => by
    simp only [Html.render]
    rw [htmlTags_text h.1]
  | .void n as, h, st, s => by
    have hn := voidNames_ok h.1
    have e : Html.render (.void n as) ++ s = c!"<" :: ((n ++ (renderAttrs as ++ b!" /")) ++ c!">" :: s) := by
      simp [Html.render]
    rw [e, htmlTags_tag]
    · rw [tagOf_open (hn.slash _), tagName_stop hn.2 (renderAttrs_head as _ (by intro b hb; cases hb; decide)),
        if_pos h.1]
      simp [balanced]
    · rw [List.append_assoc, List.append_assoc, tagEnd_plain hn.plain, tagEnd_attrs h.2]
      simp [tagEnd]
  | .elem n as cs, h, st, s => by
    have hn := h.1
    have e : Html.render (.elem n as cs) ++ s =
        c!"<" :: ((n ++ renderAttrs as) ++ c!">" :: (Html.renderAll cs ++ (c!"<" :: ((c!"/" :: n) ++ c!">" :: s)))) := by
      simp [Html.render]
    rw [e, htmlTags_tag]
    · have ha := renderAttrs_head as [] (by intro b hb; cases hb)
      rw [List.append_nil] at ha
      rw [tagOf_open (hn.slash _), tagName_stop hn.2 ha, if_neg h.2.1]
      simp only [balanced]
      rw [Html.tags_forest cs h.2.2.2, htmlTags_tag]
      · have : tagOf (c!"/" :: n) = .closing n := by
          show Tag.closing (tagName n) = _
          have := tagName_stop (r := []) hn.2 (by intro b hb; cases hb)
          rw [List.append_nil] at this
          rw [this]
        rw [this]
        simp [balanced]
      · have := tagEnd_plain (t := c!"/" :: n) (by
          intro b hb
          rcases List.mem_cons.1 hb with rfl | hb
          · decide
          · exact hn.plain b hb) (c!">" :: s)
        rw [this]
        simp [tagEnd]
    · rw [List.append_assoc, tagEnd_plain hn.plain, tagEnd_attrs h.2.2.1]
      simp [tagEnd]

theorem Html.tags_forest : ∀ (xs : List Html), Html.OkAll xs → ∀ (st : List Str) (s : Str),
    balanced st (htmlTags (Html.renderAll xs ++ s)) = balanced st (htmlTags s)
  | [], _, _, _ => by simp [Html.renderAll]
  | x :: xs, h, st, s => by
    have : Html.renderAll (x :: xs) ++ s = x.render ++ (Html.renderAll xs ++ s) := by simp [Html.renderAll]
    rw [this, Html.tags_piece x h.1, Html.tags_forest xs h.2]
end

end Vw
