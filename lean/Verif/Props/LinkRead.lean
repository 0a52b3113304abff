import Verif.Lemmas.Pieces
import Verif.Lemmas.LinkRead
import Verif.Spec.Demo

/-!
# Links say what is written between their brackets (C99)
-/

namespace Vw

/-- The link of an element. -/
def Inline.bracketed? : Inline → Option Link
  | .link (.raw _) => none
  | .link l => some l
  | _ => none

/-- The delimiters of a link. -/
def Link.quotes : Link → Str × Str
  | .transclusion _ => (b!"{{", b!"}}")
  | _ => (b!"[[", b!"]]")

/-- What a bracketed link of a page says is what its text says, up to the text `lost`, which is what
follows the braces in a description, and what follows the last part that could be read. -/
theorem C99_read_partial {env : Env} {text : Str} {s : Span} {pg : Page}
    (h : parsePage env text = .ok s pg) {x : Located Inline} (hx : x ∈ pg.inlines) {l : Link}
    (hl : x.inner.bracketed? = some l) :
    ∃ c lost, x.region.source text = l.quotes.1 ++ (c ++ l.quotes.2) ∧ LinkReads env c lost l := by
  have hp := parsePage_piece h hx
  obtain ⟨x, r⟩ := x
  rcases hp.what with hw | ⟨kind, ys, he, _, _⟩
  · cases x with
    | link k =>
      cases k with
      | raw d => cases hl
      | transclusion d =>
        cases hl
        obtain ⟨⟨c, hc, hb⟩, -⟩ := hw
        obtain ⟨lost, hr⟩ := body_reads (by simp) hc.noNl hb
        exact ⟨c, lost, by rw [← List.append_assoc]; exact hc.eq, hr⟩
      | _ =>
        cases hl
        obtain ⟨⟨c, hc, hb⟩, -⟩ := hw
        obtain ⟨lost, hr⟩ := body_reads (by simp) hc.noNl hb
        exact ⟨c, lost, by rw [← List.append_assoc]; exact hc.eq, hr⟩
    | _ => cases hl
  · simp only at he
    subst he
    cases hl

theorem UpTo.unique {marks : List Str} {c t r t' r' : Str} (h : UpTo marks c t r) (h' : UpTo marks c t' r') :
    t = t' ∧ r = r' := by
  have key : ∀ {t r t' r' : Str}, UpTo marks c t r → UpTo marks c t' r' → t.length ≤ t'.length := by
    intro t r t' r' h h'
    rcases h'.stop with rfl | ⟨p, hp, q, rfl⟩
    · have h1 := congrArg List.length h.eq
      have h2 := congrArg List.length h'.eq
      simp at h1 h2
      omega
    · exact h.clear p hp t' q h'.eq
  have e := h.eq.symm.trans h'.eq
  exact List.append_inj e (Nat.le_antisymm (key h h') (key h' h))

theorem upTo_target {c t r : Str} (e : c = t ++ r) (hr : r = [] ∨ r.head? = some c!"|") (ht : c!"|" ∉ t)
    (ht2 : ¬ b!"}}" <:+: t) (hc : ∀ a b, c ≠ a ++ (b!"]]" ++ b)) :
    UpTo [b!"|", b!"]]", b!"}}"] c t r := by
  refine ⟨e, ?_, ?_⟩
  · intro p hp a b hab
    apply Classical.byContradiction
    intro hn
    simp only [List.mem_cons, List.not_mem_nil, or_false] at hp
    have hat : At (t ++ r) a.length p := by rw [← e, hab]; exact at_append _ _ _
    rcases hp with rfl | rfl | rfl
    · have := at_singleton.1 hat
      rw [List.getElem?_append_left (by omega)] at this
      exact ht (List.mem_of_getElem? this)
    · exact hc a b hab
    · refine ht2 (at_two_cross (by omega) ?_ hat)
      rcases hr with rfl | hr
      · simp
      · rw [hr]; simp
  · rcases hr with rfl | hr
    · exact .inl rfl
    · refine .inr ⟨b!"|", by simp, ?_⟩
      cases r with
      | nil => simp at hr
      | cons a r => simp at hr; subst hr; exact ⟨r, rfl⟩

theorem wiki_body {env : Env} {text : Str} {s : Span} {pg : Page}
    (h : parsePage env text = .ok s pg) {x : Located Inline} (hx : x ∈ pg.inlines) {d : LinkData}
    (hd : x.inner = .link (.wiki d)) {c : Str} (hs : x.region.source text = b!"[[" ++ (c ++ b!"]]")) :
    10 ∉ c ∧ (∀ a b, a ≠ [] → c ≠ a ++ (b!"]]" ++ b)) ∧ ∃ lost, DataRead env c d lost := by
  have hp := parsePage_piece h hx
  obtain ⟨x, r⟩ := x
  cases hd
  rcases hp.what with hw | ⟨kind, ys, he, _, _⟩
  · obtain ⟨⟨c', hc, hb⟩, -⟩ := hw
    have e : b!"[[" ++ c' ++ b!"]]" = b!"[[" ++ (c ++ b!"]]") := hc.eq.symm.trans hs
    have e : c' = c := by simpa using e
    subst e
    refine ⟨hc.noNl, ?_, body_reads (by simp) hc.noNl hb⟩
    intro a b ha e
    refine hc.first a.length (List.length_pos_iff.2 ha) (by rw [e]; simp) ?_
    conv => arg 1; rw [e]
    rw [List.append_assoc, List.append_assoc]
    exact at_append _ _ _
  · cases he

theorem target_eq {env : Env} {c t r r' : Str} {u : Uri} (h : TargetRead env c u r') (e : c = t ++ r)
    (hr : r = [] ∨ r.head? = some c!"|") (ht : c!"|" ∉ t) (ht2 : ¬ b!"}}" <:+: t)
    (hc : ∀ a b, a ≠ [] → c ≠ a ++ (b!"]]" ++ b)) : readUri env t = some u ∧ r' = r := by
  obtain ⟨t', hne, hup, hu⟩ := h
  have := hup.unique (upTo_target e hr ht ht2 (by
    intro a b hab
    by_cases ha : a = []
    · subst ha
      have h1 := hup.clear b!"]]" (by simp) [] b hab
      have h2 := List.length_pos_iff.2 hne
      simp only [List.length_nil] at h1
      omega
    · exact hc a b ha hab))
  rw [← this.1, this.2]
  exact ⟨hu, rfl⟩

/-- `[[target]]` and `[[target|text]]` lose nothing. -/
theorem C99_plain {env : Env} {text : Str} {s : Span} {pg : Page}
    (h : parsePage env text = .ok s pg) {x : Located Inline} (hx : x ∈ pg.inlines) {d : LinkData}
    (hd : x.inner = .link (.wiki d)) {t : Str} (ht : c!"|" ∉ t) (ht2 : ¬ b!"}}" <:+: t) :
    (x.region.source text = b!"[[" ++ (t ++ b!"]]") →
      readUri env t = some d.uri ∧ d.desc = none ∧ d.props = none) ∧
    ∀ e, c!"|" ∉ e → ¬ b!"{{" <+: e →
      x.region.source text = b!"[[" ++ (t ++ (c!"|" :: (e ++ b!"]]"))) →
      readUri env t = some d.uri ∧ d.desc = some (.text e) ∧ d.props = none := by
  constructor
  · intro hs
    obtain ⟨h10, hc, lost, r, l, q, q', h1, h2, h3, -⟩ := wiki_body h hx hd hs
    obtain ⟨hu, rfl⟩ := target_eq (r := []) h1 (by simp) (.inl rfl) ht ht2 hc
    have key : ∀ dd dp, DescRead env [] dd l q → PropsRead q dp q' → dd = none ∧ dp = none := by
      intro dd dp h2 h3
      cases h2
      cases h3
      exact ⟨rfl, rfl⟩
    exact ⟨hu, key _ _ h2 h3⟩
  · intro e he he2 hs
    obtain ⟨h10, hc, lost, r, l, q, q', h1, h2, h3, -⟩ := wiki_body (c := t ++ c!"|" :: e) h hx hd (by simpa using hs)
    obtain ⟨hu, rfl⟩ := target_eq (r := c!"|" :: e) h1 rfl (.inr rfl) ht ht2 hc
    have hup : ∀ x q, UpTo [b!"|"] e x q → x = e ∧ q = [] := by
      intro x q hup
      rcases hup.stop with rfl | ⟨p, hp, z, rfl⟩
      · exact ⟨by simpa using hup.eq.symm, rfl⟩
      · simp at hp
        subst hp
        exact absurd (by rw [hup.eq]; simp) he
    have key : ∀ dd dp, DescRead env (c!"|" :: e) dd l q → PropsRead q dp q' →
        dd = some (.text e) ∧ dp = none := by
      intro dd dp h2 h3
      cases h2 with
      | none h => simp at h
      | text h =>
        obtain ⟨rfl, rfl⟩ := hup _ _ h
        cases h3
        exact ⟨rfl, rfl⟩
      | transclusion h e1 =>
        obtain ⟨rfl, rfl⟩ := hup _ _ h
        refine absurd ?_ he2
        rw [e1]
        exact ⟨_, rfl⟩
    exact ⟨hu, key _ _ h2 h3⟩

/-- The page says `[[body]]` in one link, whose data are given. Used in witnesses. -/
def oneLink (body : Str) (u : Str) (desc : Option Str) (image : Option Str) (pg : Page) : Bool :=
  match pg.inlines with
  | [⟨.link (.wiki d), r⟩] =>
    decide (r.source (b!"[[" ++ (body ++ b!"]]")) = b!"[[" ++ (body ++ b!"]]")) &&
    decide (readUri demo u = some d.uri) && d.props.isNone &&
    (match d.desc, desc, image with
      | none, none, none => true
      | some (.text t), some t', none => decide (t = t')
      | some (.transclusion v none none), none, some i => decide (readUri demo i = some v)
      | _, _, _ => false)
  | _ => false

/-- Text in brackets that the link does not hold: a second description, what follows an image in a
description, and what follows braces in a target. -/
theorem C99_violated :
    (∃ s pg, parsePage demo b!"[[a|b|c]]" = .ok s pg ∧ oneLink b!"a|b|c" b!"a" (some b!"b") none pg = true) ∧
    (∃ s pg, parsePage demo b!"[[a|{{b}} c]]" = .ok s pg ∧
      oneLink b!"a|{{b}} c" b!"a" none (some b!"b") pg = true) ∧
    ∃ s pg, parsePage demo b!"[[a}}b]]" = .ok s pg ∧ oneLink b!"a}}b" b!"a" none none pg = true :=
  ⟨page_test (text := b!"[[a|b|c]]") (fun pg => oneLink b!"a|b|c" b!"a" (some b!"b") none pg = true) (by decide +kernel),
   page_test (text := b!"[[a|{{b}} c]]") (fun pg => oneLink b!"a|{{b}} c" b!"a" none (some b!"b") pg = true) (by decide +kernel),
   page_test (text := b!"[[a}}b]]") (fun pg => oneLink b!"a}}b" b!"a" none none pg = true) (by decide +kernel)⟩

/-- A page with a link to another wiki, a diary link with an anchor, a link with a description and a
transclusion with properties. -/
example : ∃ s pg, parsePage demo b!"[[wiki1:a|b]] [[diary:2021-01-01#x#y]] {{a|b|k=\"v\" l=\"w\"}} [[c|d]]" = .ok s pg ∧
    (pg.inlines.filterMap fun x => x.inner.bracketed?).map (fun l => match l with
      | .indexed i d => decide (i = 1) && decide (readUri demo b!"a" = some d.uri)
      | .diary _ d => decide (demo.uri (anchorUri b!"#x#y") = some d.uri)
      | .transclusion d => decide (d.props = some [(b!"l", b!"w"), (b!"k", b!"v")])
      | .wiki d => decide (readUri demo b!"c" = some d.uri)
      | _ => false) = [true, true, true, true] :=
  page_test _ (by decide +kernel)

/-- A link that `C99_plain` is about. -/
example : ∃ s pg, parsePage demo b!"x [[a b|c d]]" = .ok s pg ∧
    (pg.inlines.map fun x => x.region.source b!"x [[a b|c d]]") = [b!"x ", b!"[[" ++ (b!"a b" ++ (c!"|" :: (b!"c d" ++ b!"]]")))] :=
  page_test _ (by decide +kernel)

end Vw
