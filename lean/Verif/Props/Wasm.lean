import Verif.Lemmas.Wasm
import Verif.Props.Children
import Verif.Props.Equality

/-!
# C80 to C84: the JavaScript package
-/

namespace Vw

/-! ## C80: dates -/

theorem monthDays_le (y : Int) (m : Nat) : monthDays y m ≤ 31 := by
  unfold monthDays; split <;> (try split) <;> omega

theorem monthDays_ge (y : Int) {m : Nat} (h : 1 ≤ m) (h' : m ≤ 12) : 28 ≤ monthDays y m := by
  obtain rfl | rfl | rfl | rfl | rfl | rfl | rfl | rfl | rfl | rfl | rfl | rfl : m = 1 ∨ m = 2 ∨ m = 3 ∨ m = 4 ∨ m = 5 ∨
    m = 6 ∨ m = 7 ∨ m = 8 ∨ m = 9 ∨ m = 10 ∨ m = 11 ∨ m = 12 := by omega
  all_goals simp only [monthDays] <;> (try split) <;> omega

theorem yearU32_cast {y : Int} (h : 100 ≤ y) (h' : y < 4294967296) : ((yearU32 y : Nat) : Int) = y := by
  unfold yearU32; omega

/-- The days of the Gregorian calendar, counted from the first of March of the year 0. -/
def dayNumber (y : Int) (m : Nat) : Int :=
  let y' := if m ≤ 2 then y - 1 else y
  let m' : Int := if m ≤ 2 then m + 9 else m - 3
  365 * y' + y' / 4 - y' / 100 + y' / 400 + (153 * m' + 2) / 5

/-- C80: the dates of the calendar are those of the Gregorian calendar: the length of every month is the number of days
from its first to the first of the next month, by the usual count of days. -/
theorem C80_calendar (y : Int) {m : Nat} (h : 1 ≤ m) (h' : m ≤ 12) :
    (monthDays y m : Int) = (if m = 12 then dayNumber (y + 1) 1 else dayNumber y (m + 1)) - dayNumber y m := by
  obtain rfl | rfl | rfl | rfl | rfl | rfl | rfl | rfl | rfl | rfl | rfl | rfl : m = 1 ∨ m = 2 ∨ m = 3 ∨ m = 4 ∨ m = 5 ∨
    m = 6 ∨ m = 7 ∨ m = 8 ∨ m = 9 ∨ m = 10 ∨ m = 11 ∨ m = 12 := by omega
  all_goals simp [monthDays, dayNumber, leapYear]
  all_goals (try split) <;> omega

/-- What the date of a placeholder shows in JavaScript. -/
theorem jsDate_shown {J : JsLib} (hJ : J.Sound) {d : Date} (hd : d.Exists) (h : 100 ≤ d.year) (h' : d.year < 4294967296)
    {t : J.T} (ht : Placeholder.jsDate J (.date d) = some t) :
    J.shown t = if d.month = 12 then (yearU32 d.year + 1, 0, d.day)
      else if d.day ≤ monthDays d.year (d.month + 1) then (yearU32 d.year, d.month, d.day)
      else (yearU32 d.year, d.month + 1, d.day - monthDays d.year (d.month + 1)) := by
  obtain ⟨h1, h2, h3, h4⟩ := hd
  have hy := yearU32_cast h h'
  simp only [Placeholder.jsDate, Option.some.injEq] at ht
  subst ht
  have h5 := monthDays_le d.year d.month
  split
  · next he =>
    rw [he, show ((12 : Nat) : Int) = 12 from rfl, hJ.carryMonth _ _ (by omega)]
    exact hJ.shown (yearU32 d.year + 1) 0 d.day (by omega) (by omega) h3 (by simp only [monthDays]; omega)
  · split
    · next hn hle => exact hJ.shown _ _ _ (by omega) (by omega) h3 (by rw [hy]; exact hle)
    · next hn hle =>
      have h6 : d.month < 11 := by
        apply Nat.lt_of_not_le
        intro hge
        have : d.month = 11 := by omega
        rw [this] at hle
        simp only [monthDays] at hle
        omega
      have h7 := monthDays_ge d.year (m := d.month + 1) (by omega) (by omega)
      have h8 := monthDays_ge d.year (m := d.month + 1 + 1) (by omega) (by omega)
      rw [hJ.carryDay _ _ _ (by omega) h6 (by omega) (by rw [hy]; omega), hy,
        show (d.day : Int) - (monthDays d.year (d.month + 1) : Nat) = ((d.day - monthDays d.year (d.month + 1) : Nat) : Int) by omega,
        show (d.month : Int) + 1 = ((d.month + 1 : Nat) : Int) by omega]
      exact hJ.shown _ _ _ (by omega) (by omega) (by omega) (by rw [hy]; omega)

/-- C80 fails: the date that JavaScript is given for a placeholder is never that of the placeholder. -/
theorem C80_read_violated {J : JsLib} (hJ : J.Sound) {d : Date} (hd : d.Exists) (h : 100 ≤ d.year) (h' : d.year < 4294967296) :
    ∃ t, Placeholder.jsDate J (.date d) = some t ∧ ¬ ShowsDay d (J.shown t) := by
  refine ⟨_, rfl, fun hs => ?_⟩
  rw [jsDate_shown hJ hd h h' rfl] at hs
  obtain ⟨h1, h2, h3, h4⟩ := hd
  unfold ShowsDay at hs
  split at hs
  · simp only at hs; omega
  · split at hs <;> simp only at hs <;> omega

/-- C80 fails: no diary link made in JavaScript has the date it was made with. -/
theorem C80_write_violated (env : Env) {J : JsLib} (t : J.T) (desc anchor : Str) {d : Date} {x : LinkData}
    (h : jsDiaryLink env J t desc anchor = some (.diary d x)) : ¬ ShowsDay d (J.shownUtc t) := by
  simp only [jsDiaryLink, Date.fromYmd] at h
  split at h
  · cases h
  · next date hd =>
    split at hd
    · split at h
      · cases h
        cases hd
        intro hs
        have := hs.2.1
        simp at this
      · cases h
    · cases hd

/-- C80 fails: a date in January stops the program. -/
theorem C80_january_violated (env : Env) {J : JsLib} (t : J.T) (desc anchor : Str) (h : (J.shownUtc t).2.1 = 0) :
    jsDiaryLink env J t desc anchor = none := by
  simp only [jsDiaryLink, Date.fromYmd, h, monthDays]
  rw [if_neg (by omega)]

/-- C80, how far it holds: a diary link made with the date of a placeholder has that date, as the two
mistakes cancel out, if the program runs in UTC, the date is not in December and the next month is long
enough. Missing: the other dates and any use of the date by JavaScript itself. -/
theorem C80_round_trip_partial (env : Env) {J : JsLib} (hJ : J.Sound) (hu : ∀ t, J.shownUtc t = J.shown t) {d : Date}
    (hd : d.Exists) (h : 100 ≤ d.year) (h' : d.year < 4294967296) (hm : d.month ≠ 12)
    (hn : d.day ≤ monthDays d.year (d.month + 1)) (desc anchor : Str) {u : Uri}
    (ha : env.uri (diaryUriText (Anchor.fromUriFragment anchor)) = some u) :
    ∃ t x, Placeholder.jsDate J (.date d) = some t ∧ jsDiaryLink env J t desc anchor = some (.diary d x) ∧ x.uri = u := by
  refine ⟨_, ⟨u, some (jsDescription env desc), none⟩, rfl, ?_, rfl⟩
  have hs := jsDate_shown hJ hd h h' rfl
  rw [if_neg hm, if_pos hn] at hs
  simp only [jsDiaryLink, hu, hs, yearU32_cast h h', Date.fromYmd, ha]
  rw [if_pos ⟨hd.2.2.1, hd.2.2.2⟩]

/-- Dates of JavaScript as triples, to show that the assumptions can be met. -/
def demoJs : JsLib where
  T := { p : Nat × Nat × Nat // p.2.1 < 12 ∧ 1 ≤ p.2.2 ∧ p.2.2 ≤ monthDays p.1 (p.2.1 + 1) }
  make y m d :=
    let p : Nat × Nat := if m = 12 then (y + 1, 0) else (y, m.toNat)
    let q : Nat × Nat × Nat := if d ≤ monthDays p.1 (p.2 + 1) then (p.1, p.2, d.toNat)
      else (p.1, p.2 + 1, (d - monthDays p.1 (p.2 + 1)).toNat)
    if h : q.2.1 < 12 ∧ 1 ≤ q.2.2 ∧ q.2.2 ≤ monthDays q.1 (q.2.1 + 1) then ⟨q, h⟩ else ⟨(1970, 0, 1), by decide⟩
  shown t := t.1
  shownUtc t := t.1

theorem demoJs_sound : demoJs.Sound where
  shown y m d h1 h2 h3 h4 := by
    have e1 : ¬ ((m : Int) = 12) := by omega
    have e2 : (d : Int) ≤ (monthDays y (m + 1) : Nat) := by omega
    simp [demoJs, e1, e2, h2, h3, h4]
  carryMonth y d h := by simp [demoJs]
  carryDay y m d h1 h2 h3 h4 := by
    have e1 : ¬ ((m : Int) = 12) := by omega
    have e2 : ¬ ((m : Int) + 1 = 12) := by omega
    have e3 : ¬ ((d : Int) ≤ (monthDays y (m + 1) : Nat)) := by omega
    have e4 := monthDays_ge y (m := m + 1) (by omega) (by omega)
    have e5 := monthDays_ge y (m := m + 1 + 1) (by omega) (by omega)
    have e6 : ((d : Int) - (monthDays y (m + 1) : Nat)) ≤ (monthDays y (m + 1 + 1) : Nat) := by omega
    have e7 : ((m : Int) + 1).toNat = m + 1 := by omega
    simp only [demoJs, e1, e2, e3, if_false, Int.toNat_natCast, e7, e6, if_true]
  utc t := t.2

example : ∃ t, Placeholder.jsDate demoJs (.date ⟨2021, 12, 31⟩) = some t ∧ demoJs.shown t = (2022, 0, 31) :=
  ⟨_, rfl, by decide⟩

example : ∃ t, Placeholder.jsDate demoJs (.date ⟨2021, 1, 31⟩) = some t ∧ demoJs.shown t = (2021, 2, 3) :=
  ⟨_, rfl, by decide⟩

example : ∃ x, jsDiaryLink demo demoJs (demoJs.make 2021 4 5) b!"two words" b!"#a" = some (.diary ⟨2021, 4, 5⟩ x) :=
  ⟨_, rfl⟩

example : (⟨2021, 3, 14⟩ : Date).Exists ∧ (demo.uri (diaryUriText (Anchor.fromUriFragment b!"#a"))).isSome := by
  refine ⟨by simp [Date.Exists, monthDays], by decide +kernel⟩

/-! ## C81: descriptions of links -/

/-- The link is made in JavaScript with the address and the description. -/
inductive MadeLink (env : Env) (J : JsLib) (uri desc : Str) : Link → Prop where
  | wiki {l} : jsWikiLink env uri desc = some l → MadeLink env J uri desc l
  | indexed {l} (i : Nat) : jsIndexedLink env i uri desc = some l → MadeLink env J uri desc l
  | named {l} (n : Str) : jsNamedLink env n uri desc = some l → MadeLink env J uri desc l
  | transclusion {l} (props : List (Str × Option Str)) : jsTransclusionLink env uri desc props = some l → MadeLink env J uri desc l
  | diary {l} (t : J.T) (anchor : Str) : uri = diaryUriText (Anchor.fromUriFragment anchor) →
      jsDiaryLink env J t desc anchor = some l → MadeLink env J uri desc l

theorem MadeLink.data {env : Env} {J : JsLib} {uri desc : Str} {l : Link} (h : MadeLink env J uri desc l) :
    env.uri uri = some l.data.uri ∧ l.data.desc = some (jsDescription env desc) := by
  cases h with
  | wiki h => simp only [jsWikiLink, Option.map_eq_some_iff] at h; obtain ⟨u, h1, rfl⟩ := h; exact ⟨h1, rfl⟩
  | indexed i h => simp only [jsIndexedLink, Option.map_eq_some_iff] at h; obtain ⟨u, h1, rfl⟩ := h; exact ⟨h1, rfl⟩
  | named n h => simp only [jsNamedLink, Option.map_eq_some_iff] at h; obtain ⟨u, h1, rfl⟩ := h; exact ⟨h1, rfl⟩
  | transclusion p h => simp only [jsTransclusionLink, Option.map_eq_some_iff] at h; obtain ⟨u, h1, rfl⟩ := h; exact ⟨h1, rfl⟩
  | diary t a he h =>
    subst he
    simp only [jsDiaryLink] at h
    split at h
    · cases h
    · split at h
      · next u hu => cases h; exact ⟨hu, rfl⟩
      · cases h

/-- C81, how far it holds: a link made in JavaScript has the address it was made with, and its description
is the text it was made with exactly if that text cannot be read as an address. Missing: the other
descriptions. -/
theorem C81_partial {env : Env} {J : JsLib} {uri desc : Str} {l : Link} (h : MadeLink env J uri desc l) :
    env.uri uri = some l.data.uri ∧ (l.data.desc = some (.text desc) ↔ env.uri desc = none) := by
  refine ⟨h.data.1, ?_⟩
  rw [h.data.2]
  unfold jsDescription
  cases env.uri desc with
  | none => simp
  | some u => simp

/-- C81, making a link succeeds exactly for readable addresses, and the link is of the kind asked for. -/
theorem C81_kinds (env : Env) (uri desc : Str) (i : Nat) (n : Str) (ps : List (Str × Option Str)) {u : Uri} (h : env.uri uri = some u) :
    (∃ x, jsWikiLink env uri desc = some (.wiki x) ∧ x.uri = u ∧ x.props = none) ∧
    (∃ x, jsIndexedLink env i uri desc = some (.indexed i x) ∧ x.uri = u ∧ x.props = none) ∧
    (∃ x, jsNamedLink env n uri desc = some (.named n x) ∧ x.uri = u ∧ x.props = none) ∧
    (∃ x, jsRawLink env uri = some (.raw x) ∧ x.uri = u ∧ x.desc = none ∧ x.props = none) ∧
    (∃ x, jsTransclusionLink env uri desc ps = some (.transclusion x) ∧ x.uri = u) := by
  simp [jsWikiLink, jsIndexedLink, jsNamedLink, jsRawLink, jsTransclusionLink, h]

/-- C81: an image made in JavaScript has the properties it was made with, those whose value is a string; the last one if
a name is given twice. -/
theorem C81_properties (env : Env) (uri desc : Str) (ps : List (Str × Option Str)) {l : Link}
    (h : jsTransclusionLink env uri desc ps = some l) :
    ∃ m, l.data.props = some m ∧ DistinctKeys m ∧ ∀ k v, (k, v) ∈ m ↔
      ∃ a b, ps = a ++ (k, some v) :: b ∧ ∀ w, (k, some w) ∉ b := by
  unfold jsTransclusionLink at h
  obtain ⟨u, -, rfl⟩ := Option.map_eq_some_iff.mp h
  refine ⟨_, rfl, collect_distinct _, fun k v => ?_⟩
  rw [Map.mem_collect, List.find?_eq_some_iff_append]
  simp only [decide_true, true_and]
  constructor
  · rintro ⟨as, bs, hr, hn⟩
    have hr' := congrArg List.reverse hr
    simp only [List.reverse_reverse, List.reverse_append, List.reverse_cons, List.append_assoc, List.singleton_append] at hr'
    obtain ⟨l1, l2, rfl, h1, h2⟩ := List.filterMap_eq_append_iff.mp hr'
    obtain ⟨l3, ⟨k', o⟩, l4, rfl, h3, h4, h5⟩ := List.filterMap_eq_cons_iff.mp h2
    cases o with
    | none => simp at h4
    | some w =>
      simp only [Option.map_some, Option.some.injEq, Prod.mk.injEq] at h4
      obtain ⟨rfl, rfl⟩ := h4
      refine ⟨l1 ++ l3, l4, by simp, fun w hw => ?_⟩
      have : (k', w) ∈ as.reverse := by
        rw [← h5]
        exact List.mem_filterMap.mpr ⟨_, hw, rfl⟩
      have := hn _ (List.mem_reverse.mp this)
      simp at this
  · rintro ⟨a, b, rfl, hn⟩
    refine ⟨(b.filterMap fun e => e.2.map (e.1, ·)).reverse, (a.filterMap fun e => e.2.map (e.1, ·)).reverse, by simp, ?_⟩
    intro e he
    obtain ⟨⟨k', o⟩, hm, hk⟩ := List.mem_filterMap.mp (List.mem_reverse.mp he)
    cases o with
    | none => simp at hk
    | some w =>
      simp only [Option.map_some, Option.some.injEq] at hk
      subst hk
      simp only [Bool.not_eq_eq_eq_not, Bool.not_true, decide_eq_false_iff_not]
      rintro rfl
      exact hn w hm

example : ∃ l, jsTransclusionLink demo b!"a.png" b!"two words" [(b!"a", some b!"1"), (b!"b", none), (b!"a", some b!"2")] = some l ∧
    l.data.props = some [(b!"a", b!"2")] := ⟨_, rfl, by decide +kernel⟩

/-- C81 fails: a description that can be read as an address becomes an image, as in
`[[page|{{Home}}]]`. -/
theorem C81_violated : ∃ l, MadeLink demo demoJs b!"page" b!"Home" l ∧
    (Link.fmt segOut l .new).content = b!"[[page|{{Home}}]]" :=
  ⟨_, .wiki rfl, by decide +kernel⟩

/-- C81 fails: an anchor that is no fragment of an address stops the program. -/
theorem C81_anchor_violated : jsDiaryLink demo demoJs (demoJs.make 2021 4 5) b!"two words" b!"#a b" = none := by
  decide +kernel

example : ∃ l, MadeLink demo demoJs b!"page" b!"two words" l ∧ (Link.fmt segOut l .new).content = b!"[[page|two words]]" :=
  ⟨_, .wiki rfl, by decide +kernel⟩

/-! ## C82: descendants -/

/-- C82: the descendants of a parsed page are all its elements, each once, level by level, however many
there are. -/
theorem C82_page (env : Env) (text : Str) {s : Span} {pg : Page} (h : parsePage env text = .ok s pg) :
    ∃ out, (∀ fuel, out.length ≤ fuel → jsDescendants fuel pg.children = some out) ∧ Levels pg.children out ∧
      out.Perm pg.elems ∧ (out.map (·.region)).Nodup := by
  obtain ⟨ys, h1, _, h2, h3⟩ := C73_walk env text h
  obtain ⟨ls, h4, h5⟩ := h1.levels _ (Nat.le_refl _)
  refine ⟨ls, fun fuel hf => ?_, h4, h5.symm.trans h2, (h5.map _).nodup_iff.1 h3⟩
  simpa [jsDescendants] using h4.visit fuel [] hf

/-- C82: the same for the elements below any element. -/
theorem C82_element {x : Located Element} {ys : List (Located Element)} (h : Walk [x] ys) :
    ∃ out, (∀ fuel, out.length ≤ fuel → jsDescendants fuel x.inner.children = some out) ∧
      Levels x.inner.children out ∧ ys.Perm (x :: out) := by
  obtain ⟨vs, h1, h2⟩ := h.deeper
  simp only [List.flatMap_cons, List.flatMap_nil, List.append_nil, List.singleton_append] at h1 h2
  obtain ⟨ls, h4, h5⟩ := h1.levels _ (Nat.le_refl _)
  refine ⟨ls, fun fuel hf => ?_, h4, h2.trans (h5.cons _)⟩
  simpa [jsDescendants] using h4.visit fuel [] hf

example : ∃ s pg, parsePage demo b!"- a\n  - *b*\n" = .ok s pg ∧
    (jsDescendants 9 pg.children).map (·.map (·.region.offset)) = some [0, 0, 2, 4, 2, 6, 8, 8, 9] :=
  page_test (fun pg => (jsDescendants 9 pg.children).map (·.map (·.region.offset)) = some [0, 0, 2, 4, 2, 6, 8, 8, 9]) (by decide +kernel)

/-! ## C83: tables -/

/-- C83, how far it holds: the cell at a row and column of a table made in JavaScript is the one given there,
or none was given there or the row is not an array, if nothing before it in its row is not a cell.
Missing: rows with such gaps. -/
theorem C83_partial (rows : List (Option (List (Option (Located Cell))))) (centered : Bool) (r c : Nat)
    (h : ∀ cells, rows[r]? = some (some cells) → NoGapBefore cells (c + 1)) :
    (jsTable rows centered).getCell r c = ((rows[r]?).bind id).bind fun cells => (cells[c]?).bind id := by
  rw [jsTable_eq, Table.getCell_new, List.getElem?_map]
  cases hr : rows[r]? with
  | none => rfl
  | some row =>
    cases row with
    | none => simp
    | some cells => simpa using filterMap_getElem_noGap cells c (h cells hr)

/-- C83 fails: after something that is not a cell the others move to the left. -/
theorem C83_violated (x : Located Cell) (centered : Bool) : (jsTable [some [none, some x]] centered).getCell 0 0 = some x ∧
    (jsTable [some [none, some x]] centered).getCell 0 1 = none := by
  simp [jsTable_eq, Table.getCell_new]

example (x y : Located Cell) : (jsTable [some [some x, some y], none, some [some y]] true).getCell 2 0 = some y ∧
    (jsTable [some [some x, some y], none, some [some y]] true).getCell 1 0 = none := by
  refine ⟨?_, ?_⟩
  · rw [C83_partial]
    · rfl
    · intro cells hc i hi z hz
      obtain rfl : i = 0 := by omega
      simp only [List.getElem?_cons_succ, List.getElem?_cons_zero, Option.some.injEq] at hc
      subst hc
      simp only [List.getElem?_cons_zero, Option.some.injEq] at hz
      subst hz
      simp
  · rw [C83_partial]
    · rfl
    · intro cells hc
      simp at hc

/-! ## C84: definitions of a term -/

/-- C84: a term has definitions exactly if it is listed among the terms. -/
theorem C84_listed (L : OutLib) (items : List (Located TermDefs)) (term : Str) :
    (defListGet L items term).isSome ↔ term ∈ defListTerms L items := by
  simp [defListGet, defListTerms, List.find?_isSome]

/-- C84, how far it holds: with no term twice, the definitions found for a term are those written after
it. Missing: lists with a term twice. -/
theorem C84_partial (L : OutLib) {items : List (Located TermDefs)} (h : (defListTerms L items).Nodup) {x : Located TermDefs}
    (hx : x ∈ items) : defListGet L items (Inline.displayAll L x.inner.term.inner) = some x.inner.defs ∧
      ∀ d ∈ x.inner.defs.inner, d ∈ defListDefs items := by
  refine ⟨?_, fun d hd => List.mem_flatMap.2 ⟨x, hx, hd⟩⟩
  unfold defListGet
  induction items with
  | nil => cases hx
  | cons y items ih =>
    simp only [defListTerms, List.map_cons, List.nodup_cons] at h
    rcases List.mem_cons.1 hx with rfl | hx
    · simp
    · rw [List.find?_cons_of_neg]
      · exact ih h.2 hx
      · intro he
        simp only [decide_eq_true_eq] at he
        exact h.1 (he ▸ List.mem_map.2 ⟨x, hx, rfl⟩)

/-- C84 fails: of a term written twice only the first definitions are found. -/
theorem C84_violated : ∃ s pg items r, parsePage demo b!"a:: b\nc:: d\na:: e\n" = .ok s pg ∧ pg.elements = [⟨.defs items, r⟩] ∧
    defListTerms segOut items = [b!"a", b!"c", b!"a"] ∧
    (defListDefs items).map (Inline.displayAll segOut ·.inner) = [b!"b", b!"d", b!"e"] ∧
    (defListGet segOut items b!"a").map (·.inner.map (Inline.displayAll segOut ·.inner)) = some [b!"b"] := by
  obtain ⟨s, pg, h, hp⟩ := page_test (text := b!"a:: b\nc:: d\na:: e\n") (fun pg => (match pg.elements with
      | [⟨.defs items, _⟩] => decide (defListTerms segOut items = [b!"a", b!"c", b!"a"]) &&
        decide ((defListDefs items).map (Inline.displayAll segOut ·.inner) = [b!"b", b!"d", b!"e"]) &&
        decide ((defListGet segOut items b!"a").map (·.inner.map (Inline.displayAll segOut ·.inner)) = some [b!"b"])
      | _ => false) = true) (by decide +kernel)
  split at hp
  · next items r he =>
    simp only [Bool.and_eq_true, decide_eq_true_eq] at hp
    exact ⟨s, pg, items, r, h, he, hp.1.1, hp.1.2, hp.2⟩
  · cases hp

/-- C84: with no term twice, asking for the definitions of every term in turn gives all definitions of the
list in order, and what JavaScript is given for a term is all their content. -/
theorem C84_all {L : OutLib} {items : List (Located TermDefs)} (h : (defListTerms L items).Nodup) :
    (defListTerms L items).flatMap (fun t => ((defListGet L items t).map (·.inner)).getD []) = defListDefs items ∧
    (defListTerms L items).flatMap (fun t => (jsGetDef L items t).getD []) = (defListDefs items).flatMap (·.inner) := by
  have hg : ∀ x ∈ items, defListGet L items (Inline.displayAll L x.inner.term.inner) = some x.inner.defs :=
    fun x hx => (C84_partial L h hx).1
  have key : ∀ ys : List (Located TermDefs), (∀ y ∈ ys, y ∈ items) →
      (defListTerms L ys).flatMap (fun t => ((defListGet L items t).map (·.inner)).getD []) = defListDefs ys ∧
      (defListTerms L ys).flatMap (fun t => (jsGetDef L items t).getD []) = (defListDefs ys).flatMap (·.inner) := by
    intro ys
    induction ys with
    | nil => intro _; exact ⟨rfl, rfl⟩
    | cons y ys ih =>
      intro hy
      obtain ⟨h1, h2⟩ := ih fun z hz => hy z (by simp [hz])
      have h3 := hg y (hy y (by simp))
      simp only [defListTerms, defListDefs, jsGetDef] at h1 h2 ⊢
      simp only [List.map_cons, List.flatMap_cons, h1, h2, h3, Option.map_some, Option.getD_some, List.flatMap_append, and_self]
  exact key items fun _ h => h

example : ∃ s pg, parsePage demo b!"a:: b\n:: d\nc:: e\n" = .ok s pg ∧ (match pg.elements with
    | [⟨.defs items, _⟩] => decide ((defListTerms segOut items).Nodup) && decide (items.length = 2) &&
      decide ((defListGet segOut items b!"a").map (·.inner.length) = some 2)
    | _ => false) = true :=
  page_test (fun pg => (match pg.elements with
    | [⟨.defs items, _⟩] => decide ((defListTerms segOut items).Nodup) && decide (items.length = 2) &&
      decide ((defListGet segOut items b!"a").map (·.inner.length) = some 2)
    | _ => false) = true) (by decide +kernel)

end Vw
