import Verif.Lemmas.HtmlOut
import Verif.Props.Paths
import Verif.Props.Tables

/-!
# HTML output: unique ids, escaping, nesting, templates (C40 to C45)
-/

namespace Vw
open W IdCache

/-! ## Example libraries -/

/-- Stand-ins for the libraries, used only in the examples beside the theorems. -/
def demoHtml : HtmlLib where
  uriStr u := (joinWith b!"/" u.segments).filter fun b => b ≠ c!"\"" && b ≠ c!"<" && b ≠ c!">"
  lossy s := s
  dateStr _ := b!"2021-03-05"
  rom _ := []
  link := demoLinks
  lower s := s.map fun b => if 65 ≤ b && b ≤ 90 then b + 32 else b
  highlight _ _ := .ok b!"<pre style=\"color:red\"><span>x</span>"
  readFile p := if p = .ofStr b!"vimwiki/templates/t" then some b!"[%content%|%title%]" else none
  today := ⟨2021, 3, 5⟩

theorem demoHtml_sound : demoHtml.Sound where
  uri := by
    intro u b hb
    simp only [demoHtml, List.mem_filter, Bool.and_eq_true, decide_eq_true_eq] at hb
    obtain ⟨_, ⟨h1, h2⟩, h3⟩ := hb
    exact ⟨h1, h2, h3⟩
  highlight := by
    intro lang ls s h
    cases h
    refine ⟨[(b!"style", b!"color:red")], [.elem b!"span" [] [.text b!"x"]], by decide, ?_, by decide⟩
    exact ⟨by decide, by decide, .cons (by decide) (by decide) .nil,
      ⟨by decide, by decide, .nil, ⟨by decide, by decide⟩, trivial⟩, trivial⟩

/-- The HTML of an example text. -/
def demoBody (text : Str) : Option Str :=
  (demoPage text).bind fun pg => (toHtmlString (pageHtml demoHtml demoCfg pg)).toOption

/-- Used in examples: the HTML of `text` is `out`. -/
theorem body_test {text out : Str} (h : decide (demoBody text = some out) = true) :
    ∃ s pg, parsePage demo text = .ok s pg ∧ toHtmlString (pageHtml demoHtml demoCfg pg) = .ok out := by
  have h := of_decide_eq_true h
  simp only [demoBody, demoPage] at h
  cases hp : parsePage demo text with
  | ok s pg =>
    rw [hp] at h
    simp only [Option.bind_some] at h
    cases ht : toHtmlString (pageHtml demoHtml demoCfg pg) with
    | ok o => rw [ht] at h; simp only [Except.toOption, Option.some.injEq] at h; subst h; exact ⟨s, pg, rfl, ht⟩
    | error e => rw [ht] at h; cases h
  | _ => rw [hp] at h; cases h

/-! ## C41: making an id unique -/

/-- C41: `ensure_unique_id` returns for every cache and every id. -/
theorem C41_terminates (c : IdCache) (id : Str) : ∃ u c', c.unique id = some (u, c') := by
  obtain ⟨⟨u, c'⟩, h⟩ := Option.isSome_iff_exists.1 (unique_some c id)
  exact ⟨u, c', h⟩

/-- The bound on the rounds of the loop in the model does not matter: with any larger
bound the loop gives the same result. -/
theorem C41_bound (c : IdCache) (id : Str) (n : Nat) (hn : c.rounds ≤ n) :
    loop n c id = loop c.rounds c id := by
  obtain ⟨r, h⟩ := Option.isSome_iff_exists.1
    (loop_some c c.rounds id (by simp only [rounds]; omega) (by simp only [rounds]; omega))
  rw [h]
  exact loop_mono h hn

/-- The loop goes several rounds: `a-1` and `a-1-1` are taken. -/
example : unique [(b!"a", 0), (b!"a-1", 0), (b!"a-1-1", 0)] b!"a" = some (b!"a-1-1-1",
    insert [(b!"a", 0), (b!"a-1", 0), (b!"a-1-1", 0)] b!"a-1-1" 1) := by decide +kernel

/-! ## C40: ids are unique -/

/-- C40, what always holds: an id handed out is different from every id asked for
before, and an id not asked for before is handed out as it is. -/
theorem C40_not_requested {rs os : List Str} {c c' : IdCache} {r o : Str} (h : Calls [] rs os c)
    (hr : c.unique r = some (o, c')) : o ∉ rs ∧ (r ∉ rs → o = r) := by
  obtain ⟨h1, h2⟩ := unique_spec hr
  have hk : ∀ x, c.get x ≠ none ↔ x ∈ rs := fun x => by simpa [IdCache.get] using h.keys x
  refine ⟨fun hm => (hk o).2 hm h1, fun hn => ?_⟩
  rcases h2 with ⟨_, rfl, _⟩ | ⟨hg, _⟩
  · rfl
  · exact absurd ((hk r).1 hg) hn

example : ∃ os c, Calls [] [b!"a", b!"b", b!"a"] os c ∧ os = [b!"a", b!"b", b!"a-1"] :=
  ⟨_, _, .cons (by decide +kernel : unique [] b!"a" = some (b!"a", [(b!"a", 0)]))
    (.cons (by decide +kernel : unique [(b!"a", 0)] b!"b" = some (b!"b", [(b!"b", 0), (b!"a", 0)]))
      (.cons (by decide +kernel : unique [(b!"b", 0), (b!"a", 0)] b!"a" =
          some (b!"a-1", [(b!"a", 1), (b!"b", 0)])) (.nil _))), rfl⟩

/-- C40 (partial): if no id asked for is another one with a dash and a number, the ids
handed out are all different. Missing: that condition, see `C40_violated`. -/
theorem C40_partial {rs os : List Str} {c : IdCache} (h : Calls [] rs os c)
    (hp : ∀ a ∈ rs, ∀ b ∈ rs, ∀ n, 1 ≤ n → a ≠ b ++ b!"-" ++ decStr n) : os.Nodup := by
  have hk : ∀ x, c.get x ≠ none ↔ x ∈ rs := fun x => by simpa [IdCache.get] using h.keys x
  exact (h.nodup fun a b n ha hb hn => hp a ((hk a).1 ha) b ((hk b).1 hb) n hn).1

example : ∀ a ∈ [b!"intro", b!"usage", b!"intro", b!"part-1"], ∀ b ∈ [b!"intro", b!"usage", b!"intro", b!"part-1"],
    ∀ n, 1 ≤ n → a ≠ b ++ b!"-" ++ decStr n := by
  intro a ha b hb n hn he
  have hd := decStr_digits n
  have hne := decStr_ne_nil n
  simp only [List.mem_cons, List.not_mem_nil, or_false] at ha hb
  rcases ha with rfl | rfl | rfl | rfl <;> rcases hb with rfl | rfl | rfl | rfl <;>
    simp_all

/-- C40 fails: asking for `a`, `a` and `a-1` gives `a`, `a-1` and `a-1`. -/
theorem C40_violated : ∃ c, Calls [] [b!"a", b!"a", b!"a-1"] [b!"a", b!"a-1", b!"a-1"] c :=
  ⟨_, .cons (by decide +kernel : unique [] b!"a" = some (b!"a", [(b!"a", 0)]))
    (.cons (by decide +kernel : unique [(b!"a", 0)] b!"a" = some (b!"a-1", [(b!"a", 1)]))
      (.cons (by decide +kernel : unique [(b!"a", 1)] b!"a-1" = some (b!"a-1", [(b!"a-1", 0), (b!"a", 1)])) (.nil _)))⟩

/-- C40 fails also between two generated ids. -/
theorem C40_violated_generated :
    ∃ c, Calls [] [b!"a", b!"a", b!"a-2", b!"a"] [b!"a", b!"a-1", b!"a-2", b!"a-1"] c :=
  ⟨_, .cons (by decide +kernel : unique [] b!"a" = some (b!"a", [(b!"a", 0)]))
    (.cons (by decide +kernel : unique [(b!"a", 0)] b!"a" = some (b!"a-1", [(b!"a", 1)]))
      (.cons (by decide +kernel : unique [(b!"a", 1)] b!"a-2" = some (b!"a-2", [(b!"a-2", 0), (b!"a", 1)]))
        (.cons (by decide +kernel : unique [(b!"a-2", 0), (b!"a", 1)] b!"a" =
          some (b!"a-1", [(b!"a-2", 0), (b!"a", 1)])) (.nil _))))⟩

/-- The state `toHtmlString` starts with. -/
theorem inv_start (B : Str → Prop) : HFm.Inv B {} where
  keys := fun _ h => absurd rfl h
  texts := fun _ _ h => by cases h

theorem page_step {L : HtmlLib} {c : HtmlCfg} {p : Page} {k : Prop} {out : Str} (hL : L.Sound)
    (hc : c.comments = false) (hp : p.Clean k) (h : toHtmlString (pageHtml L c p) = .ok out) :
    ∃ g t, HtmlStep (· ∈ p.baseIds L) k [] {} g t ∧ out = Html.renderAll t := by
  simp only [toHtmlString] at h
  cases hw : pageHtml L c p {} with
  | error e => rw [hw] at h; cases h
  | ok g =>
    rw [hw] at h
    simp only [Except.map, Except.ok.injEq] at h
    have hq : ∀ x, x ∈ p.baseIds L → c!"\"" ∉ x := by
      intro x hx
      simp only [Page.baseIds, List.mem_append, List.mem_flatMap] at hx
      rcases hx with ⟨y, _, hy⟩ | ⟨y, _, hy⟩
      · cases hi : y.inner with
        | decorated d cs =>
          rw [hi] at hy
          cases d <;> simp [Inline.baseIds] at hy
          rw [hy]; exact normalizeId_quote _ _
        | tags ts =>
          rw [hi] at hy
          simp only [Inline.baseIds, List.mem_map] at hy
          obtain ⟨z, _, rfl⟩ := hy
          exact normalizeId_quote _ _
        | _ => rw [hi] at hy; simp [Inline.baseIds] at hy
      · cases hi : y.inner with
        | header xs l ctr =>
          rw [hi] at hy
          simp [Block.baseIds] at hy
          rw [hy]; exact normalizeId_quote _ _
        | _ => rw [hi] at hy; simp [Block.baseIds] at hy
    obtain ⟨t, st⟩ := pageHtml_writes hL hc hq p
      (fun x hx => ⟨hp.1 x hx, fun i hi => by
        simp only [Page.baseIds, List.mem_append, List.mem_flatMap]
        exact .inl ⟨x, hx, hi⟩⟩)
      (fun x hx => ⟨hp.2 x hx, fun i hi => by
        simp only [Page.baseIds, List.mem_append, List.mem_flatMap]
        exact .inr ⟨x, hx, hi⟩⟩)
      {} g (inv_start _) hw
    refine ⟨g, t, st, ?_⟩
    rw [← h, st.content]
    rfl

/-- C40 for pages (partial): if no id that can be made of the texts of headers, bold text
and tags is another such id with a dash and a number, then the HTML is a forest in which
all ids are different. Missing: that condition, properties and metadata called `id`, and
comments. -/
theorem C40_page_partial {L : HtmlLib} {c : HtmlCfg} {p : Page} {out : Str} (hL : L.Sound)
    (hc : c.comments = false) (hp : p.Clean True)
    (hi : ∀ x y n, Joined (· ∈ p.baseIds L) x → Joined (· ∈ p.baseIds L) y → 1 ≤ n →
      x ≠ y ++ b!"-" ++ decStr n)
    (h : toHtmlString (pageHtml L c p) = .ok out) :
    ∃ t, out = Html.renderAll t ∧ Html.OkAll t ∧ (Html.idsAll t).Nodup := by
  obtain ⟨g, t, st, ht⟩ := page_step hL hc hp h
  obtain ⟨rs, os, c1, r1, p1⟩ := st.calls
  refine ⟨t, ht, st.ok, ?_⟩
  have hn := C40_partial c1 fun a ha b hb n hn => hi a b n (r1 a ha) (r1 b hb) hn
  exact (p1 trivial).nodup_iff.2 (by simpa using hn)

theorem Joined.not_number {B : Str → Prop} {n : Nat} (hB : ∀ x, B x → x ≠ decStr n) {x : Str} (hx : Joined B x) :
    x ≠ decStr n := by
  cases hx with
  | one h => exact hB _ h
  | more _ _ =>
    intro he
    exact decStr_dash n (by rw [← he]; simp)

/-- A simple condition that suffices: no text of a header, of bold text or of a tag is a
number or ends in a dash and a number. -/
theorem C40_page_simple {B : Str → Prop}
    (hB : ∀ x, B x → ∀ n, x ≠ decStr n ∧ ∀ a, x ≠ a ++ b!"-" ++ decStr n) {x y : Str} {n : Nat}
    (hx : Joined B x) : x ≠ y ++ b!"-" ++ decStr n := by
  induction hx generalizing y with
  | one h => exact (hB _ h n).2 y
  | @more a b h hb ih =>
    intro he
    have hd := decStr_dash n
    by_cases hm : c!"-" ∈ b
    · obtain ⟨u, v, rfl, hv⟩ := last_dash hm
      have : a ++ b!"-" ++ (u ++ b!"-" ++ v) = (a ++ b!"-" ++ u) ++ b!"-" ++ v := by simp
      rw [this] at he
      obtain ⟨_, rfl⟩ := dash_cut hv hd he
      exact ih rfl
    · obtain ⟨_, rfl⟩ := dash_cut hm hd he
      exact Joined.not_number (fun x hx => (hB x hx n).1) hb rfl

/-- Two headers with the same text below another header. -/
example : ∃ s pg, parsePage demo b!"= a =\n== b ==\n== b ==\n*x*\n" = .ok s pg ∧
    toHtmlString (pageHtml demoHtml demoCfg pg) = .ok
      (b!"<h1 id=\"a\" class=\"header\"><a href=\"#a\">a</a></h1>\n" ++
       b!"<div id=\"a-b\"><h2 id=\"b\" class=\"header\"><a href=\"#a-b\">b</a></h2></div>\n" ++
       b!"<div id=\"a-b-1\"><h2 id=\"b-1\" class=\"header\"><a href=\"#a-b-1\">b</a></h2></div>\n" ++
       b!"<p><span id=\"a-b-x\"></span><strong id=\"x\">x</strong></p>\n") :=
  body_test (by decide +kernel)

example : ∃ s pg, parsePage demo b!"= a =\n== b ==\n== b ==\n*x*\n" = .ok s pg ∧
    pg.baseIds demoHtml = [b!"x", b!"a", b!"b", b!"b"] := page_test _ (by decide +kernel)

/-- C40 fails for pages: three headers `a`, `a` and `a-1`. -/
theorem C40_page_violated : ∃ s pg, parsePage demo b!"= a =\n= a =\n= a-1 =\n" = .ok s pg ∧
    toHtmlString (pageHtml demoHtml demoCfg pg) = .ok
      (b!"<h1 id=\"a\" class=\"header\"><a href=\"#a\">a</a></h1>\n" ++
       b!"<h1 id=\"a-1\" class=\"header\"><a href=\"#a-1\">a</a></h1>\n" ++
       b!"<h1 id=\"a-1\" class=\"header\"><a href=\"#a-1\">a-1</a></h1>\n") :=
  body_test (by decide +kernel)

/-! ## C42: text is escaped -/

/-- The text `s` is written in HTML as `t`. -/
def Escaped (s t : Str) : Prop := NoMarkup t ∧ unescape t = s

theorem escaped (s : Str) : Escaped s (escapeHtml s) := ⟨escapeHtml_noMarkup s, unescape_escapeHtml s⟩

/-- C42 for text, inline code and inline math: the source is written without markup
characters between fixed strings, and nothing else happens. -/
theorem C42_inline (L : HtmlLib) (c : HtmlCfg) (s : Str) (f : HFm) :
    ∃ t, Escaped s t ∧
      Inline.html L c (.text s) f = .ok { f with content := f.content ++ t } ∧
      Inline.html L c (.code s) f = .ok { f with content := f.content ++ b!"<code>" ++ t ++ b!"</code>" } ∧
      Inline.html L c (.math s) f = .ok { f with content := f.content ++ b!"\\(" ++ t ++ b!"\\)" } := by
  refine ⟨_, escaped s, ?_, ?_, ?_⟩
  · simp only [Inline.html, put]
  · simp only [Inline.html, put, List.append_assoc]
  · simp only [Inline.html, put, List.append_assoc]

example : ∃ s pg, parsePage demo b!"1 < 2 `a\"b` $x>y$\n" = .ok s pg ∧
    toHtmlString (pageHtml demoHtml demoCfg pg) = .ok
      b!"<p>1 &lt; 2 <code>a&quot;b</code> \\(x&gt;y\\)</p>\n" := body_test (by decide +kernel)

/-- C42 for the description of a link. -/
theorem C42_description (L : HtmlLib) (c : HtmlCfg) (u : Uri) (s : Str) (f : HFm) :
    ∃ t, Escaped s t ∧ writeDesc L c u (some (.text s)) f = .ok { f with content := f.content ++ t } :=
  ⟨_, escaped s, rfl⟩

/-- C42 for tags: the tag appears as its lowercase words joined by dashes, without
markup characters. -/
theorem C42_tag (L : HtmlLib) (c : HtmlCfg) (tag : Str) (f g : HFm)
    (h : Inline.html L c (.tags [tag]) f = .ok g) :
    ∃ pre ws t, Words (L.lower tag) ws ∧ Escaped (joinWith b!"-" ws) t ∧
      g.content = pre ++ b!"\">" ++ t ++ b!"</span>" := by
  simp only [Inline.html, W.each] at h
  obtain ⟨i, h1, h2⟩ := seq_ok h
  cases h2
  simp only [writeTag, W.withId] at h1
  cases hu : f.ids.unique (normalizeId L.lower tag) with
  | none => rw [hu] at h1; cases h1
  | some p =>
    rw [hu] at h1
    obtain ⟨j, h3, h4⟩ := seq_ok h1
    cases h4
    exact ⟨j.content ++ b!"<span class=\"tag\" id=\"" ++ p.1, _, _, splitWs_words (L.lower tag), escaped _, by
      simp [normalizeId]⟩

example : ∃ s pg, parsePage demo b!":A<b:\n" = .ok s pg ∧
    toHtmlString (pageHtml demoHtml demoCfg pg) = .ok
      b!"<p><span class=\"tag\" id=\"a&lt;b\">a&lt;b</span></p>\n" := body_test (by decide +kernel)

theorem codeLines_content (lines : List Str) (f : HFm) :
    codeLines lines f = .ok { f with content := f.content ++ escapeHtml (joinWith b!"\n" lines) } := by
  induction lines generalizing f with
  | nil => simp [codeLines, W.nop, joinWith, escapeHtml]
  | cons l ls ih =>
    cases ls with
    | nil => simp [codeLines, put, joinWith]
    | cons m ms =>
      simp only [codeLines, W.seq, put, Except.bind]
      rw [ih]
      simp [joinWith, escapeHtml, escapeByte]

/-- C42 for code blocks without server-side highlighting: the lines are written without
markup characters. -/
theorem C42_code_block (L : HtmlLib) (c : HtmlCfg) (lang : Option Str) (md : Map) (lines : List Str) (f : HFm)
    (hs : c.serverSide = false) :
    ∃ pre t, Escaped (joinWith b!"\n" lines) t ∧ codeHtml L c lang md lines f =
      .ok { f with content := f.content ++ b!"<pre><code" ++ pre ++ b!">" ++ t ++ b!"</code></pre>" } := by
  refine ⟨(match lang with
        | some l => attrText b!"class" l
        | none => []) ++ md.flatMap fun e => attrText e.1 e.2, _, escaped _, ?_⟩
  simp only [codeHtml, hs, Bool.false_eq_true, if_false, W.seq, put, Except.bind, codeLines_content]
  cases lang <;> simp

example : ∃ s pg, parsePage demo b!"{{{c x=\"1\"\na<b\n  c&d\n}}}\n" = .ok s pg ∧
    toHtmlString (pageHtml demoHtml demoCfg pg) = .ok
      b!"<pre><code class=\"c\" x=\"1\">a&lt;b\n  c&amp;d</code></pre>\n" := body_test (by decide +kernel)

theorem each_lines (lines : List Str) (f : HFm) :
    W.each (fun l => put (escapeHtml l ++ b!"\n")) lines f =
      .ok { f with content := f.content ++ escapeHtml (lines.flatMap fun l => l ++ b!"\n") } := by
  induction lines generalizing f with
  | nil => simp [W.each, W.nop, escapeHtml]
  | cons l ls ih =>
    simp only [W.each, W.seq, put, Except.bind]
    rw [ih]
    simp [escapeHtml, escapeByte]

/-- C42 for math blocks: between the fixed strings the lines are written without markup
characters. -/
theorem C42_math_block (lines : List Str) (env : Option Str) (f : HFm) :
    ∃ pre t post, Escaped (lines.flatMap fun l => l ++ b!"\n") t ∧
      pre = (match env with | some e => b!"\\begin{" ++ e ++ b!"}\n" | none => b!"\\[\n") ∧
      post = (match env with | some e => b!"\\end{" ++ e ++ b!"}" | none => b!"\\]") ∧
      mathHtml lines env f = .ok { f with content := f.content ++ pre ++ t ++ post } := by
  cases env with
  | none =>
    refine ⟨_, _, _, escaped _, rfl, rfl, ?_⟩
    simp only [mathHtml, W.seq, put, Except.bind, each_lines]
  | some e =>
    refine ⟨_, _, _, escaped _, rfl, rfl, ?_⟩
    simp only [mathHtml, W.seq, put, Except.bind, each_lines]

example : ∃ s pg, parsePage demo b!"{{$\na<b\n}}$\n" = .ok s pg ∧
    toHtmlString (pageHtml demoHtml demoCfg pg) = .ok b!"\\[\na&lt;b\n\\]\n" := body_test (by decide +kernel)

/-- C42 for blockquotes of one paragraph: every line is written on its own line without
markup characters. -/
theorem C42_quote (lines : List Str) (f : HFm) (h : (lineGroups lines).length ≤ 1) :
    ∃ t, Escaped (lines.flatMap fun l => l ++ b!"\n") t ∧ quoteHtml lines f =
      .ok { f with content := f.content ++ b!"<blockquote>\n" ++ t ++ b!"</blockquote>" } := by
  refine ⟨_, escaped _, ?_⟩
  have : ¬ (lineGroups lines).length > 1 := by omega
  simp only [quoteHtml, this, W.choose, W.seq, put, Except.bind, each_lines, decide_false, Bool.false_eq_true,
    if_false]

/-- C42 for blockquotes of several paragraphs: each is the trimmed lines joined by
spaces, without markup characters. -/
theorem C42_quote_paragraphs (lines : List Str) (f : HFm) (h : 1 < (lineGroups lines).length) :
    ∃ ts : List Str, ts.length = (lineGroups lines).length ∧
      (∀ i (hi : i < (lineGroups lines).length) (ht : i < ts.length),
        Escaped (joinWith b!" " (((lineGroups lines)[i]).map trim)) ts[i]) ∧
      quoteHtml lines f = .ok { f with content := f.content ++ b!"<blockquote>\n" ++
        (ts.flatMap fun t => b!"<p>" ++ t ++ b!"</p>\n") ++ b!"</blockquote>" } := by
  refine ⟨(lineGroups lines).map fun g => escapeHtml (joinWith b!" " (g.map trim)), by simp, ?_, ?_⟩
  · intro i hi ht
    rw [List.getElem_map]
    exact escaped _
  · have each : ∀ (gs : List (List Str)) (f : HFm),
        W.each (fun g => put (b!"<p>" ++ escapeHtml (joinWith b!" " (g.map trim)) ++ b!"</p>\n")) gs f =
        .ok { f with content := f.content ++ (gs.flatMap fun g =>
          b!"<p>" ++ escapeHtml (joinWith b!" " (g.map trim)) ++ b!"</p>\n") } := by
      intro gs
      induction gs with
      | nil => intro f; simp [W.each, W.nop]
      | cons g gs ih =>
        intro f
        simp only [W.each, W.seq, put, Except.bind]
        rw [ih]
        simp
    have hd : decide ((lineGroups lines).length > 1) = true := by simpa using h
    simp only [quoteHtml, hd, W.choose, if_true, W.seq, put, Except.bind, each, List.flatMap_map]

example : ∃ s pg, parsePage demo b!"> a<b\n> \n> c\n> d\n" = .ok s pg ∧
    toHtmlString (pageHtml demoHtml demoCfg pg) = .ok
      b!"<blockquote>\n<p>a&lt;b</p>\n<p>c d</p>\n</blockquote>\n" := body_test (by decide +kernel)

/-! ## C43: tags are nested -/

/-- C43 (partial): if what is written unescaped is harmless and comments are left out,
the HTML is a forest of elements, and every closing tag in it closes the element opened
last. Missing: the names of properties and metadata, the language and the values of the
metadata of code blocks, the environment of math blocks and comments, which are written
as they are. -/
theorem C43_partial {L : HtmlLib} {c : HtmlCfg} {p : Page} {out : Str} (hL : L.Sound)
    (hc : c.comments = false) (hp : p.Clean False) (h : toHtmlString (pageHtml L c p) = .ok out) :
    (∃ t, out = Html.renderAll t ∧ Html.OkAll t) ∧ balanced [] (htmlTags out) = true := by
  obtain ⟨g, t, st, rfl⟩ := page_step hL hc hp h
  refine ⟨⟨t, rfl, st.ok⟩, ?_⟩
  have := Html.tags_forest t st.ok [] []
  rw [List.append_nil] at this
  rw [this]
  rfl

/-- A parsed page is clean if the strings that are not escaped are harmless: its tables
are made by the constructor. -/
theorem C43_parsed {env : Env} {text : Str} {s : Span} {pg : Page} (h : parsePage env text = .ok s pg)
    (h1 : ∀ x ∈ pg.inlines, ∀ l, x.inner = .link l → ∀ key ∈ l.data.keys, KeyOk key)
    (h2 : ∀ x ∈ pg.blocks, ∀ lang m ls, x.inner = .code lang m ls →
      (∀ l ∈ lang, c!"\"" ∉ l) ∧ ∀ e ∈ m, KeyOk e.1 ∧ c!"\"" ∉ e.2)
    (h3 : ∀ x ∈ pg.blocks, ∀ ls env, x.inner = .math ls env → ∀ e ∈ env, c!"<" ∉ e ∧ c!">" ∉ e) :
    pg.Clean False := by
  refine ⟨fun x hx => ?_, fun x hx => ?_⟩
  · cases hi : x.inner with
    | link l => exact fun key hk => ⟨h1 x hx l hi key hk, fun f => f.elim⟩
    | _ => trivial
  · cases hi : x.inner with
    | code lang m ls =>
      have := h2 x hx lang m ls hi
      exact ⟨this.1, fun e he => ⟨(this.2 e he).1, (this.2 e he).2, fun f => f.elim⟩⟩
    | math ls env => exact h3 x hx ls env hi
    | table t =>
      obtain ⟨b, r⟩ := x
      simp only at hi
      subst hi
      exact parsed_table_built h hx
    | _ => trivial

/-- A page with most kinds of elements. -/
def mixedText : Str :=
  b!"= a =\n- [X] *b* [[c|d]]\n  {{{c k=\"v\"\n  <\n  }}}\n- ~~e~~\n\n|f|>|\n|-|-|\n|g|h|\n\nt ::\n:: u\n----\n"

example : ∃ s pg, parsePage demo mixedText = .ok s pg ∧
    toHtmlString (pageHtml demoHtml demoCfg pg) = .ok
      (b!"<h1 id=\"a\" class=\"header\"><a href=\"#a\">a</a></h1>\n<ul>\n<li class=\"done4\"><p>" ++
       b!"<span id=\"a-b\"></span><strong id=\"b\">b</strong> <a href=\"c.html\">d</a></p>" ++
       b!"<pre><code class=\"c\" k=\"v\">&lt;</code></pre></li>\n<li><p><del>e</del></p></li>\n</ul>\n" ++
       b!"<table>\n<thead>\n<tr>\n<th colspan=\"2\">f</th>\n</tr>\n</thead>\n<tbody>\n<tr>\n<td>g</td>\n" ++
       b!"<td>h</td>\n</tr>\n</tbody>\n</table>\n<dl>\n<dt>t </dt>\n<dd>u</dd>\n</dl>\n<hr />\n") :=
  body_test (by decide +kernel)

/-- The link in an inline element, used in examples. -/
def Inline.link? : Inline → Option Link
  | .link l => some l
  | _ => none

/-- The page is clean. -/
example : ∃ s pg, parsePage demo mixedText = .ok s pg ∧ pg.Clean False := by
  obtain ⟨s, pg, h, h1⟩ := page_test (text := mixedText) (fun pg =>
    (pg.inlines.all fun x => x.inner.link?.toList.all fun l => l.data.keys.all fun key => decide (KeyOk key)) = true ∧
    (pg.blocks.all fun x => x.inner.code?.toList.all fun y => y.1.toList.all (fun l => decide (c!"\"" ∉ l)) &&
      y.2.1.all fun e => decide (KeyOk e.1 ∧ c!"\"" ∉ e.2)) = true ∧
    (pg.blocks.all fun x => x.inner.math?.toList.all fun y => y.2.toList.all fun e =>
      decide (c!"<" ∉ e ∧ c!">" ∉ e)) = true) (by decide +kernel)
  simp only [List.all_eq_true, decide_eq_true_eq, Bool.and_eq_true] at h1
  obtain ⟨h1, h2, h3⟩ := h1
  exact ⟨s, pg, h, C43_parsed h (fun x hx l hl => h1 x hx l (by rw [hl]; simp [Inline.link?]))
    (fun x hx lang m ls hl => by simpa using h2 x hx (lang, m, ls) (by rw [hl]; simp [Block.code?]))
    (fun x hx ls env hl => by simpa using h3 x hx (ls, env) (by rw [hl]; simp [Block.math?]))⟩

/-- C43 fails: the language of a code block is written as it is. -/
theorem C43_violated : ∃ s pg, parsePage demo b!"{{{\"></code>\nx\n}}}\n" = .ok s pg ∧
    toHtmlString (pageHtml demoHtml demoCfg pg) = .ok
      b!"<pre><code class=\"\"></code>\">x</code></pre>\n" ∧
    balanced [] (htmlTags b!"<pre><code class=\"\"></code>\">x</code></pre>\n") = false := by
  obtain ⟨s, pg, h1, h2⟩ := body_test (text := b!"{{{\"></code>\nx\n}}}\n")
    (out := b!"<pre><code class=\"\"></code>\">x</code></pre>\n") (by decide +kernel)
  exact ⟨s, pg, h1, h2, by decide⟩

/-- C43 fails: the environment of a math block is written as it is. -/
theorem C43_violated_math : ∃ s pg, parsePage demo b!"{{$%<b>%\nx\n}}$\n" = .ok s pg ∧
    toHtmlString (pageHtml demoHtml demoCfg pg) = .ok b!"\\begin{<b>}\nx\n\\end{<b>}\n" ∧
    balanced [] (htmlTags b!"\\begin{<b>}\nx\n\\end{<b>}\n") = false := by
  obtain ⟨s, pg, h1, h2⟩ := body_test (text := b!"{{$%<b>%\nx\n}}$\n")
    (out := b!"\\begin{<b>}\nx\n\\end{<b>}\n") (by decide +kernel)
  exact ⟨s, pg, h1, h2, by decide⟩

/-! ## C44: the body in the template -/

/-- C44: the result is a text `t` with every `%content%` replaced by the body of the
page, unchanged. `t` is the template with the other placeholders filled in; it does not
depend on the body, and placeholders in the body are left alone. -/
theorem C44_content {L : HtmlLib} {c : HtmlCfg} {w : W} {out : Str} (h : toHtmlPage L c w = .ok out) :
    ∃ f text within ps, w {} = .ok f ∧ pageTemplate L c f = .ok text ∧ c.pageWithin = some within ∧
      SplitAt b!"%content%" (fillTemplate L c f within text) ps ∧ out = joinWith f.content ps := by
  simp only [toHtmlPage] at h
  cases hw : w {} with
  | error e => rw [hw] at h; cases h
  | ok f =>
    rw [hw] at h
    simp only [Except.bind] at h
    cases ht : pageTemplate L c f with
    | error e => rw [ht] at h; cases h
    | ok text =>
      rw [ht] at h
      simp only at h
      cases hp : c.pageWithin with
      | none => rw [hp] at h; cases h
      | some within =>
        rw [hp] at h
        obtain ⟨ps, h1, h2⟩ := replace_split (pat := b!"%content%") f.content (fillTemplate L c f within text) (by simp)
        cases h
        exact ⟨f, text, within, ps, rfl, ht, rfl, h1, h2⟩

/-- C44: `t` depends on the page only through its title, date and template. -/
theorem C44_independent (L : HtmlLib) (c : HtmlCfg) (f g : HFm) (within : Path) (text : Str)
    (h1 : f.title = g.title) (h2 : f.date = g.date) :
    fillTemplate L c f within text = fillTemplate L c g within text := by
  simp only [fillTemplate, pageTitle, h1, h2]

/-- The pieces are determined by the text. -/
theorem C44_pieces {s : Str} {ps qs : List Str} (h : SplitAt b!"%content%" s ps) (h' : SplitAt b!"%content%" s qs) :
    ps = qs := h.unique h'

/-- A body that contains placeholders, in a template with two places for it. -/
example : (toHtmlPage demoHtml { demoCfg with templateText := b!"<%title%>%content%,%content%" }
    (put b!"a%content%b%title%")).toOption = some b!"<a>a%content%b%title%,a%content%b%title%" := by decide +kernel

/-! ## C45: normalised ids -/

/-- C45: a normalised id contains no whitespace. -/
theorem C45_no_whitespace (lower : Str → Str) (s : Str) : NoWs (normalizeId lower s) := normalizeId_noWs lower s

/-- C45: a normalised id is the escaped words of the lowercase text joined by dashes. -/
theorem C45_words (lower : Str → Str) (s : Str) :
    ∃ ws, Words (lower s) ws ∧ Escaped (joinWith b!"-" ws) (normalizeId lower s) :=
  ⟨_, splitWs_words (lower s), escaped _⟩

/-- C45: a normalised id depends only on the words of the lowercase text. -/
theorem C45_depends (lower : Str → Str) {s t : Str} {ws : List Str} (hs : Words (lower s) ws)
    (ht : Words (lower t) ws) : normalizeId lower s = normalizeId lower t := by
  simp only [normalizeId]
  rw [(splitWs_words (lower s)).unique hs, (splitWs_words (lower t)).unique ht]

example : normalizeId demoHtml.lower b!"  My   <Header>\t2 " = b!"my-&lt;header&gt;-2" := by decide +kernel

end Vw
