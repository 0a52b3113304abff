import Verif.Spec.Options
import Verif.Lemmas.Erased

/-!
# Lemmas about options of the HTML output
-/

namespace Vw
open W

/-! ## Writers under two configurations -/

/-- Everything that is read while a page is written, but for templates. -/
structure Cfg2 (L : HtmlLib) (c : HtmlCfg) (L' : HtmlLib) (c' : HtmlCfg) : Prop where
  out : L'.toOutLib = L.toOutLib
  lower : L'.lower = L.lower
  highlight : L'.highlight = L.highlight
  link : ∀ l : Link, l.html L' c' = l.html L c
  comments : c'.comments = c.comments
  newline : c'.ignoreNewline = c.ignoreNewline
  toc : c'.toc = c.toc
  server : c'.serverSide = c.serverSide

namespace Cfg2
variable {L L' : HtmlLib} {c c' : HtmlCfg} (h : Cfg2 L c L' c')
include h

theorem comment (x : Comment) : x.html c' = x.html c := by
  cases x <;> simp only [Comment.html, h.comments]

theorem tags : writeTag L' = writeTag L := by
  funext t
  simp only [writeTag, h.lower]

mutual
theorem inline : ∀ x : Inline, x.html L' c' = x.html L c
  | .text _ => by rw [Inline.html, Inline.html]
  | .decorated k cs => by
    cases k <;> rw [Inline.html, Inline.html, inlines cs] <;> rw [h.out, h.lower]
  | .keyword _ => by rw [Inline.html, Inline.html]
  | .link l => by rw [Inline.html, Inline.html, h.link]
  | .tags _ => by rw [Inline.html, Inline.html, h.tags]
  | .code _ => by rw [Inline.html, Inline.html]
  | .math _ => by rw [Inline.html, Inline.html]
  | .comment x => by rw [Inline.html, Inline.html, h.comment]
theorem inlines : ∀ xs : List (Located Inline), Inline.htmlAll L' c' xs = Inline.htmlAll L c xs
  | [] => rfl
  | ⟨x, _⟩ :: xs => by rw [Inline.htmlAll, Inline.htmlAll, inline x, inlines xs]
end

theorem defs (xs : List (Located TermDefs)) : defListHtml L' c' xs = defListHtml L c xs := by
  have h1 : defHtml L' c' = defHtml L c := by funext d; simp only [defHtml, h.inlines]
  have h2 : termHtml L' c' = termHtml L c := by funext d; simp only [termHtml, h.inlines, h1]
  simp only [defListHtml, h2]

theorem lines : ∀ ls : List Inlines, paraLines L' c' ls = paraLines L c ls
  | [] => rfl
  | [l] => h.inlines l
  | l :: m :: ls => by
    have ih := lines (m :: ls)
    simp only [paraLines, ih, h.inlines, h.newline]

theorem table (t : Table) : tableHtml L' c' t = tableHtml L c t := by
  have h1 : cellHtml L' c' t = cellHtml L c t := by
    funext tag e
    simp only [cellHtml, h.inlines]
  have h2 : rowHtml L' c' t = rowHtml L c t := by funext tag r; simp only [rowHtml, h1]
  simp only [tableHtml, h2]

theorem header (x : Inlines) (n : Nat) : headerHtml L' c' x n = headerHtml L c x n := by
  have h1 : plainHeader L' c' x n = plainHeader L c x n := by
    funext id u f
    simp only [plainHeader, h.inlines]
  simp only [headerHtml, h1, h.inlines, h.lower, h.out, h.toc]

theorem code (l : Option Str) (m : Map) (ls : List Str) : codeHtml L' c' l m ls = codeHtml L c l m ls := by
  funext f
  simp only [codeHtml, h.highlight, h.server]

mutual
theorem block : ∀ x : Block, x.html L' c' = x.html L c
  | .blockquote _ => by rw [Block.html, Block.html]
  | .code .. => by rw [Block.html, Block.html, h.code]
  | .defs xs => by rw [Block.html, Block.html, h.defs]
  | .divider => by rw [Block.html, Block.html]
  | .header x n b => by rw [Block.html, Block.html, h.header]
  | .list xs => by rw [Block.html, Block.html, items xs]
  | .math .. => by rw [Block.html, Block.html]
  | .paragraph ls => by rw [Block.html, Block.html]; simp only [paragraphHtml, h.lines]
  | .placeholder _ => by rw [Block.html, Block.html]
  | .table t => by rw [Block.html, Block.html, h.table]
theorem items : ∀ xs : List (Located (ItemF Block)), Block.htmlItems L' c' xs = Block.htmlItems L c xs
  | [] => rfl
  | ⟨⟨ty, su, pos, cs, td⟩, _⟩ :: xs => by
    rw [Block.htmlItems, Block.htmlItems, contents cs, items xs]
theorem contents : ∀ xs : List (Located Block), Block.htmlContents L' c' xs = Block.htmlContents L c xs
  | [] => rfl
  | ⟨x, _⟩ :: xs => by rw [Block.htmlContents, Block.htmlContents, block x, contents xs]
end

theorem page (pg : Page) : pageHtml L' c' pg = pageHtml L c pg := by
  unfold pageHtml
  congr 1
  funext x
  rw [h.block]

end Cfg2

/-- Links are resolved alike by configurations that agree on what is read. -/
theorem cfg2_rest {L : HtmlLib} {c d : HtmlCfg} (h : c.AgreeOnRest d) : Cfg2 L c L d := by
  rw [h]
  exact ⟨rfl, rfl, rfl, fun _ => rfl, rfl, rfl, rfl, rfl⟩

/-- Nothing but templates is read from files. -/
theorem cfg2_files (L : HtmlLib) (c : HtmlCfg) (rd : Path → Option Str) : Cfg2 L c { L with readFile := rd } c :=
  ⟨rfl, rfl, rfl, fun l => by cases l <;> rfl, rfl, rfl, rfl, rfl⟩

/-! ## Without comments -/

theorem nop_then (w : W) : nop ⊳ w = w := rfl

theorem then_nop (w : W) : w ⊳ nop = w := by
  funext f
  show (w f).bind nop = w f
  cases w f <;> rfl

theorem then_assoc (a b d : W) : (a ⊳ b) ⊳ d = a ⊳ b ⊳ d := by
  funext f
  show ((a f).bind b).bind d = (a f).bind fun g => (b g).bind d
  cases a f <;> rfl

theorem Inline.uncommented_comment (x : Inline) : x.uncommented.isComment = x.isComment := by cases x <;> rfl

section uncommented
variable {L : HtmlLib} {c : HtmlCfg}

mutual
theorem Inline.display_uncommented (O : OutLib) : ∀ x : Inline, x.uncommented.display O = x.display O
  | .text _ => rfl
  | .decorated k cs => by rw [Inline.uncommented, Inline.display, Inline.display, Inline.displayAll_uncommented O cs]
  | .keyword _ => rfl
  | .link _ => rfl
  | .tags _ => rfl
  | .code _ => rfl
  | .math _ => rfl
  | .comment _ => rfl
theorem Inline.displayAll_uncommented (O : OutLib) : ∀ xs : List (Located Inline),
    Inline.displayAll O (Inline.uncommentedAll xs) = Inline.displayAll O xs
  | [] => rfl
  | ⟨x, r⟩ :: xs => by
    have h1 := Inline.display_uncommented O x
    have h2 := Inline.displayAll_uncommented O xs
    cases x <;> simp only [Inline.uncommentedAll, Inline.displayAll, h1, h2] <;>
      simp only [Inline.display, List.nil_append]
end

variable (hc : c.comments = false)
include hc

theorem Comment.html_none (x : Comment) : x.html c = nop := by
  cases x <;> simp only [Comment.html, hc] <;> rfl

mutual
theorem Inline.html_uncommented : ∀ x : Inline, x.uncommented.html L c = x.html L c
  | .text _ => rfl
  | .decorated k cs => by
    cases k <;> rw [Inline.uncommented, Inline.html, Inline.html, Inline.htmlAll_uncommented cs] <;>
      rw [Inline.displayAll_uncommented]
  | .keyword _ => rfl
  | .link _ => rfl
  | .tags _ => rfl
  | .code _ => rfl
  | .math _ => rfl
  | .comment _ => rfl
theorem Inline.htmlAll_uncommented : ∀ xs : List (Located Inline),
    Inline.htmlAll L c (Inline.uncommentedAll xs) = Inline.htmlAll L c xs
  | [] => rfl
  | ⟨x, r⟩ :: xs => by
    have h1 := Inline.html_uncommented x
    have h2 := Inline.htmlAll_uncommented xs
    cases x <;> simp only [Inline.uncommentedAll, Inline.htmlAll, h1, h2]
    rw [Inline.html, Comment.html_none hc, nop_then]
end

theorem defList_uncommented (xs : List (Located TermDefs)) :
    defListHtml L c (xs.map fun x => ⟨x.inner.uncommented, x.region⟩) = defListHtml L c xs := by
  unfold defListHtml
  rw [each_map]
  congr 2
  refine congrArg (each · xs) ?_
  funext x
  have : (fun d : Located Inlines => defHtml L c (Inline.lineUncommented d)) = defHtml L c := by
    funext d
    simp only [defHtml, Inline.lineUncommented, Inline.htmlAll_uncommented hc]
  simp only [termHtml, TermDefs.uncommented, each_map, this]
  simp only [Inline.lineUncommented, Inline.htmlAll_uncommented hc]

omit hc in
theorem allComment_uncommented : ∀ l : Inlines,
    ((Inline.uncommentedAll l).all fun e => e.inner.isComment) = l.all fun e => e.inner.isComment
  | [] => rfl
  | ⟨x, _⟩ :: xs => by
    have ih := allComment_uncommented xs
    have hx := Inline.uncommented_comment x
    cases x <;> simp only [Inline.uncommentedAll, List.all_cons, hx, ih] <;> simp [Inline.isComment]

theorem lines_uncommented : ∀ ls : List Inlines, paraLines L c (ls.map Inline.uncommentedAll) = paraLines L c ls
  | [] => rfl
  | [l] => Inline.htmlAll_uncommented hc l
  | l :: m :: ls => by
    have ih := lines_uncommented (m :: ls)
    simp only [List.map_cons] at ih ⊢
    simp only [paraLines, ih, Inline.htmlAll_uncommented hc]

theorem paragraph_uncommented (ls : List Inlines) :
    paragraphHtml L c (ls.map Inline.uncommentedAll) = paragraphHtml L c ls := by
  have : blankParagraph (ls.map Inline.uncommentedAll) = blankParagraph ls := by
    unfold blankParagraph
    rw [List.all_map]
    congr 1
    funext l
    exact allComment_uncommented l
  unfold paragraphHtml
  rw [this, lines_uncommented hc]

omit hc in
theorem kinds_uncommented : Kinds fun c => ⟨c.inner.uncommented, c.region⟩ := by
  constructor <;> rintro ⟨c, r⟩ <;> cases c <;> first | rfl | (next s => cases s <;> rfl)

theorem table_uncommented (t : Table) : tableHtml L c t.uncommented = tableHtml L c t := by
  refine tableHtml_mapped kinds_uncommented t ?_
  rintro ⟨p, x, r⟩ tag
  have h1 := rowspan_mapped kinds_uncommented t p.row p.col
  have h2 := colspan_mapped kinds_uncommented t p.row p.col
  cases x with
  | content x =>
    unfold cellHtml
    rw [h1, h2]
    simp only [Cell.uncommented, Inline.htmlAll_uncommented hc]
  | span s => rfl
  | align a => rfl

omit hc in
theorem ordered_uncommented : ∀ xs : List (Located (ItemF Block)), orderedItems (Block.itemsUncommented xs) = orderedItems xs
  | [] => rfl
  | ⟨⟨_, _, _, _, _⟩, _⟩ :: _ => by rw [Block.itemsUncommented]; rfl

mutual
theorem Block.html_uncommented : ∀ x : Block, x.uncommented.html L c = x.html L c
  | .blockquote _ => rfl
  | .code .. => rfl
  | .defs xs => by rw [Block.uncommented, Block.html, Block.html, defList_uncommented hc]
  | .divider => rfl
  | .header x n b => by
    have : plainHeader L c (Inline.uncommentedAll x) = plainHeader L c x := by
      funext n id u f
      simp only [plainHeader, Inline.htmlAll_uncommented hc]
    rw [Block.uncommented, Block.html, Block.html]
    simp only [headerHtml, this, Inline.htmlAll_uncommented hc, Inline.displayAll_uncommented]
  | .list xs => by rw [Block.uncommented, Block.html, Block.html, Block.htmlItems_uncommented xs, ordered_uncommented]
  | .math .. => rfl
  | .paragraph ls => by rw [Block.uncommented, Block.html, Block.html, paragraph_uncommented hc]
  | .placeholder _ => rfl
  | .table t => by rw [Block.uncommented, Block.html, Block.html, table_uncommented hc]
theorem Block.htmlItems_uncommented : ∀ xs : List (Located (ItemF Block)),
    Block.htmlItems L c (Block.itemsUncommented xs) = Block.htmlItems L c xs
  | [] => rfl
  | ⟨⟨ty, su, pos, cs, td⟩, _⟩ :: xs => by
    rw [Block.itemsUncommented, Block.htmlItems, Block.htmlItems, Block.htmlContents_uncommented cs,
      Block.htmlItems_uncommented xs]
theorem Block.htmlContents_uncommented : ∀ xs : List (Located Block),
    Block.htmlContents L c (Block.allUncommented xs) = Block.htmlContents L c xs
  | [] => rfl
  | ⟨x, _⟩ :: xs => by
    rw [Block.allUncommented, Block.htmlContents, Block.htmlContents, Block.html_uncommented x,
      Block.htmlContents_uncommented xs]
end

theorem page_uncommented (pg : Page) : pageHtml L c pg.uncommented = pageHtml L c pg := by
  unfold pageHtml Page.uncommented
  generalize pg.elements = xs
  induction xs with
  | nil => rfl
  | cons x xs ih =>
    obtain ⟨x, r⟩ := x
    simp only [Block.allUncommented, each, Block.html_uncommented hc] at ih ⊢
    rw [ih]

end uncommented

/-! ## Paragraphs of one line -/

section joined
variable {L : HtmlLib} {c : HtmlCfg}

theorem htmlAll_app : ∀ xs ys : List (Located Inline),
    Inline.htmlAll L c (xs ++ ys) = Inline.htmlAll L c xs ⊳ Inline.htmlAll L c ys
  | [], _ => rfl
  | ⟨x, _⟩ :: xs, ys => by rw [List.cons_append, Inline.htmlAll, Inline.htmlAll, htmlAll_app xs ys, then_assoc]

theorem paraLines_app : ∀ as bs : List Inlines, as ≠ [] → bs ≠ [] → paraLines L c (as ++ bs) =
    paraLines L c as ⊳ put (if c.ignoreNewline then b!" " else b!"<br />") ⊳ paraLines L c bs
  | [], _, h, _ => (h rfl).elim
  | [a], b :: bs, _, _ => by simp only [List.cons_append, List.nil_append, paraLines]
  | [a], [], _, h => (h rfl).elim
  | a :: a' :: as, bs, _, h => by
    have ih := paraLines_app (a' :: as) bs (by simp) h
    simp only [List.cons_append] at ih ⊢
    simp only [paraLines, ih, then_assoc]

variable (hc : c.ignoreNewline = true)
include hc

theorem html_spaced : ∀ ls : List Inlines, Inline.htmlAll L c (spaced ls) = paraLines L c ls
  | [] => rfl
  | [l] => rfl
  | l :: m :: ls => by
    have h : spaced (l :: m :: ls) = l ++ ⟨.text b!" ", ⟨0, 0, 0⟩⟩ :: spaced (m :: ls) := rfl
    have h' : paraLines L c (l :: m :: ls) = Inline.htmlAll L c l ⊳
      put (if c.ignoreNewline then b!" " else b!"<br />") ⊳ paraLines L c (m :: ls) := rfl
    rw [h, htmlAll_app, Inline.htmlAll, Inline.html, html_spaced (m :: ls), h', hc]
    rfl

theorem paragraph_oneLine (ls : List Inlines) : paragraphHtml L c (oneLine ls) = paragraphHtml L c ls := by
  unfold oneLine
  split
  · rfl
  · next h =>
    have hb : blankParagraph ls = false := by simpa [blankParagraph] using h
    have hb' : blankParagraph [spaced ls] = false := by
      have : ∀ ls : List Inlines, (ls.all fun l => l.all fun e => e.inner.isComment) = false →
          ((spaced ls).all fun e => e.inner.isComment) = false := by
        intro ls
        match ls with
        | [] => simp
        | [l] => simp [spaced]
        | l :: m :: ls => intro _; rw [show spaced (l :: m :: ls) = l ++ ⟨.text b!" ", ⟨0, 0, 0⟩⟩ :: spaced (m :: ls) from rfl]; simp [Inline.isComment]
      simp only [blankParagraph, List.all_cons, List.all_nil, Bool.and_true]
      exact this ls hb
    unfold paragraphHtml
    rw [hb, hb', paraLines, html_spaced hc]

omit hc in
theorem ordered_joined : ∀ xs : List (Located (ItemF Block)), orderedItems (Block.itemsJoined xs) = orderedItems xs
  | [] => rfl
  | ⟨⟨_, _, _, _, _⟩, _⟩ :: _ => by rw [Block.itemsJoined]; rfl

mutual
theorem Block.html_joined : ∀ x : Block, x.joined.html L c = x.html L c
  | .blockquote _ => rfl
  | .code .. => rfl
  | .defs _ => rfl
  | .divider => rfl
  | .header .. => rfl
  | .list xs => by rw [Block.joined, Block.html, Block.html, Block.htmlItems_joined xs, ordered_joined]
  | .math .. => rfl
  | .paragraph ls => by rw [Block.joined, Block.html, Block.html, paragraph_oneLine hc]
  | .placeholder _ => rfl
  | .table t => rfl
theorem Block.htmlItems_joined : ∀ xs : List (Located (ItemF Block)),
    Block.htmlItems L c (Block.itemsJoined xs) = Block.htmlItems L c xs
  | [] => rfl
  | ⟨⟨ty, su, pos, cs, td⟩, _⟩ :: xs => by
    rw [Block.itemsJoined, Block.htmlItems, Block.htmlItems, Block.htmlContents_joined cs, Block.htmlItems_joined xs]
theorem Block.htmlContents_joined : ∀ xs : List (Located Block),
    Block.htmlContents L c (Block.allJoined xs) = Block.htmlContents L c xs
  | [] => rfl
  | ⟨x, _⟩ :: xs => by
    rw [Block.allJoined, Block.htmlContents, Block.htmlContents, Block.html_joined x, Block.htmlContents_joined xs]
end

theorem page_joined (pg : Page) : pageHtml L c pg.joined = pageHtml L c pg := by
  unfold pageHtml Page.joined
  generalize pg.elements = xs
  induction xs with
  | nil => rfl
  | cons x xs ih =>
    obtain ⟨x, r⟩ := x
    simp only [Block.allJoined, each, Block.html_joined hc] at ih ⊢
    rw [ih]

end joined

/-! ## Names of templates -/

theorem pieces_names : ∀ (b : Bool) (ps : List Str), b!".." ∉ ps →
    ∃ names : List Str, (Path.pieces b ps).filter (· ≠ .cur) = names.map Comp.normal
  | _, [], _ => ⟨[], rfl⟩
  | b, p :: ps, h => by
    have hp : p ≠ b!".." := fun e => h (by simp [e])
    obtain ⟨ns, hn⟩ := pieces_names false ps (fun e => h (by simp [e]))
    by_cases h1 : p = []
    · exact ⟨ns, by simpa [Path.pieces, Path.pieceComp, h1] using hn⟩
    · by_cases h2 : p = b!"."
      · refine ⟨ns, ?_⟩
        cases b <;> simpa [Path.pieces, Path.pieceComp, h1, h2] using hn
      · exact ⟨p :: ns, by simpa [Path.pieces, Path.pieceComp, h1, h2, hp] using hn⟩

theorem pieces_parent : ∀ (b : Bool) (ps : List Str), b!".." ∈ ps → Comp.parent ∈ Path.pieces b ps
  | b, p :: ps, h => by
    by_cases hp : p = b!".."
    · simp [Path.pieces, Path.pieceComp, hp]
    · have ih := pieces_parent false ps (by simpa [Ne.symm hp] using h)
      by_cases h1 : p = []
      · simpa [Path.pieces, Path.pieceComp, h1] using ih
      · by_cases h2 : p = b!"."
        · cases b <;> simpa [Path.pieces, Path.pieceComp, h1, h2] using ih
        · simpa [Path.pieces, Path.pieceComp, h1, h2, hp] using ih

theorem pieces_hasRoot : ∀ (b : Bool) (ps : List Str), Path.hasRoot (Path.pieces b ps) = false
  | _, [] => rfl
  | b, p :: ps => by
    have ih := pieces_hasRoot false ps
    by_cases h1 : p = []
    · simpa [Path.pieces, Path.pieceComp, h1] using ih
    · by_cases h2 : p = b!"."
      · cases b
        · simpa [Path.pieces, Path.pieceComp, h1, h2] using ih
        · simp [Path.pieces, Path.pieceComp, h2, Path.hasRoot]
      · by_cases h3 : p = b!".."
        · simp [Path.pieces, Path.pieceComp, h3, Path.hasRoot]
        · simp [Path.pieces, Path.pieceComp, h1, h2, h3, Path.hasRoot]

theorem join_relative {dir : Path} {n : Str} (hd : dir ≠ []) (hr : n.head? ≠ some c!"/") :
    dir.join (.ofStr n) = dir ++ (Path.pieces true (splitOn c!"/" n)).filter (· ≠ .cur) := by
  unfold Path.join Path.push Path.ofStr
  rw [if_neg hr, pieces_hasRoot]
  simp [hd]

end Vw
