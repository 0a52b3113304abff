import Verif.Model.VimwikiOut
import Verif.Spec.Elements
import Verif.Spec.Strings
import Verif.Spec.Tables

/-!
# The vimwiki syntax of elements

What the vimwiki text of an inline element is, written out element by element, and
when trimming a line cannot reach text written before it.
-/

namespace Vw

/-- `k="v" k="v"`, with a space in front when `sep`. -/
def pairsText : Bool → Map → Str
  | _, [] => []
  | sep, (k, v) :: rest =>
    (if sep then b!" " else []) ++ (k ++ (b!"=\"" ++ (v ++ (b!"\"" ++ pairsText true rest))))

/-- The property section of a transclusion. -/
def propsText (hasDesc : Bool) : Option Map → Str
  | none => []
  | some m => (if hasDesc then [] else b!"|") ++ (b!"|" ++ pairsText false (sortedMap m))

/-- A description with the bar in front of it. -/
def Description.textOf (L : OutLib) : Description → Str
  | .text s => b!"|" ++ s
  | .transclusion u none p => b!"|{{" ++ (decodedUri L u ++ (propsText false p ++ b!"}}"))
  | .transclusion u (some d) p =>
    b!"|{{" ++ (decodedUri L u ++ (Description.textOf L d ++ (propsText true p ++ b!"}}")))

/-- An optional description. -/
def descText (L : OutLib) : Option Description → Str
  | none => []
  | some d => d.textOf L

/-- The text of a link. -/
def Link.textOf (L : OutLib) : Link → Str
  | .wiki d => b!"[[" ++ (decodedUri L d.uri ++ (descText L d.desc ++ b!"]]"))
  | .indexed i d =>
    b!"[[wiki" ++ (decStr i ++ (b!":" ++ (decodedUri L d.uri ++ (descText L d.desc ++ b!"]]"))))
  | .named n d =>
    b!"[[wn." ++ (n ++ (b!":" ++ (decodedUri L d.uri ++ (descText L d.desc ++ b!"]]"))))
  | .diary dt d =>
    b!"[[diary:" ++ (L.dateStr dt ++ ((d.toAnchor.map Anchor.display).getD [] ++
      (descText L d.desc ++ b!"]]")))
  | .raw d => L.uriStr d.uri
  | .transclusion d =>
    b!"{{" ++ (decodedUri L d.uri ++ (descText L d.desc ++
      (propsText d.desc.isSome d.props ++ b!"}}")))

/-- The text of a comment. -/
def Comment.textOf (cfg : VwCfg) : Comment → Str
  | .line s =>
    b!"%%" ++ ((if cfg.commentNoPadding then [] else b!" ") ++
      (if cfg.trimComment then trim s else s))
  | .multi ls =>
    b!"%%+" ++ ((if cfg.commentNoPadding then [] else b!" ") ++
      (joinWith b!"\n" (ls.map fun l => if cfg.trimComment then trim l else l) ++
        ((if cfg.commentNoPadding then [] else b!" ") ++ b!"+%%")))

mutual
/-- The text of an inline element. -/
def Inline.textOf (L : OutLib) (cfg : VwCfg) : Inline → Str
  | .text s => s
  | .decorated k cs => k.marks ++ (Inline.textAll L cfg cs ++ k.marks)
  | .keyword k => k.display
  | .link l => l.textOf L
  | .tags ts => b!":" ++ ts.flatMap (· ++ b!":")
  | .code s => b!"`" ++ (s ++ b!"`")
  | .math s => b!"$" ++ (s ++ b!"$")
  | .comment c => c.textOf cfg
/-- The texts of inline elements one after the other. -/
def Inline.textAll (L : OutLib) (cfg : VwCfg) : List (Located Inline) → Str
  | [] => []
  | ⟨x, _⟩ :: xs => Inline.textOf L cfg x ++ Inline.textAll L cfg xs
end

/-- A line whose text is not only whitespace. -/
def NotBlank (s : Str) : Prop := ¬ WsText s

mutual
/-- Trimming the lines of the block cannot reach text in front of the block: each
trimmed line either follows a visible mark or is not blank itself. -/
def Block.Solid (L : OutLib) (cfg : VwCfg) : Block → Prop
  | .blockquote ls =>
    cfg.trimQuote = true → cfg.preferIndentedQuote = true → ∀ l ∈ ls, NotBlank l
  | .code _ _ _ => True
  | .defs items =>
    cfg.trimTerms = true → ∀ x ∈ items, NotBlank (Inline.textAll L cfg x.inner.term.inner)
  | .divider => True
  | .header c level _ => cfg.trimHeader = true → 0 < level ∨ NotBlank (Inline.textAll L cfg c)
  | .list items => Block.SolidItems L cfg items
  | .math _ _ => True
  | .paragraph ls => cfg.trimParagraph = true → ∀ l ∈ ls, NotBlank (Inline.textAll L cfg l)
  | .placeholder _ => True
  | .table _ => True
/-- The same for list items. -/
def Block.SolidItems (L : OutLib) (cfg : VwCfg) : List (Located (ItemF Block)) → Prop
  | [] => True
  | ⟨⟨_, _, _, cs, _⟩, _⟩ :: xs => Block.SolidContents L cfg cs ∧ Block.SolidItems L cfg xs
/-- The same for the contents of a list item. -/
def Block.SolidContents (L : OutLib) (cfg : VwCfg) : List (Located Block) → Prop
  | [] => True
  | ⟨x, _⟩ :: xs => Block.Solid L cfg x ∧ Block.SolidContents L cfg xs
end

/-- A text that does not end inside a whitespace character. Every valid UTF-8 text is
one. -/
def Whole (c : Str) : Prop := ∀ u v, u ≠ [] → v ≠ [] → u ++ v ∈ wsChars → ¬ u <:+ c

/-! ## Tables -/

/-- The text of `n` levels of indentation. -/
def indentText (cfg : VwCfg) (n : Nat) : Str := (List.replicate n cfg.indentStr).flatten

/-- The text `write_indent` writes. -/
def indentAt (cfg : VwCfg) (i : Nat) (b : Bool) : Str := if b then indentText cfg i else []

/-- The text of a cell, when the formatter is not skipping. -/
def cellStr (L : OutLib) (cfg : VwCfg) : Cell → Option Str
  | .content c => some (Inline.textAll L cfg c)
  | .span .fromLeft => some b!">"
  | .span .fromAbove => some b!"\\/"
  | .align _ => none

/-- `x|y|...|`. -/
def barred (cells : List Str) : Str := cells.flatMap (· ++ b!"|")

/-- One line of the table after the indentation. -/
def rowLine (centered : Bool) (cells : List Str) : Str :=
  (if centered then b!"    " else []) ++ (b!"|" ++ (barred cells ++ b!"\n"))

/-- The lines of a table; `b` says whether the first one is at the beginning of a
line. -/
def rowLines (cfg : VwCfg) (centered : Bool) (i : Nat) : Bool → List (List Str) → Str
  | _, [] => []
  | b, cs :: rest => indentAt cfg i b ++ (rowLine centered cs ++ rowLines cfg centered i true rest)

/-- Only spaces. -/
def Spaces (s : Str) : Prop := ∀ b ∈ s, b = 32

/-- The table has a cell at every position. -/
def Table.Full (t : Table) : Prop :=
  ∀ r c, r < t.rowCnt → c < t.colCnt → (t.getCell r c).isSome

/-- The cell at `p` exists and so do all cells before it in reading order. -/
def Table.Reached (t : Table) (p : CellPos) (x : Located Cell) : Prop :=
  t.getCell p.row p.col = some x ∧ ∀ q : CellPos, q.Before p → q.row < t.rowCnt →
    q.col < t.colCnt → (t.getCell q.row q.col).isSome

/-- The texts of the elements, each formatted on its own. -/
def elementTexts (L : OutLib) (cfg : VwCfg) : List (Located Block) → Option (List Str)
  | [] => some []
  | x :: xs => (x.inner.toVimwiki L cfg).bind fun t => (elementTexts L cfg xs).map (t :: ·)

/-- The texts with `sep` between them. -/
def joined (sep : Str) : List Str → Str
  | [] => []
  | [t] => t
  | t :: ts => t ++ (sep ++ joined sep ts)

end Vw
