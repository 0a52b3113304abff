import Verif.Model.HtmlOut
import Verif.Spec.Strings

/-!
# Templates as pieces of text and variables
-/

namespace Vw

/-- The variables of a template. -/
inductive TVar where
  | title
  | date
  | rootPath
  | wikiPath
  | css
  | encoding
  | content
deriving DecidableEq, Repr

/-- How a variable is written, without the percent signs. -/
def TVar.name : TVar → Str
  | .title => b!"title"
  | .date => b!"date"
  | .rootPath => b!"root_path"
  | .wikiPath => b!"wiki_path"
  | .css => b!"css"
  | .encoding => b!"encoding"
  | .content => b!"content"

/-- A piece of a template. -/
inductive TPiece where
  | lit (s : Str)
  | var (v : TVar)

/-- How a piece is written. -/
def TPiece.text : TPiece → Str
  | .lit s => s
  | .var v => b!"%" ++ v.name ++ b!"%"

/-- Pieces of a template as text. -/
def piecesText (ts : List TPiece) : Str := ts.flatMap TPiece.text

/-- A piece with the values of the variables. -/
def TPiece.fill (val : TVar → Str) : TPiece → Str
  | .lit s => s
  | .var v => val v

/-- A byte names of variables are made of. -/
def NameByte (b : Byte) : Prop := isLower b = true ∨ b = c!"_"

/-- Every percent sign in the text has a neighbour on both sides that is no part of a name, as in
`width: 100%;`. -/
def Harmless (s : Str) : Prop :=
  ∀ a b, s = a ++ c!"%" :: b → (∃ x, a.getLast? = some x ∧ ¬ NameByte x) ∧ ∃ x, b.head? = some x ∧ ¬ NameByte x

/-- The pieces begin with text that has a byte outside names, or there is no variable left. -/
def VarApart : List TPiece → Prop
  | [] => True
  | .lit s :: ts => (∃ b ∈ s, ¬ NameByte b) ∨ VarApart ts
  | .var _ :: _ => False

/-- The text is harmless, and between any two variables there is a byte outside names. -/
def PiecesOk : List TPiece → Prop
  | [] => True
  | .lit s :: ts => Harmless s ∧ PiecesOk ts
  | .var _ :: ts => VarApart ts ∧ PiecesOk ts

/-- The title a block sets. -/
def Block.setTitle : Block → Option Str
  | .placeholder (.title s) => some s
  | _ => none

/-- The date a block sets. -/
def Block.setDate : Block → Option Date
  | .placeholder (.date d) => some d
  | _ => none

/-- The template a block names. -/
def Block.setTemplate : Block → Option Str
  | .placeholder (.template s) => some s
  | _ => none

/-- The last title set in a page. -/
def Page.lastTitle (p : Page) : Option Str := (p.blocks.filterMap fun x => x.inner.setTitle).getLast?

/-- The last date set in a page. -/
def Page.lastDate (p : Page) : Option Date := (p.blocks.filterMap fun x => x.inner.setDate).getLast?

/-- The last template named in a page. -/
def Page.lastTemplate (p : Page) : Option Str := (p.blocks.filterMap fun x => x.inner.setTemplate).getLast?

/-- The text of the template of a page: the one the page names, or the configured one. -/
def TemplateIs (L : HtmlLib) (c : HtmlCfg) (p : Page) (t : Str) : Prop :=
  match p.lastTemplate with
  | none => t = c.templateText
  | some n => L.readFile (c.templateDir.join (.ofStr n)) = some t

/-- The title of a page: the last one set, or the name of the file. -/
def titleValue (L : HtmlLib) (c : HtmlCfg) (p : Page) : Str := p.lastTitle.getD (c.page.fileStem.elim [] L.lossy)

/-- The date of a page: the last one set, or today. -/
def dateValue (L : HtmlLib) (p : Page) : Str := L.dateStr (p.lastDate.getD L.today)

/-- The values of the variables of a template. -/
def tvarValue (L : HtmlLib) (c : HtmlCfg) (p : Page) (within : Path) (body : Str) : TVar → Str
  | .title => titleValue L c p
  | .date => dateValue L p
  | .rootPath => if c.pageToRoot.toUriString = [] then [] else c.pageToRoot.toUriString ++ b!"/"
  | .wikiPath => within.toUriString
  | .css => c.currentWiki.cssName
  | .encoding => b!"utf-8"
  | .content => body

end Vw
