import Verif.Tests.Lib

/-!
# Elements as text

A compact notation for elements, used to compare results of the model with what the project's own
tests expect. Regions are left out.
-/

namespace Vw.Tests

def join (sep : Str) (xs : List Str) : Str := sep.intercalate xs

def quoted (s : Str) : Str := b!"'" ++ s ++ b!"'"

def opt (f : α → Str) : Option α → Str
  | none => b!"-"
  | some x => f x

/-- Insertion into a sorted list of pairs. -/
def ins (e : Str × Str) : List (Str × Str) → List (Str × Str)
  | [] => [e]
  | x :: xs => if keyLe e x then e :: x :: xs else x :: ins e xs

def showMap (m : Map) : Str :=
  b!"{" ++ join b!"," ((m.foldr ins []).map fun e => e.1 ++ b!"=" ++ quoted e.2) ++ b!"}"

def showDesc : Description → Str
  | .text s => quoted s
  | .transclusion u d p => b!"{{" ++ uriStr u ++ b!" " ++ (match d with | none => b!"-" | some d => showDesc d) ++ b!" " ++
      opt showMap p ++ b!"}}"

def showData (d : LinkData) : Str := uriStr d.uri ++ b!" " ++ opt showDesc d.desc ++ b!" " ++ opt showMap d.props

def showLink : Link → Str
  | .wiki d => b!"wiki(" ++ showData d ++ b!")"
  | .indexed i d => b!"indexed(" ++ decStr i ++ b!" " ++ showData d ++ b!")"
  | .named n d => b!"named(" ++ n ++ b!" " ++ showData d ++ b!")"
  | .diary dt d => b!"diary(" ++ dateStr dt ++ b!" " ++ showData d ++ b!")"
  | .raw d => b!"raw(" ++ showData d ++ b!")"
  | .transclusion d => b!"transclusion(" ++ showData d ++ b!")"

def showDeco : Deco → Str
  | .bold => b!"bold" | .italic => b!"italic" | .strikeout => b!"strikeout"
  | .superscript => b!"superscript" | .subscript => b!"subscript"

mutual
def showInline : Inline → Str
  | .text s => quoted s
  | .decorated k xs => showDeco k ++ b!"[" ++ showInlines xs ++ b!"]"
  | .keyword k => k.display
  | .link l => showLink l
  | .tags ts => b!"tags(" ++ join b!"," ts ++ b!")"
  | .code s => b!"code(" ++ s ++ b!")"
  | .math s => b!"math(" ++ s ++ b!")"
  | .comment (.line s) => b!"line(" ++ s ++ b!")"
  | .comment (.multi ls) => b!"multi(" ++ join b!"|" ls ++ b!")"
def showInlines : List (Located Inline) → Str
  | [] => []
  | [⟨x, _⟩] => showInline x
  | ⟨x, _⟩ :: xs => showInline x ++ b!" " ++ showInlines xs
end

def showTy : ItemType → Str
  | .hyphen => b!"-" | .asterisk => b!"*" | .other s => b!"other" ++ s
  | .number => b!"1" | .pound => b!"#" | .lowerAlpha => b!"a" | .upperAlpha => b!"A"
  | .lowerRoman => b!"i" | .upperRoman => b!"I"

def showTodo : Todo → Str
  | .incomplete => b!"[ ]" | .partial1 => b!"[.]" | .partial2 => b!"[o]" | .partial3 => b!"[O]"
  | .complete => b!"[X]" | .rejected => b!"[-]"

def showCell : Cell → Str
  | .content c => showInlines c
  | .span .fromLeft => b!">" | .span .fromAbove => b!"^"
  | .align .none => b!"--" | .align .left => b!":-" | .align .center => b!":-:" | .align .right => b!"-:"

def showTable (t : Table) : Str :=
  (if t.centered then b!"centered " else []) ++ join b!" / " ((List.range t.rowCnt).map fun i =>
    join b!" | " ((List.range t.colCnt).map fun j => match t.getCell i j with
      | some c => showCell c.inner
      | none => b!"none"))

def showPlaceholder : Placeholder → Str
  | .title s => b!"title " ++ quoted s | .noHtml => b!"nohtml" | .template s => b!"template " ++ quoted s
  | .date d => b!"date " ++ dateStr d | .other n v => b!"other " ++ n ++ b!" " ++ quoted v

mutual
def showBlock : Block → Str
  | .blockquote ls => b!"quote(" ++ join b!"|" ls ++ b!")"
  | .code l m ls => b!"code(" ++ opt id l ++ b!" " ++ showMap m ++ b!" " ++ join b!"|" ls ++ b!")"
  | .defs xs => b!"defs(" ++ join b!"; " (xs.map fun x => showInlines x.inner.term.inner ++ b!" :: " ++
      join b!" , " (x.inner.defs.inner.map fun d => showInlines d.inner)) ++ b!")"
  | .divider => b!"divider"
  | .header c n b => b!"h" ++ decStr n ++ (if b then b!"c(" else b!"(") ++ showInlines c ++ b!")"
  | .list xs => b!"list(" ++ showItems xs ++ b!")"
  | .math ls e => b!"math(" ++ opt id e ++ b!" " ++ join b!"|" ls ++ b!")"
  | .paragraph rs => b!"p(" ++ join b!" / " (rs.map showInlines) ++ b!")"
  | .placeholder p => showPlaceholder p
  | .table t => b!"table(" ++ showTable t ++ b!")"
def showItems : List (Located (ItemF Block)) → Str
  | [] => []
  | ⟨⟨ty, su, pos, cs, td⟩, _⟩ :: xs => b!"<" ++ showTy ty ++ su.text ++ b!"@" ++ decStr pos ++
      (match td with | none => [] | some t => showTodo t) ++ b!" " ++ showBlocks cs ++ b!">" ++ showItems xs
def showBlocks : List (Located Block) → Str
  | [] => []
  | [⟨x, _⟩] => showBlock x
  | ⟨x, _⟩ :: xs => showBlock x ++ b!" " ++ showBlocks xs
end

def result (f : α → Str) : Res α → Str
  | .ok s x => f x ++ (if s.asRemaining = [] then [] else b!" >>" ++ s.asRemaining)
  | .err => b!"error"
  | .panic _ => b!"panic"
  | .diverge => b!"diverge"

/-- The result of a parser of inline elements, and what it leaves. -/
def inl (p : P (Located Inline)) (s : Str) : Str := result (fun x => showInline x.inner) (p (Span.ofStr s))

def inls (p : P (Located Inlines)) (s : Str) : Str := result (fun x => showInlines x.inner) (p (Span.ofStr s))

def blk (p : P (Located Block)) (s : Str) : Str := result (fun x => showBlock x.inner) (p (Span.ofStr s))

def pg (s : Str) : Str := result (fun x => showBlocks x.elements) (page env (Span.ofStr s))

end Vw.Tests
