import Verif.Model.Equality

/-!
# Hashing of elements

Models the implementations of `Hash` in `/repo/vimwiki-core/src/lang/elements`: what an element
feeds to a `Hasher`, in order. Derived implementations feed the number of the variant and then the
fields in the order of their declaration. `BlockElement`, `CodeBlock`, `List`, `Paragraph`, `Table`
and `DefinitionList` have no `Hash`.
-/

namespace Vw

/-- One piece of data given to a `Hasher`. -/
inductive Fed where
  /-- the number of a variant -/
  | variant (n : Nat)
  /-- the length of a vector -/
  | length (n : Nat)
  | text (s : Str)
  | number (n : Int)
  | flag (b : Bool)
deriving DecidableEq, Repr

/-- Derived `Hash` of `Option` (std). -/
def feedOption {α : Type} (f : α → List Fed) : Option α → List Fed
  | none => [.variant 0]
  | some x => .variant 1 :: f x

/-- `Hash` of `Vec` (std): the length and the entries. -/
def feedVec {α : Type} (f : α → List Fed) (xs : List α) : List Fed := .length xs.length :: xs.flatMap f

/-- `Hash` of `Vec<Cow<str>>`. -/
def feedTexts (xs : List Str) : List Fed := feedVec (fun s => [.text s]) xs

/-- `keys.sort_unstable()` (links/data.rs:215-217). -/
def sortedKeys (m : Map) : List Str := (m.map (·.1)).mergeSort (fun a b => decide (a ≤ b))

/-- The part of `LinkData::hash` for the properties (links/data.rs:212-223): the keys, sorted. -/
def feedProps : Option Map → List Fed
  | none => []
  | some m => (sortedKeys m).map .text

/-- `Description` (links/description.rs:8-26, derived) with `LinkData::hash` inlined. `uh` is what a
URI feeds. -/
def Description.feed (uh : Uri → List Fed) : Description → List Fed
  | .text s => [.variant 0, .text s]
  | .transclusion u none p => .variant 1 :: (uh u ++ [.variant 0] ++ feedProps p)
  | .transclusion u (some d) p => .variant 1 :: (uh u ++ (.variant 1 :: Description.feed uh d) ++ feedProps p)

/-- `LinkData::hash` (links/data.rs:207-225). -/
def LinkData.feed (uh : Uri → List Fed) (x : LinkData) : List Fed :=
  uh x.uri ++ feedOption (Description.feed uh) x.desc ++ feedProps x.props

/-- `NaiveDate` (chrono). The packed number is modelled by the parts of the date. -/
def Date.feed (d : Date) : List Fed := [.number d.year, .number d.month, .number d.day]

/-- `Link` (links/mod.rs:20-63, derived). -/
def Link.feed (uh : Uri → List Fed) : Link → List Fed
  | .wiki x => .variant 0 :: x.feed uh
  | .indexed i x => .variant 1 :: .number i :: x.feed uh
  | .named n x => .variant 2 :: .text n :: x.feed uh
  | .diary d x => .variant 3 :: (d.feed ++ x.feed uh)
  | .raw x => .variant 4 :: x.feed uh
  | .transclusion x => .variant 5 :: x.feed uh

/-- `Keyword` (typefaces.rs:418-438, derived). -/
def Keyword.feed : Keyword → List Fed
  | .todo => [.variant 0]
  | .done => [.variant 1]
  | .started => [.variant 2]
  | .fixme => [.variant 3]
  | .fixed => [.variant 4]
  | .xxx => [.variant 5]

/-- The variants of `DecoratedText` (typefaces.rs:203-213). -/
def Deco.number : Deco → Nat
  | .bold => 0
  | .italic => 1
  | .strikeout => 2
  | .superscript => 3
  | .subscript => 4

/-- `Comment`, `LineComment` and `MultiLineComment` (comments.rs:9-145, derived). -/
def Comment.feed : Comment → List Fed
  | .line s => [.variant 0, .text s]
  | .multi ls => .variant 1 :: feedTexts ls

mutual
/-- `InlineElement` (inline/mod.rs:25-43, derived); `DecoratedTextContent` (typefaces.rs:88-106) has
the same numbers for its variants. -/
def Inline.feed (uh : Uri → List Fed) : Inline → List Fed
  | .text s => [.variant 0, .text s]
  | .decorated k xs => .variant 1 :: .variant k.number :: .length xs.length :: Inline.feeds uh xs
  | .keyword k => .variant 2 :: k.feed
  | .link l => .variant 3 :: l.feed uh
  | .tags ts => .variant 4 :: feedTexts ts
  | .code s => [.variant 5, .text s]
  | .math s => [.variant 6, .text s]
  | .comment c => .variant 7 :: c.feed
/-- The entries of a vector of `Located` inline elements; `Located` feeds its element only
(utils/mod.rs:194-202). -/
def Inline.feeds (uh : Uri → List Fed) : List (Located Inline) → List Fed
  | [] => []
  | ⟨x, _⟩ :: xs => Inline.feed uh x ++ Inline.feeds uh xs
end

/-- `InlineElementContainer` (inline/mod.rs:103-122, derived). -/
def feedInlines (uh : Uri → List Fed) (xs : Inlines) : List Fed := .length xs.length :: Inline.feeds uh xs

/-- `Cell`, `CellSpan` and `ColumnAlign` (tables.rs:358-366, 441-462, derived). -/
def Cell.feed (uh : Uri → List Fed) : Cell → List Fed
  | .content c => .variant 0 :: feedInlines uh c
  | .span .fromLeft => [.variant 1, .variant 0]
  | .span .fromAbove => [.variant 1, .variant 1]
  | .align .none => [.variant 2, .variant 0]
  | .align .left => [.variant 2, .variant 1]
  | .align .center => [.variant 2, .variant 2]
  | .align .right => [.variant 2, .variant 3]

/-- `Hash for DefinitionListValue` (definitions.rs:76-80): the displayed text. -/
def feedValue (L : OutLib) (x : Inlines) : List Fed := [.text (Inline.displayAll L x)]

/-- `DefinitionBundle` (definitions.rs:137-155, derived). -/
def feedBundle (L : OutLib) (xs : List (Located Inlines)) : List Fed := feedVec (fun d => feedValue L d.inner) xs

/-- `Placeholder` (placeholders.rs:6-17, derived). -/
def Placeholder.feed : Placeholder → List Fed
  | .title s => [.variant 0, .text s]
  | .noHtml => [.variant 1]
  | .template s => [.variant 2, .text s]
  | .date d => .variant 3 :: d.feed
  | .other n v => [.variant 4, .text n, .text v]

/-- The blocks that have `Hash`: `Blockquote` (blockquotes.rs:6-25), `Divider` (dividers.rs:5-8),
`Header` (headers.rs:11-37), `MathBlock` (math.rs:6-28) and `Placeholder`. -/
def Block.feed (uh : Uri → List Fed) : Block → Option (List Fed)
  | .blockquote ls => some (feedTexts ls)
  | .divider => some []
  | .header c l ctr => some (feedInlines uh c ++ [.number l, .flag ctr])
  | .math ls e => some (feedTexts ls ++ feedOption (fun s => [.text s]) e)
  | .placeholder p => some p.feed
  | _ => none

end Vw
