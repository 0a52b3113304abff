import Verif.Spec.Equality
import Verif.Spec.Macros
import Verif.Model.Equality
import Verif.Model.Cli
import Verif.Model.Macros

/-!
# Specification for the elements a macro builds

The URIs and the texts of an element, the element with the depth of all regions set to zero
and the element without its texts.
-/

namespace Vw

/-! ## URIs and texts -/

def Description.uris : Description → List Uri
  | .text _ => []
  | .transclusion u none _ => [u]
  | .transclusion u (some d) _ => u :: Description.uris d

def LinkData.uris (x : LinkData) : List Uri :=
  x.uri :: match x.desc with
    | none => []
    | some d => d.uris

def Link.uris : Link → List Uri
  | .wiki d => d.uris
  | .indexed _ d => d.uris
  | .named _ d => d.uris
  | .diary _ d => d.uris
  | .raw d => d.uris
  | .transclusion d => d.uris

mutual
def Inline.uris : Inline → List Uri
  | .decorated _ xs => Inline.urisAll xs
  | .link l => l.uris
  | .text _ => []
  | .keyword _ => []
  | .tags _ => []
  | .code _ => []
  | .math _ => []
  | .comment _ => []
def Inline.urisAll : List (Located Inline) → List Uri
  | [] => []
  | ⟨x, _⟩ :: xs => Inline.uris x ++ Inline.urisAll xs
end

def Cell.uris : Cell → List Uri
  | .content c => Inline.urisAll c
  | .span _ => []
  | .align _ => []

def TermDefs.uris (x : TermDefs) : List Uri :=
  Inline.urisAll x.term.inner ++ x.defs.inner.flatMap fun d => Inline.urisAll d.inner

mutual
def Block.uris : Block → List Uri
  | .blockquote _ => []
  | .code _ _ _ => []
  | .defs xs => xs.flatMap fun x => x.inner.uris
  | .divider => []
  | .header c _ _ => Inline.urisAll c
  | .list xs => Block.urisItems xs
  | .math _ _ => []
  | .paragraph rs => rs.flatMap Inline.urisAll
  | .placeholder _ => []
  | .table t => t.cells.flatMap fun e => e.2.inner.uris
def Block.urisItems : List (Located (ItemF Block)) → List Uri
  | [] => []
  | ⟨⟨_, _, _, cs, _⟩, _⟩ :: xs => Block.urisAll cs ++ Block.urisItems xs
def Block.urisAll : List (Located Block) → List Uri
  | [] => []
  | ⟨x, _⟩ :: xs => Block.uris x ++ Block.urisAll xs
end

/-- All URIs of links in the element. -/
def Parsed.uris : Parsed → List Uri
  | .page p => Block.urisAll p.elements
  | .block b => b.inner.uris
  | .inlines x => Inline.urisAll x.inner
  | .inline x => x.inner.uris
  | .item i => Block.urisAll i.inner.contents

def Map.texts (m : Map) : List Str := m.flatMap fun e => [e.1, e.2]

def propTexts (p : Option Map) : List Str := p.toList.flatMap Map.texts

def Description.texts : Description → List Str
  | .text s => [s]
  | .transclusion _ none p => propTexts p
  | .transclusion _ (some d) p => Description.texts d ++ propTexts p

def LinkData.texts (x : LinkData) : List Str :=
  x.desc.toList.flatMap Description.texts ++ propTexts x.props

def Link.texts : Link → List Str
  | .wiki d => d.texts
  | .indexed _ d => d.texts
  | .named s d => s :: d.texts
  | .diary _ d => d.texts
  | .raw d => d.texts
  | .transclusion d => d.texts

def Comment.texts : Comment → List Str
  | .line s => [s]
  | .multi ls => ls

mutual
def Inline.texts : Inline → List Str
  | .decorated _ xs => Inline.textsAll xs
  | .link l => l.texts
  | .text s => [s]
  | .keyword _ => []
  | .tags ts => ts
  | .code s => [s]
  | .math s => [s]
  | .comment c => c.texts
def Inline.textsAll : List (Located Inline) → List Str
  | [] => []
  | ⟨x, _⟩ :: xs => Inline.texts x ++ Inline.textsAll xs
end

def Cell.texts : Cell → List Str
  | .content c => Inline.textsAll c
  | .span _ => []
  | .align _ => []

def TermDefs.texts (x : TermDefs) : List Str :=
  Inline.textsAll x.term.inner ++ x.defs.inner.flatMap fun d => Inline.textsAll d.inner

def Placeholder.texts : Placeholder → List Str
  | .title s => [s]
  | .noHtml => []
  | .template s => [s]
  | .date _ => []
  | .other k v => [k, v]

def ItemType.texts : ItemType → List Str
  | .other s => [s]
  | _ => []

mutual
def Block.texts : Block → List Str
  | .blockquote ls => ls
  | .code lang m ls => lang.toList ++ m.texts ++ ls
  | .defs xs => xs.flatMap fun x => x.inner.texts
  | .divider => []
  | .header c _ _ => Inline.textsAll c
  | .list xs => Block.textsItems xs
  | .math ls e => e.toList ++ ls
  | .paragraph rs => rs.flatMap Inline.textsAll
  | .placeholder p => p.texts
  | .table t => t.cells.flatMap fun e => e.2.inner.texts
def Block.textsItems : List (Located (ItemF Block)) → List Str
  | [] => []
  | ⟨⟨ty, _, _, cs, _⟩, _⟩ :: xs => ty.texts ++ Block.textsAll cs ++ Block.textsItems xs
def Block.textsAll : List (Located Block) → List Str
  | [] => []
  | ⟨x, _⟩ :: xs => Block.texts x ++ Block.textsAll xs
end

/-- All texts of the element in source order, without URIs and dates. Those of a map are in
the order of the map. -/
def Parsed.texts : Parsed → List Str
  | .page p => Block.textsAll p.elements
  | .block b => b.inner.texts
  | .inlines x => Inline.textsAll x.inner
  | .inline x => x.inner.texts
  | .item i => i.inner.ty.texts ++ Block.textsAll i.inner.contents

/-! ## Elements without depths -/

/-- The region at depth zero. -/
def Region.level (r : Region) : Region := ⟨r.offset, r.len, 0⟩

mutual
def Inline.level : Inline → Inline
  | .text s => .text s
  | .decorated k xs => .decorated k (Inline.levels xs)
  | .keyword k => .keyword k
  | .link l => .link l
  | .tags ts => .tags ts
  | .code s => .code s
  | .math s => .math s
  | .comment c => .comment c
def Inline.levels : List (Located Inline) → List (Located Inline)
  | [] => []
  | ⟨x, r⟩ :: xs => ⟨Inline.level x, r.level⟩ :: Inline.levels xs
end

def Cell.level : Cell → Cell
  | .content c => .content (Inline.levels c)
  | .span s => .span s
  | .align a => .align a

def Table.level (t : Table) : Table :=
  { t with cells := t.cells.map (fun e => (e.1, ⟨e.2.inner.level, e.2.region.level⟩)) }

def TermDefs.level (x : TermDefs) : TermDefs :=
  ⟨⟨Inline.levels x.term.inner, x.term.region.level⟩,
    ⟨x.defs.inner.map (fun d => ⟨Inline.levels d.inner, d.region.level⟩), x.defs.region.level⟩⟩

mutual
def Block.level : Block → Block
  | .blockquote l => .blockquote l
  | .code l m ls => .code l m ls
  | .defs xs => .defs (xs.map (fun x => ⟨x.inner.level, x.region.level⟩))
  | .divider => .divider
  | .header c n b => .header (Inline.levels c) n b
  | .list xs => .list (Block.levelItems xs)
  | .math l e => .math l e
  | .paragraph rs => .paragraph (rs.map Inline.levels)
  | .placeholder p => .placeholder p
  | .table t => .table t.level
def Block.levelItems : List (Located (ItemF Block)) → List (Located (ItemF Block))
  | [] => []
  | ⟨⟨ty, su, pos, cs, td⟩, r⟩ :: xs =>
    ⟨⟨ty, su, pos, Block.levels cs, td⟩, r.level⟩ :: Block.levelItems xs
def Block.levels : List (Located Block) → List (Located Block)
  | [] => []
  | ⟨x, r⟩ :: xs => ⟨Block.level x, r.level⟩ :: Block.levels xs
end

/-- The element with the depth of all regions set to zero. -/
def Parsed.level : Parsed → Parsed
  | .page p => .page ⟨Block.levels p.elements⟩
  | .block b => .block ⟨b.inner.level, b.region.level⟩
  | .inlines x => .inlines ⟨Inline.levels x.inner, x.region.level⟩
  | .inline x => .inline ⟨x.inner.level, x.region.level⟩
  | .item i => .item ⟨{ i.inner with contents := Block.levels i.inner.contents }, i.region.level⟩

/-! ## Elements without texts -/

def Map.blank (m : Map) : Map := m.map fun _ => ([], [])

def Description.blank : Description → Description
  | .text _ => .text []
  | .transclusion u none p => .transclusion u none (p.map Map.blank)
  | .transclusion u (some d) p => .transclusion u (some (Description.blank d)) (p.map Map.blank)

def LinkData.blank (x : LinkData) : LinkData :=
  ⟨x.uri, x.desc.map Description.blank, x.props.map Map.blank⟩

def Link.blank : Link → Link
  | .wiki d => .wiki d.blank
  | .indexed i d => .indexed i d.blank
  | .named _ d => .named [] d.blank
  | .diary t d => .diary t d.blank
  | .raw d => .raw d.blank
  | .transclusion d => .transclusion d.blank

def Comment.blank : Comment → Comment
  | .line _ => .line []
  | .multi ls => .multi (ls.map fun _ => [])

mutual
def Inline.blank : Inline → Inline
  | .text _ => .text []
  | .decorated k xs => .decorated k (Inline.blanks xs)
  | .keyword k => .keyword k
  | .link l => .link l.blank
  | .tags ts => .tags (ts.map fun _ => [])
  | .code _ => .code []
  | .math _ => .math []
  | .comment c => .comment c.blank
def Inline.blanks : List (Located Inline) → List (Located Inline)
  | [] => []
  | ⟨x, r⟩ :: xs => ⟨Inline.blank x, r⟩ :: Inline.blanks xs
end

def Cell.blank : Cell → Cell
  | .content c => .content (Inline.blanks c)
  | .span s => .span s
  | .align a => .align a

def Table.blank (t : Table) : Table :=
  { t with cells := t.cells.map (fun e => (e.1, ⟨e.2.inner.blank, e.2.region⟩)) }

def TermDefs.blank (x : TermDefs) : TermDefs :=
  ⟨⟨Inline.blanks x.term.inner, x.term.region⟩,
    ⟨x.defs.inner.map (fun d => ⟨Inline.blanks d.inner, d.region⟩), x.defs.region⟩⟩

def Placeholder.blank : Placeholder → Placeholder
  | .title _ => .title []
  | .noHtml => .noHtml
  | .template _ => .template []
  | .date d => .date d
  | .other _ _ => .other [] []

def ItemType.blank : ItemType → ItemType
  | .other _ => .other []
  | t => t

mutual
def Block.blank : Block → Block
  | .blockquote ls => .blockquote (ls.map fun _ => [])
  | .code lang m ls => .code (lang.map fun _ => []) m.blank (ls.map fun _ => [])
  | .defs xs => .defs (xs.map (fun x => ⟨x.inner.blank, x.region⟩))
  | .divider => .divider
  | .header c n b => .header (Inline.blanks c) n b
  | .list xs => .list (Block.blankItems xs)
  | .math ls e => .math (ls.map fun _ => []) (e.map fun _ => [])
  | .paragraph rs => .paragraph (rs.map Inline.blanks)
  | .placeholder p => .placeholder p.blank
  | .table t => .table t.blank
def Block.blankItems : List (Located (ItemF Block)) → List (Located (ItemF Block))
  | [] => []
  | ⟨⟨ty, su, pos, cs, td⟩, r⟩ :: xs =>
    ⟨⟨ty.blank, su, pos, Block.blanks cs, td⟩, r⟩ :: Block.blankItems xs
def Block.blanks : List (Located Block) → List (Located Block)
  | [] => []
  | ⟨x, r⟩ :: xs => ⟨Block.blank x, r⟩ :: Block.blanks xs
end

/-- The element with all texts replaced by empty ones. -/
def Parsed.blank : Parsed → Parsed
  | .page p => .page ⟨Block.blanks p.elements⟩
  | .block b => .block ⟨b.inner.blank, b.region⟩
  | .inlines x => .inlines ⟨Inline.blanks x.inner, x.region⟩
  | .inline x => .inline ⟨x.inner.blank, x.region⟩
  | .item i => .item ⟨{ i.inner with ty := i.inner.ty.blank, contents := Block.blanks i.inner.contents }, i.region⟩

/-! ## Maps of texts -/

def Description.maps : Description → List Map
  | .text _ => []
  | .transclusion _ none p => p.toList
  | .transclusion _ (some d) p => Description.maps d ++ p.toList

def LinkData.maps (x : LinkData) : List Map := x.desc.toList.flatMap Description.maps ++ x.props.toList

def Link.maps : Link → List Map
  | .wiki d => d.maps
  | .indexed _ d => d.maps
  | .named _ d => d.maps
  | .diary _ d => d.maps
  | .raw d => d.maps
  | .transclusion d => d.maps

mutual
def Inline.maps : Inline → List Map
  | .decorated _ xs => Inline.mapsAll xs
  | .link l => l.maps
  | .text _ => []
  | .keyword _ => []
  | .tags _ => []
  | .code _ => []
  | .math _ => []
  | .comment _ => []
def Inline.mapsAll : List (Located Inline) → List Map
  | [] => []
  | ⟨x, _⟩ :: xs => Inline.maps x ++ Inline.mapsAll xs
end

def Cell.maps : Cell → List Map
  | .content c => Inline.mapsAll c
  | .span _ => []
  | .align _ => []

def TermDefs.maps (x : TermDefs) : List Map :=
  Inline.mapsAll x.term.inner ++ x.defs.inner.flatMap fun d => Inline.mapsAll d.inner

mutual
def Block.maps : Block → List Map
  | .blockquote _ => []
  | .code _ m _ => [m]
  | .defs xs => xs.flatMap fun x => x.inner.maps
  | .divider => []
  | .header c _ _ => Inline.mapsAll c
  | .list xs => Block.mapsItems xs
  | .math _ _ => []
  | .paragraph rs => rs.flatMap Inline.mapsAll
  | .placeholder _ => []
  | .table t => t.cells.flatMap fun e => e.2.inner.maps
def Block.mapsItems : List (Located (ItemF Block)) → List Map
  | [] => []
  | ⟨⟨_, _, _, cs, _⟩, _⟩ :: xs => Block.mapsAll cs ++ Block.mapsItems xs
def Block.mapsAll : List (Located Block) → List Map
  | [] => []
  | ⟨x, _⟩ :: xs => Block.maps x ++ Block.mapsAll xs
end

/-- The metadata of code blocks and the properties of links in the element. -/
def Parsed.maps : Parsed → List Map
  | .page p => Block.mapsAll p.elements
  | .block b => b.inner.maps
  | .inlines x => Inline.mapsAll x.inner
  | .inline x => x.inner.maps
  | .item i => Block.mapsAll i.inner.contents

/-! ## Formatting all texts of an element -/

/-- Texts and what they stand for, with the number of the next argument before and after
them. `render` is how `std::format!` writes what a text stands for; nothing if an argument
cannot be written that way. -/
inductive Formatted {α : Type} (args : FormatArgs α) (render : List (FOut α) → Option Str) :
    Nat → List Str → List Str → Nat → Prop where
  | nil (n : Nat) : Formatted args render n [] [] n
  | cons {n m k : Nat} {ps : List FPart} {outs : List (FOut α)} {u : Str} {ts us : List Str}
      (simple : ∀ p ∈ ps, p.Simple) (small : n + ps.length < 2 ^ 64)
      (meaning : formatMeaning args.positional args.named n ps = some (outs, m)) (shown : render outs = some u)
      (rest : Formatted args render m ts us k) :
      Formatted args render n (formatText ps :: ts) (u :: us) k

/-- An argument of one of the texts is missing or cannot be written. -/
def Lacking {α : Type} (args : FormatArgs α) (render : List (FOut α) → Option Str) (ts : List Str) : Prop :=
  ∃ a b us n ps, ts = a ++ formatText ps :: b ∧ Formatted args render 0 a us n ∧
    (∀ p ∈ ps, p.Simple) ∧ n + ps.length < 2 ^ 64 ∧
    ∀ outs m, formatMeaning args.positional args.named n ps = some (outs, m) → render outs = none

/-- `std::format!` accepts calls whose arguments are all used and writes what the text stands
for. -/
def FormatSound {α : Type} (format : FormatCall α → Option Str) (render : List (FOut α) → Option Str) : Prop :=
  ∀ (call : FormatCall α) (ps : List FPart) (outs : List (FOut α)), call.template = formatText ps →
    (∀ p ∈ ps, p.Simple) → formatMeaning call.positional call.named 0 ps = some (outs, 0) →
    (∀ i < call.positional.length, ∃ ds spec, FPart.hole (.num ds) spec ∈ ps ∧ decValue ds = i) →
    (∀ e ∈ call.named, ∃ spec, FPart.hole (.name e.1) spec ∈ ps) → (call.named.map (·.1)).Nodup →
    format call = render outs

/-- The two elements are of the same type and equal: up to regions for `st = false`, with
regions (`strict_eq`) for `st = true`. -/
def Parsed.Equal (st : Bool) (ue : Uri → Uri → Bool) : Parsed → Parsed → Prop
  | .page p, .page q => Block.eqvs st ue p.elements q.elements = true
  | .block b, .block b' => locEq st (Block.eqv st ue) b b' = true
  | .inlines x, .inlines y => locEq st (Inline.eqvs st ue) x y = true
  | .inline x, .inline y => locEq st (Inline.eqv st ue) x y = true
  | .item i, .item j => Block.eqvItems st ue [i] [j] = true
  | _, _ => False

end Vw
