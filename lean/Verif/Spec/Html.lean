import Verif.Model.HtmlOut
import Verif.Spec.Strings
import Verif.Spec.Elements
import Verif.Spec.Tables

/-!
# What HTML is

Trees of elements and the text they stand for, the tags of a text, character references,
and the substitution of a placeholder.
-/

namespace Vw

/-! ## Trees -/

/-- A piece of HTML. -/
inductive Html where
  | text (s : Str)
  | elem (name : Str) (attrs : List (Str × Str)) (children : List Html)
  | void (name : Str) (attrs : List (Str × Str))

/-- The text of attributes. -/
def renderAttrs : List (Str × Str) → Str
  | [] => []
  | (k, v) :: rest => b!" " ++ k ++ b!"=\"" ++ v ++ b!"\"" ++ renderAttrs rest

mutual
/-- The text of a piece. -/
def Html.render : Html → Str
  | .text s => s
  | .elem n as cs => b!"<" ++ n ++ renderAttrs as ++ b!">" ++ Html.renderAll cs ++ b!"</" ++ n ++ b!">"
  | .void n as => b!"<" ++ n ++ renderAttrs as ++ b!" />"
/-- The text of several pieces. -/
def Html.renderAll : List Html → Str
  | [] => []
  | x :: xs => Html.render x ++ Html.renderAll xs
end

/-- The elements without closing tag that occur. -/
def voidNames : List Str := [b!"br", b!"hr", b!"img"]

/-- An element name: lowercase letters and digits. -/
def NameOk (n : Str) : Prop := n ≠ [] ∧ ∀ b ∈ n, isLower b ∨ isDigit b

/-- An attribute name of the HTML syntax: no blanks, controls, quotes, `>`, `/` and
`=`. -/
def KeyOk (k : Str) : Prop :=
  k ≠ [] ∧ ∀ b ∈ k, 32 < b ∧ b ≠ c!"\"" ∧ b ≠ c!"'" ∧ b ≠ c!">" ∧ b ≠ c!"/" ∧ b ≠ c!"="

instance (n : Str) : Decidable (NameOk n) := inferInstanceAs (Decidable (_ ∧ _))
instance (k : Str) : Decidable (KeyOk k) := inferInstanceAs (Decidable (_ ∧ _))

/-- The attributes are well formed: the names are, and the values contain no quote. -/
def AttrsOk (as : List (Str × Str)) : Prop := ∀ a ∈ as, KeyOk a.1 ∧ c!"\"" ∉ a.2

mutual
/-- A piece is well formed. -/
def Html.Ok : Html → Prop
  | .text s => c!"<" ∉ s ∧ c!">" ∉ s
  | .elem n as cs => NameOk n ∧ n ∉ voidNames ∧ AttrsOk as ∧ Html.OkAll cs
  | .void n as => n ∈ voidNames ∧ AttrsOk as
/-- Several pieces are well formed. -/
def Html.OkAll : List Html → Prop
  | [] => True
  | x :: xs => Html.Ok x ∧ Html.OkAll xs
end

/-- The values of the `id` attributes in a list. -/
def idsOf (as : List (Str × Str)) : List Str := (as.filter fun a => a.1 = b!"id").map (·.2)

mutual
/-- The ids in a piece. -/
def Html.ids : Html → List Str
  | .text _ => []
  | .elem _ as cs => idsOf as ++ Html.idsAll cs
  | .void _ as => idsOf as
/-- The ids in several pieces. -/
def Html.idsAll : List Html → List Str
  | [] => []
  | x :: xs => Html.ids x ++ Html.idsAll xs
end

mutual
/-- The text a reader sees in a piece, still with character references. -/
def Html.chars : Html → Str
  | .text s => s
  | .elem _ _ cs => Html.charsAll cs
  | .void _ _ => []
/-- The text a reader sees in several pieces. -/
def Html.charsAll : List Html → Str
  | [] => []
  | x :: xs => Html.chars x ++ Html.charsAll xs
end

/-! ## Tags of a text -/

/-- A tag. -/
inductive Tag where
  | opening (name : Str)
  | closing (name : Str)
  | single (name : Str)
deriving DecidableEq, Repr

/-- Cuts a text after the first `>` outside quotes: what is before it, and the rest. -/
def tagEnd : Bool → Str → Str × Str
  | _, [] => ([], [])
  | q, b :: bs =>
    if b = c!">" ∧ q = false then ([], bs)
    else
      let r := tagEnd (if b = c!"\"" then !q else q) bs
      (b :: r.1, r.2)

/-- The name at the start of a tag. -/
def tagName (s : Str) : Str := s.takeWhile fun b => isLower b || isDigit b

/-- The tag with the given text between `<` and `>`. -/
def tagOf : Str → Tag
  | 47 :: s => .closing (tagName s)
  | s => if tagName s ∈ voidNames then .single (tagName s) else .opening (tagName s)

/-- The tags of a text; the first argument bounds their number. -/
def tagsF : Nat → Str → List Tag
  | 0, _ => []
  | n + 1, s =>
    match s.dropWhile (fun b => b ≠ c!"<") with
    | [] => []
    | _ :: r => tagOf (tagEnd false r).1 :: tagsF n (tagEnd false r).2

/-- The tags of a text in order. -/
def htmlTags (s : Str) : List Tag := tagsF s.length s

/-- Every closing tag closes the last open element, and nothing is left open. The first
argument holds the open elements. -/
def balanced : List Str → List Tag → Bool
  | stack, [] => stack.isEmpty
  | stack, .opening n :: ts => balanced (n :: stack) ts
  | stack, .single _ :: ts => balanced stack ts
  | [], .closing _ :: _ => false
  | m :: stack, .closing n :: ts => m == n && balanced stack ts

/-! ## Character references -/

/-- Replaces the six character references that occur by their characters. -/
def unescape : Str → Str
  | 38 :: 97 :: 109 :: 112 :: 59 :: r => c!"&" :: unescape r
  | 38 :: 108 :: 116 :: 59 :: r => c!"<" :: unescape r
  | 38 :: 103 :: 116 :: 59 :: r => c!">" :: unescape r
  | 38 :: 113 :: 117 :: 111 :: 116 :: 59 :: r => c!"\"" :: unescape r
  | 38 :: 35 :: 120 :: 50 :: 55 :: 59 :: r => c!"'" :: unescape r
  | 38 :: 35 :: 120 :: 54 :: 48 :: 59 :: r => c!"`" :: unescape r
  | b :: r => b :: unescape r
  | [] => []

/-- The text has no character with a meaning in HTML other than `&`. -/
def NoMarkup (s : Str) : Prop := ∀ b ∈ s, b ≠ c!"<" ∧ b ≠ c!">" ∧ b ≠ c!"\"" ∧ b ≠ c!"'" ∧ b ≠ c!"`"

/-! ## Words -/

/-- A whitespace character, as bytes. -/
def WsChar (s : Str) : Prop := s ∈ wsChars

/-- No whitespace character occurs in the text. -/
def NoWs (s : Str) : Prop := ∀ a w b, s = a ++ w ++ b → ¬ WsChar w

/-- The words of a text: `ws` are the pieces between whitespace characters. -/
inductive Words : Str → List Str → Prop
  | nil : Words [] []
  | word {w : Str} (h : NoWs w) (hn : w ≠ []) : Words w [w]
  | blank {c s : Str} {ws : List Str} (h : WsChar c) (hw : Words s ws) : Words (c ++ s) ws
  | next {w c s : Str} {ws : List Str} (h : NoWs w) (hn : w ≠ []) (hc : WsChar c) (hw : Words s ws) :
    Words (w ++ c ++ s) (w :: ws)

/-! ## Unique ids -/

/-- A sequence of calls of `ensure_unique_id` on a formatter, with the results. -/
inductive Calls : IdCache → List Str → List Str → IdCache → Prop
  | nil (c : IdCache) : Calls c [] [] c
  | cons {c c' c'' : IdCache} {r o : Str} {rs os : List Str} (h : c.unique r = some (o, c'))
    (ht : Calls c' rs os c'') : Calls c (r :: rs) (o :: os) c''

/-! ## Placeholders -/

/-- The pieces of a text between the occurrences of a pattern, from the left. -/
inductive SplitAt (pat : Str) : Str → List Str → Prop
  | last {s : Str} (h : ¬ pat <:+: s) : SplitAt pat s [s]
  | next {a s : Str} {ps : List Str} (h : ∀ x y, a ++ pat = x ++ pat ++ y → x = a)
    (hs : SplitAt pat s ps) : SplitAt pat (a ++ pat ++ s) (a :: ps)

/-! ## Ids and attributes a page asks for -/

/-- The names of the properties of a link. -/
def propKeys : Option Map → List Str
  | none => []
  | some m => m.map (·.1)

/-- The names of the properties that become attributes: those of the link, and those of
an image that is its description. -/
def LinkData.keys (d : LinkData) : List Str :=
  propKeys d.props ++ (match d.desc with
    | some (.transclusion _ _ p) => propKeys p
    | _ => [])

/-- The ids an inline element asks for, before they are made unique or complete. -/
def Inline.baseIds (L : HtmlLib) : Inline → List Str
  | .decorated .bold cs => [normalizeId L.lower (Inline.displayAll L.toOutLib cs)]
  | .tags ts => ts.map (normalizeId L.lower)
  | _ => []

/-- The id a header asks for. -/
def Block.baseIds (L : HtmlLib) : Block → List Str
  | .header xs _ _ => [normalizeId L.lower (Inline.displayAll L.toOutLib xs)]
  | _ => []

/-- The ids the elements of a page ask for. -/
def Page.baseIds (L : HtmlLib) (p : Page) : List Str :=
  (p.inlines.flatMap fun x => x.inner.baseIds L) ++ p.blocks.flatMap fun x => x.inner.baseIds L

/-- Ids joined by dashes: what a complete id is made of. -/
inductive Joined (B : Str → Prop) : Str → Prop
  | one {x : Str} (h : B x) : Joined B x
  | more {x y : Str} (h : B x) (hy : Joined B y) : Joined B (x ++ b!"-" ++ y)

/-- The parts of an inline element that are not escaped are harmless; with `k` no
property is called `id`. -/
def Inline.Clean (k : Prop) : Inline → Prop
  | .link l => ∀ x ∈ l.data.keys, KeyOk x ∧ (k → x ≠ b!"id")
  | _ => True

/-- The parts of a block that are not escaped are harmless; with `k` no entry of the
metadata of a code block is called `id`. Tables are made by the constructor. -/
def Block.Clean (k : Prop) : Block → Prop
  | .code lang m _ => (∀ l ∈ lang, c!"\"" ∉ l) ∧
    ∀ e ∈ m, KeyOk e.1 ∧ c!"\"" ∉ e.2 ∧ (k → e.1 ≠ b!"id")
  | .math _ env => ∀ e ∈ env, c!"<" ∉ e ∧ c!">" ∉ e
  | .table t => t.Built
  | _ => True

/-- Every element of a page is clean. -/
def Page.Clean (k : Prop) (p : Page) : Prop :=
  (∀ x ∈ p.inlines, x.inner.Clean k) ∧ ∀ x ∈ p.blocks, x.inner.Clean k

/-- What is assumed of the libraries: URIs contain no quote, `<` and `>`, and the
highlighter writes all of a well-formed `pre` element without ids but its last tag. -/
structure HtmlLib.Sound (L : HtmlLib) : Prop where
  uri : ∀ u, ∀ b ∈ L.uriStr u, b ≠ c!"\"" ∧ b ≠ c!"<" ∧ b ≠ c!">"
  highlight : ∀ lang ls s, L.highlight lang ls = .ok s →
    ∃ as cs, s ++ b!"</pre>" = Html.render (.elem b!"pre" as cs) ∧ Html.Ok (.elem b!"pre" as cs) ∧
      Html.ids (.elem b!"pre" as cs) = []

end Vw
