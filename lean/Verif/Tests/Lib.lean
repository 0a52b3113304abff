import Verif.Model.HtmlOut
import Verif.Model.Blocks

/-!
# Libraries for the tests

Stand-ins for the URI, date and roman numeral libraries that follow the real ones closely enough to
run the project's own tests on the model. They are used in no theorem.
-/

namespace Vw.Tests

def isAlpha (b : Byte) : Bool := isLower b || isUpper b

def isHex (b : Byte) : Bool := isDigit b || (97 ≤ b && b ≤ 102) || (65 ≤ b && b ≤ 70)

/-- Characters of URIs; a percent sign needs two hexadecimal digits. -/
def uriChars : Str → Bool
  | [] => true
  | [b] => ok b
  | [b, c] => ok b && ok c
  | 37 :: a :: b :: rest => isHex a && isHex b && uriChars rest
  | b :: rest => ok b && uriChars rest
where ok (b : Byte) : Bool := isAlpha b || isDigit b || b!"-._~:/?#@!$&'()*+,;=".contains b

/-- Splits at each occurrence. -/
def splitOn (c : Byte) : Str → List Str
  | [] => [[]]
  | b :: bs =>
    if b == c then [] :: splitOn c bs
    else match splitOn c bs with
      | [] => [[b]]
      | x :: xs => (b :: x) :: xs

def cut (c : Byte) (s : Str) : Str × Option Str :=
  match s.dropWhile (· != c) with
  | [] => (s, none)
  | _ :: rest => (s.takeWhile (· != c), some rest)

/-- RFC 3986. -/
def uri (s : Str) : Option Uri :=
  if !uriChars s then none else
  let (s, fragment) := cut c!"#" s
  let (s, query) := cut c!"?" s
  let sc := s.takeWhile fun b => isAlpha b || isDigit b || b!"+-.".contains b
  let hasScheme := (s.drop sc.length).head? == some c!":" && sc.head?.any isAlpha
  let (scheme, s) := if hasScheme then (some (sc.map toLowerByte), s.drop (sc.length + 1)) else (none, s)
  let (authority, s) :=
    if b!"//".isPrefixOf s then
      let a := (s.drop 2).takeWhile (· != c!"/")
      (some a, s.drop (2 + a.length))
    else (none, s)
  let absolute := authority.isSome || s.head? == some c!"/"
  let segments := splitOn c!"/" (if s.head? == some c!"/" then s.drop 1 else s)
  if !hasScheme && authority.isNone && !absolute && segments.head?.any (·.contains c!":") then none
  else some ⟨scheme, authority, absolute, segments, query, fragment⟩

def uriStr (u : Uri) : Str :=
  (match u.scheme with | some s => s ++ b!":" | none => []) ++
  (match u.authority with | some a => b!"//" ++ a | none => []) ++
  (if u.absolute then b!"/" else []) ++ [c!"/"].intercalate u.segments ++
  (match u.query with | some q => c!"?" :: q | none => []) ++
  (match u.fragment with | some f => c!"#" :: f | none => [])

def num (s : Str) : Option Nat :=
  if s != [] && s.all isDigit then some (s.foldl (fun n b => 10 * n + (b - 48)) 0) else none

def date (s : Str) : Option Date :=
  match splitOn c!"-" s with
  | [y, m, d] => do
    let y ← num y
    let m ← num m
    let d ← num d
    if 1 ≤ m && m ≤ 12 && 1 ≤ d && d ≤ 31 then some ⟨y, m, d⟩ else none
  | _ => none

def env : Env := ⟨uri, date⟩

def pad (n : Nat) (s : Str) : Str := rep 48 (n - s.length) ++ s

def dateStr (d : Date) : Str := pad 4 (decStr d.year.toNat) ++ b!"-" ++ pad 2 (decStr d.month) ++ b!"-" ++ pad 2 (decStr d.day)

def out : OutLib := ⟨uriStr, id, dateStr, fun n => roman 20 n.toNat⟩
where
  roman : Nat → Nat → Str
    | 0, _ => []
    | k + 1, n =>
      if n ≥ 1000 then c!"M" :: roman k (n - 1000)
      else if n ≥ 900 then b!"CM" ++ roman k (n - 900)
      else if n ≥ 500 then b!"D" ++ roman k (n - 500)
      else if n ≥ 400 then b!"CD" ++ roman k (n - 400)
      else if n ≥ 100 then b!"C" ++ roman k (n - 100)
      else if n ≥ 90 then b!"XC" ++ roman k (n - 90)
      else if n ≥ 50 then b!"L" ++ roman k (n - 50)
      else if n ≥ 40 then b!"XL" ++ roman k (n - 40)
      else if n ≥ 10 then b!"X" ++ roman k (n - 10)
      else if n = 9 then b!"IX"
      else if n ≥ 5 then b!"V" ++ roman k (n - 5)
      else if n = 4 then b!"IV"
      else if n ≥ 1 then b!"I" ++ roman k (n - 1)
      else []

def loc (x : α) : Located α := ⟨x, ⟨0, 0, 0⟩⟩

/-- `URIReference::try_from(_).unwrap()` -/
def ref (s : Str) : Uri := (uri s).getD ⟨none, none, false, [], none, none⟩

/-- `HtmlWikiConfig::default()` with the home directory `/home`. -/
def defaultWiki : Wiki where
  path := .ofStr b!"/home/vimwiki"
  pathHtml := .ofStr b!"/home/vimwiki_html"
  name := none
  cssName := b!"style.css"
  ext := b!"wiki"
  diaryRel := .ofStr b!"diary"

/-- `HtmlConfig::default()` -/
def cfg : HtmlCfg where
  wikis := []
  wikiIndex := none
  page := .ofStr []
  defaultWiki := defaultWiki
  toc := b!"Contents"
  ignoreNewline := true
  comments := false
  templateText := b!"<html>%content%</html>"
  serverSide := false

def html : HtmlLib where
  toOutLib := out
  link := { relRef := uri, fragOk := uriChars, dateStr := dateStr }
  lower := List.map toLowerByte
  highlight _ _ := .error .theme
  readFile _ := none
  today := ⟨2021, 4, 27⟩

/-- The content after vimwiki writers. -/
def vw (ops : List (Fm → Option Fm)) : Option Str :=
  (ops.foldl (fun f op => f.bind op) (some Fm.new)).map (·.content)

/-- The formatter after HTML writers. -/
def end_ (ops : List W) : Option HFm :=
  match ops.foldl (fun (f : Except HtmlErr HFm) op => f.bind op) (.ok {}) with
  | .ok f => some f
  | .error _ => none

/-- The content after HTML writers. -/
def ht (ops : List W) : Option Str := (end_ ops).map (·.content)

/-- Parse and format. -/
def format (text : Str) : Option Str :=
  match parsePage env text with
  | .ok _ pg => pg.toVimwiki out {}
  | _ => none

end Vw.Tests
