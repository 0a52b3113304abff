import Verif.Model.Uri

/-!
# Inline elements

Models `/repo/vimwiki-core/src/lang/parsers/vimwiki/blocks/inline`.

Recursive parsers are written with an explicit parser argument for the
recursive call and tied with fuel (`...F`). `diverge` on exhausted fuel is
proved unreachable.
-/

namespace Vw
open P Scan

/-- `code_inline` (code.rs:13-25). -/
def codeInline : P (Located Inline) :=
  located (P.map (strOf (notContains b!"%%" (surroundInLine1 b!"`" b!"`"))) Inline.code)

/-- `math_inline` (math.rs:17-35). -/
def mathInline : P (Located Inline) :=
  located (P.map (strOf (delimited (char c!"$")
    (notContains b!"%%" (takeLineUntil1 b!"$")) (char c!"$"))) Inline.math)

/-- `tag_content` (tags.rs:29-35). -/
def tagContent : P Str := strOf (takeLineUntil31 b!":" b!" " b!"\t")

/-- `tags::inner` (tags.rs:18-24). -/
def tagsInner : P (List Str) :=
  P.bind (char c!":") fun _ => many1 (terminated tagContent (char c!":"))

/-- `tags` (tags.rs:17-27). -/
def tags : P (Located Inline) :=
  located (P.map (mapParser wholeWord tagsInner) Inline.tags)

/-- `line_comment` (comments.rs:30-40). -/
def lineComment : P (Located Inline) :=
  located (P.bind (tag b!"%%") fun _ =>
    P.map (strOf takeUntilEol) (fun s => Inline.comment (.line s)))

/-- The closure splitting a comment into lines (comments.rs:47-63). -/
def commentLines : P (List Str) :=
  P.bind (many0 (terminated (strOf takeUntilEol) lineEnding)) fun lines =>
    P.bind restLen fun remaining =>
      if remaining > 0 then P.map (strOf rest) (fun l => lines ++ [l])
      else P.pure lines

/-- `multi_line_comment` (comments.rs:42-71). -/
def multiLineComment : P (Located Inline) :=
  located (P.bind (tag b!"%%+") fun _ =>
    P.bind (mapParser (takeUntil b!"+%%") commentLines) fun lines =>
      P.bind (tag b!"+%%") fun _ => P.pure (Inline.comment (.multi lines)))

/-- `comment` (comments.rs:20-28). -/
def comment : P (Located Inline) := alt multiLineComment lineComment

/-- `keyword` (typefaces.rs:229-246). -/
def keyword : P (Located Inline) :=
  located (alts [
    P.value (Inline.keyword .done) (tag b!"DONE"),
    P.value (Inline.keyword .fixed) (tag b!"FIXED"),
    P.value (Inline.keyword .fixme) (tag b!"FIXME"),
    P.value (Inline.keyword .started) (tag b!"STARTED"),
    P.value (Inline.keyword .todo) (tag b!"TODO"),
    P.value (Inline.keyword .xxx) (tag b!"XXX")])

/-! ## Links -/

/-- The byte text of a URI (convert.rs:84): everything up to a blank, tab or
line ending. -/
def uriText : P Span :=
  recognize (many1 (P.pair (P.not singleMultispace) anychar))

/-- `uri_ref` (convert.rs:78-88). -/
def uriRef (env : Env) : P Uri := mapOpt uriText (fun s => env.uri s.asRemaining)

/-- The schemes accepted for raw links (raw.rs:18-23). -/
def rawSchemes : List Str :=
  [b!"http", b!"https", b!"ftp", b!"file", b!"local", b!"mailto"]

/-- `raw_link` (raw.rs:10-29). -/
def rawLink (env : Env) : P (Located Inline) :=
  located (P.map (verify (uriRef env) (fun u =>
      match u.scheme with
      | some s => rawSchemes.contains s
      | none => false))
    (fun u => Inline.link (.raw ⟨u, none, none⟩)))

/-- `link_uri_ref` (links/mod.rs:99-122). -/
def linkUriRef (env : Env) : P Uri :=
  mapOpt (takeLineUntil31 b!"|" b!"]]" b!"}}") (fun s =>
    match env.uri s.asRemaining with
    | some u => some u
    | none => env.uri (encodeUri s.asRemaining))

/-- `link_properties` (links/mod.rs:155-176). -/
def linkProperties : P Map :=
  P.bind (tag b!"|") fun _ =>
    P.map (separatedList1 space1
      (separatedPair (strOf (takeLineUntil1 b!"=")) (tag b!"=")
        (strOf (delimited (tag b!"\"") (takeLineUntil b!"\"") (tag b!"\"")))))
      Map.collect

/-- The span inside `{{...}}` (transclusion.rs:20). -/
def braces : P Span := notContains b!"%%" (surroundInLine1 b!"{{" b!"}}")

/-- The span inside `[[...]]` (wiki.rs:21 and the same lines elsewhere). -/
def brackets : P Span := notContains b!"%%" (surroundInLine1 b!"[[" b!"]]")

/-- `transclusion_link` (transclusion.rs:11-24) given `link_data`. -/
def transclusionOf (linkData : P LinkData) : P (Located LinkData) :=
  located (mapParser braces linkData)

/-- `link_description` (links/mod.rs:129-144) given `link_data`. -/
def linkDescriptionOf (linkData : P LinkData) : P Description :=
  P.bind (tag b!"|") fun _ =>
    mapParser (takeLineUntil b!"|")
      (alt
        (P.map (transclusionOf linkData)
          (fun l => Description.transclusion l.inner.uri l.inner.desc l.inner.props))
        (P.map rest (fun s => Description.text s.asRemaining)))

/-- `link_data` (links/mod.rs:84-93) with fuel. -/
def linkDataF (env : Env) : Nat → P LinkData
  | 0 => fun _ => .diverge
  | n + 1 =>
    P.bind (linkUriRef env) fun u =>
      P.bind (opt (linkDescriptionOf (linkDataF env n))) fun d =>
        P.bind (opt linkProperties) fun ps => P.pure ⟨u, d, ps⟩

/-- `link_data`. -/
def linkData (env : Env) : P LinkData := fun s => linkDataF env (s.remainingLen + 1) s

/-- `link_description`. -/
def linkDescription (env : Env) : P Description := linkDescriptionOf (linkData env)

/-- `transclusion_link` (transclusion.rs:11-24). -/
def transclusionLink (env : Env) : P (Located Inline) :=
  P.map (transclusionOf (linkData env)) (fun l => l.map (fun d => Inline.link (.transclusion d)))

/-- `wiki_link` (wiki.rs:12-25). -/
def wikiLink (env : Env) : P (Located Inline) :=
  located (P.map (mapParser brackets (linkData env)) (fun d => Inline.link (.wiki d)))

/-- Decimal digits to a number; `none` on another byte. -/
def digitsVal : Nat → Str → Option Nat
  | acc, [] => some acc
  | acc, b :: bs => if isDigit b then digitsVal (acc * 10 + (b - 48)) bs else none

/-- `str::parse::<u32>`: an optional `+`, at least one digit, below `2^32`. -/
def parseU32 (s : Str) : Option Nat :=
  let ds := match s with
    | 43 :: t => t
    | _ => s
  if ds.isEmpty then none
  else match digitsVal 0 ds with
    | some n => if n < 4294967296 then some n else none
    | none => none

/-- `indexed_link_index` (interwiki.rs:45-50). -/
def indexedLinkIndex : P Nat :=
  mapOpt (delimited (tag b!"wiki") (takeLineUntil1 b!":") (tag b!":"))
    (fun s => parseU32 s.asRemaining)

/-- `indexed_interwiki_link` (interwiki.rs:19-43). -/
def indexedInterwikiLink (env : Env) : P (Located Inline) :=
  located (mapParser brackets (
    P.bind indexedLinkIndex fun i =>
      P.bind (linkUriRef env) fun u =>
        P.bind (opt (linkDescription env)) fun d =>
          P.pure (Inline.link (.indexed i ⟨u, d, none⟩))))

/-- `named_link_name` (interwiki.rs:78-83). -/
def namedLinkName : P Str :=
  strOf (delimited (tag b!"wn.") (takeLineUntil1 b!":") (tag b!":"))

/-- `named_interwiki_link` (interwiki.rs:52-76). -/
def namedInterwikiLink (env : Env) : P (Located Inline) :=
  located (mapParser brackets (
    P.bind namedLinkName fun n =>
      P.bind (linkUriRef env) fun u =>
        P.bind (opt (linkDescription env)) fun d =>
          P.pure (Inline.link (.named n ⟨u, d, none⟩))))

/-- `link_anchor` (links/mod.rs:146-150). -/
def linkAnchor : P Anchor :=
  mapOpt (takeLineUntil b!"|") (fun s => Anchor.fromUriFragment s.asRemaining)

/-- The URI text of a diary link: its encoded anchor or nothing
(elements links/mod.rs:164-172). -/
def diaryUriText : Option Anchor → Str
  | some a => a.toEncodedUriFragment
  | none => []

/-- `Link::new_diary_link` (elements links/mod.rs:157-180). The `unwrap` of the
anchor's URI is a panic. -/
def newDiaryLink (env : Env) (date : Date) (desc : Option Description)
    (anchor : Option Anchor) : P Inline := fun s =>
  match env.uri (diaryUriText anchor) with
  | some u => .ok s (.link (.diary date ⟨u, desc, none⟩))
  | none => .panic .diaryUnwrap

/-- `diary_link` (diary.rs:18-52). -/
def diaryLink (env : Env) : P (Located Inline) :=
  located (mapParser brackets (
    P.bind (tag b!"diary:") fun _ =>
      P.bind (mapOpt (takeLineUntil21 b!"|" b!"#") (fun s => env.date s.asRemaining)) fun date =>
        P.bind (opt linkAnchor) fun anchor =>
          P.bind (opt (linkDescription env)) fun d => newDiaryLink env date d anchor))

/-- `link` (links/mod.rs:57-78). -/
def link (env : Env) : P (Located Inline) :=
  alts [diaryLink env, indexedInterwikiLink env, namedInterwikiLink env,
    wikiLink env, rawLink env, transclusionLink env]

/-! ## Decorated text and text -/

/-- The five decorations (typefaces.rs:144-207): variant and delimiter. -/
def decorated1 (contents : P Inlines) (kind : Deco) (delim : Str) : P Inline :=
  P.map (mapParser (notContains b!"%%" (surroundInLine1 delim delim)) (deeper contents))
    (Inline.decorated kind)

/-- `decorated_text` (typefaces.rs:131-142) given `decorated_text_contents`. -/
def decoratedOf (contents : P Inlines) : P (Located Inline) :=
  located (alts [
    decorated1 contents .bold b!"*",
    decorated1 contents .italic b!"_",
    decorated1 contents .strikeout b!"~~",
    decorated1 contents .superscript b!"^",
    decorated1 contents .subscript b!",,"])

/-- Bytes to go back from a `:` to the last ASCII whitespace
(typefaces.rs:73-81). -/
def backtrackLen (consumed : Str) : Nat :=
  (consumed.reverse.takeWhile (fun c => !isAsciiWs c)).length

/-- The raw link special case of `non_text` (typefaces.rs:69-85). -/
def rawLinkBack (env : Env) : P (Located Inline) := fun s =>
  rawLink env (s.backtrackStartBy (backtrackLen s.asConsumed))

/-- `non_text` (typefaces.rs:33-89) given `decorated_text`. -/
def nonTextOf (env : Env) (deco : P (Located Inline)) : P (Located Inline) :=
  alts [
    preceded (peek (char c!"%")) comment,
    preceded (peek (char c!"`")) codeInline,
    preceded (peek (char c!"$")) mathInline,
    preceded (peek (char c!":")) tags,
    preceded (peek (alt (char c!"[") (char c!"{"))) (link env),
    preceded (peek (oneOf b!"*_~^,")) deco,
    keyword,
    preceded (peek (char c!":")) (rawLinkBack env)]

/-- `as_remaining()[0] == b'\n' || ... "\r\n"` (typefaces.rs:97-100). -/
def atLineEnd (bytes : Str) : Bool :=
  match bytes with
  | 10 :: _ => true
  | 13 :: 10 :: _ => true
  | _ => false

/-- The loop of `text` (typefaces.rs:95-117). The result is the final `len`;
`none` for the fuel, an error value for a panic. -/
def textLoop (nonText : P (Located Inline)) : Nat → Span → Nat → Res Nat
  | 0, _, _ => .diverge
  | n + 1, s, len =>
    if s.remainingLen > 0 then
      if atLineEnd s.asRemaining then .ok s len
      else
        match nonText s with
        | .ok _ x =>
          if x.region.offset < s.start then
            if len < s.start - x.region.offset then .panic .textUnderflow
            else .ok s (len - (s.start - x.region.offset))
          else .ok s len
        | .panic r => .panic r
        | .diverge => .diverge
        | .err => textLoop nonText n (s.advanceStartBy 1) (len + 1)
    else .ok s len

/-- `text` (typefaces.rs:32-128) given `decorated_text`. -/
def textOf (env : Env) (deco : P (Located Inline)) : P (Located Inline) :=
  located (fun s =>
    match textLoop (nonTextOf env deco) (s.remainingLen + 1) s 0 with
    | .ok _ len =>
      if len > 0 then
        .ok (s.advanceStartBy len) (Inline.text (s.withLength len).asRemaining)
      else .err
    | .err => .err
    | .panic r => .panic r
    | .diverge => .diverge)

/-- `decorated_text_contents` (typefaces.rs:209-226) with fuel. -/
def decoContentsF (env : Env) : Nat → P Inlines
  | 0 => fun _ => .diverge
  | n + 1 =>
    many1 (alts [
      link env,
      keyword,
      decoratedOf (decoContentsF env n),
      textOf env (decoratedOf (decoContentsF env n))])

/-- `decorated_text`. The contents are at least two bytes shorter than the
input, so `remaining` is enough fuel. -/
def decoratedText (env : Env) : P (Located Inline) := fun s =>
  decoratedOf (decoContentsF env s.remainingLen) s

/-- `text`. -/
def text (env : Env) : P (Located Inline) := textOf env (decoratedText env)

/-- `inline_element` (inline/mod.rs:34-53). -/
def inlineElement (env : Env) : P (Located Inline) :=
  alts [comment, mathInline, codeInline, tags, link env, decoratedText env,
    keyword, text env]

/-- `inline_element_container` (inline/mod.rs:20-30). -/
def inlineContainer (env : Env) : P (Located Inlines) :=
  located (many1 (deeper (inlineElement env)))

end Vw
