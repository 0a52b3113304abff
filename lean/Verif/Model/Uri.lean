import Verif.Model.Ast

/-!
# Anchors and percent encoding

Models `/repo/vimwiki-core/src/lang/elements/blocks/inline/links/{anchor,data}.rs`.
-/

namespace Vw

/-- Uppercase hexadecimal digit, as written by the `percent_encoding` crate. -/
def hexDigit (n : Nat) : Byte := if n < 10 then 48 + n else 55 + n

/-- `percent_encoding::percent_encode_byte`. -/
def percentByte (b : Byte) : Str := [37, hexDigit (b / 16 % 16), hexDigit (b % 16)]

/-- Membership in the `FRAGMENT` set of `encode_uri` (data.rs:84-90), together
with the rule of the `percent_encoding` crate that non-ASCII bytes are always
encoded. `CONTROLS` is 0x00-0x1F and 0x7F. -/
def mustEncode (b : Byte) : Bool :=
  b ≥ 128 || b < 32 || b == 127
    || b == 32 || b == 34 || b == 60 || b == 62 || b == 96 || b == 35

/-- `percent_encode(..).to_string()` (data.rs:94-95). -/
def percentEncode : Str → Str
  | [] => []
  | b :: bs => (if mustEncode b then percentByte b else [b]) ++ percentEncode bs

/-- `str::replacen(pat, to, 1)` for a non-empty pattern. -/
def replaceFirst (pat to : Str) : Str → Str
  | [] => []
  | b :: bs =>
    if pat.isPrefixOf (b :: bs) then to ++ (b :: bs).drop pat.length
    else b :: replaceFirst pat to bs

/-- `LinkData::encode_uri` (data.rs:79-98). -/
def encodeUri (s : Str) : Str := replaceFirst b!"%23" b!"#" (percentEncode s)

/-- Value of a hexadecimal digit. -/
def hexVal (b : Byte) : Option Nat :=
  if 48 ≤ b ∧ b ≤ 57 then some (b - 48)
  else if 65 ≤ b ∧ b ≤ 70 then some (b - 55)
  else if 97 ≤ b ∧ b ≤ 102 then some (b - 87)
  else none

/-- `percent_decode` (data.rs:100-102): `%` followed by two hex digits is one
byte; anything else is copied. The lossy UTF-8 step is not modelled, so this is
the decoded byte sequence. -/
def percentDecode : Str → Str
  | [] => []
  | [a] => [a]
  | [a, b] => [a, b]
  | a :: b :: c :: rest =>
    if a = 37 then
      match hexVal b, hexVal c with
      | some h, some l => (h * 16 + l) :: percentDecode rest
      | _, _ => a :: percentDecode (b :: c :: rest)
    else a :: percentDecode (b :: c :: rest)

/-- `str::split(char)` for a one byte separator. -/
def splitOn (sep : Byte) : Str → List Str
  | [] => [[]]
  | b :: bs =>
    if b = sep then [] :: splitOn sep bs
    else
      match splitOn sep bs with
      | [] => [[b]]
      | p :: ps => (b :: p) :: ps

/-- `str::split(&str)` for a three byte separator (`"%23"`, data.rs:193). -/
def splitOn3 (x y z : Byte) : Str → List Str
  | [] => [[]]
  | [a] => [[a]]
  | [a, b] => [[a, b]]
  | a :: b :: c :: rest =>
    if a = x ∧ b = y ∧ c = z then [] :: splitOn3 x y z rest
    else
      match splitOn3 x y z (b :: c :: rest) with
      | [] => [[a]]
      | p :: ps => (a :: p) :: ps

/-- `[..].join(sep)`. -/
def joinWith (sep : Str) : List Str → Str
  | [] => []
  | [a] => a
  | a :: b :: rest => a ++ sep ++ joinWith sep (b :: rest)

/-- `Anchor` (anchor.rs:26-29). -/
abbrev Anchor := List Str

namespace Anchor

/-- `to_encoded_uri_fragment` (anchor.rs:61-70). -/
def toEncodedUriFragment (a : Anchor) : Str :=
  if a.isEmpty then [] else c!"#" :: joinWith b!"%23" a

/-- `from_uri_fragment` (anchor.rs:76-87). -/
def fromUriFragment (s : Str) : Option Anchor :=
  match splitOn c!"#" s with
  | [] => none
  | p :: ps => if p.isEmpty then some ps else none

/-- `Display for Anchor` (anchor.rs:89-97). -/
def display (a : Anchor) : Str :=
  if a.isEmpty then [] else c!"#" :: joinWith b!"#" a

end Anchor

namespace LinkData

/-- `has_anchor` (data.rs:183-185). -/
def hasAnchor (d : LinkData) : Bool := d.uri.fragment.isSome

/-- `is_local_anchor` (data.rs:112-124). -/
def isLocalAnchor (d : LinkData) : Bool :=
  d.uri.scheme.isNone && d.uri.authority.isNone
    && (d.uri.segments.isEmpty || d.uri.segments.all (·.isEmpty))
    && d.uri.query.isNone && d.hasAnchor

/-- `is_path_dir` (data.rs:129-138). -/
def isPathDir (d : LinkData) : Bool :=
  match d.uri.segments.getLast? with
  | some s => s.isEmpty
  | none => false

/-- `is_local` (data.rs:141-149). -/
def isLocal (d : LinkData) : Bool :=
  match d.uri.scheme with
  | none => true
  | some s => s == b!"file" || s == b!"local"

/-- `to_anchor` (data.rs:188-194). -/
def toAnchor (d : LinkData) : Option Anchor :=
  d.uri.fragment.map (splitOn3 c!"%" c!"2" c!"3")

end LinkData
end Vw
