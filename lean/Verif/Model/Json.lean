import Verif.Model.Text

/-!
# JSON as text

Models the parts of the external crate `serde_json` that the command line tool calls:
`to_writer_pretty` and `from_reader` (`/repo/vimwiki-cli/src/ast.rs`:243-246, 289).
-/

namespace Vw

/-- A JSON value as it is written. Numbers with a sign, a fraction or an exponent do not occur in pages. -/
inductive Json where
  | null
  | bool (b : Bool)
  | num (n : Nat)
  | str (s : Str)
  | arr (xs : List Json)
  | obj (fs : List (Str × Json))
  /-- An object whose serialisation ends with an error after the opening brace. -/
  | torn
deriving Repr

namespace Json

/-- The digit `n` in lower case hexadecimal. -/
def hexLower (n : Nat) : Byte := if n < 10 then 48 + n else 87 + n

/-- One byte in a string (`format_escaped_str`): quotation marks, backslashes and control characters are
escaped, all other bytes are copied. -/
def escByte (b : Byte) : Str :=
  if b = 34 then b!"\\\""
  else if b = 92 then b!"\\\\"
  else if b = 8 then b!"\\b"
  else if b = 9 then b!"\\t"
  else if b = 10 then b!"\\n"
  else if b = 12 then b!"\\f"
  else if b = 13 then b!"\\r"
  else if b < 32 then b!"\\u00" ++ [hexLower (b / 16), hexLower (b % 16)]
  else [b]

/-- A string with its quotation marks. -/
def writeStr (s : Str) : Str := b!"\"" ++ s.flatMap escByte ++ b!"\""

/-- The line break and the indentation in front of an entry (`PrettyFormatter`). -/
def newLine (ind : Nat) : Str := 10 :: List.replicate (2 * ind) 32

mutual
/-- What `to_writer_pretty` writes for a value at the indentation `ind`, and whether it gets to the end. -/
def write (ind : Nat) : Json → Str × Bool
  | .null => (b!"null", true)
  | .bool b => (if b then b!"true" else b!"false", true)
  | .num n => (decStr n, true)
  | .str s => (writeStr s, true)
  | .arr [] => (b!"[]", true)
  | .arr (x :: xs) =>
    let r := writeItems (ind + 1) true (x :: xs)
    if r.2 then (b!"[" ++ r.1 ++ newLine ind ++ b!"]", true) else (b!"[" ++ r.1, false)
  | .obj [] => (b!"{}", true)
  | .obj (f :: fs) =>
    let r := writeFields (ind + 1) true (f :: fs)
    if r.2 then (b!"{" ++ r.1 ++ newLine ind ++ b!"}", true) else (b!"{" ++ r.1, false)
  | .torn => (b!"{", false)
/-- The entries of an array. -/
def writeItems (ind : Nat) (first : Bool) : List Json → Str × Bool
  | [] => ([], true)
  | x :: xs =>
    let r := write ind x
    let s := (if first then [] else b!",") ++ newLine ind ++ r.1
    if r.2 then (s ++ (writeItems ind false xs).1, (writeItems ind false xs).2) else (s, false)
/-- The entries of an object. -/
def writeFields (ind : Nat) (first : Bool) : List (Str × Json) → Str × Bool
  | [] => ([], true)
  | (k, x) :: fs =>
    let r := write ind x
    let s := (if first then [] else b!",") ++ newLine ind ++ writeStr k ++ b!": " ++ r.1
    if r.2 then (s ++ (writeFields ind false fs).1, (writeFields ind false fs).2) else (s, false)
end

/-! ## Reading -/

/-- White space between tokens. -/
def isWs (b : Byte) : Bool := b == 32 || b == 9 || b == 10 || b == 13

/-- `parse_whitespace`. -/
def skipWs : Str → Str
  | [] => []
  | b :: r => if isWs b then skipWs r else b :: r

/-- The value of a hexadecimal digit. -/
def hexOf (b : Byte) : Option Nat :=
  if 48 ≤ b ∧ b ≤ 57 then some (b - 48)
  else if 97 ≤ b ∧ b ≤ 102 then some (b - 87)
  else if 65 ≤ b ∧ b ≤ 70 then some (b - 55)
  else none

/-- The escapes of one character. -/
def unescape (b : Byte) : Option Byte :=
  if b = 34 ∨ b = 92 ∨ b = 47 then some b
  else if b = 98 then some 8
  else if b = 102 then some 12
  else if b = 110 then some 10
  else if b = 114 then some 13
  else if b = 116 then some 9
  else none

/-- The rest of a string after its opening quotation mark. Escapes with a number are modelled for the
characters of ASCII, others are never written. -/
def readStr : Str → Option (Str × Str)
  | [] => none
  | 34 :: r => some ([], r)
  | 92 :: 117 :: 48 :: 48 :: a :: b :: r =>
    match hexOf a, hexOf b with
    | some x, some y =>
      if x < 8 then (readStr r).map fun p => ((16 * x + y) :: p.1, p.2) else none
    | _, _ => none
  | 92 :: e :: r =>
    match unescape e with
    | some x => (readStr r).map fun p => (x :: p.1, p.2)
    | none => none
  | b :: r => if b < 32 ∨ b = 92 then none else (readStr r).map fun p => (b :: p.1, p.2)

/-- The digits in front of a text and the rest. -/
def spanDigits : Str → Str × Str
  | [] => ([], [])
  | b :: r => if isDigit b then (b :: (spanDigits r).1, (spanDigits r).2) else ([], b :: r)

/-- A number without sign: no zeros in front; fractions and exponents are not modelled and end the reading,
as they fit no field of a page. -/
def readNum (s : Str) : Option (Nat × Str) :=
  match spanDigits s with
  | ([], _) => none
  | (ds, r) =>
    if ds.head? = some 48 ∧ ds ≠ [48] then none
    else if r.head? = some c!"." ∨ r.head? = some c!"e" ∨ r.head? = some c!"E" then none
    else (readDigits 0 ds).map (·, r)

/-- The rest after a given word. -/
def readWord (w s : Str) : Option Str := if w.isPrefixOf s then some (s.drop w.length) else none

mutual
/-- A value, `lim` is `remaining_depth`. The first argument bounds the number of calls. -/
def readValue : Nat → Nat → Str → Option (Json × Str)
  | 0, _, _ => none
  | n + 1, lim, s =>
    match skipWs s with
    | [] => none
    | 34 :: r => (readStr r).map fun p => (.str p.1, p.2)
    | 91 :: r =>
      if lim ≤ 1 then none
      else
        match skipWs r with
        | 93 :: r' => some (.arr [], r')
        | _ => (readItems n (lim - 1) r).map fun p => (.arr p.1, p.2)
    | 123 :: r =>
      if lim ≤ 1 then none
      else
        match skipWs r with
        | 125 :: r' => some (.obj [], r')
        | _ => (readFields n (lim - 1) r).map fun p => (.obj p.1, p.2)
    | b :: r =>
      if b = c!"n" then (readWord b!"ull" r).map (.null, ·)
      else if b = c!"t" then (readWord b!"rue" r).map (.bool true, ·)
      else if b = c!"f" then (readWord b!"alse" r).map (.bool false, ·)
      else (readNum (b :: r)).map fun p => (.num p.1, p.2)
/-- The entries of an array that is not empty, and its end. -/
def readItems : Nat → Nat → Str → Option (List Json × Str)
  | 0, _, _ => none
  | n + 1, lim, s =>
    match readValue n lim s with
    | none => none
    | some (x, r) =>
      match skipWs r with
      | 44 :: r' => (readItems n lim r').map fun p => (x :: p.1, p.2)
      | 93 :: r' => some ([x], r')
      | _ => none
/-- The entries of an object that is not empty, and its end. -/
def readFields : Nat → Nat → Str → Option (List (Str × Json) × Str)
  | 0, _, _ => none
  | n + 1, lim, s =>
    match skipWs s with
    | 34 :: r =>
      match readStr r with
      | none => none
      | some (k, r) =>
        match skipWs r with
        | 58 :: r =>
          match readValue n lim r with
          | none => none
          | some (x, r) =>
            match skipWs r with
            | 44 :: r' => (readFields n lim r').map fun p => ((k, x) :: p.1, p.2)
            | 125 :: r' => some ([(k, x)], r')
            | _ => none
        | _ => none
    | _ => none
end

/-- The text of a whole document. `serde_json::to_writer_pretty`: what is in the file when it returns. -/
def toText (j : Json) : Str := (write 0 j).1

/-- `serde_json::from_reader` up to the value: at most 127 levels of arrays and objects (`remaining_depth`
starts at 128), and only white space after it. -/
def ofText (s : Str) : Option Json :=
  match readValue (s.length + 1) 128 s with
  | some (j, r) => if skipWs r = [] then some j else none
  | none => none

end Json
end Vw
