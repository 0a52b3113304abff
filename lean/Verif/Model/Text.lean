import Verif.Model.Blocks
import Verif.Model.Uri

/-!
# Text functions of the Rust standard library

Only the functions the modelled code uses, on UTF-8 bytes.
-/

namespace Vw

/-- `str::trim_start`. -/
def trimStart (s : Str) : Str := s.drop (leadingWs s)

/-- `str::trim_end`: drops the longest suffix made of whitespace characters. -/
def trimEnd : Str → Str
  | [] => []
  | b :: bs => if leadingWs (b :: bs) = (b :: bs).length then [] else b :: trimEnd bs

/-- `str::trim`. -/
def trim (s : Str) : Str := trimEnd (trimStart s)

/-- `usize::to_string` / `{}`: the decimal digits. -/
def decStr (n : Nat) : Str :=
  if h : n < 10 then [48 + n] else decStr (n / 10) ++ [48 + n % 10]
termination_by n
decreasing_by omega

/-- The digits of a number, most significant first; `none` at a byte that is not a
digit. -/
def readDigits : Nat → Str → Option Nat
  | acc, [] => some acc
  | acc, b :: bs => if isDigit b then readDigits (acc * 10 + (b - 48)) bs else none

/-- `usize::MAX + 1` on the 64-bit targets the model describes. -/
def usizeEnd : Nat := 2 ^ 64

/-- An optional leading `+`, as `usize::from_str` skips it. -/
def stripPlus : Str → Str
  | 43 :: r => r
  | s => s

/-- At least one digit and no overflow, as in `usize::from_str`. -/
def usizeOfDigits (ds : Str) : Option Nat :=
  if ds = [] then none
  else (readDigits 0 ds).bind fun n => if n < usizeEnd then some n else none

/-- `str::parse::<usize>()`: an optional `+`, then at least one digit; `none` is any
error, overflow included. -/
def parseUsize (s : Str) : Option Nat := usizeOfDigits (stripPlus s)

namespace CellPos

/-- `Display for CellPos` (elements/blocks/tables.rs:25). -/
def display (p : CellPos) : Str := decStr p.row ++ b!"," ++ decStr p.col

/-- `FromStr for CellPos` (tables.rs:42-70); `none` is any error. -/
def parse (s : Str) : Option CellPos :=
  match splitOn c!"," s with
  | [r, c] =>
    (parseUsize (trim r)).bind fun row => (parseUsize (trim c)).bind fun col => some ⟨row, col⟩
  | _ => none

end CellPos
end Vw
