import Verif.Model.Text

/-!
# Functions on elements

Models functions of `/repo/vimwiki-core/src/lang/elements`: regions, list item
prefixes, todo progress and blockquote line groups.
-/

namespace Vw

/-! ## Regions -/

namespace Region

/-- `Region::contains` (utils/region.rs:45-47). `none` is the overflow of
`offset + len`, evaluated only if the first comparison holds. -/
def contains (r : Region) (x : Nat) : Option Bool :=
  if x ≥ r.offset then
    if r.offset + r.len < usizeEnd then some (decide (x < r.offset + r.len)) else none
  else some false

/-- `From<Range<usize>>` (region.rs:85-96). -/
def ofRange (a b : Nat) : Region := .new a (if b ≥ a then b - a else 0)

/-- `From<RangeInclusive<usize>>` (region.rs:98-110); `none` is the overflow of
`end + 1`. -/
def ofRangeInclusive (a b : Nat) : Option Region :=
  if b + 1 < usizeEnd then some (.new a (if b + 1 ≥ a then b + 1 - a else 0)) else none

/-- `From<RangeTo<usize>>` (region.rs:112-117). -/
def ofRangeTo (b : Nat) : Region := .new 0 b

/-- `From<RangeToInclusive<usize>>` (region.rs:119-124); `none` is the overflow of
`end + 1`. -/
def ofRangeToInclusive (b : Nat) : Option Region :=
  if b + 1 < usizeEnd then some (.new 0 (b + 1)) else none

/-- `Region::is_empty` (region.rs:69-71). -/
def isEmpty (r : Region) : Bool := r.len == 0

end Region

/-! ## Blockquotes -/

/-- `slice::split(|line| line.is_empty())` (blockquotes.rs:39-40). -/
def splitLines : List Str → List (List Str)
  | [] => [[]]
  | l :: ls =>
    if l.isEmpty then [] :: splitLines ls
    else
      match splitLines ls with
      | [] => [[l]]
      | g :: gs => (l :: g) :: gs

/-- `Blockquote::line_groups` (blockquotes.rs:38-42). -/
def lineGroups (lines : List Str) : List (List Str) :=
  (splitLines lines).filter (fun g => !g.isEmpty)

/-! ## List items -/

/-- The loop of `pos_to_alphabet` (lists/item.rs:463-479): letters from the last to
the first. -/
def alphaLoop (base i : Nat) : Str :=
  if h : i - i % 26 > 0 then (base + i % 26) :: alphaLoop base ((i - i % 26) / 26 - 1)
  else [base + i % 26]
termination_by i
decreasing_by omega

/-- `pos_to_alphabet` (lists/item.rs:457-482); the position is truncated to `u32`. -/
def posToAlphabet (pos : Nat) (lower : Bool) : Str :=
  (alphaLoop (if lower then 97 else 65) (pos % 2 ^ 32)).reverse

/-- `n as i16`. -/
def asI16 (n : Nat) : Int :=
  if n % 2 ^ 16 < 2 ^ 15 then (n % 2 ^ 16 : Nat) else (n % 2 ^ 16 : Nat) - 2 ^ 16

/-- ASCII lowercase of an uppercase letter. -/
def toLowerByte (b : Byte) : Byte := if isUpper b then b + 32 else b

/-- `ListItemSuffix::as_char` (lists/item.rs:252-258), as text. -/
def Suffix.text : Suffix → Str
  | .period => b!"."
  | .paren => b!")"
  | .none => []

/-- `ListItemType::to_prefix` with the ordered and unordered variants
(lists/item.rs:306-311, 380-394, 424-446). `rom` is the external crate `numerals`:
`Roman::from(i16)` printed with `{:X}`. -/
def ItemType.toPrefix (rom : Int → Str) (pos : Nat) (suffix : Suffix) : ItemType → Str
  | .hyphen => b!"-"
  | .asterisk => b!"*"
  | .other s => s ++ suffix.text
  | .number => decStr (pos + 1) ++ suffix.text
  | .pound => b!"#" ++ suffix.text
  | .lowerAlpha => posToAlphabet pos true ++ suffix.text
  | .upperAlpha => posToAlphabet pos false ++ suffix.text
  | .lowerRoman => (rom (asI16 (pos + 1))).map toLowerByte ++ suffix.text
  | .upperRoman => rom (asI16 (pos + 1)) ++ suffix.text

/-- `ListItemType::is_ordered` (lists/item.rs:298-300). -/
def ItemType.isOrdered : ItemType → Bool
  | .hyphen => false
  | .asterisk => false
  | .other _ => false
  | _ => true

/-! ## Todo progress

`f32` arithmetic is exact rational arithmetic followed by a rounding function; the
theorems assume of it only what IEEE 754 guarantees. -/

/-- `ListItem::to_todo_progress` (lists/item.rs:168-184). -/
def todoProgress : Option Todo → Option Rat
  | some .partial1 => some (1 / 4)
  | some .partial2 => some (1 / 2)
  | some .partial3 => some (3 / 4)
  | some .complete => some 1
  | some .incomplete => some 0
  | some .rejected => none
  | none => none

/-- The end of `compute_todo_progress` (lists/item.rs:155-156): the quotient, or the
progress of the item itself. -/
def finishProgress (rnd : Rat → Rat) (todo : Option Todo) : Option (Rat × Nat) → Option Rat
  | some (sum, count) => some (rnd (sum / rnd count))
  | none => todoProgress todo

/-- Adding one sub item (lists/item.rs:133-139). -/
def addItem (rnd : Rat → Rat) (acc : Rat × Nat) : Option Rat → Rat × Nat
  | some p => (rnd (acc.1 + p), acc.2 + 1)
  | none => acc

/-- Combining the sums of several sublists (lists/item.rs:142-151). -/
def combine (rnd : Rat → Rat) (acc : Option (Rat × Nat)) (x : Rat × Nat) : Option (Rat × Nat) :=
  let y := match acc with
    | some (s, c) => (rnd (x.1 + s), x.2 + c)
    | none => x
  if y.2 > 0 then some y else none

mutual
/-- One content of the outer fold (lists/item.rs:122-154). -/
def Block.progressStep (rnd : Rat → Rat) (acc : Option (Rat × Nat)) : Block → Option (Rat × Nat)
  | .list items => combine rnd acc (Block.progressItems rnd (0, 0) items)
  | .blockquote _ => acc
  | .code _ _ _ => acc
  | .defs _ => acc
  | .divider => acc
  | .header _ _ _ => acc
  | .math _ _ => acc
  | .paragraph _ => acc
  | .placeholder _ => acc
  | .table _ => acc
/-- The inner fold over the items of a sublist (lists/item.rs:124-140). -/
def Block.progressItems (rnd : Rat → Rat) (acc : Rat × Nat) :
    List (Located (ItemF Block)) → Rat × Nat
  | [] => acc
  | ⟨⟨_, _, _, cs, todo⟩, _⟩ :: xs =>
    Block.progressItems rnd
      (addItem rnd acc (finishProgress rnd todo (Block.progressContents rnd none cs))) xs
/-- The outer fold (lists/item.rs:120-154). -/
def Block.progressContents (rnd : Rat → Rat) (acc : Option (Rat × Nat)) :
    List (Located Block) → Option (Rat × Nat)
  | [] => acc
  | ⟨x, _⟩ :: xs => Block.progressContents rnd (Block.progressStep rnd acc x) xs
end

/-- `ListItem::compute_todo_progress` (lists/item.rs:119-157). -/
def ItemF.todoProgress (rnd : Rat → Rat) (item : ItemF Block) : Option Rat :=
  finishProgress rnd item.todo (Block.progressContents rnd none item.contents)

end Vw
