import Verif.Spec.Pieces
import Verif.Spec.Lists
import Verif.Spec.Tables
import Verif.Spec.Quotes
import Verif.Spec.Placeholders

/-!
# Text that elements hold and text that is lost
-/

namespace Vw

/-- The regions of the elements follow each other from `a` to `b` without gaps. -/
inductive Touching {α : Type} : Nat → List (Located α) → Nat → Prop where
  | nil {a} : Touching a [] a
  | cons {a b x xs} : x.region.offset = a → 0 < x.region.len → Touching (a + x.region.len) xs b →
      Touching a (x :: xs) b

/-- Text that begins with code, with math or with tags. -/
def Unheld (w : Str) : Prop :=
  (∃ c r, c ≠ [] ∧ w = b!"`" ++ c ++ b!"`" ++ r) ∨ (∃ c r, c ≠ [] ∧ w = b!"$" ++ c ++ b!"$" ++ r) ∨
  (∃ c r, c ≠ [] ∧ w = b!":" ++ c ++ b!":" ++ r)

/-- Only spaces, tabs and line ends are in the text from `a` to `b`, and bytes of `marks`. -/
def Bare (text marks : Str) (a b : Nat) : Prop :=
  a ≤ b ∧ ∀ x ∈ sub text a b, x ∈ b!" \t\n\r" ++ marks

/-- The regions follow each other from `a` to `b` with only blanks and line ends between them. -/
inductive Spread {α : Type} (text : Str) : Nat → List (Located α) → Nat → Prop where
  | nil {a b} : Bare text [] a b → Spread text a [] b
  | cons {a b x xs} : Bare text [] a x.region.offset → 0 < x.region.len →
      Spread text (x.region.offset + x.region.len) xs b → Spread text a (x :: xs) b

/-- Lines of elements from `a` to `b` with only blanks and line ends between the lines, and nothing
between the elements of a line. -/
inductive LinesHeld (text : Str) : Nat → List Inlines → Nat → Prop where
  | nil {a b} : Bare text [] a b → LinesHeld text a [] b
  | cons {a a' b b' xs rows} : Bare text [] a a' → xs ≠ [] → Touching a' xs b' →
      LinesHeld text b' rows b → LinesHeld text a (xs :: rows) b

/-- The elements are all of the text from `a` to `b` but blanks and marks around them. -/
def RowHeld (text marks : Str) (a : Nat) (xs : Inlines) (b : Nat) : Prop :=
  ∃ i j, Bare text marks a i ∧ xs ≠ [] ∧ Touching i xs j ∧ Bare text marks j b

/-- The terms and definitions of an entry of a definition list. -/
def TermDefs.rows (x : Located TermDefs) : List (Located Inlines) :=
  x.inner.term :: x.inner.defs.inner

/-- An item is a mark, a status and blocks. -/
def ItemHeld (text : Str) (x : Located ListItem) : Prop :=
  ∃ ty w o, PrefixText ty x.inner.suffix w ∧ x.region.offset ≤ o ∧
    sub text x.region.offset o = w ++ todoText x.inner.todo ∧
    Spread text o x.inner.contents (x.region.offset + x.region.len)

/-- Everything between `a` and `b` is in the parts of the block, but blanks, line ends and the marks
that make it the block it is. -/
def Block.Held (date : Str → Option Date) (text : Str) (a b : Nat) : Block → Prop
  | .paragraph rows => LinesHeld text a rows b
  | .header xs _ _ => RowHeld text b!"=" a xs b
  | .defs xs => Spread text a (xs.flatMap TermDefs.rows) b ∧
      ∀ y ∈ xs.flatMap TermDefs.rows,
        RowHeld text b!":" y.region.offset y.inner (y.region.offset + y.region.len)
  | .list xs => Spread text a xs b ∧ ∀ x ∈ xs, ItemHeld text x
  | .table t => ∃ rows, t.allCells = rows.flatten ∧ BarRows text a rows b ∧
      ∀ c ∈ t.allCells, ∀ ys, c.inner = .content ys →
        ys ≠ [] ∧ Touching c.region.offset ys (c.region.offset + c.region.len)
  | .blockquote ls => QuoteSource (sub text a b) ls
  | .code lang m ls => FencedText b!"{{{" b!"}}}" (sub text a b) ls (fun hd => ∃ ps,
      (∀ k v, (k, v) ∈ m ↔ (ps.reverse.find? fun p => p.1 = k) = some (k, v)) ∧ CodeHead lang ps hd)
  | .math ls e => FencedText b!"{{$" b!"}}$" (sub text a b) ls (MathHead e)
  | .placeholder p => PlaceholderSource date (sub text a b) p
  | .divider => Bare text b!"-" a b

end Vw
