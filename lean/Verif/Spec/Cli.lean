import Verif.Model.Cli
import Verif.Spec.Elements

/-!
# What the command line tool is supposed to do

Specifications for `Verif.Props.Cli`, independent of how the tool goes about it.
-/

namespace Vw

/-- What is assumed of `serde_json` on pages that come out of the parser: no part of what is
written of a page reads back as another page. Here `L.ser p` is what is written until the
serializer is done or gives up. `Verif.Props.Serde` shows that this holds of the model of
`serde_json` (C87); that the whole text does read back is not assumed, as it does not hold. -/
structure CliLib.Sound (L : CliLib) : Prop where
  back : ∀ t p n q, L.parse t = .ok p → L.deser ((L.ser p).take n) = some q → q = p

/-- The page is read back from what is written of it. -/
def CliLib.Keeps (L : CliLib) (p : Page) : Prop := L.deser (L.ser p) = some p

/-- No two of the texts have the same checksum. -/
def CliLib.NoCollision (L : CliLib) (ts : List Str) : Prop :=
  ∀ t ∈ ts, ∀ u ∈ ts, L.sha t = L.sha u → t = u

/-- Loading without any cache: the file is read and parsed. -/
def CliLib.fresh (L : CliLib) (fs : Files) (p : Path) : Except IoErr WikiFile :=
  match fs.get p with
  | none => .error .notFound
  | some none => .error .invalidData
  | some (some t) =>
    match L.parse t with
    | .ok pg => .ok ⟨p, L.sha t, pg⟩
    | .error e => .error e

/-- What the disk holds. -/
structure Disk where
  files : Files
  cache : Cache

/-- What may happen to the disk. -/
inductive Event where
  /-- The user writes a file. -/
  | edit (p : Path) (t : Str)
  /-- The user removes a file. -/
  | remove (p : Path)
  /-- An entry of the cache goes away: removed by the user, or by a pruning that is later
  interrupted. -/
  | drop (k : List Str)
  /-- A file is loaded, or the tool dies while loading it: with `written := .first n` it dies
  after `n` bytes of the new cache entry, with `.nothing` before the entry is created. -/
  | load (p : Path) (noCache : Bool) (f : Fault)
  /-- All wikis are loaded. -/
  | loadAst (wikis : List Wiki) (incl : List IndexOrName) (noCache noPrune : Bool)
      (faults : Path → Fault) (stuck : List Str → Bool)

/-- The texts an event brings. -/
def Event.texts : Event → List Str
  | .edit _ t => [t]
  | _ => []

/-- The texts of some files. -/
def Files.texts (fs : Files) : List Str := fs.filterMap (·.2)

/-- The disk after an event. -/
def Disk.after (L : CliLib) (d : Disk) : Event → Disk
  | .edit p t => { d with files := d.files.set p t }
  | .remove p => { d with files := d.files.filter fun e => !(e.1 == p) }
  | .drop k => { d with cache := d.cache.del k }
  | .load p nc f => { d with cache := (L.loadWikiFile d.files d.cache p nc f).2 }
  | .loadAst ws incl nc np faults stuck =>
    { d with cache := (loadAst L d.files d.cache ws incl nc np faults stuck).2 }

/-- The disk after a history. -/
def Disk.run (L : CliLib) (d : Disk) (evs : List Event) : Disk := evs.foldl (Disk.after L) d

/-- A disk that some history of edits, loads, interrupted loads and removals leads to, from any
files and an empty cache, where no two of the texts that were ever in a file have the same
checksum. -/
def Disk.Reached (L : CliLib) (d : Disk) : Prop :=
  ∃ (fs : Files) (evs : List Event), d = Disk.run L ⟨fs, []⟩ evs ∧
    L.NoCollision (fs.texts ++ evs.flatMap Event.texts)

/-- A text that reads as a number: decimal digits, perhaps after a `+`, of a 64-bit value. -/
def Numeral (s : Str) (n : Nat) : Prop :=
  ∃ sg ds, s = sg ++ ds ∧ (sg = [] ∨ sg = b!"+") ∧ ds ≠ [] ∧ (∀ b ∈ ds, 48 ≤ b ∧ b ≤ 57) ∧
    decValue ds = n ∧ n < 2 ^ 64

/-- The wikis a user's `--include` arguments name: all if there are none, otherwise those
whose index is one of the arguments, and those whose name is one of the arguments that are not
numbers. -/
def Named (args : List Str) (idx : Nat) (name : Option Str) : Prop :=
  args = [] ∨ ∃ a ∈ args, Numeral a idx ∨ (name = some a ∧ ∀ n, ¬ Numeral a n)

/-- The wikis of a list, with their indexes, that satisfy a condition. -/
def Chosen (sel : Nat → Wiki → Prop) (ws : List Wiki) (out : List (Nat × Wiki)) : Prop :=
  out.Pairwise (fun a b => a.1 < b.1) ∧
  ∀ i w, (i, w) ∈ out ↔ ws[i]? = some w ∧ sel i w

end Vw
