import Verif.Model.Paths

/-!
# What paths and links mean

Independent of how the code computes: a path is a walk through directories, and a
relative reference is resolved as RFC 3986 section 5.2 says.
-/

namespace Vw

/-- The directory reached by following a path from the directory `dir`, given by the
names from the root. `..` in the root stays in the root. -/
def walk (dir : List Str) : Path → List Str
  | [] => dir
  | .root :: p => walk [] p
  | .cur :: p => walk dir p
  | .parent :: p => walk dir.dropLast p
  | .normal n :: p => walk (dir ++ [n]) p

/-- A path with names only. -/
def names (ns : List Str) : Path := ns.map .normal

/-- The absolute path with the given names. -/
def absPath (ns : List Str) : Path := .root :: names ns

/-- No `.` and `..`. -/
def NoDots (p : Path) : Prop := ∀ c ∈ p, c ≠ .cur ∧ c ≠ .parent

/-- A relative path that never climbs above a directory `n` levels below where it is
safe. -/
def Stays : Nat → Path → Prop
  | _, [] => True
  | _, .root :: _ => False
  | n, .cur :: p => Stays n p
  | n, .parent :: p => 0 < n ∧ Stays (n - 1) p
  | n, .normal _ :: p => Stays (n + 1) p

/-- One segment of a reference followed from a directory. -/
def segStep (dir : List Str) (s : Str) : List Str :=
  if s = [] ∨ s = b!"." then dir
  else if s = b!".." then dir.dropLast
  else dir ++ [s]

/-- The document a reference without scheme and authority leads to, seen from the
document `base` (RFC 3986 section 5.2.2: an empty path is the same document, a relative
path replaces the last segment of the base). -/
def resolveRef (base : List Str) (u : Uri) : List Str :=
  if u.absolute then u.segments.foldl segStep []
  else if u.segments = [] ∨ u.segments = [[]] then base
  else u.segments.foldl segStep base.dropLast

/-- A name that can be part of a path and of a URI path as it is. -/
structure CleanName (s : Str) : Prop where
  ne : s ≠ []
  notDot : s ≠ b!"."
  notDots : s ≠ b!".."
  noSlash : c!"/" ∉ s
  noQuery : c!"?" ∉ s
  noHash : c!"#" ∉ s

/-- What is assumed of `RelativeReference::try_from`: a text without `?` and `#` that
does not begin with a slash is a relative path with the pieces between slashes as
segments. -/
structure LinkLib.Sound (L : LinkLib) : Prop where
  rel : ∀ s u, L.relRef s = some u → c!"?" ∉ s → c!"#" ∉ s → s.head? ≠ some c!"/" →
    u.scheme = none ∧ u.authority = none ∧ u.absolute = false
      ∧ u.segments = splitOn c!"/" s ∧ u.query = none ∧ u.fragment = none

/-- One list of names is a proper prefix of the other. -/
def ProperPrefix (a b : List Str) : Prop := ∃ c, c ≠ [] ∧ b = a ++ c

/-- The three ways of naming a file of a wiki. -/
inductive NamesFile (w : Wiki) (rel : List Str) : Path → Prop where
  | relative : NamesFile w rel (names rel)
  | inside (h : w.path.hasRoot) : NamesFile w rel (w.path ++ names rel)
  | outside (h : ¬ ∃ rest, absPath rel = w.path ++ rest) : NamesFile w rel (absPath rel)

/-- A link to a file of this system: without a scheme, or with `file:` or `local:`. -/
def LocalLink (d : LinkData) : Prop := ∀ s, d.uri.scheme = some s → s = b!"file" ∨ s = b!"local"

/-- A link to a place in the page it is written in: only a fragment. -/
def OwnAnchor (d : LinkData) : Prop :=
  d.uri.scheme = none ∧ d.uri.authority = none ∧ (∀ s ∈ d.uri.segments, s = []) ∧ d.uri.query = none ∧
    d.uri.fragment ≠ none

/-- The directory and the page that the path of a link names: `dir/page`, or `dir/` for the page
`index` of a directory. -/
inductive NamesPage : List Str → List Str → Str → Prop where
  | page (dir : List Str) (t : Str) : NamesPage (dir ++ [t]) dir t
  | index (dir : List Str) (h : dir ≠ []) : NamesPage (dir ++ [[]]) dir b!"index"

end Vw
