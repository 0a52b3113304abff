import Verif.Spec.InlineText
import Verif.Spec.Fences

/-!
# What a link says

The parts of a link between its brackets or braces: a target, `|` and a description, `|` and
properties. The last argument of the relations is the text that no part holds.
-/

namespace Vw

/-- `c` is `t` and `r`, and `r` begins with the first of the marks in `c` or is empty. -/
structure UpTo (marks : List Str) (c t r : Str) : Prop where
  eq : c = t ++ r
  clear : ∀ p ∈ marks, ∀ a b, c = a ++ (p ++ b) → t.length ≤ a.length
  stop : r = [] ∨ ∃ p ∈ marks, p <+: r

/-- The target of a link: what stands in front of `|`, `]]` and `}}`. -/
def TargetRead (env : Env) (c : Str) (u : Uri) (r : Str) : Prop :=
  ∃ t, t ≠ [] ∧ UpTo [b!"|", b!"]]", b!"}}"] c t r ∧ readUri env t = some u

/-- The description of a link: what stands between the first `|` and the next. If it is a target
in braces, then what follows the braces is lost. -/
inductive DescRead (env : Env) : Str → Option Description → Str → Str → Prop
  | none {r : Str} : r.head? ≠ some c!"|" → DescRead env r none [] r
  | text {r x q : Str} : UpTo [b!"|"] r x q → DescRead env (c!"|" :: r) (some (.text x)) [] q
  | transclusion {r x q b m l : Str} {u : Uri} : UpTo [b!"|"] r x q → x = b!"{{" ++ (b ++ (b!"}}" ++ l)) →
      b ≠ [] → ShortestBody b!"}}" b l → TargetRead env b u m →
      DescRead env (c!"|" :: r) (some (.transclusion u none none)) (m ++ l) q

/-- A property at the beginning of a text. -/
def PropHere (k v x q : Str) : Prop :=
  x = pairText (k, v) ++ q ∧ k ≠ [] ∧ c!"=" ∉ k ∧ c!"\"" ∉ v

/-- Properties with blanks between them, as many as follow each other. -/
inductive PairsRead : Str → List (Str × Str) → Str → Prop
  | last {x k v q : Str} : PropHere k v x q →
      (∀ sp y k' v' q', sp ≠ [] → AllBlank sp → (∀ b, y.head? = some b → b ≠ 32 ∧ b ≠ 9) →
        PropHere k' v' y q' → q ≠ sp ++ y) →
      PairsRead x [(k, v)] q
  | more {x k v sp y : Str} {ps : List (Str × Str)} {q : Str} : PropHere k v x (sp ++ y) → sp ≠ [] →
      AllBlank sp → PairsRead y ps q → PairsRead x ((k, v) :: ps) q

/-- The map holds the last value of each key. -/
def LastValues (ps : List (Str × Str)) (m : List (Str × Str)) : Prop :=
  ∀ k v, (k, v) ∈ m ↔ ∃ a b, ps = a ++ (k, v) :: b ∧ ∀ p ∈ b, p.1 ≠ k

/-- The properties of a link: what follows the next `|`, if it begins with a property. -/
inductive PropsRead : Str → Option Map → Str → Prop
  | none {r : Str} : (∀ x k v q, PropHere k v x q → r ≠ c!"|" :: x) → PropsRead r none r
  | some {r q : Str} {ps : List (Str × Str)} {m : Map} : PairsRead r ps q → LastValues ps m →
      PropsRead (c!"|" :: r) (some m) q

/-- A target, a description and properties. -/
def DataRead (env : Env) (c : Str) (d : LinkData) (lost : Str) : Prop :=
  ∃ r l q q', TargetRead env c d.uri r ∧ DescRead env r d.desc l q ∧ PropsRead q d.props q' ∧
    lost = l ++ q'

/-- A target and a description. -/
def RefRead (env : Env) (c : Str) (d : LinkData) (lost : Str) : Prop :=
  d.props = none ∧ ∃ r l q, TargetRead env c d.uri r ∧ DescRead env r d.desc l q ∧ lost = l ++ q

/-- The value of decimal digits. -/
def decimal (ds : Str) : Nat := ds.foldl (fun n b => n * 10 + (b - 48)) 0

/-- A number below 2³², possibly with a sign. -/
def NumberText (n : Str) (i : Nat) : Prop :=
  ∃ ds, (n = ds ∨ n = c!"+" :: ds) ∧ ds ≠ [] ∧ (∀ b ∈ ds, 48 ≤ b ∧ b ≤ 57) ∧ i = decimal ds ∧ i < 2 ^ 32

/-- The anchor of a diary link as a URI: every `#` but the first is written `%23`. -/
def anchorUri : Str → Str
  | [] => []
  | b :: bs => b :: bs.flatMap fun x => if x = c!"#" then b!"%23" else [x]

/-- The link says `c` between its brackets or braces, and `lost` is the part of `c` that it does not
hold. -/
def LinkReads (env : Env) (c : Str) (lost : Str) : Link → Prop
  | .wiki d | .transclusion d => DataRead env c d lost
  | .indexed i d => ∃ n r, c = b!"wiki" ++ (n ++ (c!":" :: r)) ∧ c!":" ∉ n ∧ NumberText n i ∧
      RefRead env r d lost
  | .named n d => ∃ r, c = b!"wn." ++ (n ++ (c!":" :: r)) ∧ n ≠ [] ∧ c!":" ∉ n ∧ RefRead env r d lost
  | .diary dt d => d.props = none ∧ ∃ t a r l q, c = b!"diary:" ++ (t ++ (a ++ r)) ∧
      t ≠ [] ∧ c!"|" ∉ t ∧ c!"#" ∉ t ∧ env.date t = some dt ∧
      (a = [] ∨ a.head? = some c!"#") ∧ c!"|" ∉ a ∧ (r = [] ∨ r.head? = some c!"|") ∧
      env.uri (anchorUri a) = some d.uri ∧ DescRead env r d.desc l q ∧ lost = l ++ q
  | .raw _ => False

end Vw
