import Verif.Model.Cli
import Verif.Model.Serde

/-!
# Looking at loaded wikis as JSON

Models `/repo/vimwiki-cli/src/subcommand/inspect.rs` and what `/repo/vimwiki-cli/src/ast.rs` derives for it.
-/

namespace Vw

/-- What is not modelled: how pages are written (`SerdeLib`), the text of a path, and `jsonpath::select`. -/
structure InspectLib where
  serde : SerdeLib
  path : Path → Str
  select : Json → Str → Option (List Json)

namespace Json

mutual
/-- `serde_json::to_value` (inspect.rs:19): the value in memory, or nothing if some part of it cannot be
serialised. Simplified: the keys of an object are kept in the order in which they are written. -/
def toValue : Json → Option Json
  | .null => some .null
  | .bool b => some (.bool b)
  | .num n => some (.num n)
  | .str s => some (.str s)
  | .arr xs => (toValues xs).map .arr
  | .obj fs => (toFields fs).map .obj
  | .torn => none
def toValues : List Json → Option (List Json)
  | [] => some []
  | x :: xs => (toValue x).bind fun y => (toValues xs).map (y :: ·)
def toFields : List (Str × Json) → Option (List (Str × Json))
  | [] => some []
  | (k, x) :: xs => (toValue x).bind fun y => (toFields xs).map ((k, y) :: ·)
end

end Json

/-- `WikiFile` (ast.rs:91-96). -/
def WikiFile.toJson (I : InspectLib) (f : WikiFile) : Json :=
  .obj [(b!"path", .str (I.path f.path)), (b!"checksum", .str f.checksum), (b!"data", f.data.toJson I.serde)]

/-- `Wiki` (ast.rs:83-89). -/
def WikiAst.toJson (I : InspectLib) (w : WikiAst) : Json :=
  .obj [(b!"index", .num w.index), (b!"name", Json.opt .str w.name), (b!"path", .str (I.path w.path)),
    (b!"files", .arr (w.files.map (WikiFile.toJson I)))]

/-- `Ast` (ast.rs:15-18). -/
def Ast.toJson (I : InspectLib) (a : Ast) : Json := .obj [(b!"wikis", .arr (a.map (WikiAst.toJson I)))]

/-- `inspect` (inspect.rs:9-36): the text that is written to the output. Simplified: the errors of
`serde_json` and of `jsonpath` are one error, and writing does not fail. -/
def inspect (I : InspectLib) (a : Ast) (q : Str) : Except IoErr Str :=
  match (a.toJson I).toValue with
  | none => .error .invalidData
  | some j =>
    match I.select j q with
    | none => .error .invalidData
    | some vs => .ok (Json.arr vs).toText

end Vw
