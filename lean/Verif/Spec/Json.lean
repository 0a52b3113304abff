import Verif.Model.Serde

/-!
# Which JSON can be read back
-/

namespace Vw
namespace Json

mutual
/-- No part of the value fails to be written. -/
def Complete : Json → Bool
  | .null => true
  | .bool _ => true
  | .num _ => true
  | .str _ => true
  | .arr xs => Completes xs
  | .obj fs => CompleteFields fs
  | .torn => false
def Completes : List Json → Bool
  | [] => true
  | x :: xs => Complete x && Completes xs
def CompleteFields : List (Str × Json) → Bool
  | [] => true
  | (_, x) :: xs => Complete x && CompleteFields xs
end

mutual
/-- How deep arrays and objects are nested. -/
def depth : Json → Nat
  | .null => 0
  | .bool _ => 0
  | .num _ => 0
  | .str _ => 0
  | .arr xs => depths xs + 1
  | .obj fs => depthFields fs + 1
  | .torn => 1
def depths : List Json → Nat
  | [] => 0
  | x :: xs => max (depth x) (depths xs)
def depthFields : List (Str × Json) → Nat
  | [] => 0
  | (_, x) :: xs => max (depth x) (depthFields xs)
end

/-- The value is an object, perhaps one that stops. -/
def isObj : Json → Bool
  | .obj _ => true
  | .torn => true
  | _ => false

end Json
end Vw
