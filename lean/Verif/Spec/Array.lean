import Verif.Spec.Endian
/-
The integers a leaf holds, for C38 and C42.
-/
namespace Conduit.Spec
open Conduit

/-- Signed integer types. -/
def isSigned : TypeId → Bool
  | .int8 | .int16 | .int32 | .int64 => true
  | _ => false

/-- Integer types. -/
def isInteger : TypeId → Bool
  | .int8 | .int16 | .int32 | .int64 | .uint8 | .uint16 | .uint32 | .uint64 => true
  | _ => false

/-- Two's complement: the integer with the given bit pattern of `k` bytes. -/
def intValue (signed : Bool) (k : Nat) (pattern : Nat) : Int :=
  if signed ∧ 2 ^ (8 * k) ≤ 2 * pattern then (pattern : Int) - 2 ^ (8 * k) else pattern

/-- The integers stored in a leaf, element by element, in the leaf's own byte order; `none`
    for an element that cannot be read. -/
def ints (big : Bool) (m : Mem) (x : Info) (d : DataType) : List (Option Int) :=
  (elems m x.data d).map fun e => (number big d.endian e).map (intValue (isSigned d.id) d.id.bytes)

/-- The leaf's byte order is the machine's. -/
def MachineOrder (big : Bool) (d : DataType) : Prop :=
  d.endian = .default ∨ d.endian = (if big then .big else .little)

end Conduit.Spec
