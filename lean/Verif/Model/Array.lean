import Verif.Model.Node
import Verif.Model.Utils
/-
Integer arrays and accessors over leaf memory.
Sources: /repo/src/libs/conduit/conduit_data_array.cpp, conduit_data_accessor.cpp,
conduit_node.cpp (leaf coercion).
-/
namespace Conduit

/-- The C++ type behind an integer type id, conduit_bitwidth_style_types.h.in. -/
def TypeId.intTy : TypeId → Option IntTy
  | .int8 => some ⟨true, .w8⟩ | .int16 => some ⟨true, .w16⟩ | .int32 => some ⟨true, .w32⟩ | .int64 => some ⟨true, .w64⟩
  | .uint8 => some ⟨false, .w8⟩ | .uint16 => some ⟨false, .w16⟩ | .uint32 => some ⟨false, .w32⟩
  | .uint64 => some ⟨false, .w64⟩
  | _ => none

/-- `sizeof(T)` -/
def IntTy.size (t : IntTy) : Nat :=
  match t.width with
  | .w8 => 1 | .w16 => 2 | .w32 => 4 | .w64 => 8

/-- The bits of an object of integer type as the machine reads them. -/
def machineNat (big : Bool) (bs : List UInt8) : Nat :=
  (if big then bs.reverse else bs).foldr (fun b acc => b.toNat + 256 * acc) 0

/-- `*(T*)(p + off)` -/
def readInt (big : Bool) (t : IntTy) (m : Mem) (p : Option Ptr) (off : Int) : Res Int := do
  let bs ← m.load p off t.size
  .ok (t.cast (machineNat big bs))

/-- the `k` bytes of a number, least significant first -/
def lowBytes : Nat → Nat → List UInt8
  | 0, _ => []
  | k + 1, v => UInt8.ofNat (v % 256) :: lowBytes k (v / 256)

/-- The object representation of a value of type `T`. -/
def machineBytes (big : Bool) (t : IntTy) (v : Int) : List UInt8 :=
  let bs := lowBytes t.size (v % t.width.card).toNat
  if big then bs.reverse else bs

/-- `*(T*)(p + off) = v` -/
def writeInt (big : Bool) (t : IntTy) (m : Mem) (p : Option Ptr) (off : Int) (v : Int) : Res Mem :=
  m.store p off (machineBytes big t v)

/-- conduit_data_array.hpp `element(idx)`: `*(T*)element_ptr(idx)`. -/
def arrElement (big : Bool) (t : IntTy) (m : Mem) (x : Info) (d : DataType) (i : Nat) : Res Int :=
  readInt big t m x.data (d.elementIndex i)

/-- The `for(i = 0; i < number_of_elements(); i++)` loops of conduit_data_array.cpp:445-535:
    `k` iterations starting at index `i`. -/
def arrFold {α : Type} (big : Bool) (t : IntTy) (m : Mem) (x : Info) (d : DataType) (f : α → Int → Res α) :
    (k i : Nat) → α → Res α
  | 0, _, a => .ok a
  | k + 1, i, a => do
    let v ← arrElement big t m x d i
    let a' ← f a v
    arrFold big t m x d f k (i + 1) a'

/-- `std::numeric_limits<T>::max()` -/
def IntTy.maxVal (t : IntTy) : Int := if t.signed then t.width.card / 2 - 1 else t.width.card - 1
/-- `std::numeric_limits<T>::lowest()` -/
def IntTy.minVal (t : IntTy) : Int := if t.signed then - (t.width.card / 2) else 0

/-- conduit_data_array.cpp:452-466 `min`. -/
def arrMin (big : Bool) (t : IntTy) (m : Mem) (x : Info) (d : DataType) : Res Int :=
  arrFold big t m x d (fun res v => .ok (if v < res then v else res)) d.n.toNat 0 t.maxVal
/-- conduit_data_array.cpp:470-484 `max`. -/
def arrMax (big : Bool) (t : IntTy) (m : Mem) (x : Info) (d : DataType) : Res Int :=
  arrFold big t m x d (fun res v => .ok (if v > res then v else res)) d.n.toNat 0 t.minVal

/-- `res += val` in type `T`: unsigned arithmetic and types narrower than `int` wrap; signed
    overflow of `int32` and `int64` is undefined behaviour. -/
def addTo (t : IntTy) (res v : Int) : Res Int :=
  if t.signed ∧ (t.width = .w32 ∨ t.width = .w64) then
    (if t.minVal ≤ res + v ∧ res + v ≤ t.maxVal then .ok (res + v) else .ub)
  else .ok (t.cast (res + v))

/-- conduit_data_array.cpp:489-500 `sum`. -/
def arrSum (big : Bool) (t : IntTy) (m : Mem) (x : Info) (d : DataType) : Res Int :=
  arrFold big t m x d (addTo t) d.n.toNat 0 0
/-- conduit_data_array.cpp:520-532 `count`. -/
def arrCount (big : Bool) (t : IntTy) (m : Mem) (x : Info) (d : DataType) (c : Int) : Res Nat :=
  arrFold big t m x d (fun res v => .ok (if v = c then res + 1 else res)) d.n.toNat 0 0

/-- conduit_data_accessor.cpp:159-206 `DataAccessor<T>::element`.
    Simplification: leaves of floating point type are not modelled (`none` in place of a
    conversion); other types are a conduit error. -/
def accElement (big : Bool) (target : IntTy) (m : Mem) (x : Info) (d : DataType) (i : Nat) : Res (Option Int) :=
  match d.id.intTy with
  | some t => do
    let v ← readInt big t m x.data (d.elementIndex i)
    .ok (some (target.cast v))
  | none => if d.id = .float32 ∨ d.id = .float64 then .ok none else .error

/-- conduit_data_accessor.cpp:210-272 `DataAccessor<T>::set(idx, value)`; floating point
    leaves not modelled (treated as an error). -/
def accSet (big : Bool) (x : Info) (d : DataType) (i : Nat) (v : Int) (m : Mem) : Res Mem :=
  match d.id.intTy with
  | some t => writeInt big t m x.data (d.elementIndex i) (t.cast v)
  | none => .error

/-- the loops of conduit_data_accessor.cpp:276-369 -/
def accFillLoop (big : Bool) (t : IntTy) (x : Info) (d : DataType) (v : Int) : (k i : Nat) → Mem → Res Mem
  | 0, _, m => .ok m
  | k + 1, i, m => do
    let m' ← writeInt big t m x.data (d.elementIndex i) v
    accFillLoop big t x d v k (i + 1) m'

/-- conduit_data_accessor.cpp:275-370 `DataAccessor<T>::fill(value)`; floating point leaves
    not modelled. -/
def accFill (big : Bool) (x : Info) (d : DataType) (v : Int) (m : Mem) : Res Mem :=
  match d.id.intTy with
  | some t => accFillLoop big t x d (t.cast v) d.n.toNat 0 m
  | none => .error

/-- conduit_node.cpp:8845-9560 `to_int8` ... `to_uint64`: the first element converted to the
    target type.  Simplification: floating point and string leaves are not modelled (`none`);
    every other type gives 0. -/
def nodeToInt (big : Bool) (target : IntTy) (m : Mem) (x : Info) (d : DataType) : Res (Option Int) :=
  match d.id.intTy with
  | some t => do
    let v ← readInt big t m x.data (d.elementIndex 0)
    .ok (some (target.cast v))
  | none => if d.id = .float32 ∨ d.id = .float64 ∨ d.id = .char8Str then .ok none else .ok (some 0)

end Conduit
