import Verif.Model.Schema
/-
Multi-component arrays.
Source: /repo/src/libs/blueprint/conduit_blueprint_mcarray.cpp
-/
namespace Conduit.MCArray

/-- conduit_data_type.cpp `is_number()`: an integer or floating point type. -/
def isNumber (t : TypeId) : Bool := match t with
  | .int8 | .int16 | .int32 | .int64 | .uint8 | .uint16 | .uint32 | .uint64 | .float32 | .float64 => true
  | _ => false

/-- The loop of conduit_blueprint_mcarray.cpp:80-134: `num_elems` and `res` so far. -/
def verifyLoop : List DataType → (numElems : Int) → (res : Bool) → Bool
  | [], _, res => res
  | d :: ds, numElems, res =>
    if isNumber d.id then
      let numElems := if numElems = 0 then d.n else numElems
      verifyLoop ds numElems (if d.n ≠ numElems then false else res)
    else verifyLoop ds numElems false

/-- conduit_blueprint_mcarray.cpp:63-139 `verify(n, info)`: the verdict for a node of type `kind`
    whose children have the types `ds`. -/
def verify (kind : TypeId) (ds : List DataType) : Bool :=
  verifyLoop ds 0 (kind == .object || kind == .list)

/-- conduit_blueprint_mcarray.cpp:152-180: the component types `to_contiguous` puts in the
    destination's schema. -/
def contiguousTypes : List DataType → (offset : Int) → List DataType
  | [], _ => []
  | d :: ds, offset => { d with stride := d.ele, offset := offset } :: contiguousTypes ds (offset + d.ele * d.n)

/-- conduit_blueprint_mcarray.cpp:205-211: the tuple size. -/
def tupleBytes (ds : List DataType) : Int := (ds.map fun d => (d.id.bytes : Int)).sum

/-- conduit_blueprint_mcarray.cpp:215-237: the component types `to_interleaved` puts in the
    destination's schema. -/
def interleavedTypes (stride : Int) : List DataType → (offset : Int) → List DataType
  | [], _ => []
  | d :: ds, offset => { d with stride := stride, offset := offset } :: interleavedTypes stride ds (offset + d.id.bytes)

/-- The loop of conduit_blueprint_mcarray.cpp:265-279 over the components' `element_ptr(0)`
    (as addresses) and types.  Simplification: pointers are numbers, none of them null. -/
def interleavedLoop (start stride : Int) : List (Int × DataType) → (total : Int) → Bool
  | [], _ => true
  | (p, d) :: cs, total =>
    if total = p - start ∧ stride = d.stride then interleavedLoop start stride cs (total + d.ele) else false

/-- conduit_blueprint_mcarray.cpp:252-281 `is_interleaved(n)`. -/
def isInterleaved : List (Int × DataType) → Bool
  | [] => true
  | (p, d) :: cs => interleavedLoop p d.stride ((p, d) :: cs) 0

end Conduit.MCArray
