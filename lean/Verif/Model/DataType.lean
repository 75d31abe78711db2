import Verif.Model.Str
/-
Model of conduit::DataType.  Source: /repo/src/libs/conduit/conduit_data_type.cpp
-/
namespace Conduit

/-- conduit_bitwidth_style_types.h.in:184-201, the type ids (in enum order).
    Simplification: an `index_t` that is not one of the 14 ids is not modelled
    (the code treats such a value as the empty type in `id_to_name`). -/
inductive TypeId where
  | empty | object | list
  | int8 | int16 | int32 | int64
  | uint8 | uint16 | uint32 | uint64
  | float32 | float64 | char8Str
deriving DecidableEq, Repr

/-- Every type id, for statements over the whole table. -/
def TypeId.all : List TypeId :=
  [.empty, .object, .list, .int8, .int16, .int32, .int64, .uint8, .uint16, .uint32, .uint64,
   .float32, .float64, .char8Str]

/-- conduit_endianness.hpp: `DEFAULT_ID`, `BIG_ID`, `LITTLE_ID`. -/
inductive Endian where
  | default | big | little
deriving DecidableEq, Repr

/-- conduit_data_type.cpp:1081-1108 `id_to_name`. -/
def TypeId.name : TypeId → Str
  | .empty => chars! "empty" | .object => chars! "object" | .list => chars! "list"
  | .int8 => chars! "int8" | .int16 => chars! "int16" | .int32 => chars! "int32" | .int64 => chars! "int64"
  | .uint8 => chars! "uint8" | .uint16 => chars! "uint16" | .uint32 => chars! "uint32"
  | .uint64 => chars! "uint64"
  | .float32 => chars! "float32" | .float64 => chars! "float64"
  | .char8Str => chars! "char8_str"

/-- conduit_data_type.cpp:1058-1076 `name_to_id`. -/
def nameToId (s : Str) : TypeId :=
  if s = chars! "empty" then .empty
  else if s = chars! "object" then .object
  else if s = chars! "list" then .list
  else if s = chars! "int8" then .int8
  else if s = chars! "int16" then .int16
  else if s = chars! "int32" then .int32
  else if s = chars! "int64" then .int64
  else if s = chars! "uint8" then .uint8
  else if s = chars! "uint16" then .uint16
  else if s = chars! "uint32" then .uint32
  else if s = chars! "uint64" then .uint64
  else if s = chars! "float32" then .float32
  else if s = chars! "float64" then .float64
  else if s = chars! "char8_str" then .char8Str
  else .empty

/-- conduit_data_type.cpp:1219-1247 `default_bytes`. -/
def TypeId.bytes : TypeId → Nat
  | .int8 => 1 | .int16 => 2 | .int32 => 4 | .int64 => 8
  | .uint8 => 1 | .uint16 => 2 | .uint32 => 4 | .uint64 => 8
  | .float32 => 4 | .float64 => 8 | .char8Str => 1
  | .empty => 0 | .object => 0 | .list => 0

/-- conduit_data_type.cpp:491-498: the six fields of a DataType.
    `index_t` (64-bit signed) is unbounded `Int`. -/
structure DataType where
  id : TypeId := .empty
  n : Int := 0
  offset : Int := 0
  stride : Int := 0
  ele : Int := 0
  endian : Endian := .default
deriving DecidableEq, Repr

namespace DataType

/-- conduit_data_type.cpp:526-533, `DataType(id, n)`: default layout. -/
def ofId (id : TypeId) (n : Int) : DataType :=
  { id, n, offset := 0, stride := id.bytes, ele := id.bytes, endian := .default }

/-- conduit_data_type.cpp:641-645. -/
def stridedBytes (d : DataType) : Int := d.stride * (d.n - 1) + d.ele
/-- conduit_data_type.cpp:650-653. -/
def bytesCompact (d : DataType) : Int := d.id.bytes * d.n
/-- conduit_data_type.cpp:657-660. -/
def spannedBytes (d : DataType) : Int := d.offset + d.stride * (d.n - 1) + d.ele
/-- conduit_data_type.cpp:664-669. -/
def compatible (a b : DataType) : Bool := a.id == b.id && a.ele == b.ele && decide (a.n ≥ b.n)
/-- conduit_data_type.cpp:673-681. -/
def equals (a b : DataType) : Bool :=
  a.id == b.id && a.n == b.n && a.offset == b.offset && a.stride == b.stride && a.ele == b.ele
    && a.endian == b.endian
/-- conduit_data_type.cpp:686-692. -/
def isCompact (d : DataType) : Bool :=
  d.id != .empty && d.id != .object && d.id != .list && d.spannedBytes == d.bytesCompact
/-- conduit_data_type.cpp:1038-1051 (the stride-0 warning is not modelled). -/
def elementIndex (d : DataType) (i : Int) : Int := d.offset + d.stride * i
/-- conduit_data_type.cpp:1464-1473. -/
def compactTo (d : DataType) : DataType :=
  { id := d.id, n := d.n, offset := 0, stride := d.id.bytes, ele := d.id.bytes, endian := d.endian }

end DataType
end Conduit
