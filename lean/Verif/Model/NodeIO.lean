import Verif.Model.Node
/-
Binary output and input of nodes.
Source: /repo/src/libs/conduit/conduit_node.cpp
A file is the list of bytes written to it; opening always succeeds.
-/
namespace Conduit
open Spec

namespace Node

/-- conduit_node.cpp:17616-17632: `serialize(data, offset)` for a leaf (an empty leaf
    takes the same branch, with 0 bytes).  A negative byte count becomes a huge
    `size_t`. -/
def serializeLeaf (x : Info) (d : DataType) (dst : Option Ptr) (off : Int) (m : Mem) : Res Mem :=
  if Schema.isCompact (.leaf d) then
    if Schema.totalBytesCompact (.leaf d) < 0 then .ub
    else m.memcpy dst off x.data (d.elementIndex 0) (Schema.totalBytesCompact (.leaf d)).toNat
  else compactElements x d dst off m

mutual
/-- conduit_node.cpp:17606-17634 `serialize(data, curr_offset)`: the offset of the
    next child advances by the child's `total_strided_bytes`. -/
def serializeMem (dst : Option Ptr) : Node → Int → Mem → Res Mem
  | .leaf x d, off, m => serializeLeaf x d dst off m
  | .obj _ es, off, m => serializeMemE dst es off m
  | .lst _ cs, off, m => serializeMemL dst cs off m
def serializeMemE (dst : Option Ptr) : List (Str × Node) → Int → Mem → Res Mem
  | [], _, m => .ok m
  | (_, c) :: es, off, m => do
    let m1 ← serializeMem dst c off m
    serializeMemE dst es (off + c.schema.totalStridedBytes) m1
def serializeMemL (dst : Option Ptr) : List Node → Int → Mem → Res Mem
  | [], _, m => .ok m
  | c :: cs, off, m => do
    let m1 ← serializeMem dst c off m
    serializeMemL dst cs (off + c.schema.totalStridedBytes) m1
end

/-- conduit_node.cpp:8421-8426 `serialize(std::vector<uint8>&)`: a new zeroed vector of
    `total_bytes_compact` bytes, filled by the function above; the result is the
    vector's contents.  A negative size throws `std::length_error` (modelled as
    `ub`: it is not a conduit error). -/
def serializeVector (n : Node) (m : Mem) : Res (List UInt8) :=
  if n.schema.totalBytesCompact < 0 then .ub
  else do
    let a := m.alloc n.schema.totalBytesCompact.toNat
    let m1 ← serializeMem (some a.2) n 0 a.1
    m1.load (some a.2) 0 n.schema.totalBytesCompact.toNat

/-- conduit_node.cpp:8458-8477: what one leaf adds to the stream: its bytes as they
    lie in memory when `is_compact`, else a temporary buffer with the compacted
    elements. -/
def streamLeaf (x : Info) (d : DataType) (m : Mem) : Res (List UInt8) :=
  if d.id = .empty then .ok []
  else if Schema.isCompact (.leaf d) then
    if Schema.totalStridedBytes (.leaf d) < 0 then .ub
    else m.load x.data (d.elementIndex 0) (Schema.totalStridedBytes (.leaf d)).toNat
  else if Schema.totalBytesCompact (.leaf d) < 0 then .ub
  else do
    let a := m.alloc (Schema.totalBytesCompact (.leaf d)).toNat
    let m1 ← compactElements x d (some a.2) 0 a.1
    m1.load (some a.2) 0 (Schema.totalBytesCompact (.leaf d)).toNat

mutual
/-- conduit_node.cpp:8445-8478 `serialize(std::ofstream&)`: the bytes written. -/
def serializeStream : Node → Mem → Res (List UInt8)
  | .leaf x d, m => streamLeaf x d m
  | .obj _ es, m => serializeStreamE es m
  | .lst _ cs, m => serializeStreamL cs m
def serializeStreamE : List (Str × Node) → Mem → Res (List UInt8)
  | [], _ => .ok []
  | (_, c) :: es, m => do
    let a ← serializeStream c m
    let b ← serializeStreamE es m
    .ok (a ++ b)
def serializeStreamL : List Node → Mem → Res (List UInt8)
  | [], _ => .ok []
  | c :: cs, m => do
    let a ← serializeStream c m
    let b ← serializeStreamL cs m
    .ok (a ++ b)
end

/-- conduit_node.cpp:391-400 `save(path, "conduit_bin")`: the schema and the bytes of
    the compacted node. -/
def saveBin (n : Node) (m : Mem) : Res (Schema × List UInt8) := do
  let r ← compactTo n new m
  let bytes ← serializeStream r.2 r.1
  .ok (r.2.schema, bytes)

/-- conduit_node.cpp:291-325 `load(path, schema)`: `spanned_bytes` zeroed bytes,
    overwritten by as much of the file as there is. -/
def loadBin (s : Schema) (file : List UInt8) (dest : Node) (m : Mem) : Res (Mem × Node) := do
  let r ← dest.reset m
  let a := allocate r.1 s.spannedBytes
  let m2 ← a.1.store a.2.data 0 (file.take s.spannedBytes.toNat)
  .ok (m2, walk a.2.data true s)

end Node
end Conduit
