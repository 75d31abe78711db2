import Verif.Model.Mem
import Verif.Model.Schema
/-
Model of conduit::Node: a tree of nodes, each with a data pointer and an
ownership flag, over the block memory of Verif/Model/Mem.lean.
Source: /repo/src/libs/conduit/conduit_node.cpp
Simplifications: the node's schema is stored in the tree itself (names on the
children, DataType in the leaves; the tie between node and schema objects is the
subject of Verif/Model/NodeSync.lean); memory mapped data and `m_data_size` are
not modelled; the allocator id is not modelled here.
-/
namespace Conduit
open Spec

/-- `m_data` and `m_alloced` (conduit_node.hpp, private members). -/
structure Info where
  data : Option Ptr := none
  alloced : Bool := false
deriving DecidableEq, Repr

/-- A node with its schema: leaf (possibly of the empty type), object, list. -/
inductive Node where
  | leaf (x : Info) (d : DataType)
  | obj (x : Info) (es : List (Str × Node))
  | lst (x : Info) (cs : List Node)

namespace Node

def info : Node → Info
  | .leaf x _ => x
  | .obj x _ => x
  | .lst x _ => x

/-- `dtype()`: conduit_data_type.cpp:63-80 for objects and lists. -/
def dtype : Node → DataType
  | .leaf _ d => d
  | .obj _ _ => { id := .object }
  | .lst _ _ => { id := .list }

mutual
/-- `schema()` -/
def schema : Node → Schema
  | .leaf _ d => .leaf d
  | .obj _ es => .obj (schemaE es)
  | .lst _ cs => .lst (schemaL cs)
def schemaE : List (Str × Node) → List (Str × Schema)
  | [] => []
  | (n, c) :: es => (n, schema c) :: schemaE es
def schemaL : List Node → List Schema
  | [] => []
  | c :: cs => schema c :: schemaL cs
end

/-- The default constructed node, conduit_node.cpp:17378-17395 `init_defaults`. -/
def new : Node := .leaf {} {}

/-- conduit_node.cpp:17318-17331: the node's own buffer is freed when it is owned,
    not null and the type is not empty. -/
def freeOwn (x : Info) (isEmpty : Bool) (m : Mem) : Res Mem :=
  if x.alloced && !isEmpty then
    match x.data with
    | some p => m.free p
    | none => .ok m
  else .ok m

mutual
/-- conduit_node.cpp:17306-17340 `release`, effect on memory (children are
    deleted first; a child's destructor releases it, 17343-17356). -/
def releaseMem : Node → Mem → Res Mem
  | .leaf x d, m => freeOwn x (d.id == .empty) m
  | .obj x es, m => do
    let m1 ← releaseE es m
    freeOwn x false m1
  | .lst x cs, m => do
    let m1 ← releaseL cs m
    freeOwn x false m1
def releaseE : List (Str × Node) → Mem → Res Mem
  | [], m => .ok m
  | (_, c) :: es, m => do
    let m1 ← releaseMem c m
    releaseE es m1
def releaseL : List Node → Mem → Res Mem
  | [], m => .ok m
  | c :: cs, m => do
    let m1 ← releaseMem c m
    releaseL cs m1
end

/-- conduit_node.cpp:17306-17340 `release`, effect on `m_data` and `m_alloced`
    (unchanged when nothing was freed: external pointers stay, and so does the
    ownership flag of an empty node). -/
def releasedInfo (n : Node) : Info :=
  if n.info.alloced && n.info.data.isSome && n.dtype.id != .empty then {} else n.info

/-- conduit_node.cpp:122-127 `reset`. -/
def reset (n : Node) (m : Mem) : Res (Mem × Node) := do
  let m1 ← n.releaseMem m
  .ok (m1, .leaf n.releasedInfo {})

/-- conduit_node.cpp:17281-17290 `allocate(dsize)`.  A negative size becomes a huge
    `size_t`: the allocation fails and the pointer is null. -/
def allocate (m : Mem) (dsize : Int) : Mem × Info :=
  if dsize < 0 then (m, { data := none, alloced := true })
  else ((m.alloc dsize.toNat).1, { data := some (m.alloc dsize.toNat).2, alloced := true })

/-- A node of the given type without children. -/
def ofDtype (x : Info) (d : DataType) : Node :=
  match d.id with
  | .object => .obj x []
  | .list => .lst x []
  | _ => .leaf x d

/-- conduit_node.cpp:17248-17270 `init(dtype)`. -/
def init (n : Node) (d : DataType) (m : Mem) : Res (Mem × Node) :=
  if n.dtype.compatible d then .ok (m, n)
  else do
    let isTree := n.dtype.id == .object || n.dtype.id == .list
    let r ← (if n.info.data.isSome || isTree then do
        let m1 ← n.releaseMem m
        .ok (m1, n.releasedInfo)
      else .ok (m, n.info) : Res (Mem × Info))
    if d.id != .object && d.id != .list && d.id != .empty then
      let a := allocate r.1 d.spannedBytes
      .ok (a.1, ofDtype a.2 d)
    else .ok (r.1, ofDtype r.2 d)

mutual
/-- conduit_node.cpp:17455-17494 `walk_schema`: every node of the tree gets the
    same data pointer; only the root can own it. -/
def walk (p : Option Ptr) (al : Bool) : Schema → Node
  | .leaf d => .leaf ⟨p, al⟩ d
  | .obj es => .obj ⟨p, al⟩ (walkE p es)
  | .lst cs => .lst ⟨p, al⟩ (walkL p cs)
def walkE (p : Option Ptr) : List (Str × Schema) → List (Str × Node)
  | [] => []
  | (n, c) :: es => (n, walk p false c) :: walkE p es
def walkL (p : Option Ptr) : List Schema → List Node
  | [] => []
  | c :: cs => walk p false c :: walkL p cs
end

/-- conduit_node.cpp:17571-17602 `compact_elements_to(&data[off])`. -/
def compactElements (x : Info) (d : DataType) (dst : Option Ptr) (off : Int) (m : Mem) : Res Mem :=
  if d.id == .empty || d.id == .object || d.id == .list then .ok m
  else if d.n < 0 then .ub
  else m.stridedCopy dst off d.n.toNat d.id.bytes d.id.bytes x.data (d.elementIndex 0) d.stride

mutual
/-- conduit_node.cpp:17547-17567 `compact_to(data, curr_offset)`. -/
def compactWrite (dst : Option Ptr) : Node → Int → Mem → Res Mem
  | .leaf x d, off, m => compactElements x d dst off m
  | .obj _ es, off, m => compactWriteE dst es off m
  | .lst _ cs, off, m => compactWriteL dst cs off m
def compactWriteE (dst : Option Ptr) : List (Str × Node) → Int → Mem → Res Mem
  | [], _, m => .ok m
  | (_, c) :: es, off, m => do
    let m1 ← compactWrite dst c off m
    compactWriteE dst es (off + c.schema.totalBytesCompact) m1
def compactWriteL (dst : Option Ptr) : List Node → Int → Mem → Res Mem
  | [], _, m => .ok m
  | c :: cs, off, m => do
    let m1 ← compactWrite dst c off m
    compactWriteL dst cs (off + c.schema.totalBytesCompact) m1
end

/-- conduit_node.cpp:8485-8502 `compact_to(n_dest)`; source and destination are
    different nodes of different trees. -/
def compactTo (src dest : Node) (m : Mem) : Res (Mem × Node) := do
  let r ← dest.reset m
  let c := src.schema.totalBytesCompact
  let a := if c > 0 then allocate r.1 c else (r.1, r.2.info)
  let m2 ← compactWrite a.2.data src 0 a.1
  .ok (m2, walk a.2.data a.2.alloced src.schema.compactTo)

mutual
/-- conduit_node.cpp:468-516 `set_node(node)` (deep copy); source and destination
    are different nodes of different trees. -/
def setNode : Node → Node → Mem → Res (Mem × Node)
  | .obj _ es, dest, m => do
    let r ← dest.reset m
    let s ← setNodeE es r.1
    .ok (s.1, .obj r.2.info s.2)
  | .lst _ cs, dest, m => do
    let r ← dest.reset m
    let s ← setNodeL cs r.1
    .ok (s.1, .lst r.2.info s.2)
  | .leaf x d, dest, m =>
    if d.id = .empty then dest.reset m else compactTo (.leaf x d) dest m
/-- children: a new node each, then `set` -/
def setNodeE : List (Str × Node) → Mem → Res (Mem × List (Str × Node))
  | [], m => .ok (m, [])
  | (n, c) :: es, m => do
    let r ← setNode c new m
    let s ← setNodeE es r.1
    .ok (s.1, (n, r.2) :: s.2)
def setNodeL : List Node → Mem → Res (Mem × List Node)
  | [], m => .ok (m, [])
  | c :: cs, m => do
    let r ← setNode c new m
    let s ← setNodeL cs r.1
    .ok (s.1, r.2 :: s.2)
end

/-- conduit_node.cpp:468-516 and 8485-8502 with the node itself as the source:
    `reset` clears the source before anything is copied, so nothing is. -/
def setSelf (n : Node) (m : Mem) : Res (Mem × Node) := do
  let r ← n.reset m
  match n with
  | .obj _ _ => .ok (r.1, .obj r.2.info [])
  | .lst _ _ => .ok (r.1, .lst r.2.info [])
  | .leaf _ _ => .ok r

/-- conduit_node.cpp:7386-7394 `operator=(node)`; `same` is the comparison
    `this == &node`. -/
def assign (same : Bool) (src dest : Node) (m : Mem) : Res (Mem × Node) :=
  if !same then setNode src dest m else .ok (m, dest)

/-- conduit_node.cpp:540-552 `set_schema(schema)`: own, zeroed data. -/
def setSchema (s : Schema) (dest : Node) (m : Mem) : Res (Mem × Node) := do
  let m1 ← dest.releaseMem m
  let a := allocate m1 s.spannedBytes
  .ok (a.1, walk a.2.data a.2.alloced s)

/-- conduit_node.cpp:563-574 `set_data_using_schema(schema, data)`: own copy of the
    first `spanned_bytes` bytes at `data`. -/
def setSchemaData (s : Schema) (data : Option Ptr) (dest : Node) (m : Mem) : Res (Mem × Node) := do
  let m1 ← dest.releaseMem m
  let a := allocate m1 s.spannedBytes
  let m2 ← (if s.spannedBytes < 0 then .ub else a.1.memcpy a.2.data 0 data 0 s.spannedBytes.toNat : Res Mem)
  .ok (m2, walk a.2.data a.2.alloced s)

/-- conduit_node.cpp:4560-4567 `set_external(schema, data)`. -/
def setExternalSchema (s : Schema) (data : Option Ptr) (dest : Node) (m : Mem) : Res (Mem × Node) := do
  let r ← dest.reset m
  .ok (r.1, walk data r.2.info.alloced s)

/-- conduit_node.cpp:4604-4618 `set_external(ptr, n, offset, stride, ...)`, also
    5402-5407 (arrays) and 5419-5434 (strings): release, new type, new pointer. -/
def setExternalPtr (d : DataType) (data : Option Ptr) (dest : Node) (m : Mem) : Res (Mem × Node) := do
  let m1 ← dest.releaseMem m
  .ok (m1, .leaf ⟨data, dest.releasedInfo.alloced⟩ d)

mutual
/-- conduit_node.cpp:17497-17538 `mirror_node`: the tree of `src` with the same
    data pointers, owning nothing. -/
def mirror (al : Bool) : Node → Node
  | .leaf x d => .leaf ⟨x.data, al⟩ d
  | .obj x es => .obj ⟨x.data, al⟩ (mirrorE es)
  | .lst x cs => .lst ⟨x.data, al⟩ (mirrorL cs)
def mirrorE : List (Str × Node) → List (Str × Node)
  | [] => []
  | (n, c) :: es => (n, mirror false c) :: mirrorE es
def mirrorL : List Node → List Node
  | [] => []
  | c :: cs => mirror false c :: mirrorL cs
end

/-- conduit_node.cpp:4544-4549 `set_external(node)`. -/
def setExternalNode (src dest : Node) (m : Mem) : Res (Mem × Node) := do
  let r ← dest.reset m
  .ok (r.1, mirror r.2.info.alloced src)

/-- Scalar setters, conduit_node.cpp:614-620 (`set_int8`; the other types are the
    same text): `init`, then copy `sizeof(T)` bytes to `element_ptr(0)`. -/
def setScalar (t : TypeId) (bytes : List UInt8) (dest : Node) (m : Mem) : Res (Mem × Node) := do
  let r ← dest.init (DataType.ofId t 1) m
  let m2 ← r.1.store r.2.info.data (r.2.dtype.elementIndex 0) bytes
  .ok (m2, r.2)

/-- Array setters, conduit_node.cpp:934-945 (`set_int8_array`): `init` with the
    source's length, then a strided copy of as many elements as the destination
    has. -/
def setArray (s : DataType) (src : Option Ptr) (dest : Node) (m : Mem) : Res (Mem × Node) := do
  let r ← dest.init (DataType.ofId s.id s.n) m
  let d := r.2.dtype
  let m2 ← (if d.n < 0 ∨ d.ele < 0 then .ub
    else r.1.stridedCopy r.2.info.data (d.elementIndex 0) d.n.toNat d.ele.toNat d.stride src (s.elementIndex 0) s.stride : Res Mem)
  .ok (m2, r.2)

/-- Vector setters, conduit_node.cpp:1495-1500 (`set_int8_vector`): `init`, then one
    contiguous copy of the vector's bytes to `element_ptr(0)`. -/
def setVector (t : TypeId) (elems : List (List UInt8)) (dest : Node) (m : Mem) : Res (Mem × Node) := do
  let r ← dest.init (DataType.ofId t elems.length) m
  let m2 ← r.1.store r.2.info.data (r.2.dtype.elementIndex 0) elems.flatten
  .ok (m2, r.2)

/-- Writing a list of elements one by one at a stride (`copyLoop` from a buffer
    that is not a node's). -/
def storeElems (p : Option Ptr) (stride : Int) : List (List UInt8) → Int → Mem → Res Mem
  | [], _, m => .ok m
  | e :: es, off, m => do
    let m1 ← m.store p off e
    storeElems p stride es (off + stride) m1

/-- conduit_node.cpp:1409-1440 `set_string` (also 1451-1482 `set_char8_str`): `init`
    with the length including the terminating 0, then copy the characters at the
    destination's stride. -/
def setString (text : List UInt8) (dest : Node) (m : Mem) : Res (Mem × Node) := do
  let bytes := text ++ [0]
  let r ← dest.init (DataType.ofId .char8Str bytes.length) m
  let d := r.2.dtype
  let m2 ← (if d.ele = 1 ∧ d.stride = 1 then r.1.store r.2.info.data (d.elementIndex 0) bytes
    else if d.ele = 1 then storeElems r.2.info.data d.stride (bytes.map (fun b => [b])) (d.elementIndex 0) r.1
    else .ub : Res Mem)
  .ok (m2, r.2)

/-- conduit_node.cpp:15454-15461 `as_string` (with `as_char8_str`, the address of element
    0): a C string, that is the bytes one after the other up to the first 0,
    whatever the stride; no 0 before the end of the block is undefined behaviour. -/
def asString (x : Info) (d : DataType) (m : Mem) : Res (List UInt8) :=
  if d.id ≠ .char8Str then .error
  else match x.data with
    | none => .ub
    | some q => match m[q.blk]? with
      | some (some bs) =>
        if q.off + d.elementIndex 0 < 0 then .ub
        else if 0 ∈ bs.drop (q.off + d.elementIndex 0).toNat
          then .ok ((bs.drop (q.off + d.elementIndex 0).toNat).takeWhile (· ≠ 0)) else .ub
      | _ => .ub

/-- The leaf at a list of child positions. -/
def leafAt : Node → List Nat → Option (Info × DataType)
  | .leaf x d, [] => some (x, d)
  | .leaf _ _, _ :: _ => none
  | .obj _ _, [] => none
  | .lst _ _, [] => none
  | .obj _ es, i :: a => match es[i]? with
    | some (_, c) => leafAt c a
    | none => none
  | .lst _ cs, i :: a => match cs[i]? with
    | some c => leafAt c a
    | none => none

/-- Assignment to element `i` through `element_ptr(i)` (conduit_node.hpp:4167-4168,
    also conduit_data_array.hpp `operator[]`/`element`): the bytes of the value are
    stored at offset + i * stride. -/
def writeElem (x : Info) (d : DataType) (i : Nat) (bytes : List UInt8) (m : Mem) : Res Mem :=
  m.store x.data (d.elementIndex i) bytes

/-! ### children -/

/-- `m_schema->child_index(name)` / position by name -/
def posOf (es : List (Str × Node)) (name : Str) : Option Nat := es.findIdx? (fun e => e.1 == name)

/-- conduit_node.cpp:14263-14279 `add_child(name)`: the node becomes an object (its
    own data pointer is kept, nothing is released).  On a list with children the
    schema drops its children while the node keeps the child nodes: those point
    to freed schemas, so the result is `ub`. -/
def addChild (n : Node) (name : Str) : Res (Info × List (Str × Node) × Nat) :=
  match n with
  | .obj x es => match posOf es name with
    | some i => .ok (x, es, i)
    | none => .ok (x, es ++ [(name, new)], es.length)
  | .leaf x _ => .ok (x, [(name, new)], 0)
  | .lst x cs => if cs.isEmpty then .ok (x, [(name, new)], 0) else .ub

/-- conduit_node.cpp:14626-14643 `append`, up to the new child: the list the node
    is afterwards. -/
def initList (n : Node) (m : Mem) : Res (Mem × Info × List Node) := do
  let r ← n.init { id := .list } m
  match r.2 with
  | .lst x cs => .ok (r.1, x, cs)
  | _ => .ub

/-- conduit_node.cpp:8557-8577: the leaf part of `update`. -/
def updateLeaf (sx : Info) (s : DataType) (dest : Node) (m : Mem) : Res (Mem × Node) :=
  if s.id = .empty then .ok (m, dest)
  else if dest.dtype.id = s.id ∧ dest.dtype.n ≥ s.n then
    if s.n < 0 ∨ dest.dtype.ele < 0 then .ub
    else do
      let m1 ← m.stridedCopy dest.info.data (dest.dtype.elementIndex 0) s.n.toNat dest.dtype.ele.toNat
        dest.dtype.stride sx.data (s.elementIndex 0) s.stride
      .ok (m1, dest)
  else compactTo (.leaf sx s) dest m

mutual
/-- conduit_node.cpp:8509-8585 `update(n_src)`. -/
def update : Node → Node → Mem → Res (Mem × Node)
  | .obj _ es, dest, m => updateE es dest m
  | .lst _ cs, dest, m =>
    match dest with
    | .lst x ds => do
      let r ← updateL cs ds m
      .ok (r.1, .lst x r.2)
    | _ =>
      -- every source child is appended; without any, nothing happens
      if cs.isEmpty then .ok (m, dest)
      else do
        let r ← dest.initList m
        let s ← updateL cs r.2.2 r.1
        .ok (s.1, .lst r.2.1 s.2)
  | .leaf x d, dest, m => updateLeaf x d dest m
/-- the loop over the names, 8521-8530 -/
def updateE : List (Str × Node) → Node → Mem → Res (Mem × Node)
  | [], dest, m => .ok (m, dest)
  | (n, c) :: es, dest, m => do
    let a ← dest.addChild n
    let r ← update c ((a.2.1[a.2.2]?).getD (n, new)).2 m
    updateE es (.obj a.1 (a.2.1.set a.2.2 (n, r.2))) r.1
/-- the loops over list children, 8538-8556: existing entries are updated, missing
    ones appended -/
def updateL : List Node → List Node → Mem → Res (Mem × List Node)
  | [], ds, m => .ok (m, ds)
  | c :: cs, [], m => do
    let r ← update c new m
    let s ← updateL cs [] r.1
    .ok (s.1, r.2 :: s.2)
  | c :: cs, d :: ds, m => do
    let r ← update c d m
    let s ← updateL cs ds r.1
    .ok (s.1, r.2 :: s.2)
end

mutual
/-- conduit_node.cpp:8588-8648 `update_compatible(n_src)`. -/
def updateCompatible : Node → Node → Mem → Res (Mem × Node)
  | .obj _ es, dest, m => updateCompatibleE es dest m
  | .lst _ cs, dest, m =>
    match dest with
    | .lst x ds => do
      let r ← updateCompatibleL cs ds m
      .ok (r.1, .lst x r.2)
    | _ => .ok (m, dest)
  | .leaf x d, dest, m =>
    if d.id = .empty then .ok (m, dest)
    else if dest.dtype.id = d.id ∧ dest.dtype.n ≥ d.n then updateLeaf x d dest m
    else .ok (m, dest)
def updateCompatibleE : List (Str × Node) → Node → Mem → Res (Mem × Node)
  | [], dest, m => .ok (m, dest)
  | (n, c) :: es, dest, m =>
    match dest with
    | .obj x ds =>
      match posOf ds n with
      | some i => do
        let r ← updateCompatible c ((ds[i]?).getD (n, new)).2 m
        updateCompatibleE es (.obj x (ds.set i (n, r.2))) r.1
      | none => updateCompatibleE es dest m
    | _ => updateCompatibleE es dest m
def updateCompatibleL : List Node → List Node → Mem → Res (Mem × List Node)
  | [], ds, m => .ok (m, ds)
  | _ :: _, [], m => .ok (m, [])
  | c :: cs, d :: ds, m => do
    let r ← updateCompatible c d m
    let s ← updateCompatibleL cs ds r.1
    .ok (s.1, r.2 :: s.2)
end

end Node
end Conduit
