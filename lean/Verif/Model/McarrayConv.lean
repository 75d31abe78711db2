import Verif.Model.Mcarray
import Verif.Model.Node
import Verif.Model.Json
import Verif.Model.SchemaRaw
/-
The layout conversions of multi-component arrays on node trees and memory.
Source: /repo/src/libs/blueprint/conduit_blueprint_mcarray.cpp
-/
namespace Conduit.MCArray
open Conduit.Node

mutual
/-- The schema without its bookkeeping (the name map is the order vector read backwards). -/
def toSchema : RSchema → Schema
  | .leaf d => .leaf d
  | .object _ o c => .obj (toSchemaE o c)
  | .list c => .lst (toSchemaL c)
def toSchemaE : List Str → List RSchema → List (Str × Schema)
  | _, [] => []
  | [], _ :: _ => []
  | n :: o, x :: c => (n, toSchema x) :: toSchemaE o c
def toSchemaL : List RSchema → List Schema
  | [] => []
  | x :: c => toSchema x :: toSchemaL c
end

/-- conduit_blueprint_mcarray.cpp:176 `s_dest[name] = curr_dt`: `Schema::operator[]` is
    `fetch(path)` (conduit_schema.cpp:1149-1152), the assignment is `set(dtype)`. -/
def schemaPut (r : RSchema) (name : Str) (d : DataType) : Res RSchema := do
  let q ← RSchema.fetchAt r [] name
  .ok (RSchema.putAt q.1 q.2 (RSchema.setDtype RSchema.empty d))

/-- The second loop of both conversions: all components put into the schema. -/
def layoutSchema : List (Str × DataType) → RSchema → Res RSchema
  | [], r => .ok r
  | (n, d) :: cs, r => do
    let q ← schemaPut r n d
    layoutSchema cs q

/-- What `NodeConstIterator` shows of the children: `itr.name()`
    (conduit_node_iterator.cpp:391-406: the position for a list) and `dtype()`. -/
def childTypes : Node → List (Str × DataType)
  | .leaf _ _ => []
  | .obj _ es => es.map fun e => (e.1, e.2.dtype)
  | .lst _ cs => cs.zipIdx.map fun c => (intText c.2, c.1.dtype)

/-- conduit_blueprint_mcarray.cpp:144-188 `to_contiguous(src, dest)`, `src` and `dest` different
    nodes. -/
def toContiguous (src dest : Node) (m : Mem) : Res (Mem × Node) := do
  let r ← layoutSchema (((childTypes src).map Prod.fst).zip (contiguousTypes ((childTypes src).map Prod.snd) 0)) RSchema.empty
  let p ← setSchema (toSchema r) dest m
  update src p.2 p.1

/-- conduit_blueprint_mcarray.cpp:193-247 `to_interleaved(src, dest)`, `src` and `dest` different
    nodes. -/
def toInterleaved (src dest : Node) (m : Mem) : Res (Mem × Node) := do
  let ds := (childTypes src).map Prod.snd
  let r ← layoutSchema (((childTypes src).map Prod.fst).zip (interleavedTypes (tupleBytes ds) ds 0)) RSchema.empty
  let p ← setSchema (toSchema r) dest m
  update src p.2 p.1

/-- `to_contiguous(n, n)`: the source of the copy is the node that `set` has just changed. -/
def toContiguousSelf (n : Node) (m : Mem) : Res (Mem × Node) := do
  let r ← layoutSchema (((childTypes n).map Prod.fst).zip (contiguousTypes ((childTypes n).map Prod.snd) 0)) RSchema.empty
  let p ← setSchema (toSchema r) n m
  update p.2 p.2 p.1

end Conduit.MCArray
