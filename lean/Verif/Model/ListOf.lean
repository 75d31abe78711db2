import Verif.Model.PlainMsg
import Verif.Model.NodeSync
/-
Lists of entries of one schema, and gathering nodes of one schema with MPI.
Sources: /repo/src/libs/conduit/conduit_node.cpp, /repo/src/libs/relay/conduit_relay_mpi.cpp
Simplifications: as in Verif/Model/Node.lean and Verif/Model/PlainMsg.lean; the number of entries is not negative; a sum of
bytes does not exceed `index_t`.
-/
namespace Conduit

namespace Node

/-- conduit_node.cpp:14721-14727, 14759-14765: the entries, each external to the bytes behind those of the one before. -/
def listEntries (p : Option Ptr) (s : Schema) (k : Nat) : List Node :=
  (List.range k).map fun (i : Nat) => walk (p.map fun q => ⟨q.blk, q.off + i * s.totalBytesCompact⟩) false s

/-- conduit_node.cpp:14705-14728 `list_of(schema, num_entries)`; 14732-14739 for a data type. -/
def listOf (s : Schema) (k : Nat) (dest : Node) (m : Mem) : Res (Mem × Node) := do
  let r ← dest.reset m
  let a := allocate r.1 (s.compactTo.totalBytesCompact * k)
  .ok (a.1, .lst a.2 (listEntries a.2.data s.compactTo k))

/-- conduit_node.cpp:14745-14766 `list_of_external(data, schema, num_entries)`.  On a node that is a list with
    entries `release` deletes the entries but not their schemas, and `init_list` does nothing: the node and its schema do not fit
    together afterwards (`listOfExternalN`), which trees cannot express; it is taken as undefined here. -/
def listOfExternal (data : Option Ptr) (s : Schema) (k : Nat) (dest : Node) (m : Mem) : Res (Mem × Node) := do
  let m1 ← dest.releaseMem m
  match dest with
  | .lst _ (_ :: _) => .ub
  | _ => .ok (m1, .lst ⟨data, dest.releasedInfo.alloced⟩ (listEntries data s.compactTo k))

end Node

namespace Heap

/-- conduit_node.cpp:14745-14766 `list_of_external(data, schema, num_entries)` with the node objects and schema objects. -/
def listOfExternalN (h : Heap) (n : Nat) (data : Option Ptr) (s : Schema) (k : Nat) : Res Heap := do
  let h1 ← h.releaseN n
  let h2 ← h1.initN n { id := .list }
  let h3 ← h2.setData n data
  (List.range k).foldlM (fun (g : Heap) (i : Nat) => do
    let r ← g.appendN n
    r.1.setExternalSchemaN r.2 s.compactTo (data.map fun q => ⟨q.blk, q.off + i * s.compactTo.totalBytesCompact⟩)) h3

end Heap

namespace Relay
open Node

/-- conduit_relay_mpi.cpp:1353-1374, 1388-1396: what a rank sends in `gather`.  If the node is
    contiguous and compact, `data_ptr()` is taken, not `contiguous_data_ptr()`. -/
def gatherData (base : Nat → Int) (n : Node) (m : Mem) : Res (List UInt8) := do
  let r ← (match ownData base n with
    | some _ => .ok (m, n.info.data)
    | none => do
      let c ← compactTo n new m
      .ok (c.1, c.2.info.data) : Res (Mem × Option Ptr))
  let len := castInt n.schema.totalBytesCompact
  if len < 0 then .error else r.1.load r.2 0 len.toNat

/-- conduit_relay_mpi.cpp:1379-1396, 1437-1455: the receiver makes a list of its own schema and gets the
    data of rank `i` at `i` times its own size.  Sizes that differ are erroneous. -/
def gatherList (own : Node) (parts : List (List UInt8)) (dest : Node) (m : Mem) : Res (Mem × Node) := do
  let r ← listOf own.schema.compactTo parts.length dest m
  let len := castInt own.schema.totalBytesCompact
  if parts.any (fun x => (x.length : Int) != len) then .ub
  else do
    let m1 ← gatherv r.2.info.data (((List.range parts.length).map fun (i : Nat) => i * len).zip parts) r.1
    .ok (m1, r.2)

/-- conduit_relay_mpi.cpp:1347-1404 `gather` on the root: of each rank the addresses of its blocks, its node and its memory;
    the number of the root; the root's `recv_node` and memory. -/
def gather (ranks : List ((Nat → Int) × Node × Mem)) (root : Nat) (dest : Node) (m : Mem) : Res (Mem × Node) := do
  let parts ← ranks.mapM fun (r : (Nat → Int) × Node × Mem) => gatherData r.1 r.2.1 r.2.2
  match ranks[root]? with
  | none => .error
  | some r => gatherList r.2.1 parts dest m

/-- conduit_relay_mpi.cpp:1407-1456 `all_gather`: of each rank also its `recv_node` and the memory of that. -/
def allGather (ranks : List (((Nat → Int) × Node × Mem) × Node × Mem)) : Res (List (Mem × Node)) := do
  let parts ← ranks.mapM fun (r : ((Nat → Int) × Node × Mem) × Node × Mem) => plainSend r.1.1 r.1.2.1 r.1.2.2
  ranks.mapM fun (r : ((Nat → Int) × Node × Mem) × Node × Mem) => gatherList r.1.2.1 parts r.2.1 r.2.2

end Relay
end Conduit
