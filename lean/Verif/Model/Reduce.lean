import Verif.Model.PlainMsg
/-
Reducing leaves with MPI.
Source: /repo/src/libs/relay/conduit_relay_mpi.cpp:80-145, 821-975
Simplifications: as in Verif/Model/PlainMsg.lean.  An MPI operation is a function from the bytes of one element of each
rank, in the order of the ranks, to the bytes of the result; for types that MPI does not reduce with it there is none.  Ranks that give
different numbers or types of elements are erroneous (MPI-3.1, 5.9).
-/
namespace Conduit
namespace Relay
open Node

/-- an MPI operation: per type, what it makes of the bytes of one element of each rank -/
abbrev MpiOp := TypeId → Option (List (List UInt8) → List UInt8)

/-- `n` pieces of `k` bytes each -/
def pieces (k : Nat) : Nat → List UInt8 → List (List UInt8)
  | 0, _ => []
  | n + 1, xs => xs.take k :: pieces k n (xs.drop k)

/-- conduit_relay_mpi.cpp:80-145: the types that have an MPI type. -/
def hasMpiType (id : TypeId) : Bool := id != .empty && id != .object && id != .list

/-- conduit_relay_mpi.cpp:829-853, 879-887 (and 907-930, 953-960): what a rank gives: the type and the elements.  A compact leaf is
    sent from `data_ptr()`. -/
def reduceSend (n : Node) (m : Mem) : Res (TypeId × List (List UInt8)) :=
  if !hasMpiType n.dtype.id then .error
  else do
    let r ← (if n.schema.isCompact then .ok (m, n.info.data)
      else do
        let c ← compactTo n new m
        .ok (c.1, c.2.info.data) : Res (Mem × Option Ptr))
    let num := castInt n.dtype.n
    if num < 0 then .error
    else do
      let bs ← r.1.load r.2 0 (num.toNat * n.dtype.id.bytes)
      .ok (n.dtype.id, pieces n.dtype.id.bytes num.toNat bs)

/-- `MPI_Reduce`, `MPI_Allreduce`: the elements of the result -/
def mpiReduce (op : MpiOp) (parts : List (TypeId × List (List UInt8))) (id : TypeId) (num : Nat) : Res (List (List UInt8)) :=
  if parts.any (fun p => p.1 != id || p.2.length != num) then .ub
  else match op id with
    | none => .error
    | some f => .ok ((List.range num).map fun i => f (parts.map fun p => p.2.getD i []))

/-- conduit_relay_mpi.cpp:860-877, 889-894 (and 932-951, 966-969): the result is put where `rcv_node` is, if that is a
    compact leaf that can hold it, else into a buffer that `rcv_node` is updated with.  `compatible` of two leaves: conduit_schema.cpp:304-358,
    conduit_data_type.cpp:664-669. -/
def reduceRecv (base : Nat → Int) (own : Node) (els : List (List UInt8)) (dest : Node) (m : Mem) : Res (Mem × Node) :=
  let copy : Res (Mem × Node) := do
    let r ← setSchema own.schema.compactTo new m
    let m1 ← r.1.store r.2.info.data 0 els.flatten
    copyOut r.2 dest m1
  match dest with
  | .leaf x d =>
    if d.compatible own.dtype then
      match ownData base (.leaf x d) with
      | some (p, o) => do
        let m1 ← m.store p o els.flatten
        .ok (m1, .leaf x d)
      | none => copy
    else copy
  | _ => copy

/-- conduit_relay_mpi.cpp:821-897 `reduce` on the root: of each rank the node and the memory; the number of the root, the addresses
    of its blocks, its `rcv_node` and the memory of that. -/
def reduce (op : MpiOp) (ranks : List (Node × Mem)) (root : Nat) (base : Nat → Int) (dest : Node) (m : Mem) : Res (Mem × Node) := do
  let parts ← ranks.mapM fun (r : Node × Mem) => reduceSend r.1 r.2
  match ranks[root]?, parts[root]? with
  | some r, some p => do
    let els ← mpiReduce op parts p.1 p.2.length
    reduceRecv base r.1 els dest m
  | _, _ => .error

/-- conduit_relay_mpi.cpp:900-972 `all_reduce`: of each rank the node and its memory, the addresses of the blocks, the `rcv_node` and the memory of
    that. -/
def allReduce (op : MpiOp) (ranks : List ((Node × Mem) × (Nat → Int) × Node × Mem)) : Res (List (Mem × Node)) := do
  let parts ← ranks.mapM fun (r : (Node × Mem) × (Nat → Int) × Node × Mem) => reduceSend r.1.1 r.1.2
  (ranks.zip parts).mapM fun (r : ((Node × Mem) × (Nat → Int) × Node × Mem) × TypeId × List (List UInt8)) => do
    let els ← mpiReduce op parts r.2.1 r.2.2.length
    reduceRecv r.1.2.1 r.1.1.1 els r.1.2.2.1 r.1.2.2.2

end Relay
end Conduit
