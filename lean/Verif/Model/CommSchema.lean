import Verif.Model.Relay
import Verif.Model.MpiTag
/-
`communicate_using_schema`: several nodes sent and received at once.
Source: /repo/src/libs/relay/conduit_relay_mpi.cpp:1943-2285
Simplifications: as in Verif/Model/Relay.lean.  MPI keeps the order of messages from one process to another with one tag (MPI-3.1, 3.5).  The receive buffers
are allocated and freed one after the other, not all first and all last; they are seen by no one else.  No logging; the saved error handlers are
not seen.  Sources are ranks, not `MPI_ANY_SOURCE`.
-/
namespace Conduit
namespace Relay
open Node

/-- `operation` (conduit_relay_mpi.hpp:350-357): a node, the other rank and the tag. -/
inductive CommOp where
  | send (node : Node) (dest : Nat) (tag : Int)
  | recv (node : Node) (src : Nat) (tag : Int)

/-- A process: where its memory blocks are, its operations in the order they were added, and its memory. -/
structure CommRank where
  base : Nat → Int
  ops : List CommOp
  mem : Mem

/-- A message on its way -/
structure CommMsg where
  dest : Nat
  tag : Int
  bytes : List UInt8

/-- conduit_relay_mpi.cpp:1989-1992 and 2011-2014: a negative tag is an error; 2127 and 2170: `safe_tag`. -/
def commTag (ub tag : Int) : Res Int :=
  if Mpi.invalidTag tag then .error else .ok (Mpi.safeTag (-1) ub tag).1

/-- conduit_relay_mpi.cpp:2091-2155: all sends; the message is made as in `send_using_schema`. -/
def commSends (base : Nat → Int) (big : Bool) (ub : Int) (m : Mem) : List CommOp → Res (List CommMsg)
  | [] => .ok []
  | .send n d t :: ops => do
    let tag ← commTag ub t
    let bs ← sendUsingSchema base big n m
    let rs ← commSends base big ub m ops
    .ok (⟨d, tag, bs⟩ :: rs)
  | .recv _ _ _ :: ops => commSends base big ub m ops

/-- the first message that is asked for, and the others -/
def takeFirst (p : CommMsg → Bool) : List CommMsg → Option (CommMsg × List CommMsg)
  | [] => none
  | x :: xs => if p x then some (x, xs) else (takeFirst p xs).map fun r => (r.1, x :: r.2)

/-- conduit_relay_mpi.cpp:2163-2217: all receives of the rank `me`, each with its message.  `net`: of each rank the messages it sent that
    were not received.  `MPI_Probe` waits for ever if there is no message (given as `ub`). -/
def commRecvs (ub : Int) (me : Nat) : List CommOp → List (List CommMsg) → Res (List (Node × List UInt8))
  | [], _ => .ok []
  | .send _ _ _ :: ops, net => commRecvs ub me ops net
  | .recv n src t :: ops, net => do
    let tag ← commTag ub t
    match takeFirst (fun x => x.dest == me && x.tag == tag) (net.getD src []) with
    | none => .ub
    | some (x, rest) => do
      let rs ← commRecvs ub me ops (net.set src rest)
      .ok ((n, x.bytes) :: rs)

/-- conduit_relay_mpi.cpp:2239-2272: the nodes are built from the messages as in `recv_using_schema`. -/
def commBuild : List (Node × List UInt8) → Mem → Res (Mem × List Node)
  | [], m => .ok (m, [])
  | (n, bs) :: rs, m => do
    let u ← recvUsingSchema bs n m
    let us ← commBuild rs u.1
    .ok (us.1, u.2 :: us.2)

/-- the sends of all ranks -/
def commNet (big : Bool) (ub : Int) : List CommRank → Res (List (List CommMsg))
  | [] => .ok []
  | r :: rs => do
    let x ← commSends r.base big ub r.mem r.ops
    let xs ← commNet big ub rs
    .ok (x :: xs)

/-- the receives of all ranks, from rank `me` on -/
def commAll (ub : Int) (net : List (List CommMsg)) : Nat → List CommRank → Res (List (Mem × List Node))
  | _, [] => .ok []
  | me, r :: rs => do
    let l ← commRecvs ub me r.ops net
    let u ← commBuild l r.mem
    let us ← commAll ub net (me + 1) rs
    .ok (u :: us)

/-- conduit_relay_mpi.cpp:2069-2285 `execute` called by all ranks: of each its memory and the nodes it received into. -/
def communicate (big : Bool) (ub : Int) (ranks : List CommRank) : Res (List (Mem × List Node)) := do
  let net ← commNet big ub ranks
  commAll ub net 0 ranks

end Relay
end Conduit
