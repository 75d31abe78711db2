import Verif.Model.Bcast
/-
Sending and receiving a node's data without its schema.
Source: /repo/src/libs/relay/conduit_relay_mpi.cpp
Simplifications: as in Verif/Model/Relay.lean and Verif/Model/Bcast.lean.  A receive whose buffer is smaller than the
message fails (MPI-3.1, 3.2.4); a shorter message is put at the start of the buffer.  A new buffer of the receiver is
zero (`calloc`).
-/
namespace Conduit
namespace Relay
open Node

/-- conduit_relay_mpi.cpp:684-718 `send`, 1098-1145 `isend`, 1754-1765 and 1794-1798 the root of `broadcast`: the
    message. -/
def plainSend (base : Nat → Int) (n : Node) (m : Mem) : Res (List UInt8) := do
  let r ← (match ownData base n with
    | some (p, o) => .ok (m, p, o)
    | none => do
      let c ← compactTo n new m
      .ok (c.1, c.2.info.data, 0) : Res (Mem × Option Ptr × Int))
  let len := castInt n.schema.totalBytesCompact
  if len < 0 then .error else r.1.load r.2.1 r.2.2 len.toNat

/-- the buffer that was received into is copied to the node and released -/
def copyOut (buf node : Node) (m : Mem) : Res (Mem × Node) := do
  let u ← update buf node m
  let m2 ← buf.releaseMem u.1
  .ok (m2, u.2)

/-- conduit_relay_mpi.cpp:721-768, 772-819 `recv`. -/
def plainRecv (base : Nat → Int) (msg : List UInt8) (node : Node) (m : Mem) : Res (Mem × Node) :=
  if castInt node.schema.totalBytesCompact < msg.length then .error
  else match ownData base node with
    | some (p, o) => do
      let m1 ← m.store p o msg
      .ok (m1, node)
    | none => do
      let r ← setSchema node.schema.compactTo new m
      let m1 ← r.1.store r.2.info.data 0 msg
      copyOut r.2 node m1

/-- conduit_relay_mpi.cpp:1745-1808 `broadcast`: the root's node and memory, and of each
    other rank the addresses of its blocks, its node and its memory.  Counts that differ are erroneous. -/
def plainBroadcast (base : Nat → Int) (n : Node) (m : Mem) (others : List ((Nat → Int) × Node × Mem)) : Res (List (Mem × Node)) := do
  let msg ← plainSend base n m
  others.mapM fun (r : (Nat → Int) × Node × Mem) =>
    if castInt r.2.1.schema.totalBytesCompact ≠ msg.length then .ub else plainRecv r.1 msg r.2.1 r.2.2

end Relay
end Conduit
