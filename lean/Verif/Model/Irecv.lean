import Verif.Model.PlainMsg
/-
Sending and receiving a node's data with requests.
Source: /repo/src/libs/relay/conduit_relay_mpi.cpp:1098-1327
Simplifications: as in Verif/Model/PlainMsg.lean.  A request is new or was waited for, so its buffer is empty.  MPI writes the messages when the
program waits; what is between is not seen by the program (MPI-3.1, 3.7.2).
-/
namespace Conduit
namespace Relay
open Node

/-- `Request` (conduit_relay_mpi.hpp:44-49) of a receive: the buffer, where MPI writes to and the size, and if `m_rcv_ptr` is set. -/
structure Request where
  buf : Node
  data : Option Ptr
  off : Int
  size : Int
  copy : Bool

/-- conduit_relay_mpi.cpp:1148-1198 `irecv` (and 1203-1246, from any source). -/
def irecv (base : Nat → Int) (node : Node) (m : Mem) : Res (Mem × Request) :=
  let size := castInt node.schema.totalBytesCompact
  if size < 0 then .error
  else match ownData base node with
    | some (p, o) => .ok (m, ⟨new, p, o, size, false⟩)
    | none => do
      let c ← compactTo node new m
      .ok (c.1, ⟨c.2, c.2.info.data, 0, size, true⟩)

/-- MPI writes a message -/
def deliver (r : Request) (msg : List UInt8) (m : Mem) : Res Mem :=
  if r.size < msg.length then .error else m.store r.data r.off msg

/-- conduit_relay_mpi.cpp:1262-1268 and 1308-1321: the copy out -/
def finish (r : Request) (node : Node) (m : Mem) : Res (Mem × Node) := do
  let u ← (if r.copy then update r.buf node m else .ok (m, node) : Res (Mem × Node))
  let b ← r.buf.reset u.1
  .ok (b.1, u.2)

/-- conduit_relay_mpi.cpp:1252-1271 `wait` for a receive. -/
def wait (r : Request) (msg : List UInt8) (node : Node) (m : Mem) : Res (Mem × Node) := do
  let m1 ← deliver r msg m
  finish r node m1

/-- several receives, one after the other -/
def irecvAll (base : Nat → Int) : List Node → Mem → Res (Mem × List Request)
  | [], m => .ok (m, [])
  | n :: ns, m => do
    let r ← irecv base n m
    let rs ← irecvAll base ns r.1
    .ok (rs.1, r.2 :: rs.2)

/-- conduit_relay_mpi.cpp:1305 `MPI_Waitall` -/
def deliverAll : List (Request × List UInt8 × Node) → Mem → Res Mem
  | [], m => .ok m
  | (r, msg, _) :: rs, m => do
    let m1 ← deliver r msg m
    deliverAll rs m1

/-- conduit_relay_mpi.cpp:1308-1322: the loop over the requests -/
def finishAll : List (Request × List UInt8 × Node) → Mem → Res (Mem × List Node)
  | [], m => .ok (m, [])
  | (r, _, n) :: rs, m => do
    let u ← finish r n m
    let us ← finishAll rs u.1
    .ok (us.1, u.2 :: us.2)

/-- conduit_relay_mpi.cpp:1292-1327 `wait_all` for receives: of each the request, the message and the node. -/
def waitAll (rs : List (Request × List UInt8 × Node)) (m : Mem) : Res (Mem × List Node) := do
  let m1 ← deliverAll rs m
  finishAll rs m1

/-- conduit_relay_mpi.cpp:1098-1145 `isend`: the node's own data or a compact copy in the request's buffer. -/
def isend (base : Nat → Int) (node : Node) (m : Mem) : Res (Mem × Request) :=
  let size := castInt node.schema.totalBytesCompact
  if size < 0 then .error
  else match ownData base node with
    | some (p, o) => .ok (m, ⟨new, p, o, size, false⟩)
    | none => do
      let c ← compactTo node new m
      .ok (c.1, ⟨c.2, c.2.info.data, 0, size, false⟩)

/-- what MPI sends: it may read the bytes at any time up to the end of `wait` -/
def inFlight (r : Request) (m : Mem) : Res (List UInt8) := m.load r.data r.off r.size.toNat

/-- conduit_relay_mpi.cpp:1252-1271 `wait` for a send: `m_rcv_ptr` is not set. -/
def waitSend (r : Request) (m : Mem) : Res Mem := do
  let b ← r.buf.reset m
  .ok b.1

end Relay
end Conduit
