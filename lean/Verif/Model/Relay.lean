import Verif.Model.Contiguous
import Verif.Model.GenNode
/-
Sending nodes with MPI.
Source: /repo/src/libs/relay/conduit_relay_mpi.cpp
Simplifications: MPI delivers the bytes of a message unchanged to the matching receive and
reports the message's size; both processes have the same byte order.
-/
namespace Conduit
namespace Relay
open Node

/-- `static_cast<int>(index_t)` -/
def castInt (i : Int) : Int := (i + 2147483648) % 4294967296 - 2147483648

/-- `MPI_Send(ptr, static_cast<int>(size), MPI_BYTE, ...)`: the bytes of the message; a negative
    count is an MPI error (`CONDUIT_CHECK_MPI_ERROR`).  `bytes`: what is at `ptr`. -/
def mpiSend (bytes : List UInt8) (size : Int) : Res (List UInt8) :=
  if castInt size < 0 then .error
  else if (castInt size).toNat ≤ bytes.length then .ok (bytes.take (castInt size).toNat)
  else .ub

/-- conduit_relay_mpi.cpp:532-543: the schema that is sent. -/
def sentSchema (base : Nat → Int) (n : Node) : Schema :=
  if n.schema.isCompact && isContiguous base n then n.schema else n.schema.compactTo

/-- conduit_relay_mpi.cpp:545 `to_json()` with its default arguments (conduit_schema.hpp:303-307). -/
def schemaText (big : Bool) (s : Schema) : Str := s.toJson big 2 (chars! " ") (chars! "\n") 0

/-- conduit_relay_mpi.cpp:547-554: the compacted schema of the message. -/
def msgSchema (len : Nat) (s : Schema) : Schema :=
  Schema.compactTo (.obj [(chars! "schema_len", .leaf (DataType.ofId .int64 1)),
    (chars! "schema", .leaf (DataType.ofId .char8Str (len + 1))), (chars! "data", s)])

/-- conduit_relay_mpi.cpp:530-583 `send_using_schema`: the message.  The three children of the
    message node are found by name at once.  Memory: the message node is gone afterwards. -/
def sendUsingSchema (base : Nat → Int) (big : Bool) (n : Node) (m : Mem) : Res (List UInt8) := do
  let text := (schemaText big (sentSchema base n)).map charByte
  let r ← setSchema (msgSchema text.length (sentSchema base n)) new m
  match r.2 with
  | .obj x [(k0, c0), (k1, c1), (k2, c2)] => do
    let r0 ← setScalar .int64 (machineBytes big ⟨true, .w64⟩ text.length) c0 r.1
    let r1 ← setString text c1 r0.1
    let r2 ← update n c2 r1.1
    let size := (Node.obj x [(k0, r0.2), (k1, r1.2), (k2, r2.2)]).schema.totalBytesCompact
    match x.data with
    | none => .ub
    | some p => match r2.1[p.blk]? with
      | some (some bs) => mpiSend bs size
      | _ => .ub
  | _ => .ub

/-- conduit_relay_mpi.cpp:586-632 `recv_using_schema` (635-681 is the same for any source): the
    message is put into a buffer, the text at byte 8 up to the first 0 is parsed, the data behind it
    are wrapped and copied into `node` by `update`; the buffer is freed. -/
def recvUsingSchema (bytes : List UInt8) (node : Node) (m : Mem) : Res (Mem × Node) :=
  if bytes.length < 8 ∨ 0 ∉ bytes.drop 8 then .ub
  else do
    let text := (bytes.drop 8).takeWhile (· ≠ 0)
    let s ← Gen.parseSchema (text.map byteChar)
    let r ← update (walk (some ⟨m.length, 8 + text.length + 1⟩) false s) node (m ++ [some bytes])
    let m2 ← r.1.free ⟨m.length, 0⟩
    .ok (m2, r.2)

end Relay
end Conduit
