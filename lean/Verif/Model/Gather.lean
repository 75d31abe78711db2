import Verif.Model.Relay
/-
Gathering nodes of different shapes with MPI.
Source: /repo/src/libs/relay/conduit_relay_mpi.cpp
Simplifications: as in Verif/Model/Relay.lean; the temporaries (the compacted node, the sizes, the
counts, displacements and schema texts) are gone afterwards and not part of the receiver's memory; the
list of `schema_len`/`data_len` pairs that `MPI_Gather` fills is a list of pairs of numbers.
-/
namespace Conduit
namespace Relay
open Node

/-- conduit_relay_mpi.cpp:1465-1479, 1556-1564, 1594-1602: what a rank contributes: the text of the
    schema of its compacted node with the 0 behind it, and the data of the compacted node.  Both
    lengths are cast to `int`. -/
def gatherSend (big : Bool) (n : Node) (m : Mem) : Res (List UInt8 × List UInt8) := do
  let r ← compactTo n new m
  let text := (schemaText big r.2.schema).map charByte ++ [0]
  let t ← mpiSend text text.length
  let len := castInt r.2.schema.totalBytesCompact
  let d ← (if len < 0 then .error else r.1.load r.2.info.data 0 len.toNat : Res (List UInt8))
  .ok (t, d)

/-- conduit_relay_mpi.cpp:1528-1550: the displacements and the total of the counts; `int` sums that do
    not fit are undefined behaviour. -/
def displs : Int → List (List UInt8) → Res (List Int × Int)
  | cur, [] => .ok ([], cur)
  | cur, x :: xs =>
    if cur + x.length < 2 ^ 31 then do
      let r ← displs (cur + x.length) xs
      .ok (cur :: r.1, r.2)
    else .ub

/-- `MPI_Gatherv` at the root: the bytes of each rank are put at that rank's displacement. -/
def gatherv (p : Option Ptr) : List (Int × List UInt8) → Mem → Res Mem
  | [], m => .ok m
  | (o, xs) :: r, m => do
    let m1 ← m.store p o xs
    gatherv p r m1

/-- the C string at `&buf[o]` -/
def cString (buf : List UInt8) (o : Int) : Res (List UInt8) :=
  if o < 0 ∨ 0 ∉ buf.drop o.toNat then .ub else .ok ((buf.drop o.toNat).takeWhile (· ≠ 0))

/-- conduit_relay_mpi.cpp:1575-1580 `s.set(&schema_rcv_buff[schema_rcv_displs[i]])`
    (conduit_schema.cpp:174-178, `walk_schema`). -/
def gatherSchema (buf : List UInt8) (o : Int) : Res Schema := do
  let t ← cString buf o
  Gen.parseSchema (t.map byteChar)

/-- conduit_relay_mpi.cpp:1507-1604: what the receiver does with the contributions.  A communicator has at
    least one rank, so `s_tmp` is a list. -/
def gatherRecv (parts : List (List UInt8 × List UInt8)) (dest : Node) (m : Mem) : Res (Mem × Node) := do
  let ds ← displs 0 (parts.map (·.1))
  let dd ← displs 0 (parts.map (·.2))
  let sm ← gatherv (some ⟨0, 0⟩) (ds.1.zip (parts.map (·.1))) [some (List.replicate ds.2.toNat 0)]
  match sm with
  | [some buf] => do
    let schemas ← ds.1.mapM (gatherSchema buf)
    let r ← setSchema (Schema.compactTo (.lst schemas)) dest m
    let m2 ← gatherv r.2.info.data (dd.1.zip (parts.map (·.2))) r.1
    .ok (m2, r.2)
  | _ => .ub

/-- conduit_relay_mpi.cpp:1460-1607 `gather_using_schema` on the root: `ranks` are the nodes that are sent,
    with the memory of their process; `dest` and `m` are the root's `recv_node` and memory. -/
def gatherUsingSchema (big : Bool) (ranks : List (Node × Mem)) (dest : Node) (m : Mem) : Res (Mem × Node) := do
  let parts ← ranks.mapM fun (r : Node × Mem) => gatherSend big r.1 r.2
  gatherRecv parts dest m

/-- conduit_relay_mpi.cpp:1611-1741 `all_gather_using_schema`: every rank does what the root does in
    `gather_using_schema`; `dests` are the `recv_node` and memory of each rank. -/
def allGatherUsingSchema (big : Bool) (ranks : List (Node × Mem)) (dests : List (Node × Mem)) : Res (List (Mem × Node)) := do
  let parts ← ranks.mapM fun (r : Node × Mem) => gatherSend big r.1 r.2
  dests.mapM fun (d : Node × Mem) => gatherRecv parts d.1 d.2

end Relay
end Conduit
