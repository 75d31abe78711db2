import Verif.Model.Gather
/-
Broadcasting a node with its schema.
Source: /repo/src/libs/relay/conduit_relay_mpi.cpp:1812-1940
Simplifications: as in Verif/Model/Relay.lean and Verif/Model/Gather.lean.  `MPI_Bcast` calls whose
counts differ between the root and a receiver are erroneous (MPI-3.1, 5.4): undefined behaviour.
The size of the text is the maximum over all ranks of the root's size and zeros, that is the root's size.
-/
namespace Conduit
namespace Relay
open Node

mutual
/-- conduit_node.cpp:17805-17838 `find_first_data_ptr` as a pointer: the data pointer and the
    offset of the first element of the first leaf with an address. -/
def firstElem (base : Nat → Int) : Node → Option (Option Ptr × Int)
  | .leaf x d => if d.id = .empty ∨ elementAddr base x d = 0 then none else some (x.data, d.elementIndex 0)
  | .obj _ es => firstElemE base es
  | .lst _ cs => firstElemL base cs
def firstElemE (base : Nat → Int) : List (Str × Node) → Option (Option Ptr × Int)
  | [] => none
  | (_, c) :: es => match firstElem base c with
    | some p => some p
    | none => firstElemE base es
def firstElemL (base : Nat → Int) : List Node → Option (Option Ptr × Int)
  | [] => none
  | c :: cs => match firstElem base c with
    | some p => some p
    | none => firstElemL base cs
end

/-- the pointer `bcast_data_ptr` where the node's own memory is used
    (`contiguous_data_ptr() != NULL && is_compact()`) -/
def ownData (base : Nat → Int) (n : Node) : Option (Option Ptr × Int) :=
  if n.schema.isCompact && isContiguous base n then firstElem base n else none

/-- conduit_relay_mpi.cpp:1826-1851, 1871-1875, 1925-1929: what the root sends: the text of the schema
    with the 0 behind it, and the data. -/
def bcastSend (base : Nat → Int) (big : Bool) (n : Node) (m : Mem) : Res (List UInt8 × List UInt8) :=
  match ownData base n with
  | some (p, o) => do
    let text := (schemaText big n.schema).map charByte ++ [0]
    let t ← mpiSend text text.length
    let len := castInt n.schema.totalBytesCompact
    let d ← (if len < 0 then .error else m.load p o len.toNat : Res (List UInt8))
    .ok (t, d)
  | none => gatherSend big n m

/-- conduit_relay_mpi.cpp:1916-1929: the node gets the schema and new memory that the data are put into. -/
def bcastNew (data : List UInt8) (s : Schema) (node : Node) (m : Mem) : Res (Mem × Node) := do
  let r ← setSchema s node m
  if castInt r.2.schema.totalBytesCompact ≠ data.length then .ub
  else do
    let m1 ← r.1.store r.2.info.data 0 data
    .ok (m1, r.2)

/-- conduit_relay_mpi.cpp:1881-1938: what a rank other than the root does with `node`.  `compatible` of two
    leaves: conduit_schema.cpp:304-358, conduit_data_type.cpp:664-669. -/
def bcastRecv (base : Nat → Int) (part : List UInt8 × List UInt8) (node : Node) (m : Mem) : Res (Mem × Node) := do
  let s ← gatherSchema part.1 0
  match node, s with
  | .leaf x d, .leaf e =>
    if d.id ≠ .empty ∧ e.id ≠ .empty ∧ d.compatible e = true then
      if castInt (Node.leaf x d).schema.totalBytesCompact ≠ part.2.length then .ub
      else match ownData base (.leaf x d) with
        | some (p, o) => do
          let m1 ← m.store p o part.2
          .ok (m1, .leaf x d)
        | none => do
          let r ← setSchema (.leaf e) new m
          let m1 ← r.1.store r.2.info.data 0 part.2
          let u ← update r.2 (.leaf x d) m1
          let m2 ← r.2.releaseMem u.1
          .ok (m2, u.2)
    else bcastNew part.2 s node m
  | _, _ => bcastNew part.2 s node m

/-- conduit_relay_mpi.cpp:1812-1940 `broadcast_using_schema`: the root's node and memory, and of each
    other rank the addresses of its blocks, its node and its memory. -/
def broadcastUsingSchema (base : Nat → Int) (big : Bool) (n : Node) (m : Mem) (others : List ((Nat → Int) × Node × Mem)) :
    Res (List (Mem × Node)) := do
  let part ← bcastSend base big n m
  others.mapM fun (r : (Nat → Int) × Node × Mem) => bcastRecv r.1 part r.2.1 r.2.2

end Relay
end Conduit
