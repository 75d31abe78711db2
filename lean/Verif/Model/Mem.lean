import Verif.Model.Res
/-
Model of the memory conduit reads and writes: a table of blocks.
Sources: /repo/src/libs/conduit/conduit_utils.cpp (memcpy, strided copy,
allocate, free) and the pointer arithmetic of conduit_node.hpp `element_ptr`.
-/
namespace Conduit

/-- Memory: block number -> contents, `none` once the block is freed.  Blocks the
    caller owns (external data) are blocks like any other.  Simplification:
    addresses are (block, offset) pairs, so distinct blocks never touch; the
    allocator never fails. -/
abbrev Mem := List (Option (List UInt8))

/-- A non-null data pointer. -/
structure Ptr where
  blk : Nat
  off : Int
deriving DecidableEq, Repr

namespace Mem

/-- The byte at offset `i` of block `b`; `none`: no such byte (freed or out of range). -/
def byte (m : Mem) (b : Nat) (i : Int) : Option UInt8 :=
  match m[b]? with
  | some (some bs) => if i < 0 then none else bs[i.toNat]?
  | _ => none

/-- The byte at `p + i`. -/
def byteAt (m : Mem) (p : Option Ptr) (i : Int) : Option UInt8 :=
  match p with
  | none => none
  | some q => m.byte q.blk (q.off + i)

/-- Read `len` bytes at `p + off`; reading outside a live block is undefined
    behaviour, reading zero bytes is not. -/
def load (m : Mem) (p : Option Ptr) (off : Int) (len : Nat) : Res (List UInt8) :=
  if len = 0 then .ok []
  else match p with
    | none => .ub
    | some q => match m[q.blk]? with
      | some (some bs) =>
        if 0 ≤ q.off + off ∧ (q.off + off).toNat + len ≤ bs.length
        then .ok ((bs.drop (q.off + off).toNat).take len) else .ub
      | _ => .ub

/-- Write bytes at `p + off`. -/
def store (m : Mem) (p : Option Ptr) (off : Int) (xs : List UInt8) : Res Mem :=
  if xs.length = 0 then .ok m
  else match p with
    | none => .ub
    | some q => match m[q.blk]? with
      | some (some bs) =>
        if 0 ≤ q.off + off ∧ (q.off + off).toNat + xs.length ≤ bs.length
        then .ok (m.set q.blk (some (bs.take (q.off + off).toNat ++ xs ++ bs.drop ((q.off + off).toNat + xs.length))))
        else .ub
      | _ => .ub

/-- Two ranges of `len` bytes have a byte in common. -/
def overlaps (p : Option Ptr) (poff : Int) (q : Option Ptr) (qoff : Int) (len : Nat) : Bool :=
  match p, q with
  | some a, some b => a.blk == b.blk && decide ((a.off + poff) - (b.off + qoff) < len) &&
      decide ((b.off + qoff) - (a.off + poff) < len)
  | _, _ => false

/-- conduit_utils.cpp:265-272 `conduit_memcpy` with the default handler (`memcpy`):
    overlapping ranges are undefined behaviour. -/
def memcpy (m : Mem) (dst : Option Ptr) (doff : Int) (src : Option Ptr) (soff : Int) (len : Nat) : Res Mem :=
  match m.load src soff len with
  | .ok bs => if overlaps dst doff src soff len then .ub else m.store dst doff bs
  | .error => .error
  | .ub => .ub

/-- The loop of conduit_utils.cpp:300-313. -/
def copyLoop (dst : Option Ptr) (eb : Nat) (ds : Int) (src : Option Ptr) (ss : Int) :
    Nat → Mem → Int → Int → Res Mem
  | 0, m, _, _ => .ok m
  | k + 1, m, doff, soff => match m.memcpy dst doff src soff eb with
    | .ok m' => copyLoop dst eb ds src ss k m' (doff + ds) (soff + ss)
    | .error => .error
    | .ub => .ub

/-- conduit_utils.cpp:283-314 `conduit_memcpy_strided_elements`.
    Simplification: strides are signed (the code casts to `size_t`, pointer
    arithmetic wraps to the same address). -/
def stridedCopy (m : Mem) (dst : Option Ptr) (doff : Int) (n eb : Nat) (ds : Int)
    (src : Option Ptr) (soff : Int) (ss : Int) : Res Mem :=
  if ds = eb ∧ ss = eb then m.memcpy dst doff src soff (eb * n)
  else copyLoop dst eb ds src ss n m doff soff

/-- conduit_utils.cpp:246-254 `conduit_allocate(nbytes, 1)`: `calloc`, a fresh zeroed block. -/
def alloc (m : Mem) (nbytes : Nat) : Mem × Ptr :=
  (m ++ [some (List.replicate nbytes 0)], ⟨m.length, 0⟩)

/-- conduit_utils.cpp:257-262 `conduit_free`: freeing a block twice, or a pointer
    that is not the start of a block, is undefined behaviour. -/
def free (m : Mem) (p : Ptr) : Res Mem :=
  if p.off ≠ 0 then .ub
  else match m[p.blk]? with
    | some (some _) => .ok (m.set p.blk none)
    | _ => .ub

end Mem
end Conduit
