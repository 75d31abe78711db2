import Verif.Spec.Value
/-
Numbers in memory and their byte order, for C32.
-/
namespace Conduit.Spec
open Conduit

/-- The bit pattern of an element whose first byte is the most significant one. -/
def bigNat : List UInt8 → Nat
  | [] => 0
  | b :: bs => b.toNat * 256 ^ bs.length + bigNat bs

/-- The bit pattern of an element whose first byte is the least significant one. -/
def littleNat : List UInt8 → Nat
  | [] => 0
  | b :: bs => b.toNat + 256 * littleNat bs

/-- The bytes of an element when all of them can be read. -/
def allSome : List (Option UInt8) → Option (List UInt8)
  | [] => some []
  | none :: _ => none
  | some b :: bs => (allSome bs).map (b :: ·)

/-- The bit pattern of an element of the given byte order; the default order is the
    machine's. -/
def number (bigMachine : Bool) (e : Endian) (bytes : List (Option UInt8)) : Option Nat :=
  (allSome bytes).map fun bs =>
    match e with
    | .big => bigNat bs
    | .little => littleNat bs
    | .default => if bigMachine then bigNat bs else littleNat bs

/-- A tree of numbers: what a client reads, whatever the byte order. -/
inductive NumVal where
  | leaf (id : TypeId) (elems : List (Option Nat))
  | obj (es : List (Str × NumVal))
  | lst (cs : List NumVal)

mutual
def numbers (bigMachine : Bool) : Val → NumVal
  | .leaf id e es => .leaf id (es.map (number bigMachine e))
  | .obj es => .obj (numbersE bigMachine es)
  | .lst cs => .lst (numbersL bigMachine cs)
def numbersE (bigMachine : Bool) : List (Str × Val) → List (Str × NumVal)
  | [] => []
  | (n, c) :: es => (n, numbers bigMachine c) :: numbersE bigMachine es
def numbersL (bigMachine : Bool) : List Val → List NumVal
  | [] => []
  | c :: cs => numbers bigMachine c :: numbersL bigMachine cs
end

/-- `len` bytes at `p + off`. -/
structure Place where
  p : Option Ptr
  off : Int
  len : Nat

/-- Two places have no byte in common. -/
def Place.Apart (a b : Place) : Prop :=
  match a.p, b.p with
  | some p, some q => p.blk ≠ q.blk ∨ p.off + a.off + a.len ≤ q.off + b.off ∨ q.off + b.off + b.len ≤ p.off + a.off
  | _, _ => True

/-- Byte `i` of block `b` belongs to the place. -/
def Place.Has (a : Place) (b : Nat) (i : Int) : Prop :=
  ∃ p, a.p = some p ∧ b = p.blk ∧ p.off + a.off ≤ i ∧ i < p.off + a.off + a.len

/-- Where the elements of a leaf are. -/
def leafPlaces (x : Info) (d : DataType) : List Place :=
  (List.range d.n.toNat).map fun (i : Nat) => ⟨x.data, d.offset + d.stride * i, d.id.bytes⟩

mutual
/-- Where the elements of all leaves of a tree are. -/
def places : Node → List Place
  | .leaf x d => leafPlaces x d
  | .obj _ es => placesE es
  | .lst _ cs => placesL cs
def placesE : List (Str × Node) → List Place
  | [] => []
  | (_, c) :: es => places c ++ placesE es
def placesL : List Node → List Place
  | [] => []
  | c :: cs => places c ++ placesL cs
end

/-- No two elements of the tree share a byte. -/
def Separate (n : Node) : Prop := (places n).Pairwise Place.Apart

mutual
/-- Every leaf of the tree has byte order `e` (an empty leaf has none). -/
def AllOrder (bigMachine : Bool) (e : Endian) : Val → Prop
  | .leaf id e' _ => id = .empty ∨ (e' = e ∨ e' = .default ∧ e = if bigMachine then .big else .little)
  | .obj es => AllOrderE bigMachine e es
  | .lst cs => AllOrderL bigMachine e cs
def AllOrderE (bigMachine : Bool) (e : Endian) : List (Str × Val) → Prop
  | [] => True
  | (_, c) :: es => AllOrder bigMachine e c ∧ AllOrderE bigMachine e es
def AllOrderL (bigMachine : Bool) (e : Endian) : List Val → Prop
  | [] => True
  | c :: cs => AllOrder bigMachine e c ∧ AllOrderL bigMachine e cs
end

end Conduit.Spec
