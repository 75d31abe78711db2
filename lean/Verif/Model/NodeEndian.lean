import Verif.Model.Node
/-
Byte order conversion.
Sources: /repo/src/libs/conduit/conduit_endianness.cpp and conduit_node.cpp.
-/
namespace Conduit
open Spec

/-- conduit_endianness.cpp:31-39 `machine_default()`; `big`: the machine stores the
    most significant byte first. -/
def machineDefault (big : Bool) : Endian := if big then .big else .little

/-- conduit_endianness.cpp:63-72 `name_to_id`. -/
def Endian.ofName (s : Str) : Endian :=
  if s = chars! "big" then .big else if s = chars! "little" then .little else .default

/-- conduit_endianness.cpp:75-84 `id_to_name`. -/
def Endian.name : Endian → Str
  | .big => chars! "big"
  | .little => chars! "little"
  | .default => chars! "default"

/-- conduit_endianness.cpp:92-97 `swap16(data)`. -/
def swap16 (p : Option Ptr) (off : Int) (m : Mem) : Res Mem := do
  let bs ← m.load p off 2
  match bs with
  | [a, b] => m.store p off [b, a]
  | _ => .ub

/-- conduit_endianness.cpp:108-118 `swap32(data)`. -/
def swap32 (p : Option Ptr) (off : Int) (m : Mem) : Res Mem := do
  let bs ← m.load p off 4
  match bs with
  | [a, b, c, d] => m.store p off [d, c, b, a]
  | _ => .ub

/-- conduit_endianness.cpp:131-145 `swap64(data)`. -/
def swap64 (p : Option Ptr) (off : Int) (m : Mem) : Res Mem := do
  let bs ← m.load p off 8
  match bs with
  | [a, b, c, d, e, f, g, h] => m.store p off [h, g, f, e, d, c, b, a]
  | _ => .ub

namespace Node

/-- `src_endian` / `dest_endian`, conduit_node.cpp:8808-8817: the default order is the
    machine's. -/
def resolve (big : Bool) (e : Endian) : Endian := if e = .default then machineDefault big else e

/-- conduit_node.cpp:8821-8834: swap element `i`; the width is the default one of the
    type, other widths than 2, 4, 8 are left alone. -/
def swapElem (x : Info) (d : DataType) (i : Nat) (m : Mem) : Res Mem :=
  if d.id.bytes = 2 then swap16 x.data (d.elementIndex i) m
  else if d.id.bytes = 4 then swap32 x.data (d.elementIndex i) m
  else if d.id.bytes = 8 then swap64 x.data (d.elementIndex i) m
  else .ok m

/-- the loops `for(i=0;i<num_ele;i++)`: `k` elements to go, from element `i` -/
def swapLoop (x : Info) (d : DataType) : Nat → Nat → Mem → Res Mem
  | 0, _, m => .ok m
  | k + 1, i, m => do
    let m1 ← swapElem x d i m
    swapLoop x d k (i + 1) m1

mutual
/-- conduit_node.cpp:8787-8839 `endian_swap(endianness)`. -/
def endianSwap (big : Bool) (e : Endian) : Node → Mem → Res (Mem × Node)
  | .leaf x d, m => do
    let m1 ← (if resolve big d.endian ≠ resolve big e then swapLoop x d d.n.toNat 0 m else .ok m : Res Mem)
    .ok (m1, .leaf x { d with endian := resolve big e })
  | .obj x es, m => do
    let r ← endianSwapE big e es m
    .ok (r.1, .obj x r.2)
  | .lst x cs, m => do
    let r ← endianSwapL big e cs m
    .ok (r.1, .lst x r.2)
def endianSwapE (big : Bool) (e : Endian) : List (Str × Node) → Mem → Res (Mem × List (Str × Node))
  | [], m => .ok (m, [])
  | (n, c) :: es, m => do
    let r ← endianSwap big e c m
    let s ← endianSwapE big e es r.1
    .ok (s.1, (n, r.2) :: s.2)
def endianSwapL (big : Bool) (e : Endian) : List Node → Mem → Res (Mem × List Node)
  | [], m => .ok (m, [])
  | c :: cs, m => do
    let r ← endianSwap big e c m
    let s ← endianSwapL big e cs r.1
    .ok (s.1, r.2 :: s.2)
end

end Node
end Conduit
