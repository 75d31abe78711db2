import Verif.Model.O2M
/-
Multi-dimensional indices.
Sources: /repo/src/libs/blueprint/conduit_blueprint_ndarray_index.hpp and .cpp
-/
namespace Conduit.ND
open Conduit.O2M (rd)

/-- The members of an `NDIndex` (conduit_blueprint_ndarray_index.hpp:165-178): the accessors of an
    absent "offset" or "stride" have no elements.  Simplification: `index_t` is unbounded. -/
structure NDIndex where
  ndim : Int
  shape : List Int
  offset : List Int
  stride : List Int
deriving DecidableEq, Repr

/-- conduit_blueprint_ndarray_index.cpp:49-73 the constructor from a node's children. -/
def ofNode (shape offset stride : Option (List Int)) : NDIndex :=
  ⟨(shape.getD []).length, shape.getD [], offset.getD [], stride.getD []⟩

/-- conduit_blueprint_ndarray_index.hpp:215-223 -/
def NDIndex.offsetAt (x : NDIndex) (dim : Int) : Res Int :=
  if x.offset.length < 1 then .ok 0 else rd x.offset dim

/-- conduit_blueprint_ndarray_index.hpp:231-236: the loop computing a default stride, `d` rounds. -/
def NDIndex.strideLoop (x : NDIndex) : Nat → Res Int
  | 0 => .ok 1
  | d + 1 => do
    let acc ← x.strideLoop d
    let s ← rd x.shape d
    let o ← x.offsetAt d
    .ok (acc * (s + o))

/-- conduit_blueprint_ndarray_index.hpp:226-241 -/
def NDIndex.strideAt (x : NDIndex) (dim : Int) : Res Int :=
  if x.stride.length < 1 then x.strideLoop (min dim x.ndim).toNat else rd x.stride dim

/-- conduit_blueprint_ndarray_index.hpp:186-203 `index(idx, idxs...)` -/
def NDIndex.index (x : NDIndex) : List Int → Res Int
  | [] => .ok 0
  | i :: is => do
    let depth := x.ndim - is.length - 1
    let o ← x.offsetAt depth
    let s ← x.strideAt depth
    let rest ← x.index is
    .ok ((o + i) * s + rest)

end Conduit.ND
