import Verif.Model.Res
/-
Which elements and children the summary strings show, and node iterators.
Sources: /repo/src/libs/conduit/conduit_data_array.cpp, conduit_node.cpp, conduit_node_iterator.cpp
-/
namespace Conduit

/-- A piece of a summary: element (or child) number `i`, or the ellipsis. -/
inductive Piece where
  | item (i : Nat)
  | dots
deriving DecidableEq, Repr

/-- The loop of conduit_data_array.cpp:2098-2163 (the same in conduit_data_accessor.cpp:558-597
    and, with the extra condition `num_skipped > 0`, conduit_node.cpp:12947-12988): show item
    `idx`, step, jump to the last `top` items when `idx` reaches `bottom`, stop at `nele`.
    `fuel` bounds the number of iterations; `none`: the loop has not ended by then. -/
def summaryLoop (nele : Nat) (bottom top : Int) (jump : Bool) : (fuel : Nat) → (idx : Nat) → Option (List Piece)
  | 0, _ => none
  | fuel + 1, idx =>
    let idx1 := idx + 1
    let jumped := (idx1 : Int) = bottom ∧ jump
    let idx2 : Int := if jumped then nele - top else idx1
    let out := Piece.item idx :: (if jumped then [.dots] else [])
    if idx2 = nele then some out
    else (summaryLoop nele bottom top jump fuel idx2.toNat).map (out ++ ·)

/-- conduit_data_array.cpp:2061-2172 `to_summary_string_stream(os, threshold)`: the items shown,
    in order.  Simplification: the text of an element and the brackets are not modelled. -/
def arraySummary (nele : Nat) (threshold : Int) (fuel : Nat) : Option (List Piece) :=
  if (nele : Int) ≤ threshold then some ((List.range nele).map .item)
  else
    let half := threshold.tdiv 2
    let bottom := if threshold.tmod 2 > 0 then half + 1 else half
    if nele = 0 then some [] else summaryLoop nele bottom half true fuel 0

/-- conduit_node.cpp:12907-12990 (objects) and 12991-13070 (lists): the children shown. -/
def childSummary (nchildren : Nat) (childThreshold : Int) (fuel : Nat) : Option (List Piece) :=
  let threshold := if childThreshold ≤ 0 then (nchildren : Int) else childThreshold
  let half := threshold.tdiv 2
  let bottom := if threshold.tmod 2 > 0 then half + 1 else half
  let skipped : Int := nchildren - threshold
  if nchildren = 0 then some [] else summaryLoop nchildren bottom half (decide (skipped > 0)) fuel 0

/-! ### iterators -/

/-- conduit_node_iterator.cpp: the state of a `NodeIterator` or `NodeConstIterator` over a node
    (the const version has the same bodies, conduit_node_iterator.cpp:310-560). -/
structure Iter where
  index : Int
  numChildren : Int
deriving DecidableEq, Repr

namespace Iter
variable {α : Type}

/-- conduit_node.cpp:14249-14252 `children()`: an iterator at the front. -/
def ofNode (cs : List α) : Iter := ⟨0, cs.length⟩

/-- `m_node->child(i)` (conduit_node.cpp:14494-14497): unchecked vector access. -/
def child (cs : List α) (i : Int) : Res α := if i < 0 then .ub else Res.ofIdx cs i.toNat

/-- conduit_node_iterator.cpp:165-170 -/
def hasNext (it : Iter) : Bool := it.numChildren ≠ 0 && decide (it.index < it.numChildren)
/-- conduit_node_iterator.cpp:174-186 -/
def next (it : Iter) (cs : List α) : Res (Iter × α) :=
  if it.hasNext then do
    let c ← child cs (it.index + 1 - 1)
    .ok ({ it with index := it.index + 1 }, c)
  else .error
/-- conduit_node_iterator.cpp:190-203 -/
def peekNext (it : Iter) (cs : List α) : Res α :=
  if it.hasNext then child cs (it.index + 1 - 1) else .error
/-- conduit_node_iterator.cpp:157-161 -/
def toFront (it : Iter) : Iter := { it with index := 0 }
/-- conduit_node_iterator.cpp:207-211 -/
def toBack (it : Iter) : Iter := { it with index := it.numChildren }
/-- conduit_node_iterator.cpp:218-222 -/
def hasPrevious (it : Iter) : Bool := decide (it.index > 1)
/-- conduit_node_iterator.cpp:226-239 -/
def previous (it : Iter) (cs : List α) : Res (Iter × α) :=
  if it.hasPrevious then do
    let c ← child cs (it.index - 1 - 1)
    .ok ({ it with index := it.index - 1 }, c)
  else .error
/-- conduit_node_iterator.cpp:242-255 -/
def peekPrevious (it : Iter) (cs : List α) : Res α :=
  if it.hasPrevious then child cs (it.index - 1) else .error
/-- conduit_node_iterator.cpp:136-140 -/
def indexOf (it : Iter) : Int := it.index - 1
/-- conduit_node_iterator.cpp:143-147 -/
def node (it : Iter) (cs : List α) : Res α := child cs (it.index - 1)

/-- `while(itr.has_next()) { itr.next(); }`: the children seen; `none`: not ended within
    `fuel` iterations. -/
def forward (cs : List α) : Nat → Iter → Option (Res (List α))
  | 0, it => if it.hasNext then none else some (.ok [])
  | fuel + 1, it =>
    if it.hasNext then match it.next cs with
      | .ok (it', c) => (forward cs fuel it').map (·.map' (c :: ·))
      | .error => some .error
      | .ub => some .ub
    else some (.ok [])

/-- `while(itr.has_previous()) { itr.previous(); }` -/
def backward (cs : List α) : Nat → Iter → Option (Res (List α))
  | 0, it => if it.hasPrevious then none else some (.ok [])
  | fuel + 1, it =>
    if it.hasPrevious then match it.previous cs with
      | .ok (it', c) => (backward cs fuel it').map (·.map' (c :: ·))
      | .error => some .error
      | .ub => some .ub
    else some (.ok [])

/-- The calls a user makes on an iterator. -/
inductive Call where
  | next | previous | toFront | toBack | peekNext | peekPrevious | hasNext | hasPrevious
deriving DecidableEq, Repr

/-- The iterator after a call (a failed call throws and leaves it as it was). -/
def step (cs : List α) (it : Iter) : Call → Iter
  | .next => match it.next cs with | .ok r => r.1 | _ => it
  | .previous => match it.previous cs with | .ok r => r.1 | _ => it
  | .toFront => it.toFront
  | .toBack => it.toBack
  | _ => it

end Iter
end Conduit
