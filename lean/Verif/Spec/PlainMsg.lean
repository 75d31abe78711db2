import Verif.Spec.Value
import Verif.Spec.Contiguous
/-
What two nodes have in common if one can hold the data of the other (C100).
-/
namespace Conduit.Spec
open Conduit

mutual
/-- A value without its bytes: the tree with the names, the types, the byte orders and the numbers of elements. -/
def blank : Val → Val
  | .leaf id e es => .leaf id e (es.map fun x => x.map fun _ => none)
  | .obj es => .obj (blankE es)
  | .lst cs => .lst (blankL cs)
def blankE : List (Str × Val) → List (Str × Val)
  | [] => []
  | (n, c) :: es => (n, blank c) :: blankE es
def blankL : List Val → List Val
  | [] => []
  | c :: cs => blank c :: blankL cs
end

mutual
/-- Every leaf that is not empty has its data in block `blk`. -/
def InBlock (blk : Nat) : Node → Prop
  | .leaf x d => d.id ≠ .empty → ∃ q : Ptr, x.data = some q ∧ q.blk = blk
  | .obj _ es => InBlockE blk es
  | .lst _ cs => InBlockL blk cs
def InBlockE (blk : Nat) : List (Str × Node) → Prop
  | [] => True
  | (_, c) :: es => InBlock blk c ∧ InBlockE blk es
def InBlockL (blk : Nat) : List Node → Prop
  | [] => True
  | c :: cs => InBlock blk c ∧ InBlockL blk cs
end

/-- One run of memory: all leaves are in one block and their elements have no gaps between them. -/
structure OneRun (base : Nat → Int) (n : Node) : Prop where
  block : ∃ blk, InBlock blk n
  dense : Dense n
  addr : ∀ r ∈ ranges base n, 0 ≤ r.1

end Conduit.Spec
