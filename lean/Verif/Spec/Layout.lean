import Verif.Spec.Tree
/-
Specification vocabulary for layouts (C16, C17, C21, ...): the leaves of a tree
in depth-first order and the bytes each leaf's elements occupy.
-/
namespace Conduit.Spec
open Conduit
namespace Tree

mutual
/-- All leaf descriptions in depth-first order. -/
def leaves : Tree → List DataType
  | .leaf d => [d]
  | .obj es => leavesE es
  | .lst cs => leavesL cs
def leavesE : List (Str × Tree) → List DataType
  | [] => []
  | (_, c) :: es => leaves c ++ leavesE es
def leavesL : List Tree → List DataType
  | [] => []
  | c :: cs => leaves c ++ leavesL cs
end

/-- The leaves that hold data (type other than "empty"). -/
def dataLeaves (t : Tree) : List DataType := t.leaves.filter (fun d => d.id != .empty)

mutual
/-- What is left of a schema when layout (offset, stride, element bytes) is
    forgotten: names, nesting, type, count and byte order. -/
def shape : Tree → Tree
  | .leaf d => if d.id = .empty then .leaf {} else .leaf { id := d.id, n := d.n, endian := d.endian }
  | .obj es => .obj (shapeE es)
  | .lst cs => .lst (shapeL cs)
def shapeE : List (Str × Tree) → List (Str × Tree)
  | [] => []
  | (n, c) :: es => (n, shape c) :: shapeE es
def shapeL : List Tree → List Tree
  | [] => []
  | c :: cs => shape c :: shapeL cs
end

end Tree

/-- The addresses of the bytes of element `i` of a leaf. -/
def elemBytes (d : DataType) (i : Nat) : List Int :=
  (List.range d.ele.toNat).map (fun (k : Nat) => d.offset + d.stride * i + k)

/-- The addresses of all bytes of all elements of a leaf, in order. -/
def byteAddrs (d : DataType) : List Int := (List.range d.n.toNat).flatMap (elemBytes d)

/-- The consecutive addresses `off, off+1, ..., off+len-1`. -/
def run (off : Int) (len : Nat) : List Int := (List.range len).map (fun (k : Nat) => off + k)

end Conduit.Spec
