import Verif.Spec.Value
/-
Schemas laid out forward from the data pointer, for C60.
-/
namespace Conduit.Spec
open Conduit

mutual
/-- Every leaf starts at a non negative offset, has a non negative count and stride, and its
    elements are not smaller than its type. -/
def Forward : Schema → Prop
  | .leaf d => d.id = .empty ∨ (0 ≤ d.offset ∧ 0 ≤ d.stride ∧ 0 ≤ d.n ∧ (d.id.bytes : Int) ≤ d.ele)
  | .obj es => ForwardE es
  | .lst cs => ForwardL cs
def ForwardE : List (Str × Schema) → Prop
  | [] => True
  | (_, c) :: es => Forward c ∧ ForwardE es
def ForwardL : List Schema → Prop
  | [] => True
  | c :: cs => Forward c ∧ ForwardL cs
end

mutual
/-- The value described by a schema when all elements are 0. -/
def zeros : Schema → Val
  | .leaf d => if d.id = .empty then .leaf .empty .default []
      else .leaf d.id d.endian (List.replicate d.n.toNat (List.replicate d.id.bytes (some 0)))
  | .obj es => .obj (zerosE es)
  | .lst cs => .lst (zerosL cs)
def zerosE : List (Str × Schema) → List (Str × Val)
  | [] => []
  | (n, c) :: es => (n, zeros c) :: zerosE es
def zerosL : List Schema → List Val
  | [] => []
  | c :: cs => zeros c :: zerosL cs
end

end Conduit.Spec
