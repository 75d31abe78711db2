import Verif.Spec.Update
import Verif.Spec.SchemaJson
/-
Sending nodes (C46): the trees that can be sent.
-/
namespace Conduit.Spec
open Conduit

mutual
/-- The characters of all names are bytes (a `std::string` holds bytes; `Char` is larger). -/
def ByteNames : Schema → Prop
  | .leaf _ => True
  | .obj es => ByteNamesE es
  | .lst cs => ByteNamesL cs
def ByteNamesE : List (Str × Schema) → Prop
  | [] => True
  | (n, c) :: es => (∀ x ∈ n, x.toNat < 256) ∧ ByteNames c ∧ ByteNamesE es
def ByteNamesL : List Schema → Prop
  | [] => True
  | c :: cs => ByteNames c ∧ ByteNamesL cs
end

mutual
/-- No object and no list without children. -/
def Full : Val → Prop
  | .leaf _ _ _ => True
  | .obj es => es ≠ [] ∧ FullE es
  | .lst cs => cs ≠ [] ∧ FullL cs
def FullE : List (Str × Val) → Prop
  | [] => True
  | (_, c) :: es => Full c ∧ FullE es
def FullL : List Val → Prop
  | [] => True
  | c :: cs => Full c ∧ FullL cs
end

end Conduit.Spec
