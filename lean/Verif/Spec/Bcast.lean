import Verif.Spec.SchemaJson
/-
What a node holds after a broadcast (C99).
-/
namespace Conduit.Spec
open Conduit

/-- What the receiver's node shows: what was sent; only a leaf of the same type and not fewer elements keeps its declared
    byte order. -/
def received : Val → Val → Val
  | .leaf id e es, .leaf id' e' es' =>
    if id ≠ .empty ∧ id' = id ∧ es.length ≤ es'.length then .leaf id e' es else .leaf id e es
  | v, _ => v

/-- The receiver's node is not a leaf of the sent type with more elements than are sent. -/
def NotLonger : Val → Val → Prop
  | .leaf id _ es, .leaf id' _ es' => id' = id → es'.length ≤ es.length
  | _, _ => True

end Conduit.Spec
