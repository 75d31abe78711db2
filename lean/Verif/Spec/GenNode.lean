import Verif.Model.GenNode
import Verif.Spec.Value
/-
Specification for C39 and C62: what can be said about a JSON schema document without running
any of the walks over it.
-/
namespace Conduit.Spec
open Conduit

mutual
/-- Every leaf of the document: `P` of the members of a leaf with explicit properties, `Q` of
    the name of a leaf given by its type name only. -/
def AllLeaves (P : List (Str × JV) → Prop) (Q : Str → Prop) : JV → Prop
  | .obj ms =>
    match ms.lookup (chars! "dtype") with
    | some (.str _) => P ms
    | _ => AllLeavesM P Q ms
  | .arr vs => AllLeavesL P Q vs
  | .str s => Q s
  | .null => True
  | .bool _ => True
  | .int _ => True
  | .real _ => True
def AllLeavesM (P : List (Str × JV) → Prop) (Q : Str → Prop) : List (Str × JV) → Prop
  | [] => True
  | (_, v) :: ms => AllLeaves P Q v ∧ AllLeavesM P Q ms
def AllLeavesL (P : List (Str × JV) → Prop) (Q : Str → Prop) : List JV → Prop
  | [] => True
  | v :: vs => AllLeaves P Q v ∧ AllLeavesL P Q vs
end

/-- Every leaf states its offset. -/
def Anchored : JV → Prop := AllLeaves (fun ms => (ms.lookup (chars! "offset")).isSome) (fun _ => False)
def AnchoredM : List (Str × JV) → Prop := AllLeavesM (fun ms => (ms.lookup (chars! "offset")).isSome) (fun _ => False)
def AnchoredL : List JV → Prop := AllLeavesL (fun ms => (ms.lookup (chars! "offset")).isSome) (fun _ => False)

/-- A member that is absent or has that value. -/
def MemberIs (ms : List (Str × JV)) (name : Str) (v : Int) : Prop :=
  ms.lookup name = none ∨ ms.lookup name = some (.int v)

/-- Stride and element size are those of the type. -/
def NaturalMembers (ms : List (Str × JV)) : Prop :=
  ∀ name t, ms.lookup (chars! "dtype") = some (.str name) → Gen.leafName name = .ok t →
    MemberIs ms (chars! "stride") t.bytes ∧ MemberIs ms (chars! "element_bytes") t.bytes

/-- The elements of every leaf follow each other without gaps. -/
def Packed : JV → Prop := AllLeaves NaturalMembers (fun _ => True)

/-- No leaf has an inline value or an address. -/
def NoInline : JV → Prop :=
  AllLeaves (fun ms => ms.lookup (chars! "value") = none ∧ ms.lookup (chars! "address") = none) (fun _ => True)

/-- No leaf is given by a type name only. -/
def Explicit : JV → Prop := AllLeaves (fun _ => True) (fun _ => False)

mutual
/-- No object has a name twice; the length of every "list_of" is positive. -/
def Regular : JV → Prop
  | .obj ms =>
    match ms.lookup (chars! "dtype") with
    | some (.str _) => True
    | some (.obj _) => (∀ i, ms.lookup (chars! "length") = some (.int i) → 1 ≤ i) ∧ RegularM ms
    | _ => (ms.map (·.1)).Nodup ∧ RegularM ms
  | .arr vs => RegularL vs
  | .str _ => True
  | .null => True
  | .bool _ => True
  | .int _ => True
  | .real _ => True
def RegularM : List (Str × JV) → Prop
  | [] => True
  | (_, v) :: ms => Regular v ∧ RegularM ms
def RegularL : List JV → Prop
  | [] => True
  | v :: vs => Regular v ∧ RegularL vs
end

mutual
/-- Whatever follows a leaf with gaps states its offsets. -/
def Steady : JV → Prop
  | .obj ms =>
    match ms.lookup (chars! "dtype") with
    | some (.str _) => True
    | some (.obj ds) => SteadyA ms ∧
        (Packed (.obj ds) ∨ Anchored (.obj ds) ∨ MemberIs ms (chars! "length") 1)
    | _ => SteadyM ms
  | .arr vs => SteadyL vs
  | .str _ => True
  | .null => True
  | .bool _ => True
  | .int _ => True
  | .real _ => True
def SteadyA : List (Str × JV) → Prop
  | [] => True
  | (_, v) :: ms => Steady v ∧ SteadyA ms
def SteadyM : List (Str × JV) → Prop
  | [] => True
  | (_, v) :: ms => Steady v ∧ (Packed v ∨ AnchoredM ms) ∧ SteadyM ms
def SteadyL : List JV → Prop
  | [] => True
  | v :: vs => Steady v ∧ (Packed v ∨ AnchoredL vs) ∧ SteadyL vs
end

mutual
/-- Every leaf sits on the buffer at `p`. -/
def OnBuffer (p : Ptr) : Node → Prop
  | .leaf x _ => x.data = some p
  | .obj _ es => OnBufferE p es
  | .lst _ cs => OnBufferL p cs
def OnBufferE (p : Ptr) : List (Str × Node) → Prop
  | [] => True
  | (_, c) :: es => OnBuffer p c ∧ OnBufferE p es
def OnBufferL (p : Ptr) : List Node → Prop
  | [] => True
  | c :: cs => OnBuffer p c ∧ OnBufferL p cs
end

end Conduit.Spec
