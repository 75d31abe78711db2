import Verif.Spec.Update
import Verif.Spec.Array
import Verif.Model.Float
/-
When two values show no difference, for C28 and C29.
-/
namespace Conduit.Ieee

/-- epsilon is zero or a positive number -/
def NonNeg : FVal → Prop
  | .nan => False
  | .inf n => n = false
  | .fin z => 0 ≤ z

/-- the numbers are equal, or not comparable -/
def SameReal : FVal → FVal → Prop
  | .nan, _ => True
  | _, .nan => True
  | .inf a, .inf b => a = b
  | .fin a, .fin b => a = b
  | _, _ => False

/-- a magnitude the format can hold -/
def Holds (f : Fmt) (e : Nat) : Prop := ∃ q s : Nat, q < 2 ^ (f.mbits + 1) ∧ e = q * 2 ^ s

end Conduit.Ieee

namespace Conduit.Spec
open Conduit Ieee

/-- The text of a string leaf: its characters up to the first 0; a leaf without elements has none
    (not even the empty one). -/
def textOf (es : List (List (Option UInt8))) : Option (List (Option UInt8)) :=
  if es = [] then none else some (es.flatten.takeWhile (· ≠ some 0))

/-- The number in an element of a floating point leaf, read in the machine's order. -/
def realOf (big : Bool) (f : Fmt) (e : List (Option UInt8)) : FVal :=
  match number big .default e with
  | some n => decode f n
  | none => .nan

/-- Two floating point elements count as equal. -/
def Near (big : Bool) (eps : FVal) (f : Fmt) (a b : List (Option UInt8)) : Prop :=
  far f eps (realOf big f a) (realOf big f b) = false

/-- The floating point format of a type. -/
def format : TypeId → Option Fmt
  | .float32 => some f32
  | .float64 => some f64
  | _ => none

/-- Two lists, element by element; `pre`: the second may be longer. -/
def Pairs {α : Type} (pre : Bool) (R : α → α → Prop) : List α → List α → Prop
  | [], bs => pre = true ∨ bs = []
  | _ :: _, [] => False
  | a :: as, b :: bs => R a b ∧ Pairs pre R as bs

/-- No difference between two leaves of one type.  `pre`: the second may carry more. -/
def LeafSame (pre big : Bool) (eps : FVal) (id : TypeId) (es es' : List (List (Option UInt8))) : Prop :=
  if id = .empty then True
  else if id = .char8Str then match textOf es, textOf es' with
    | none, none => True
    | some t, some o => if pre then t <+: o else t = o
    | _, _ => False
  else match format id with
    | some f => Pairs pre (Near big eps f) es es'
    | none => Pairs pre (· = ·) es es'

mutual
/-- No difference between two values: the same names (in any order) and list lengths, the same
    types, no differing element.  `pre`: the second value may carry more of everything. -/
def SameV (pre big : Bool) (eps : FVal) : Val → Val → Prop
  | .leaf id _ es, v => match v with
    | .leaf id' _ es' => id = id' ∧ LeafSame pre big eps id es es'
    | _ => False
  | .obj es, v => match v with
    | .obj es' => SameE pre big eps es es' ∧ (pre = true ∨ ∀ n ∈ es'.map Prod.fst, n ∈ es.map Prod.fst)
    | _ => False
  | .lst cs, v => match v with
    | .lst cs' => SameL pre big eps cs cs'
    | _ => False
/-- every entry of the first is found in the second -/
def SameE (pre big : Bool) (eps : FVal) : List (Str × Val) → List (Str × Val) → Prop
  | [], _ => True
  | (n, c) :: es, es' => (∃ c', entry n es' = some c' ∧ SameV pre big eps c c') ∧ SameE pre big eps es es'
def SameL (pre big : Bool) (eps : FVal) : List Val → List Val → Prop
  | [], cs' => pre = true ∨ cs' = []
  | c :: cs, cs' => match cs' with
    | [] => False
    | c' :: cs' => SameV pre big eps c c' ∧ SameL pre big eps cs cs'
end

mutual
/-- String leaves are as conduit makes them: one byte per character, forward stride, and either no
    element at all or a terminating 0 among them. -/
def Strings (m : Mem) : Node → Prop
  | .leaf x d => d.id = .char8Str → d.ele = 1 ∧ 0 ≤ d.offset ∧ 1 ≤ d.stride ∧
      (d.n ≤ 0 ∨ [some 0] ∈ elems m x.data d)
  | .obj _ es => StringsE m es
  | .lst _ cs => StringsL m cs
def StringsE (m : Mem) : List (Str × Node) → Prop
  | [] => True
  | (_, c) :: es => Strings m c ∧ StringsE m es
def StringsL (m : Mem) : List Node → Prop
  | [] => True
  | c :: cs => Strings m c ∧ StringsL m cs
end

/-- Half of the range of `int32` and `int64`; for the other types differences cannot overflow. -/
def halfRange : TypeId → Option Int
  | .int32 => some (2 ^ 30)
  | .int64 => some (2 ^ 62)
  | _ => none

mutual
/-- Every `int32` and `int64` element, read in the machine's order, is in the middle half of the
    range of its type. -/
def Modest (big : Bool) : Val → Prop
  | .leaf id _ es => ∀ h, halfRange id = some h → ∀ e ∈ es, ∀ n, number big .default e = some n →
      -h ≤ intValue true id.bytes n ∧ intValue true id.bytes n < h
  | .obj es => ModestE big es
  | .lst cs => ModestL big cs
def ModestE (big : Bool) : List (Str × Val) → Prop
  | [] => True
  | (_, c) :: es => Modest big c ∧ ModestE big es
def ModestL (big : Bool) : List Val → Prop
  | [] => True
  | c :: cs => Modest big c ∧ ModestL big cs
end

end Conduit.Spec
