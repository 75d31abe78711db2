import Verif.Spec.NodeJson
import Verif.Spec.Array
/-
Specification for C64: the values a plain JSON document stands for, and the document that
stands for a value.
-/
namespace Conduit.Spec
open Conduit

/-- the eight bytes of `v` modulo 2^64 in the machine's order -/
def word (big : Bool) (v : Int) : List (Option UInt8) :=
  let le := (List.range 8).map (fun k => some (UInt8.ofNat ((v % 2 ^ 64).toNat / 256 ^ k)))
  if big then le.reverse else le

/-- an integer -/
def intOf : JV → Option Int
  | .int i => some i
  | _ => none

/-- a number, or a string that `strtod` reads as one -/
def dblOf (L : Lib) : JV → Option Nat
  | .int i => some (L.double (.int i))
  | .real t => some (L.double (.real t))
  | .str s => if s = [] then none else L.strtod s
  | _ => none

/-- all of them -/
def allOf {α : Type} (f : JV → Option α) : List JV → Option (List α)
  | [] => some []
  | v :: vs => match f v, allOf f vs with
    | some a, some as => some (a :: as)
    | _, _ => none

mutual
/-- The value a JSON document stands for: integers are int64 (or uint64 from 2^63), booleans
    uint8, null is an empty leaf, an array of integers is one int64 leaf, any other array of numbers
    one float64 leaf, any other array a list. -/
def pureVal (L : Lib) (big : Bool) : JV → Val
  | .null => .leaf .empty .default []
  | .bool b => .leaf .uint8 .default [[some (if b then 1 else 0)]]
  | .int i => .leaf (if i < 2 ^ 63 then .int64 else .uint64) .default [word big i]
  | .real t => .leaf .float64 .default [word big (L.double (.real t))]
  | .str s => .leaf .char8Str .default ((s.map charByte ++ [0]).map (fun b => [some b]))
  | .arr vs =>
    match allOf intOf vs, allOf (dblOf L) vs with
    | some (i :: is), _ => .leaf .int64 .default ((i :: is).map (word big))
    | _, some (b :: bs) => .leaf .float64 .default ((b :: bs).map (fun b : Nat => word big b))
    | _, _ => .lst (pureValL L big vs)
  | .obj ms => .obj (pureValM L big ms)
def pureValL (L : Lib) (big : Bool) : List JV → List Val
  | [] => []
  | v :: vs => pureVal L big v :: pureValL L big vs
def pureValM (L : Lib) (big : Bool) : List (Str × JV) → List (Str × Val)
  | [] => []
  | (n, v) :: ms => (n, pureVal L big v) :: pureValM L big ms
end

mutual
/-- No name twice in one object, and no integer from 2^63 in an array of integers. -/
def PureOK : JV → Prop
  | .arr vs => (∀ is, allOf intOf vs = some is → ∀ i ∈ is, i < 2 ^ 63) ∧ PureOKL vs
  | .obj ms => (ms.map (·.1)).Nodup ∧ PureOKM ms
  | _ => True
def PureOKL : List JV → Prop
  | [] => True
  | v :: vs => PureOK v ∧ PureOKL vs
def PureOKM : List (Str × JV) → Prop
  | [] => True
  | (_, v) :: ms => PureOK v ∧ PureOKM ms
end

/-- The JSON value of one element of a leaf. -/
def elemDoc (L : Lib) (big : Bool) (id : TypeId) (b : List (Option UInt8)) : JV :=
  let p := pattern big (b.map (·.getD 0))
  if id = .float32 ∨ id = .float64 then
    (if 'n' ∈ floatText L id p then .str (floatText L id p) else .real (floatText L id p))
  else .int (intValue (isSigned id) id.bytes p)

/-- The JSON value of a leaf: null, a string, one number, or an array. -/
def leafDoc (L : Lib) (big : Bool) (id : TypeId) (es : List (List (Option UInt8))) : JV :=
  if id = .empty then .null
  else if id = .char8Str then .str (es.dropLast.map (fun e => byteChar ((e.map (·.getD 0)).headD 0)))
  else match es with
    | [b] => elemDoc L big id b
    | es => .arr (es.map (elemDoc L big id))

mutual
/-- The JSON document of a value. -/
def docOf (L : Lib) (big : Bool) : Val → JV
  | .leaf id _ es => leafDoc L big id es
  | .obj es => .obj (docOfE L big es)
  | .lst cs => .arr (docOfL L big cs)
def docOfE (L : Lib) (big : Bool) : List (Str × Val) → List (Str × JV)
  | [] => []
  | (n, c) :: es => (n, docOf L big c) :: docOfE L big es
def docOfL (L : Lib) (big : Bool) : List Val → List JV
  | [] => []
  | c :: cs => docOf L big c :: docOfL L big cs
end

mutual
/-- The same integers as int64 leaves. -/
def wide (big : Bool) : Val → Val
  | .leaf id _ es => .leaf .int64 .default (es.map (fun b => word big (intValue (isSigned id) id.bytes (pattern big (b.map (·.getD 0))))))
  | .obj es => .obj (wideE big es)
  | .lst cs => .lst (wideL big cs)
def wideE (big : Bool) : List (Str × Val) → List (Str × Val)
  | [] => []
  | (n, c) :: es => (n, wide big c) :: wideE big es
def wideL (big : Bool) : List Val → List Val
  | [] => []
  | c :: cs => wide big c :: wideL big cs
end

mutual
/-- Objects of integer leaves with at least one element, every integer below 2^63. -/
def IntTree (big : Bool) : Val → Prop
  | .leaf id _ es => id.intTy.isSome ∧ es ≠ [] ∧ ∀ b ∈ es, intValue (isSigned id) id.bytes (pattern big (b.map (·.getD 0))) < 2 ^ 63
  | .obj es => IntTreeE big es
  | .lst _ => False
def IntTreeE (big : Bool) : List (Str × Val) → Prop
  | [] => True
  | (_, c) :: es => IntTree big c ∧ IntTreeE big es
end

end Conduit.Spec
