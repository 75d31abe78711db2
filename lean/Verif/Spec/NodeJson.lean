import Verif.Spec.SchemaJson
import Verif.Spec.JsonText
import Verif.Model.GenNode
import Verif.Spec.Layout
/-
Specification for C63: which values survive the trip through detailed JSON text.
-/
namespace Conduit.Spec
open Conduit

/-- The bit pattern of an element as the machine reads it, whatever the leaf's byte order. -/
def pattern (big : Bool) (bs : List UInt8) : Nat := if big then bigNat bs else littleNat bs

/-- The text printed for a floating point element. -/
def floatText (L : Lib) (id : TypeId) (b : Nat) : Str := L.text (if id = .float64 then b else L.widen b)

/-- The bit pattern stored for a `float64` that was read. -/
def floatStored (L : Lib) (id : TypeId) (b : Nat) : Nat := if id = .float64 then b else L.narrow b

/-- The printed number is read back as the same bits: as a JSON number, or, in an array, as
    a string that `strtod` accepts (the text of a NaN or infinity has an `n`). -/
def FloatOK (L : Lib) (id : TypeId) (single : Prop) (b : Nat) : Prop :=
  (RealText (floatText L id b) ∧ floatStored L id (L.double (.real (floatText L id b))) = b) ∨
  (¬ single ∧ 'n' ∈ floatText L id b ∧ CleanName (floatText L id b) ∧
    ∃ y, L.strtod (floatText L id b) = some y ∧ floatStored L id y = b)

/-- A string without backslashes and without the control characters that JSON cannot hold unescaped
    (and that are not escaped). -/
def StringOK (s : List UInt8) : Prop := ∀ b ∈ s, b ≠ 0x5c ∧ (0x20 ≤ b ∨ b ∈ [8, 9, 10, 12, 13])

/-- The elements of a leaf survive. -/
def LeafOK (L : Lib) (big : Bool) (id : TypeId) (bs : List (List UInt8)) : Prop :=
  id.intTy.isSome ∨
  ((id = .float32 ∨ id = .float64) ∧ ∀ b ∈ bs, FloatOK L id (bs.length = 1) (pattern big b)) ∨
  (id = .char8Str ∧ ∃ s, bs = (s ++ [0]).map (fun b => [b]) ∧ StringOK s)

mutual
def TextSafe (L : Lib) (big : Bool) : Val → Prop
  | .leaf id _ es => id = .empty ∨ ∃ bs : List (List UInt8), es = bs.map (fun b => b.map some) ∧ LeafOK L big id bs
  | .obj es => TextSafeE L big es
  | .lst cs => TextSafeL L big cs
def TextSafeE (L : Lib) (big : Bool) : List (Str × Val) → Prop
  | [] => True
  | (_, c) :: es => TextSafe L big c ∧ TextSafeE L big es
def TextSafeL (L : Lib) (big : Bool) : List Val → Prop
  | [] => True
  | c :: cs => TextSafe L big c ∧ TextSafeL L big cs
end

/-- The characters of every string leaf follow each other. -/
def DenseStrings (s : Schema) : Prop := ∀ d ∈ s.leaves, d.id = .char8Str → d.stride = 1 ∨ d.n ≤ 1

end Conduit.Spec
