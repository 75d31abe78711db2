import Verif.Model.Res
/-
IEEE 754 binary32 and binary64 as used by `float32` and `float64`
(/repo/src/libs/conduit/conduit_bitwidth_style_types.h.in): decoding a bit pattern, subtraction
with rounding to nearest even, comparison.
-/
namespace Conduit.Ieee

/-- A binary format: exponent and fraction bits. -/
structure Fmt where
  ebits : Nat
  mbits : Nat
deriving DecidableEq, Repr

def f32 : Fmt := ⟨8, 23⟩
def f64 : Fmt := ⟨11, 52⟩

/-- A floating point value.  `fin z`: the number `z` times the smallest positive value of the
    format (every finite value is such a multiple).  The sign of zero is not kept: subtraction and
    comparison treat both zeros alike. -/
inductive FVal where
  | nan
  | inf (neg : Bool)
  | fin (z : Int)
deriving DecidableEq, Repr

/-- The value of a bit pattern. -/
def decode (f : Fmt) (n : Nat) : FVal :=
  let neg := n / 2 ^ (f.ebits + f.mbits) % 2 = 1
  let ex := n / 2 ^ f.mbits % 2 ^ f.ebits
  let man := n % 2 ^ f.mbits
  if ex = 2 ^ f.ebits - 1 then (if man = 0 then .inf neg else .nan)
  else
    let mag : Nat := if ex = 0 then man else (2 ^ f.mbits + man) * 2 ^ (ex - 1)
    .fin (if neg then - (mag : Int) else mag)

/-- Rounding of a magnitude to `mbits + 1` significant bits, ties to even. -/
def roundMag (f : Fmt) (n : Nat) : Nat :=
  if n < 2 ^ (f.mbits + 1) then n
  else
    let k := Nat.log2 n - f.mbits
    let q := n / 2 ^ k
    let r := n % 2 ^ k
    (if 2 * r < 2 ^ k ∨ (2 * r = 2 ^ k ∧ q % 2 = 0) then q else q + 1) * 2 ^ k

/-- The result of an operation whose exact value is `z`: rounded, infinite beyond the largest
    finite value. -/
def round (f : Fmt) (z : Int) : FVal :=
  let r := roundMag f z.natAbs
  if 2 ^ (f.mbits + 1 + (2 ^ f.ebits - 3)) ≤ r then .inf (decide (z < 0))
  else .fin (if z < 0 then - (r : Int) else r)

/-- `a - b` -/
def sub (f : Fmt) : FVal → FVal → FVal
  | .nan, _ => .nan
  | _, .nan => .nan
  | .inf a, .inf b => if a = b then .nan else .inf a
  | .inf a, .fin _ => .inf a
  | .fin _, .inf b => .inf (!b)
  | .fin a, .fin b => round f (a - b)

/-- `-a` -/
def neg : FVal → FVal
  | .nan => .nan
  | .inf a => .inf (!a)
  | .fin z => .fin (-z)

/-- `a > b`, both in the same unit -/
def gt : FVal → FVal → Bool
  | .nan, _ => false
  | _, .nan => false
  | .inf a, .inf b => !a && b
  | .inf a, .fin _ => !a
  | .fin _, .inf b => b
  | .fin a, .fin b => decide (a > b)

/-- Conversion of a format's value to `float64` (exact). -/
def widen (f : Fmt) : FVal → FVal
  | .fin z => .fin (z * 2 ^ ((2 ^ 10 + 50) - (2 ^ (f.ebits - 1) + f.mbits - 2)))
  | v => v

/-- `d > epsilon || d < -epsilon` for `T d = a - b` (conduit_data_array.cpp:244-247, 420-423);
    `epsilon` is a `float64`. -/
def far (f : Fmt) (eps : FVal) (a b : FVal) : Bool :=
  let d := widen f (sub f a b)
  gt d eps || gt (neg eps) d

end Conduit.Ieee
