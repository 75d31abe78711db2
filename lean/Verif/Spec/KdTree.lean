import Verif.Model.KdTree
/-
What a lookup of a point by its coordinates should give.
-/
namespace Conduit.Kd
variable {K : Type}

/-- The comparison is that of numbers (no value is a NaN): `<` is a strict weak order, `<=` its
    complement.  Values that compare neither way (`0.0` and `-0.0`) need not be identical. -/
structure Ordered (o : Ops K) : Prop where
  irrefl : ∀ a, o.lt a a = false
  trans : ∀ a b c, o.lt a b = true → o.lt b c = true → o.lt a c = true
  negTrans : ∀ a b c, o.lt a b = false → o.lt b c = false → o.lt a c = false
  le_iff : ∀ a b, o.le a b = !o.lt b a

/-- `std::sort`: given a strict weak order it rearranges the list into increasing order. -/
def Sorts (sort : (Nat → Nat → Bool) → List Nat → List Nat) : Prop :=
  ∀ cmp : Nat → Nat → Bool, (∀ a, cmp a a = false) →
    (∀ a b c, cmp a b = true → cmp b c = true → cmp a c = true) →
    (∀ a b c, cmp a b = false → cmp b c = false → cmp a c = false) →
    ∀ l, (sort cmp l).Perm l ∧ (sort cmp l).Pairwise fun a b => cmp b a = false

/-- The two values compare equal. -/
def Same (o : Ops K) (a b : K) : Prop := o.lt a b = false ∧ o.lt b a = false

/-- Point `i` has the coordinates of `pt`. -/
def At (E : Env K) (pt : Pt K) (i : Nat) : Prop := i < E.len ∧ ∀ d, d < E.nd → Same E.ops (pt d) (E.coord d i)

/-- The square of the distance of two points, added up from the first dimension on. -/
def dist2 (o : Ops K) : Nat → (Nat → K) → (Nat → K) → K
  | 0, _, _ => o.zero
  | n + 1, p, q => o.add (dist2 o n p q) (o.mul (o.sub (p n) (q n)) (o.sub (p n) (q n)))

/-- Point `i` is within the tolerance of `pt`. -/
def Near (E : Env K) (tol : K) (pt : Pt K) (i : Nat) : Prop :=
  i < E.len ∧ E.ops.lt (dist2 E.ops E.nd pt fun d => E.coord d i) (E.ops.mul tol tol) = true

/-- The arithmetic of the extents loses nothing: adding a positive amount makes a value greater,
    subtracting it less; a two-hundredth of a positive value is positive. -/
structure Exact (o : Ops K) : Prop where
  add_lt : ∀ a e, o.lt o.zero e = true → o.lt a (o.add a e) = true
  sub_lt : ∀ a e, o.lt o.zero e = true → o.lt (o.sub a e) a = true
  part : ∀ e, o.lt o.zero e = true → o.lt o.zero (o.d200 e) = true
  least : o.lt o.zero o.minExp = true

/-- Points that compare equal are at distance zero (and zeros add up to zero). -/
structure ZeroDist (o : Ops K) : Prop where
  sq : ∀ a b, Same o a b → o.mul (o.sub a b) (o.sub a b) = o.zero
  sum : o.add o.zero o.zero = o.zero

/-! ### queries -/
variable {F : Type}

/-- The coordinates of point `i`: one array for each axis, all of the same length. -/
def coordsOf (zero : F) (cols : List (Col F)) (i : Nat) : List F := cols.map fun c => c.vals.getD i zero

/-- All coordinate arrays hold `n` values. -/
def Even (cols : List (Col F)) (n : Nat) : Prop := cols ≠ [] ∧ ∀ c ∈ cols, c.vals.length = n

/-- The sum of the squares of the differences, from the first axis on. -/
def sumSq (o : Ops F) : List F → Pt F → F
  | [], _ => o.zero
  | x :: xs, p =>
    (xs.zipIdx).foldl (fun s y => o.add s (o.mul (o.sub y.1 (p (y.2 + 1))) (o.sub y.1 (p (y.2 + 1)))))
      (o.mul (o.sub x (p 0)) (o.sub x (p 0)))

/-- The point with the coordinates `c` is less than the tolerance away from `pt`. -/
def Close (o : Ops F) (tol : F) (pt : Pt F) (c : List F) : Prop := o.lt (sumSq o c pt) (o.mul tol tol) = true

instance (o : Ops F) (tol : F) (pt : Pt F) (c : List F) : Decidable (Close o tol pt c) :=
  inferInstanceAs (Decidable (_ = true))

/-- A number as a binary floating point format holds it: the nearest multiple of a power of two with no
    more than `bits` significant bits and no finer than `gran`; halfway cases to even. -/
def rnd (bits gran num den : Nat) : Nat :=
  let ulp := max gran (2 ^ (Nat.log2 (num / den) + 1 - bits))
  let q := num / (den * ulp)
  let r := num % (den * ulp)
  (if 2 * r < den * ulp ∨ (2 * r = den * ulp ∧ q % 2 = 0) then q else q + 1) * ulp

/-- The same with a sign. -/
def rndI (bits gran : Nat) (num : Int) (den : Nat) : Int :=
  if num < 0 then - (rnd bits gran num.natAbs den : Int) else rnd bits gran num.natAbs den

/-- IEEE 754 arithmetic on finite values: the integer `z` stands for `z` times 2^-1074, the smallest
    positive `double`.  Results beyond the largest finite value do not become infinite here. -/
def floatOps (bits gran : Nat) (maxLim minLim minExp : Int) : Ops Int where
  zero := 0
  lt a b := decide (a < b)
  le a b := decide (a ≤ b)
  add a b := rndI bits gran (a + b) 1
  sub a b := rndI bits gran (a - b) 1
  mul a b := rndI bits gran (a * b) (2 ^ 1074)
  half a := rndI bits gran a 2
  d200 a := rndI bits gran a 200
  maxLim := maxLim
  minLim := minLim
  minExp := minExp

/-- `float`: 24 bits, multiples of 2^-149; `(float) 1e-9 * 200.` is 14073748 times 2^-46. -/
def float32 : Ops Int :=
  floatOps 24 (2 ^ 925) ((2 ^ 24 - 1) * 2 ^ (104 + 1074)) (2 ^ (1074 - 126)) (14073748 * 2 ^ (1074 - 46))

/-- `double`: 53 bits; `1e-9 * 200.` is 7555786372591433 times 2^-75. -/
def float64 : Ops Int :=
  floatOps 53 1 ((2 ^ 53 - 1) * 2 ^ (971 + 1074)) (2 ^ (1074 - 1022)) (7555786372591433 * 2 ^ (1074 - 75))

end Conduit.Kd
