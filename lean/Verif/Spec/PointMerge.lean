import Verif.Spec.Mesh
import Verif.Model.PointMerge
/-
What it means that the points of several coordsets were merged.
-/
namespace Conduit.Merge
open Conduit.Mesh
variable {F : Type}

/-- The values are an array of numbers, integers converted. -/
def Numbers (o : MOps F) (c : BNode F) (l : List F) : Prop :=
  (∃ t li, c = .ints t li ∧ l = li.map o.arith.ofInt) ∨ ∃ w, c = .flts w l

/-- An explicit cartesian coordset with `n` axes (`x`; `x` and `y`; or all three) and these points.  A coordinate along an axis it
    does not have is 0. -/
structure Cart (o : MOps F) (cset : BNode F) (n : Nat) (pts : List (V3 F)) : Prop where
  least : 1 ≤ n
  most : n ≤ 3
  axes : ExplicitAxes cset ([chars! "x", chars! "y", chars! "z"].take n)
  values : ∃ v, cset.get (chars! "values") = .ok v ∧ ∀ (d : Nat) (a : Str), ([chars! "x", chars! "y", chars! "z"].take n)[d]? = some a →
    ∃ c, v.get a = .ok c ∧ Numbers o c (pts.map (·.at d))
  flat : ∀ p ∈ pts, ∀ d, n ≤ d → d < 3 → p.at d = o.arith.zero

/-- A coordset with its number of axes and its points. -/
structure In (F : Type) where
  cset : BNode F
  n : Nat
  pts : List (V3 F)

/-- Point `k` of coordset `i`. -/
def PointAt (ins : List (In F)) (i k : Nat) (p : V3 F) : Prop := ∃ x, ins[i]? = some x ∧ x.pts[k]? = some p

/-- The number `maps` gives to point `k` of coordset `i`. -/
def IdAt (maps : List (List Nat)) (i k id : Nat) : Prop := ∃ m, maps[i]? = some m ∧ m[k]? = some id

/-- The square of the distance: the squares of the differences, added up from the first axis on. -/
def sqDist (o : MOps F) (p q : V3 F) : F :=
  (List.range 3).foldl (fun s d => o.add s (o.mul (o.sub (q.at d) (p.at d)) (o.sub (q.at d) (p.at d)))) o.arith.zero

/-- No further away than the tolerance, as the distance is computed. -/
def Near (o : MOps F) (tol : F) (p q : V3 F) : Prop := o.le (sqDist o p q) (o.mul tol tol) = true

/-- `out` is an explicit coordset with the points `pts`, and `maps` has for each point of each coordset the number of the point it
    became: that point itself or one no further away than the tolerance.  Every point of `out` is a point of one of the coordsets. -/
structure Merged (o : MOps F) (tol : F) (ins : List (In F)) (out : BNode F) (pts : List (V3 F)) (maps : List (List Nat)) : Prop where
  type : out.get (chars! "type") = .ok (.str (chars! "explicit"))
  dims : ∃ D v, (∀ x ∈ ins, x.n ≤ D) ∧ (∃ x ∈ ins, x.n = D) ∧ out.get (chars! "values") = .ok v ∧
    v.kids.map (·.1) = [chars! "x", chars! "y", chars! "z"].take D ∧
    ∀ (d : Nat) (a : Str), ([chars! "x", chars! "y", chars! "z"].take D)[d]? = some a → v.get a = .ok (.flts true (pts.map (·.at d)))
  pointmaps : out.get (chars! "pointmaps") = .ok (.list (maps.map fun l => .ints int64 (l.map fun i : Nat => (i : Int))))
  sets : maps.length = ins.length
  points : ∀ (i : Nat) (x : In F) (m : List Nat), ins[i]? = some x → maps[i]? = some m → m.length = x.pts.length
  close : ∀ i k p, PointAt ins i k p → ∃ id q, IdAt maps i k id ∧ pts[id]? = some q ∧ (q = p ∨ Near o tol p q)
  from_ : ∀ (id : Nat) (q : V3 F), pts[id]? = some q → ∃ i k, PointAt ins i k q ∧ IdAt maps i k id

/-- The values compare equal. -/
def Same (o : MOps F) (p q : V3 F) : Prop := ∀ d, d < 3 → o.lt (p.at d) (q.at d) = false ∧ o.lt (q.at d) (p.at d) = false

/-- The comparison is that of numbers (there is no NaN); the conversion of integers keeps the order. -/
structure Ordered (o : MOps F) : Prop where
  irrefl : ∀ a, o.lt a a = false
  trans : ∀ a b c, o.lt a b = true → o.lt b c = true → o.lt a c = true
  negTrans : ∀ a b c, o.lt a b = false → o.lt b c = false → o.lt a c = false
  le_iff : ∀ a b, o.le a b = !o.lt b a
  ofInt : ∀ a b : Int, a ≤ b → o.lt (o.arith.ofInt b) (o.arith.ofInt a) = false

/-- The tolerance is not negative: to subtract it makes nothing greater, to add it nothing less; points that compare equal are near. -/
structure Tolerance (o : MOps F) (tol : F) : Prop where
  sub : ∀ a, o.lt a (o.sub a tol) = false
  add : ∀ a, o.lt (o.add a tol) a = false
  zero : ∀ p q, Same o p q → Near o tol p q

/-- The tolerance separates: points of the coordsets which are near have the same coordinates. -/
def Separated (o : MOps F) (tol : F) (ins : List (In F)) : Prop :=
  ∀ x ∈ ins, ∀ y ∈ ins, ∀ p ∈ x.pts, ∀ q ∈ y.pts, Near o tol p q → Same o p q

/-- The arithmetic is exact enough: a point near another one is no further away along any axis, and subtracting or adding the tolerance
    keeps the order. -/
structure ExactTol (o : MOps F) (tol : F) : Prop where
  near : ∀ p q, Near o tol p q → ∀ d, d < 3 → o.lt (p.at d) (o.sub (q.at d) tol) = false ∧ o.lt (o.add (q.at d) tol) (p.at d) = false
  sub : ∀ a b, o.lt b a = false → o.lt (o.sub b tol) (o.sub a tol) = false
  add : ∀ a b, o.lt b a = false → o.lt (o.add b tol) (o.add a tol) = false

end Conduit.Merge
