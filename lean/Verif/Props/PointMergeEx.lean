import Verif.Props.PointMerge
/-
C95: cases.
-/
namespace Conduit.Merge.Case
open Conduit.Mesh Conduit.Merge

/-- Numbers with one bit after the point: the integer `z` stands for `z / 2`.  Products are in quarters. -/
def o : MOps Int where
  arith := ⟨0, 2, fun i => 2 * i, fun i => 2 * i, fun a d s => a + d * s, id, fun x => x.tdiv 2⟩
  lt a b := decide (a < b)
  le a b := decide (a ≤ b)
  add a b := a + b
  sub a b := a - b
  mul a b := a * b
  maxLim _ := 2 ^ 100
  lowest _ := - 2 ^ 100
  rtpToXyz p := if p.b = 0 ∧ p.c = 0 then ⟨0, 0, p.a⟩ else p
  xyzToRtp p := p

theorem ordered : Ordered o where
  irrefl a := by simp [o]
  trans a b c := by simp only [o, decide_eq_true_eq]; omega
  negTrans a b c := by simp only [o, decide_eq_false_iff_not]; omega
  le_iff a b := by simp only [o]; by_cases h : a ≤ b <;> simp [h] <;> omega
  ofInt a b h := by simp only [o, decide_eq_false_iff_not]; omega

theorem sq_le (x t : Int) (ht : 0 ≤ t) (h : x * x ≤ t * t) : -t ≤ x ∧ x ≤ t := by
  constructor
  · by_contra hx
    have h1 : (t + 1) * (t + 1) ≤ (-x) * (-x) := Int.mul_le_mul (by omega) (by omega) (by omega) (by omega)
    have h2 : (t + 1) * (t + 1) = t * t + 2 * t + 1 := by ring
    have h3 : (-x) * (-x) = x * x := by ring
    omega
  · by_contra hx
    have h1 : (t + 1) * (t + 1) ≤ x * x := Int.mul_le_mul (by omega) (by omega) (by omega) (by omega)
    have h2 : (t + 1) * (t + 1) = t * t + 2 * t + 1 := by ring
    omega

theorem sq_nonneg' (x : Int) : 0 ≤ x * x := by
  rcases Int.le_total 0 x with h | h
  · exact Int.mul_nonneg h h
  · exact Int.mul_nonneg_of_nonpos_of_nonpos h h

theorem tolerance (t : Int) (ht : 0 ≤ t) : Tolerance o t where
  sub a := by simp only [o, decide_eq_false_iff_not]; omega
  add a := by simp only [o, decide_eq_false_iff_not]; omega
  zero p q h := by
    have h0 := h 0 (by omega); have h1 := h 1 (by omega); have h2 := h 2 (by omega)
    simp only [o, V3.at, decide_eq_false_iff_not] at h0 h1 h2
    have e0 : q.a = p.a := by omega
    have e1 : q.b = p.b := by omega
    have e2 : q.c = p.c := by omega
    show o.le (dist2 o p q) (o.mul t t) = true
    simp only [dist2, o, e0, e1, e2, Int.sub_self, Int.mul_zero, Int.add_zero, decide_eq_true_eq]
    exact Int.mul_nonneg ht ht

theorem exact (t : Int) (ht : 0 ≤ t) : ExactTol o t where
  near p q h d hd := by
    have h : o.le (dist2 o p q) (o.mul t t) = true := h
    simp only [dist2, o, decide_eq_true_eq] at h
    have n0 : 0 ≤ (q.a - p.a) * (q.a - p.a) := sq_nonneg' _
    have n1 : 0 ≤ (q.b - p.b) * (q.b - p.b) := sq_nonneg' _
    have n2 : 0 ≤ (q.c - p.c) * (q.c - p.c) := sq_nonneg' _
    simp only [o, decide_eq_false_iff_not]
    have hd : d = 0 ∨ d = 1 ∨ d = 2 := by omega
    rcases hd with rfl | rfl | rfl
    · have := sq_le (q.a - p.a) t ht (by omega); simp only [V3.at]; omega
    · have := sq_le (q.b - p.b) t ht (by omega); simp only [V3.at]; omega
    · have := sq_le (q.c - p.c) t ht (by omega); simp only [V3.at]; omega
  sub a b := by simp only [o, decide_eq_false_iff_not]; omega
  add a b := by simp only [o, decide_eq_false_iff_not]; omega

/-- A coordset of double precision. -/
def cset (cols : List (Str × List Int)) : BNode Int :=
  .obj [(chars! "type", .str (chars! "explicit")), (chars! "values", .obj (cols.map fun c => (c.1, .flts true c.2)))]

/-- Two squares side by side; the second has its points in another order.  Its `x` are integers. -/
def square : In Int := ⟨cset [(chars! "x", [0, 2, 2, 0]), (chars! "y", [0, 0, 2, 2])], 2, [⟨0, 0, 0⟩, ⟨2, 0, 0⟩, ⟨2, 2, 0⟩, ⟨0, 2, 0⟩]⟩
def square' : In Int :=
  ⟨.obj [(chars! "type", .str (chars! "explicit")), (chars! "values", .obj [(chars! "y", .flts true [2, 2, 0, 0]), (chars! "x", .ints int32 [2, 1, 1, 2])])],
    2, [⟨4, 2, 0⟩, ⟨2, 2, 0⟩, ⟨2, 0, 0⟩, ⟨4, 0, 0⟩]⟩

theorem square_cart : Cart o square.cset square.n square.pts where
  least := by decide
  most := by decide
  axes := ⟨rfl, ⟨xyz, by decide, fun s => s != chars! "z", by decide⟩, ⟨_, rfl, fun k => Iff.rfl⟩⟩
  values := ⟨_, rfl, fun d a h => by
    have hd : d = 0 ∨ d = 1 ∨ 2 ≤ d := by omega
    rcases hd with rfl | rfl | hd
    · cases h; exact ⟨_, rfl, .inr ⟨true, rfl⟩⟩
    · cases h; exact ⟨_, rfl, .inr ⟨true, rfl⟩⟩
    · rw [List.getElem?_eq_none (by simpa [square] using hd)] at h; cases h⟩
  flat p hp d h1 h2 := by
    have : d = 2 := by simp [square] at h1; omega
    subst this
    simp [square] at hp
    rcases hp with rfl | rfl | rfl | rfl <;> rfl

theorem square'_cart : Cart o square'.cset square'.n square'.pts where
  least := by decide
  most := by decide
  axes := ⟨rfl, ⟨xyz, by decide, fun s => s != chars! "z", by decide⟩, ⟨_, rfl, fun k => by
    simp [square', BNode.kids, or_comm]⟩⟩
  values := ⟨_, rfl, fun d a h => by
    have hd : d = 0 ∨ d = 1 ∨ 2 ≤ d := by omega
    rcases hd with rfl | rfl | hd
    · cases h; exact ⟨_, rfl, .inl ⟨int32, [2, 1, 1, 2], rfl, rfl⟩⟩
    · cases h; exact ⟨_, rfl, .inr ⟨true, rfl⟩⟩
    · rw [List.getElem?_eq_none (by simpa [square'] using hd)] at h; cases h⟩
  flat p hp d h1 h2 := by
    have : d = 2 := by simp [square'] at h1; omega
    subst this
    simp [square'] at hp
    rcases hp with rfl | rfl | rfl | rfl <;> rfl

theorem squares_cart : ∀ x ∈ [square, square'], Cart o x.cset x.n x.pts := by
  intro x hx
  simp only [List.mem_cons, List.not_mem_nil, or_false] at hx
  rcases hx with rfl | rfl
  · exact square_cart
  · exact square'_cart

theorem squares_separated : Separated o 1 [square, square'] := by
  have : ∀ x ∈ [square, square'], ∀ y ∈ [square, square'], ∀ p ∈ x.pts, ∀ q ∈ y.pts,
      o.le (sqDist o p q) (o.mul 1 1) = true → ∀ d, d < 3 → o.lt (p.at d) (q.at d) = false ∧ o.lt (q.at d) (p.at d) = false := by
    decide +kernel
  exact this

/-- The case meets the hypotheses. -/
example := C95_merge o 1 [square, square'] (by decide) squares_cart
example := C95_shared o 1 ordered (tolerance 1 (by decide)) [square, square'] (by decide) squares_cart squares_separated
example := C95_apart o 1 ordered (exact 1 (by decide)) [square, square'] (by decide) squares_cart
  ⟨0, 1, 1, 2, ⟨2, 0, 0⟩, ⟨2, 0, 0⟩, by decide, ⟨square, rfl, rfl⟩, ⟨square', rfl, rfl⟩, same_refl ordered _⟩

/-- The maps of the result, and the coordinates along an axis. -/
def mapsOf (r : Res (Option (BNode Int))) : Option (List (List Int)) :=
  match r with
  | .ok (some out) => (match out.get (chars! "pointmaps") with
    | .ok (.list l) => some (l.map fun n => match n with | .ints _ v => v | _ => [])
    | _ => none)
  | _ => none

def axisOf (r : Res (Option (BNode Int))) (a : Str) : Option (List Int) :=
  match r with
  | .ok (some out) => (match out.get (chars! "values") with
    | .ok v => (match v.get a with | .ok (.flts _ l) => some l | _ => none)
    | _ => none)
  | _ => none

/-- The two squares have six points. -/
example : mapsOf (execute o 32 1 [square.cset, square'.cset]) = some [[0, 1, 2, 3], [4, 2, 1, 5]] ∧
    axisOf (execute o 32 1 [square.cset, square'.cset]) (chars! "x") = some [0, 2, 2, 0, 4, 4] := by decide +kernel

/-- **C95** (false): points within the tolerance of each other need not be merged: if the extents of the coordsets do not overlap no point is. -/
theorem C95_gap_false : mapsOf (execute o 32 4 [cset [(chars! "x", [0, 10])], cset [(chars! "x", [12, 30])]]) = some [[0, 1], [2, 3]] ∧
    Near o 4 ⟨10, 0, 0⟩ ⟨12, 0, 0⟩ := ⟨by decide +kernel, rfl⟩

/-- **C95** (false): whether points of one coordset with the same coordinates become one depends on the other coordsets. -/
theorem C95_own_false :
    mapsOf (execute o 32 1 [cset [(chars! "x", [0, 0])], cset [(chars! "x", [12, 30])]]) = some [[0, 1], [2, 3]] ∧
    mapsOf (execute o 32 1 [cset [(chars! "x", [0, 0])], cset [(chars! "x", [0, 30])]]) = some [[0, 0], [0, 1]] := by decide +kernel

/-- A uniform coordset of two points. -/
def uniform (origin spacing : Int) : BNode Int :=
  .obj [(chars! "type", .str (chars! "uniform")), (chars! "dims", .obj [(chars! "i", .ints int32 [2])]),
    (chars! "origin", .obj [(chars! "x", .flts true [origin])]), (chars! "spacing", .obj [(chars! "dx", .flts true [spacing])])]

/-- **C95** (false): the extents of a uniform coordset begin at the origin without its fraction.  The points 0.5, 1 and 1, 1.5 (in units of
    a half: 1, 2 and 2, 3) have one in common; it is not merged. -/
theorem C95_uniform_false : mapsOf (execute o 32 0 [uniform 1 1, uniform 2 1]) = some [[0, 1], [2, 3]] ∧
    axisOf (execute o 32 0 [uniform 1 1, uniform 2 1]) (chars! "x") = some [1, 2, 2, 3] ∧
    mapsOf (execute o 32 0 [uniform 2 2, uniform 4 2]) = some [[0, 1], [1, 2]] := by decide +kernel

/-- **C95** (false): spherical coordsets which overlap are merged as `x`, `y` and `z`, and these are put under `r`, `theta` and `phi`.
    (The points are on the axis: `theta` and `phi` are 0, so `z` is `r`.) -/
theorem C95_spherical_false :
    let c := cset [(chars! "r", [2, 4]), (chars! "theta", [0, 0]), (chars! "phi", [0, 0])]
    axisOf (execute o 32 0 [c, c]) (chars! "r") = some [0, 0] ∧ axisOf (execute o 32 0 [c, c]) (chars! "phi") = some [2, 4] := by
  decide +kernel

/-- **C95** (false): the coordinates of coordsets with the only axis `r` are put under `z`. -/
theorem C95_radial_false :
    let c := cset [(chars! "r", [2, 4])]
    axisOf (execute o 32 0 [c, c]) (chars! "z") = some [2, 4] ∧ axisOf (execute o 32 0 [c, c]) (chars! "r") = none := by decide +kernel

/-- **C95** (false): coordsets with the axes `x` and `z` lose the second. -/
theorem C95_xz_false :
    let c := cset [(chars! "x", [2, 4]), (chars! "z", [6, 8])]
    axisOf (execute o 32 0 [c, c]) (chars! "x") = some [2, 4] ∧ axisOf (execute o 32 0 [c, c]) (chars! "y") = some [0, 0] ∧
    axisOf (execute o 32 0 [c, c]) (chars! "z") = none := by decide +kernel

/-- **C95** (false): logical coordsets are not merged at all: there is no result. -/
theorem C95_logical_false : execute o 32 0 [cset [(chars! "i", [2, 4])], cset [(chars! "i", [2, 4])]] = .ok none := by rfl

/-- The points 0, 15 and 8, then fifteen on either side. -/
def many : List Int := [0, 15, 8] ++ (List.range 15).map (fun i : Nat => -100 * ((i : Int) + 1)) ++ (List.range 15).map (fun i : Nat => 100 * ((i : Int) + 1))

/-- **C95** (false): points with the same coordinates need not become the same point, if points that are near have different ones.
    The point at 8 is within 10 of that at 0 and that at 15.  As the third of 33 points it becomes the one at 0; after the node of the tree was
    split it becomes the one at 15. -/
theorem C95_same_false :
    let r := execute o 32 10 [cset [(chars! "x", many)], cset [(chars! "x", [1600, 8])]]
    (mapsOf r).map (fun m => (m.map fun l => (l.take 3, l.length))) = some [([0, 1, 0], 33), ([32, 1], 2)] := by decide +kernel

end Conduit.Merge.Case
