import Verif.Model.Res
/-
The order of elements along a Hilbert curve.
Source: /repo/src/libs/blueprint/conduit_blueprint_mesh_utils.cpp
-/
namespace Conduit.Hilbert

/-- The arithmetic and the library functions that are used.  `std::partition` and `std::sort` are any
    functions here: the order they leave within the parts is not specified. -/
structure Env (K : Type) where
  zero : K
  lt : K → K → Bool
  /-- `(a + b)*0.5` -/
  mid : K → K → K
  /-- `std::partition`: the elements that satisfy the predicate, and the others -/
  part : (Nat → Bool) → List Nat → List Nat × List Nat
  /-- `std::sort` -/
  sort : (Nat → Nat → Bool) → List Nat → List Nat
  /-- coordinate `c` of point `i` (`points[3*i + c]`) -/
  pt : Nat → Nat → K

variable {K : Type}

/-- conduit_blueprint_mesh_utils.cpp:1868-1883 `HilbertCmp`. -/
def cmp (E : Env K) (coord : Nat) (dir : Bool) (mid : K) (i : Nat) : Bool := E.lt (E.pt i coord) mid != dir

/-- `if(the part is not the whole) recurse` -/
def unlessAll (whole part : List Nat) (rec : List Nat → Option (List Nat)) : Option (List Nat) :=
  if part.length = whole.length then some part else rec part

/-- conduit_blueprint_mesh_utils.cpp:1887-1932 `HilbertSort2D`.  `none`: more than `fuel` nested
    calls. -/
def sort2 (E : Env K) : (fuel : Nat) → (c1 : Nat) → (d1 d2 : Bool) → (xmin ymin xmax ymax : K) → List Nat →
    Option (List Nat)
  | fuel, c1, d1, d2, xmin, ymin, xmax, ymax, l =>
    if l.length ≤ 1 then some l
    else
      match fuel with
      | 0 => none
      | fuel + 1 =>
        let xmid := E.mid xmin xmax
        let ymid := E.mid ymin ymax
        let c2 := (c1 + 1) % 2
        let h := E.part (cmp E c1 d1 xmid) l
        let a := E.part (cmp E c2 d2 ymid) h.1
        let b := E.part (cmp E c2 (!d2) ymid) h.2
        do
          let q0 ← unlessAll l a.1 (sort2 E fuel c2 d2 d1 ymin xmin ymid xmid)
          let q1 ← unlessAll l a.2 (sort2 E fuel c1 d1 d2 xmin ymid xmid ymax)
          let q2 ← unlessAll l b.1 (sort2 E fuel c1 d1 d2 xmid ymid xmax ymax)
          let q3 ← unlessAll l b.2 (sort2 E fuel c2 (!d2) (!d1) ymid xmax ymin xmid)
          some (q0 ++ q1 ++ q2 ++ q3)

/-- conduit_blueprint_mesh_utils.cpp:1936-2001 `HilbertSort3D`. -/
def sort3 (E : Env K) : (fuel : Nat) → (c1 : Nat) → (d1 d2 d3 : Bool) → (xmin ymin zmin xmax ymax zmax : K) →
    List Nat → Option (List Nat)
  | fuel, c1, d1, d2, d3, xmin, ymin, zmin, xmax, ymax, zmax, l =>
    if l.length ≤ 1 then some l
    else
      match fuel with
      | 0 => none
      | fuel + 1 =>
        let xmid := E.mid xmin xmax
        let ymid := E.mid ymin ymax
        let zmid := E.mid zmin zmax
        let c2 := (c1 + 1) % 3
        let c3 := (c1 + 2) % 3
        let h := E.part (cmp E c1 d1 xmid) l
        let a := E.part (cmp E c2 d2 ymid) h.1
        let b := E.part (cmp E c2 (!d2) ymid) h.2
        let aa := E.part (cmp E c3 d3 zmid) a.1
        let ab := E.part (cmp E c3 (!d3) zmid) a.2
        let ba := E.part (cmp E c3 d3 zmid) b.1
        let bb := E.part (cmp E c3 (!d3) zmid) b.2
        do
          let q0 ← unlessAll l aa.1 (sort3 E fuel c3 d3 d1 d2 zmin xmin ymin zmid xmid ymid)
          let q1 ← unlessAll l aa.2 (sort3 E fuel c2 d2 d3 d1 ymin zmid xmin ymid zmax xmid)
          let q2 ← unlessAll l ab.1 (sort3 E fuel c2 d2 d3 d1 ymid zmid xmin ymax zmax xmid)
          let q3 ← unlessAll l ab.2 (sort3 E fuel c1 d1 (!d2) (!d3) xmin ymax zmid xmid ymid zmin)
          let q4 ← unlessAll l ba.1 (sort3 E fuel c1 d1 (!d2) (!d3) xmid ymax zmid xmax ymid zmin)
          let q5 ← unlessAll l ba.2 (sort3 E fuel c2 (!d2) d3 (!d1) ymax zmid xmax ymid zmax xmid)
          let q6 ← unlessAll l bb.1 (sort3 E fuel c2 (!d2) d3 (!d1) ymid zmid xmax ymin zmax xmid)
          let q7 ← unlessAll l bb.2 (sort3 E fuel c3 (!d3) (!d1) d2 zmid xmax ymin zmin xmid ymid)
          some (q0 ++ q1 ++ q2 ++ q3 ++ q4 ++ q5 ++ q6 ++ q7)

/-- conduit_blueprint_mesh_utils.cpp:2041-2056: the elements in the order of the curve.
    `lo`, `hi`: the least and greatest coordinates of the centers. -/
def curve (E : Env K) (dim n : Nat) (lo hi : Nat → K) : Option (List Nat) :=
  let indices := List.range n
  if dim = 1 then some (E.sort (fun a b => E.lt (E.pt a 0) (E.pt b 0)) indices)
  else if dim = 2 then sort2 E n 0 false false (lo 0) (lo 1) (hi 0) (hi 1) indices
  else sort3 E n 0 false false false (lo 0) (lo 1) (lo 2) (hi 0) (hi 1) (hi 2) indices

/-- conduit_blueprint_mesh_utils.cpp:2058-2063: `ordering[indices[i]] = i`. -/
def invert (n : Nat) (indices : List Nat) : Res (List Nat) :=
  (List.range n).foldlM (fun (o : List Nat) i => do
    let k ← Res.ofIdx indices i
    if k < o.length then .ok (o.set k i) else .ub) (List.replicate n 0)

/-- conduit_blueprint_mesh_utils.cpp:2003-2064 `hilbert_ordering`; `dim` is the number of axes, `n` the
    number of elements.
    Simplification: the centers of the elements are given (they come from `generate_centroids`). -/
def ordering (E : Env K) (dim n : Nat) (lo hi : Nat → K) : Option (Res (List Nat)) :=
  (curve E dim n lo hi).map (invert n)

end Conduit.Hilbert
