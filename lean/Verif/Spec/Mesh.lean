import Verif.Model.MeshConvert
/-
What a structured grid is: numbering of its points and elements, coordinates of its points.
-/
namespace Conduit.Mesh
variable {F : Type}

/-- The number of points of a grid with `d` points along each axis. -/
def count : List Nat → Nat
  | [] => 1
  | d :: ds => d * count ds

/-- The number of a point: the first index runs fastest. -/
def pointId : List Nat → List Nat → Nat
  | d :: ds, x :: xs => x + d * pointId ds xs
  | _, _ => 0

/-- `x` is a point of the grid: one index for each axis, inside it. -/
def InGrid : List Nat → List Nat → Prop
  | [], [] => True
  | d :: ds, x :: xs => x < d ∧ InGrid ds xs
  | _, _ => False

instance : (a b : List Nat) → Decidable (InGrid a b)
  | [], [] => inferInstanceAs (Decidable True)
  | d :: ds, x :: xs =>
    have := instDecidableInGrid ds xs
    inferInstanceAs (Decidable (x < d ∧ InGrid ds xs))
  | [], _ :: _ => inferInstanceAs (Decidable False)
  | _ :: _, [] => inferInstanceAs (Decidable False)

/-- An axis of a grid: its name, the number of points along it, and the coordinate of each. -/
structure Axis (F : Type) where
  name : Str
  len : Nat
  coord : Nat → F

/-- The names of the axes of the coordinate systems: cartesian, cylindrical, spherical, logical. -/
def systems : List (List Str) :=
  [[chars! "x", chars! "y", chars! "z"], [chars! "z", chars! "r"], [chars! "r", chars! "theta", chars! "phi"],
    [chars! "i", chars! "j", chars! "k"]]

/-- Some of the axes of a coordinate system, in its order. -/
def AxisNames (names : List Str) : Prop := ∃ s ∈ systems, ∃ keep : Str → Bool, names = s.filter keep

/-- The child has children of exactly these names (in any order). -/
def Named (n : BNode F) (child : Str) (names : List Str) : Prop :=
  ∃ c, n.get child = .ok c ∧ ∀ k, k ∈ c.kids.map (·.1) ↔ k ∈ names

/-- The leaf `n[p][q]`. -/
def LeafAt (n : BNode F) (p q : Str) (v : BNode F) : Prop := ∃ c, n.get p = .ok c ∧ c.get q = .ok v

/-- The name of a logical axis. -/
def logical : Nat → Str
  | 0 => chars! "i"
  | 1 => chars! "j"
  | _ => chars! "k"

/-- The tree is a uniform coordset with these axes: along each of them the points begin at the origin
    (0.0 if none is given) and are one spacing (1.0 if none is given) apart.  The axes have the names
    the origin uses; if there is none those of the spacing, without the `d`; else those of the dims. -/
structure Uniform (A : Arith F) (n : BNode F) (g : List (Axis F)) : Prop where
  type : n.get (chars! "type") = .ok (.str (chars! "uniform"))
  system : AxisNames (g.map (·.name))
  named : (n.hasChild (chars! "origin") = true ∧ Named n (chars! "origin") (g.map (·.name))) ∨
    (n.hasChild (chars! "origin") = false ∧ n.hasChild (chars! "spacing") = true ∧
      Named n (chars! "spacing") (g.map fun a => 'd' :: a.name)) ∨
    (n.hasChild (chars! "origin") = false ∧ n.hasChild (chars! "spacing") = false ∧
      Named n (chars! "dims") (g.map (·.name)))
  noValues : n.hasChild (chars! "values") = false
  axis : ∀ (i : Nat) (a : Axis F), g[i]? = some a →
    (∃ v, LeafAt n (chars! "dims") (logical i) v ∧ v.toInt64 A = .ok (a.len : Int)) ∧
    ∃ o s, (if n.hasChild (chars! "origin") then ∃ v, LeafAt n (chars! "origin") a.name v ∧ v.toF64 A = .ok o
        else o = A.zero) ∧
      (if n.hasChild (chars! "spacing") then ∃ v, LeafAt n (chars! "spacing") ('d' :: a.name) v ∧ v.toF64 A = .ok s
        else s = A.one) ∧
      ∀ d : Nat, a.coord d = A.lin o d s

/-- The tree is a rectilinear coordset with these axes, all of floating point type. -/
structure Rectilinear (n : BNode F) (g : List (Axis F)) : Prop where
  type : n.get (chars! "type") = .ok (.str (chars! "rectilinear"))
  system : AxisNames (g.map (·.name))
  named : Named n (chars! "values") (g.map (·.name))
  axis : ∀ (i : Nat) (a : Axis F), g[i]? = some a →
    ∃ w l, LeafAt n (chars! "values") a.name (.flts w l) ∧ l.length = a.len ∧
      ∀ d : Nat, d < a.len → l[d]? = some (a.coord d)
  noOrigin : n.hasChild (chars! "origin") = false
  noSpacing : n.hasChild (chars! "spacing") = false

/-- The tree is an explicit coordset with these axes. -/
structure ExplicitAxes (n : BNode F) (names : List Str) : Prop where
  type : n.get (chars! "type") = .ok (.str (chars! "explicit"))
  system : AxisNames names
  named : Named n (chars! "values") names

/-- The coordset lists, under each axis name, the coordinate of every point of the grid. -/
def Explicit (n : BNode F) (g : List (Axis F)) : Prop :=
  n.get (chars! "type") = .ok (.str (chars! "explicit")) ∧
  ∀ (i : Nat) (a : Axis F), g[i]? = some a →
    ∃ v w l, n.get (chars! "values") = .ok v ∧ v.get a.name = .ok (.flts w l) ∧
      l.length = count (g.map (·.len)) ∧
      ∀ x, InGrid (g.map (·.len)) x → l[pointId (g.map (·.len)) x]? = (x[i]?).map a.coord

/-- The same axes with every coordinate passed through `r`. -/
def mapCoord (r : F → F) (g : List (Axis F)) : List (Axis F) := g.map fun a => { a with coord := fun d => r (a.coord d) }

/-- The tree has a leaf of this element type. -/
inductive HasLeaf : BNode F → ETy → Prop where
  | leaf (n : BNode F) (t : ETy) : n.ety = some t → HasLeaf n t
  | obj (ks : List (Str × BNode F)) (name : Str) (c : BNode F) (t : ETy) :
      (name, c) ∈ ks → HasLeaf c t → HasLeaf (.obj ks) t
  | list (ks : List (BNode F)) (c : BNode F) (t : ETy) : c ∈ ks → HasLeaf c t → HasLeaf (.list ks) t

/-- The steps to the corners of an element, in the order the blueprint documents for lines, quads
    and hexes (counter-clockwise, bottom before top). -/
def corners : Nat → List (List Nat)
  | 1 => [[0], [1]]
  | 2 => [[0, 0], [1, 0], [1, 1], [0, 1]]
  | 3 => [[0, 0, 0], [1, 0, 0], [1, 1, 0], [0, 1, 0], [0, 0, 1], [1, 0, 1], [1, 1, 1], [0, 1, 1]]
  | _ => []

/-- Sums of indices. -/
def addIdx : List Nat → List Nat → List Nat
  | x :: xs, y :: ys => (x + y) :: addIdx xs ys
  | _, _ => []

/-- The names of the element shapes. -/
def shapeOf : Nat → Str
  | 1 => chars! "line"
  | 2 => chars! "quad"
  | _ => chars! "hex"

/-- The topology lists, for every element of a grid with `ed` elements along the axes, its corners in the
    blueprint's order; points are numbered as in a grid with one more point along each axis. -/
def Elements (topo : BNode F) (ed : List Nat) : Prop :=
  ∃ e t conn, topo.get (chars! "elements") = .ok e ∧ e.get (chars! "connectivity") = .ok (.ints t conn) ∧
    e.get (chars! "shape") = .ok (.str (shapeOf ed.length)) ∧
    conn.length = count ed * 2 ^ ed.length ∧
    ∀ x, InGrid ed x → ∀ (c : Nat) (s : List Nat), (corners ed.length)[c]? = some s →
      conn[pointId ed x * 2 ^ ed.length + c]? = some ((pointId (ed.map (· + 1)) (addIdx x s) : Nat) : Int)

/-- The points of a grid given by its axes, one less along each axis. -/
def elemCounts (g : List (Axis F)) : List Nat := g.map fun a => a.len - 1

/-- The structured topology has `ed` elements along the axes. -/
def Structured (A : Arith F) (topo : BNode F) (ed : List Nat) : Prop :=
  ∃ e d, topo.get (chars! "elements") = .ok e ∧ e.get (chars! "dims") = .ok d ∧
    ∀ (i : Nat) (k : Nat), ed[i]? = some k →
      ∃ c, i < 3 ∧ d.get (logical i) = .ok c ∧ c.toInt64 A = .ok (k : Int) ∧ k < 2147483648

end Conduit.Mesh
