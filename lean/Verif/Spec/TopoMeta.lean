import Verif.Spec.MeshBuilder
/-
What it means that a topology lists the sides of the elements of another one.
-/
namespace Conduit.Mesh
variable {F : Type}

/-- `f` are the points of an element at these corners. -/
def SideOf (el row f : List Nat) : Prop :=
  f.length = row.length ∧ ∀ (i c : Nat), row[i]? = some c → ∃ p, el[c]? = some p ∧ f[i]? = some p

/-- The corners of the lines of a polygon. -/
def ring (el : List Nat) : List (List Nat) := (List.range el.length).map fun i => [i, (i + 1) % el.length]

/-- `sides` are the sides of the elements (an element has one for each of its rows of corners), each once, whatever the order
    of its points; it has the order of points of one of the elements. -/
structure ListsSides (rows : List Nat → List (List Nat)) (els sides : List (List Nat)) : Prop where
  once : sides.Pairwise fun f g => ¬ f.Perm g
  complete : ∀ el ∈ els, ∀ row ∈ rows el, ∀ f, SideOf el row f → OneOf sides f
  sound : ∀ f ∈ sides, ∃ el ∈ els, ∃ row ∈ rows el, SideOf el row f

/-- For each element the numbers of its sides, in the order of its rows. -/
structure MapsDown (rows : List Nat → List (List Nat)) (els sides down : List (List Nat)) : Prop where
  length : down.length = els.length
  at_ : ∀ (c : Nat) (el : List Nat), els[c]? = some el → ∃ js, down[c]? = some js ∧ js.length = (rows el).length ∧
    ∀ (k j : Nat) (row : List Nat), js[k]? = some j → (rows el)[k]? = some row → ∃ f g, sides[j]? = some g ∧ SideOf el row f ∧ g.Perm f

/-- Sides are numbered in the order they are first met, and each has the order of points of the first element that has it. -/
structure FirstUse (rows : List Nat → List (List Nat)) (els sides down : List (List Nat)) : Prop where
  order : down.flatten.eraseDups = List.range sides.length
  verbatim : ∀ (j : Nat) (g : List Nat), sides[j]? = some g → ∃ (c k : Nat) (el row : List Nat), els[c]? = some el ∧
    (rows el)[k]? = some row ∧ SideOf el row g ∧ down.flatten.idxOf j = (down.take c).flatten.length + k

/-- For each of `n` sides the numbers of the elements it is a side of, ascending, as often as it is one. -/
structure MapsUp (down : List (List Nat)) (n : Nat) (up : List (List Nat)) : Prop where
  length : up.length = n
  sorted : ∀ l ∈ up, l.Pairwise (· ≤ ·)
  at_ : ∀ (j : Nat) (l : List Nat), up[j]? = some l → ∀ c, l.count c = (down[c]?.getD []).count j

/-- The node holds these lists as `values`, `sizes` and `offsets`. -/
structure ListsNode (n : BNode F) (ls : List (List Nat)) : Prop where
  values : NatLeaf n (chars! "values") ls.flatten
  sizes : NatLeaf n (chars! "sizes") (ls.map (·.length))
  offsets : NatLeaf n (chars! "offsets") (starts ls)

/-- How often one goes from `a` to `b` along the sides. -/
def stepsFrom (sides : List (List Nat)) (a b : Nat) : Nat :=
  (sides.map fun f => (f.zip (f.rotateLeft 1)).count (a, b)).sum

/-- The sides of one cell close up with one orientation: where one goes from `a` to `b` there is exactly one other that goes
    back. -/
def Oriented (sides : List (List Nat)) : Prop :=
  ∀ a ∈ sides.flatten, ∀ b ∈ sides.flatten, stepsFrom sides a b = stepsFrom sides b a ∧ stepsFrom sides a b ≤ 1

/-- The facets of the cells, as sets of corners: a quad or hex has those where one of the coordinates of the corners is fixed,
    a tet those without one of the corners, a wedge has two triangles and three quads, a pyramid one quad and four triangles
    (these go around). -/
def facets (s : Str) : List (List Nat) :=
  let cube := fun d => (List.range d).flatMap fun a => [0, 1].map fun v => (List.range (corners d).length).filter fun c =>
    decide (((corners d).getD c []).getD a 2 = v)
  if s = chars! "tri" then [[0, 1], [1, 2], [2, 0]]
  else if s = chars! "quad" then cube 2
  else if s = chars! "hex" then cube 3
  else if s = chars! "tet" then (List.range 4).map fun c => (List.range 4).filter (· ≠ c)
  else if s = chars! "wedge" then [[0, 1, 2], [3, 4, 5], [0, 1, 4, 3], [1, 2, 5, 4], [2, 0, 3, 5]]
  else if s = chars! "pyramid" then [[0, 1, 2, 3], [0, 1, 4], [1, 2, 4], [2, 3, 4], [0, 3, 4]]
  else []

/-- The rows are the facets, or cut quads into two triangles: each row is in one facet, rows are different sets of corners, a
    facet is a row or has exactly two rows, on the two sides of one of its diagonals. -/
def Covers (rows facets : List (List Nat)) : Prop :=
  (∀ row ∈ rows, row.Nodup ∧ (facets.filter fun f => decide (row ⊆ f)).length = 1) ∧
  (rows.Pairwise fun r r' => ¬ r.Perm r') ∧
  ∀ f ∈ facets, OneOf rows f ∨
    (f.length = 4 ∧ (rows.filter fun r => decide (r ⊆ f)).length = 2 ∧
      ∃ g ∈ [f, f.rotateLeft 1], OneOf rows (g.take 3) ∧ OneOf rows ((g.rotateLeft 2).take 3))

end Conduit.Mesh
