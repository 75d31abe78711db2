import Verif.Spec.MeshReorder
/-
What the elements of an unstructured topology are.
-/
namespace Conduit.Mesh
variable {F : Type}

/-- The child is an array of an integer type that holds these numbers (and so does `index_t`). -/
def NatLeaf (n : BNode F) (name : Str) (l : List Nat) : Prop :=
  ∃ t, n.get name = .ok (.ints t (l.map fun p : Nat => (p : Int))) ∧ ∀ p ∈ l, t.Holds (p : Int) ∧ Idx p

/-- There are no offsets yet. -/
def NoOffsets (n : BNode F) : Prop := n.hasChild (chars! "offsets") = false ∨ n.get (chars! "offsets") = .ok .empty

/-- Where each element begins in the list of all. -/
def starts (els : List (List Nat)) : List Nat := (List.range els.length).map fun j => (els.take j).flatten.length

/-- The numbers of points of the shapes that have a fixed one. -/
def fixedShapes : List (Str × Nat) :=
  [(chars! "point", 1), (chars! "line", 2), (chars! "tri", 3), (chars! "quad", 4), (chars! "tet", 4), (chars! "hex", 8),
    (chars! "wedge", 6), (chars! "pyramid", 5)]

/-- The topology has these elements, one after the other, of one shape with a fixed number of points or polygons. -/
structure Cells (topo e : BNode F) (els : List (List Nat)) : Prop where
  elements : topo.get (chars! "elements") = .ok e
  noStream : e.hasChild (chars! "stream") = false
  noSub : topo.hasChild (chars! "subelements") = false
  conn : NatLeaf e (chars! "connectivity") els.flatten
  shape : (∃ s k, (s, k) ∈ fixedShapes ∧ e.get (chars! "shape") = .ok (.str s) ∧ ∀ el ∈ els, el.length = k) ∨
    (e.get (chars! "shape") = .ok (.str (chars! "polygonal")) ∧ NatLeaf e (chars! "sizes") (els.map (·.length)))

/-- The topology has these elements wherever its offsets say: any order, gaps or overlaps. -/
structure OffsetCells (topo e : BNode F) (els : List (List Nat)) : Prop where
  elements : topo.get (chars! "elements") = .ok e
  noSub : topo.hasChild (chars! "subelements") = false
  shape : (∃ s k, (s, k) ∈ fixedShapes ∧ e.get (chars! "shape") = .ok (.str s) ∧ ∀ el ∈ els, el.length = k) ∨
    (e.get (chars! "shape") = .ok (.str (chars! "polygonal")) ∧ NatLeaf e (chars! "sizes") (els.map (·.length)))
  at_ : ∃ offs conn, NatLeaf e (chars! "offsets") offs ∧ NatLeaf e (chars! "connectivity") conn ∧
    ∀ (c : Nat) (el : List Nat), els[c]? = some el → ∃ o, offs[c]? = some o ∧
      ∀ (i p : Nat), el[i]? = some p → conn[o + i]? = some p

/-- Lists of numbers, one after the other with their sizes; the offsets are there or not. -/
structure Groups (n : BNode F) (ls : List (List Nat)) : Prop where
  conn : NatLeaf n (chars! "connectivity") ls.flatten
  sizes : NatLeaf n (chars! "sizes") (ls.map (·.length))
  offsets : NoOffsets n ∨ NatLeaf n (chars! "offsets") (starts ls)
  noIndices : n.hasChild (chars! "indices") = false
  noStream : n.hasChild (chars! "stream") = false
  count : Idx ls.flatten.length

/-- A topology of polyhedra: elements list faces, faces list points. -/
structure Polyhedra (topo e s : BNode F) (cells faces : List (List Nat)) : Prop where
  elements : topo.get (chars! "elements") = .ok e
  subelements : topo.get (chars! "subelements") = .ok s
  shape : e.get (chars! "shape") = .ok (.str (chars! "polyhedral"))
  cellGroups : Groups e cells
  faceGroups : Groups s faces
  inRange : ∀ cell ∈ cells, ∀ f ∈ cell, f < faces.length

/-- `l` lists exactly the numbers with `P`, ascending and each once. -/
def ListsSet (l : List Int) (P : Nat → Prop) : Prop :=
  l.Pairwise (· < ·) ∧ ∀ z : Int, z ∈ l ↔ ∃ p : Nat, z = (p : Int) ∧ P p

end Conduit.Mesh
