import Verif.Spec.MeshPoints
/-
What it means that elements were selected from a mesh into a new one, and that an element of one mesh is in another.
-/
namespace Conduit.Mesh
variable {F : Type}

/-- Element `i` of a leaf of numbers, as float64. -/
def valueAt (A : Arith F) : BNode F → Nat → Option F
  | .ints _ l, i => l[i]?.map A.ofInt
  | .flts _ l, i => l[i]?
  | _, _ => none

/-- The mesh `out` has a topology and a coordset with these names, made of the elements `els` on a coordset: there is a list
    of the old points, each once and in some element, so that point `q` of the new mesh is point `old[q]`, with the same
    coordinates along each axis; elements and their corners are in order. -/
def SelectedMesh (A : Arith F) (els : List (List Nat)) (cset : BNode F) (names : List Str) (cname tname shape : Str)
    (out : BNode F) : Prop :=
  ∃ (topo' cset' : BNode F) (els' : List (List Nat)) (ot : IntTy) (old : List Nat),
    LeafAt out (chars! "topologies") tname topo' ∧ LeafAt out (chars! "coordsets") cname cset' ∧
    topo'.get (chars! "type") = .ok (.str (chars! "unstructured")) ∧ topo'.get (chars! "coordset") = .ok (.str cname) ∧
    LeafAt topo' (chars! "elements") (chars! "shape") (.str shape) ∧ HasElems topo' els' ot ∧
    cset'.get (chars! "type") = .ok (.str (chars! "explicit")) ∧
    old.Nodup ∧ (∀ p ∈ old, ∃ el ∈ els, p ∈ el) ∧ els'.length = els.length ∧
    (∀ (j : Nat) (el : List Nat), els[j]? = some el → ∃ el', els'[j]? = some el' ∧ el'.length = el.length ∧
      ∀ (i p : Nat), el[i]? = some p → ∃ q, el'[i]? = some q ∧ old[q]? = some p) ∧
    ∀ name ∈ names, ∃ col l, LeafAt cset (chars! "values") name col ∧ LeafAt cset' (chars! "values") name (.flts true l) ∧
      l.length = old.length ∧ ∀ (q p : Nat), old[q]? = some p → ∃ v, valueAt A col p = some v ∧ l[q]? = some v

/-- The points of an element of the second mesh in the first, if all of them are there. -/
def Translated (r : List (Option Nat)) (el m : List Nat) : Prop :=
  m.length = el.length ∧ ∀ (i p : Nat), el[i]? = some p → ∃ q, r[p]? = some (some q) ∧ m[i]? = some q

/-- The element is one of the list, up to the order of its points. -/
def OneOf (els : List (List Nat)) (m : List Nat) : Prop := ∃ el ∈ els, m.Perm el

end Conduit.Mesh
