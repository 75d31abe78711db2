import Verif.Model.Partition
/-
What is asked of selections, and the elements a plan takes.
-/
namespace Conduit.Part
open Conduit.Mesh
variable {F : Type}

/-- A selection of some elements that are there: a box with a cell along every axis and within the mesh, some element
    numbers, none twice, or one range of them. -/
def Inside (A : Arith F) (mesh : BNode F) (s : Sel) : Prop :=
  ∃ t, selected s mesh = .ok t ∧
    match s.kind with
    | .logical a b => ∃ d, logicalDims A mesh t.2 = .ok d ∧ 0 ≤ a.i ∧ 0 ≤ a.j ∧ 0 ≤ a.k ∧ a.i ≤ b.i ∧ a.j ≤ b.j ∧ a.k ≤ b.k ∧
        b.i < d.i ∧ b.j < d.j ∧ b.k < d.k
    | .explicit l => l ≠ [] ∧ l.Nodup ∧ ∃ n, length A mesh t.2 = .ok n ∧ ∀ e ∈ l, 0 ≤ e ∧ e < n
    | .ranges r => ∃ p n, r = [p] ∧ length A mesh t.2 = .ok n ∧ 0 ≤ p.1 ∧ p.1 ≤ p.2 ∧ p.2 < n
    | .field _ _ _ => False

/-- The elements of a selection, with the position of their domain. -/
def elementsOf (A : Arith F) (p : Sel × Dom F) : List (Nat × Int) :=
  match elementIds A p.1 p.2.mesh with
  | .ok l => l.map fun e => (p.2.idx, e)
  | _ => []

/-- The elements of several selections. -/
def elementsOfAll (A : Arith F) (ss : List (Sel × Dom F)) : List (Nat × Int) := ss.flatMap (elementsOf A)

/-- The elements that go to an output domain. -/
def piecesElements (l : List Piece) : List (Nat × Int) := l.flatMap fun p => p.ids.map fun e => (p.dom, e)

/-- What is asked of a plan: the output domains are numbered from 0, none is empty, and they have the elements, each once. -/
def Spread (target : Nat) (elements : List (Nat × Int)) (out : List (Int × List Piece)) : Prop :=
  out.map (·.1) = (List.range target).map (fun n : Nat => (n : Int)) ∧ (∀ o ∈ out, piecesElements o.2 ≠ []) ∧
    (out.flatMap fun o => piecesElements o.2).Perm elements

/-- A domain whose first topology has `n` elements, at least one along every axis.  Its coordset is there and its other
    topologies can be counted. -/
def HasElements (A : Arith F) (mesh : BNode F) (n : Int) : Prop :=
  ∃ ts tname topo rest dims name css cset b m, mesh.get (chars! "topologies") = .ok ts ∧ ts.kids = (tname, topo) :: rest ∧
    topo.get (chars! "coordset") = .ok (.str name) ∧ mesh.get (chars! "coordsets") = .ok css ∧ css.get name = .ok cset ∧
    looksLogical cset topo = .ok b ∧
    logicalDims A mesh topo = .ok dims ∧ 1 ≤ dims.i ∧ 1 ≤ dims.j ∧ 1 ≤ dims.k ∧ n = dims.i * dims.j * dims.k ∧
    allLengths A mesh = .ok m ∧ 1 ≤ m

/-- The elements of a domain of `n`. -/
def domainElements (d : Dom F) (n : Int) : List (Nat × Int) := (upTo 0 (n - 1)).map fun e => (d.idx, e)

end Conduit.Part
