import Verif.Spec.MeshReorder
import Verif.Model.Extract
/-
What it means that elements were taken out of a mesh.
-/
namespace Conduit.Part
open Conduit.Mesh
variable {F : Type}

/-- The shapes with a fixed number of points. -/
def shapeSizes : List (Str × Nat) :=
  [(chars! "point", 1), (chars! "line", 2), (chars! "tri", 3), (chars! "quad", 4), (chars! "tet", 4), (chars! "hex", 8),
    (chars! "wedge", 6), (chars! "pyramid", 5)]

/-- The topology has these elements, all of one shape: their points one after the other. -/
def Fixed (topo : BNode F) (s : Str) (els : List (List Nat)) : Prop :=
  ∃ e n tc, topo.get (chars! "elements") = .ok e ∧ e.get (chars! "shape") = .ok (.str s) ∧ (s, n) ∈ shapeSizes ∧
    e.get (chars! "connectivity") = .ok (.ints tc (els.flatten.map fun p : Nat => (p : Int))) ∧
    ∀ el ∈ els, el.length = n ∧ ∀ p ∈ el, Idx p

/-- The topology has these elements, polygons. -/
def Polygons (topo : BNode F) (s : Str) (els : List (List Nat)) : Prop :=
  s = chars! "polygonal" ∧ LeafAt topo (chars! "elements") (chars! "shape") (.str s) ∧ (∃ ot, HasElems topo els ot) ∧
    ∀ el ∈ els, el.length < 2 ^ 32

/-- An unstructured topology of shape `s` with these elements, each the list of its points. -/
def Reads (topo : BNode F) (s : Str) (els : List (List Nat)) : Prop := Fixed topo s els ∨ Polygons topo s els

/-- The elements of a grid with `ed` elements along the axes: each the points at its corners. -/
def GridEls (ed : List Nat) (els : List (List Nat)) : Prop :=
  els.length = count ed ∧ ∀ x, InGrid ed x →
    els[pointId ed x]? = some ((corners ed.length).map fun s => pointId (ed.map (· + 1)) (addIdx x s))

/-- The topology is a grid on the coordset, with `ed` elements along the axes. -/
inductive Grid (A : Arith F) (topo cset : BNode F) : List Nat → Prop
  | uniform (g : List (Axis F)) : topo.get (chars! "type") = .ok (.str (chars! "uniform")) → Uniform A cset g →
      (∀ a ∈ g, 1 ≤ a.len ∧ a.len < 2147483648) → Grid A topo cset (elemCounts g)
  | rectilinear (g : List (Axis F)) : topo.get (chars! "type") = .ok (.str (chars! "rectilinear")) → Rectilinear cset g →
      (∀ a ∈ g, 1 ≤ a.len) → Grid A topo cset (elemCounts g)
  | structured (ed : List Nat) (names : List Str) (e d : BNode F) : topo.get (chars! "type") = .ok (.str (chars! "structured")) →
      ExplicitAxes cset names → names.length = ed.length → Structured A topo ed → topo.get (chars! "elements") = .ok e →
      e.get (chars! "dims") = .ok d → d.kids.map (·.1) = (List.range ed.length).map logical → Grid A topo cset ed

/-- The elements of a topology: an unstructured one of one shape or of polygons, or a grid of two or three dimensions (whose integer
    type holds the numbers of its points). -/
def Elems (A : Arith F) (topo cset : BNode F) (s : Str) (els : List (List Nat)) : Prop :=
  (topo.get (chars! "type") = .ok (.str (chars! "unstructured")) ∧ Reads topo s els) ∨
  ∃ ed, Grid A topo cset ed ∧ (ed.length = 2 ∨ ed.length = 3) ∧ (∀ k ∈ ed, 1 ≤ k) ∧ s = shapeOf ed.length ∧ GridEls ed els ∧
    ∀ k : Nat, k < count (ed.map (· + 1)) → (widestInt topo).cast k = k

/-- A coordset with these axes and (at least) this many points. -/
inductive Coords (A : Arith F) (cset : BNode F) : List Str → Nat → Prop
  | explicit (names : List Str) (npts : Nat) (vals : BNode F) : ExplicitAxes cset names → names ≠ [] →
      cset.get (chars! "values") = .ok vals → (∀ a ∈ names, ∃ c, vals.get a = .ok c ∧ Column c npts) → Coords A cset names npts
  | uniform (g : List (Axis F)) : g ≠ [] → Uniform A cset g → Coords A cset (g.map (·.name)) (count (g.map (·.len)))
  | rectilinear (g : List (Axis F)) : g ≠ [] → Rectilinear cset g → Coords A cset (g.map (·.name)) (count (g.map (·.len)))

/-- `vals` has the coordinates of every point: those of an explicit coordset, or of the points of the grid (rounded to single precision
    if a uniform coordset has no number of double precision). -/
def Lists (A : Arith F) (cset vals : BNode F) : Prop :=
  (cset.get (chars! "type") = .ok (.str (chars! "explicit")) ∧ cset.get (chars! "values") = .ok vals) ∨
  ∃ g ex, ex.get (chars! "values") = .ok vals ∧
    ((Uniform A cset g ∧ (HasLeaf cset (.f true) → Explicit ex g) ∧ (¬ HasLeaf cset (.f true) → Explicit ex (mapCoord A.narrow g))) ∨
      (Rectilinear cset g ∧ Explicit ex g))

/-- These are the points of the elements, each once, ascending. -/
def Uses (pts : List Nat) (els : List (List Nat)) : Prop :=
  pts.Pairwise (· < ·) ∧ ∀ p, p ∈ pts ↔ ∃ el ∈ els, p ∈ el

/-- The elements of the second list are those of the first, corner by corner: `pts` tells which point a new point was. -/
def SameCorners (els els' : List (List Nat)) (pts : List Nat) : Prop :=
  els'.length = els.length ∧ ∀ (j : Nat) (el : List Nat), els[j]? = some el → ∃ el', els'[j]? = some el' ∧
    el'.length = el.length ∧ ∀ (i p : Nat), el[i]? = some p → ∃ q : Nat, el'[i]? = some q ∧ pts[q]? = some p

/-- The coordset has for each axis the coordinates of the points. -/
def SlicedAxes (vals : BNode F) (names : List Str) (pts : List Nat) (cset' : BNode F) : Prop :=
  cset'.get (chars! "type") = .ok (.str (chars! "explicit")) ∧
  ∃ vals', cset'.get (chars! "values") = .ok vals' ∧ vals'.kids.map (·.1) = names ∧
    ∀ a ∈ names, ∃ c c', vals.get a = .ok c ∧ vals'.get a = .ok c' ∧ SlicedColumn c pts c'

/-- The field is one the options ask for. -/
def Wanted (o : Opts) (name : Str) : Prop := o.fields = [] ∨ name ∈ o.fields

/-- A field that tells where things came from: the domain and the numbers. -/
def Origin (f : BNode F) (assoc topo : Str) (domain : Int) (ids : List Nat) : Prop :=
  ∃ v, FieldOf f assoc topo v ∧ v.get (chars! "domains") = .ok (.ints int64 (ids.map fun _ => domain)) ∧
    v.get (chars! "ids") = .ok (.ints int64 (ids.map fun p : Nat => (p : Int)))

/-- The fields of the elements `ids` and points `pts`: those wanted that are on the topology have the values of the elements and
    points; with a mapping there are two more, with the numbers; there are no others. -/
structure FieldsTaken (o : Opts) (domain : Int) (tname : Str) (pts ids : List Nat) (fs : List (Str × BNode F)) (out : BNode F) :
    Prop where
  kept : ∀ f ∈ fs, ∀ a v, FieldOf f.2 a tname v → (a = chars! "vertex" ∨ a = chars! "element") → Wanted o f.1 →
    ∃ f' v', out.get f.1 = .ok f' ∧ FieldOf f' a tname v' ∧ Sliced v (if a = chars! "element" then ids else pts) v'
  only : ∀ name f', out.get name = .ok f' → (o.mapping = true ∧ (name = o.vertexName ∨ name = o.elementName)) ∨
    ∃ f ∈ fs, f.1 = name ∧ Wanted o name ∧ ∃ a v, FieldOf f.2 a tname v ∧ (a = chars! "vertex" ∨ a = chars! "element")
  points : o.mapping = true → ∃ f, out.get o.vertexName = .ok f ∧ Origin f (chars! "vertex") tname domain pts
  elements : o.mapping = true → ∃ f, out.get o.elementName = .ok f ∧ Origin f (chars! "element") tname domain ids

/-- The fields of a mesh have different names; those of the topology have values for every element or point. -/
structure GoodFields (o : Opts) (tname : Str) (nels npts : Nat) (fs : List (Str × BNode F)) : Prop where
  names : (fs.map (·.1)).Nodup
  good : ∀ f ∈ fs, ∃ a t v, FieldOf f.2 a t v ∧ (t = tname → Table v (if a = chars! "element" then nels else npts))
  new : o.mapping = true → o.vertexName ∉ fs.map (·.1) ∧ o.elementName ∉ fs.map (·.1) ∧ o.vertexName ≠ o.elementName

/-- The numbers of a box of a grid with `n` along each axis: it begins at `start` and has `len` along each axis; the first index runs
    fastest. -/
def BoxOf (n start len ids : List Nat) : Prop :=
  ids.length = count len ∧ ∀ x, InGrid len x → ids[pointId len x]? = some (pointId n (addIdx start x))

/-- The box, with its first and last element along each axis, is inside of a grid of elements. -/
def BoxIn (ed start stop : List Nat) : Prop :=
  start.length = ed.length ∧ stop.length = ed.length ∧
    ∀ (i a b n : Nat), start[i]? = some a → stop[i]? = some b → ed[i]? = some n → a ≤ b ∧ b < n

/-- How many elements it has along each axis. -/
def boxLens (start stop : List Nat) : List Nat := List.zipWith (fun a b => b - a + 1) start stop

/-- The first or last element of a box, as a selection has it: 0 along the axes that are not there. -/
def i3 (l : List Nat) : I3 := ⟨(l.getD 0 0 : Nat), (l.getD 1 0 : Nat), (l.getD 2 0 : Nat)⟩

/-- The axes of the box have the coordinates the grid has there. -/
def CutAxes (start stop : List Nat) (g g' : List (Axis F)) : Prop :=
  g'.length = g.length ∧ ∀ (i a b : Nat) (ax : Axis F), g[i]? = some ax → start[i]? = some a → stop[i]? = some b →
    ∃ ax', g'[i]? = some ax' ∧ ax'.name = ax.name ∧ ax'.len = b - a + 2 ∧ ∀ d : Nat, d ≤ b - a + 1 → ax'.coord d = ax.coord (a + d)

/-- The axes of the box begin where its first point was and keep the spacing. -/
def CutUniform (A : Arith F) (start stop : List Nat) (g g' : List (Axis F)) : Prop :=
  g'.length = g.length ∧ ∀ (i a b : Nat) (ax : Axis F), g[i]? = some ax → start[i]? = some a → stop[i]? = some b →
    ∃ ax', g'[i]? = some ax' ∧ ax'.name = ax.name ∧ ax'.len = b - a + 2 ∧
      ∃ o s, (∀ d : Nat, ax.coord d = A.lin o d s) ∧ ∀ d : Nat, ax'.coord d = A.lin (ax.coord a) d s

/-- The children of a child come in this order. -/
def InOrder (n : BNode F) (child : Str) (names : List Str) : Prop := ∃ c, n.get child = .ok c ∧ c.kids.map (·.1) = names

/-- The origin of the elements of a grid along an axis. -/
def OriginAt (A : Arith F) (topo : BNode F) (name : Str) (k : Int) : Prop :=
  ∃ e o v, topo.get (chars! "elements") = .ok e ∧ e.get (chars! "origin") = .ok o ∧ o.get name = .ok v ∧ v.toInt64 A = .ok k

/-- If there is an origin of elements, each of its leaves has a value. -/
def OriginGood (A : Arith F) (topo : BNode F) : Prop :=
  ∀ e o name v, topo.get (chars! "elements") = .ok e → e.get (chars! "origin") = .ok o → o.get name = .ok v → ∃ k, v.toInt64 A = .ok k

/-- The origin of the elements is moved to the first of the box. -/
def OriginMoved (A : Arith F) (topo topo' : BNode F) (start : List Nat) : Prop :=
  ∀ (n : Nat) (k : Int), n < 3 → OriginAt A topo (logical n) k → int64.cast (k + (start.getD n 0 : Nat)) = k + (start.getD n 0 : Nat) →
    OriginAt A topo' (logical n) (k + (start.getD n 0 : Nat))

/-- The mesh a selection takes elements of: the topology selected and its coordset. -/
structure Domain (s : Sel) (mesh : BNode F) (tname : Str) (topo : BNode F) (csname : Str) (cset : BNode F) : Prop where
  topology : selected s mesh = .ok (tname, topo)
  name : tname ≠ []
  coordset : topo.get (chars! "coordset") = .ok (.str csname)
  coords : LeafAt mesh (chars! "coordsets") csname cset

/-- The state of the mesh is kept; its domain number becomes `dd` if that is not -1. -/
def StateKept (mesh mesh' : BNode F) (dd : Int) : Prop :=
  (mesh.hasChild (chars! "state") = false → mesh'.hasChild (chars! "state") = false) ∧
  ∀ st, mesh.get (chars! "state") = .ok st → ∃ st', mesh'.get (chars! "state") = .ok st' ∧ (dd = -1 → st' = st) ∧
    (dd ≠ -1 → st'.get (chars! "domain_id") = .ok (.ints int32 [dd]) ∧ ∀ k, k ≠ chars! "domain_id" → st'.get k = st.get k)

end Conduit.Part
