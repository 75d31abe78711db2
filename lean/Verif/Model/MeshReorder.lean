import Verif.Model.Adjset
import Verif.Model.MeshConvert
/-
Reordering the elements and points of an unstructured topology, and selecting elements from one.
Source: /repo/src/libs/blueprint/conduit_blueprint_mesh_utils.cpp, conduit_blueprint_mesh_utils.hpp
-/
namespace Conduit.Mesh
variable {F : Type}

/-! ### shapes -/

/-- conduit_blueprint_mesh_utils.hpp:95-96 `TOPO_SHAPES`. -/
def topoShapes : List Str :=
  [chars! "point", chars! "line", chars! "tri", chars! "quad", chars! "tet", chars! "hex", chars! "wedge",
    chars! "pyramid", chars! "polygonal", chars! "polyhedral", chars! "mixed"]

/-- conduit_blueprint_mesh_utils.hpp:106-107 `TOPO_SHAPE_DIMS`. -/
def topoShapeDims : List Int := [0, 1, 2, 2, 3, 3, 3, 3, 2, 3, -1]

/-- conduit_blueprint_mesh_utils.hpp:110-111 `TOPO_SHAPE_INDEX_COUNTS`. -/
def topoShapeIndices : List Int := [1, 2, 3, 4, 4, 8, 6, 5, -1, -1, -1]

/-- conduit_blueprint_mesh_utils.hpp:160-165 `TOPO_SHAPE_EMBEDDINGS`: whether the entry is a table or
    the null pointer.  There is none for the last shape. -/
def topoShapeEmbeddings : List Bool := [true, true, true, true, true, true, true, true, false, false]

/-- The members of `ShapeType` that are used. -/
structure ShapeType where
  dim : Int
  indices : Int
  embedding : Bool
deriving DecidableEq, Repr

/-- conduit_blueprint_mesh_utils.cpp:154-180 `init(type_id)` for the position of a shape. -/
def shapeAt (i : Nat) : Res ShapeType := do
  let d ← Res.ofIdx topoShapeDims i
  let n ← Res.ofIdx topoShapeIndices i
  let e ← Res.ofIdx topoShapeEmbeddings i
  .ok ⟨d, n, e⟩

/-- conduit_blueprint_mesh_utils.cpp:134-150 `init(type_name)`: an unknown name leaves the members at
    their initial values. -/
def shapeInit (name : Str) : Res ShapeType :=
  if topoShapes.contains name then shapeAt (topoShapes.idxOf name) else .ok ⟨-1, -1, false⟩

/-- conduit_blueprint_mesh_utils.cpp:92-101 `ShapeType(topology)` for an unstructured one.
    Simplification: without a shape name the coordset would be asked; here that is an error. -/
def shapeOfTopo (topo : BNode F) : Res ShapeType := do
  shapeInit (← (← (← topo.get (chars! "elements")).get (chars! "shape")).asString)

/-- conduit_blueprint_mesh_utils.cpp:191-202. -/
def ShapeType.isPolygonal (s : ShapeType) : Bool := !s.embedding && s.dim == 2
def ShapeType.isPolyhedral (s : ShapeType) : Bool := !s.embedding && s.dim == 3

/-! ### slices -/

/-- conduit_blueprint_mesh_utils.cpp:428-436 `typed_slice_array`. -/
def sliceList {α : Type} (l : List α) (ids : List Int) : Res (List α) := ids.mapM fun i => pick l i

/-- conduit_blueprint_mesh_utils.cpp:438-607 `slice_array`: a new array of the type of the source.
    Simplification: slices of strings and of trees are not looked at. -/
def sliceArray (src : BNode F) (ids : List Int) : Res (BNode F) :=
  match src with
  | .ints t l => (sliceList l ids).map' (.ints t)
  | .flts w l => (sliceList l ids).map' (.flts w)
  | .empty => .ok .empty
  | _ => .ub

/-- conduit_blueprint_mesh_utils.cpp:610-630 `slice_field`: the components one by one, or the array.
    Simplification: components have names; the destination is another node. -/
def sliceField (src : BNode F) (ids : List Int) : Res (BNode F) :=
  match src with
  | .obj (k :: ks) => do
    let l ← (k :: ks).mapM fun k => do
      let v ← sliceArray k.2 ids
      .ok (k.1, v)
    .ok (.obj l)
  | n => sliceArray n ids

/-! ### reorder -/

/-- The vectors of conduit_blueprint_mesh_utils.cpp:2777-2795; the number of points seen is the length
    of `points` (`ptReorder`). -/
structure Renum where
  old2new : List Int
  points : List Int
  conn : List Int
deriving DecidableEq, Repr

/-- conduit_blueprint_mesh_utils.cpp:2803-2811: one point of an element. -/
def visitPoint (id : Int) (s : Renum) : Res Renum := do
  let v ← pick s.old2new id
  if v = -1 then do
    let o ← put s.old2new id s.points.length
    .ok ⟨o, s.points ++ [id], s.conn ++ [(s.points.length : Int)]⟩
  else .ok { s with conn := s.conn ++ [v] }

/-- conduit_blueprint_mesh_utils.cpp:2801-2812: the points of one element. -/
def visitElement (conn sizes offsets : List Int) (cell : Int) (s : Renum) : Res Renum := do
  let n ← pick sizes cell
  forTo n (fun i s => do
    let o ← pick offsets cell
    let id ← pick conn (o + i)
    visitPoint id s) s

/-- conduit_blueprint_mesh_utils.cpp:2799-2816: all elements of the order; gives the new vectors, sizes and
    offsets. -/
def visitAll (conn sizes offsets : List Int) : List Int → Int → Renum → Res (Renum × List Int × List Int)
  | [], _, s => .ok (s, [], [])
  | cell :: order, newoffset, s => do
    let s ← visitElement conn sizes offsets cell s
    let n ← pick sizes cell
    let r ← visitAll conn sizes offsets order (newoffset + n) s
    .ok (r.1, n :: r.2.1, newoffset :: r.2.2)

/-- `to_data_type(src.dtype().id(), dest)` of an array of `index_t`. -/
def toTypeOf (A : Arith F) (src : BNode F) (l : List Int) : BNode F :=
  match src with
  | .ints t _ => .ints t (l.map t.cast)
  | .flts w _ => .flts w (l.map (storeI A w))
  | _ => .empty

/-- conduit_blueprint_mesh.cpp:3987-3999 `coordset::to_explicit`. -/
def coordsetToExplicit (A : Arith F) (n : BNode F) : Res (BNode F) := do
  let ty ← (← n.get (chars! "type")).asString
  if ty = chars! "uniform" then toExplicit A .uniform n
  else if ty = chars! "rectilinear" then toExplicit A .rectilinear n
  else if ty = chars! "explicit" then .ok n
  else .ok .empty

/-- `node["values"]` on a node that may be changed: a missing child is made, empty. -/
def valuesOrEmpty (n : BNode F) : BNode F :=
  match n.get (chars! "values") with
  | .ok v => v
  | _ => .empty

/-- conduit_blueprint_mesh_utils.cpp:2843-2858: one field. -/
def reorderField (order points : List Int) (tname : Str) (f : Str × BNode F) : Res (Str × BNode F) := do
  let a ← f.2.get (chars! "association")
  let s ← a.asString
  let v ← f.2.get (chars! "values")
  let v' ← sliceField v (if s = chars! "element" then order else points)
  .ok (f.1, .obj [(chars! "association", a), (chars! "topology", .str tname), (chars! "values", v')])

/-- What `reorder` leaves in its destinations. -/
structure Reordered (F : Type) where
  topo : BNode F
  coordset : BNode F
  fields : BNode F
  old2new : List Int

/-- conduit_blueprint_mesh_utils.cpp:2833-2842: the fields of the topology.  `b` on a missing name or another
    type is an error. -/
def fieldsOf (fields : BNode F) (tname : Str) : Res (List (Str × BNode F)) := do
  let l ← fields.kids.mapM fun f => do
    let t ← (← f.2.get (chars! "topology")).asString
    .ok (f, t)
  .ok ((l.filter fun p => p.2 == tname).map (·.1))

/-- conduit_blueprint_mesh_utils.cpp:2752-2862 `topology::unstructured::reorder`; `none`: a topology it
    does nothing for.  `tname` is the name of the topology, `cname'` and `tname'` the names of the
    destinations.
    Simplification: the destinations are new nodes. -/
def reorder (A : Arith F) (topo : BNode F) (tname : Str) (coordset fields : BNode F) (order : List Int)
    (tname' cname' : Str) : Res (Option (Reordered F)) := do
  let shape ← shapeOfTopo topo
  let ty ← topo.get (chars! "type")
  let tys ← ty.asString
  if tys = chars! "unstructured" ∧ shape.isPolyhedral = false then do
    let e ← topo.get (chars! "elements")
    let nConn ← e.get (chars! "connectivity")
    let nSizes ← e.get (chars! "sizes")
    let nOffsets ← e.get (chars! "offsets")
    let conn ← leafInts A nConn
    let sizes ← leafInts A nSizes
    let offsets ← leafInts A nOffsets
    let npts ← coordsetLength A coordset
    let o2n ← alloc (-1) npts
    let r ← visitAll conn sizes offsets order 0 ⟨o2n, [], []⟩
    let sh ← e.get (chars! "shape")
    let topo' : BNode F := .obj [(chars! "type", ty), (chars! "coordset", .str cname'),
      (chars! "elements", .obj [(chars! "shape", sh), (chars! "connectivity", toTypeOf A nConn r.1.conn),
        (chars! "sizes", toTypeOf A nSizes r.2.1), (chars! "offsets", toTypeOf A nOffsets r.2.2)])]
    let ex ← coordsetToExplicit A coordset
    let vals ← sliceField (valuesOrEmpty ex) r.1.points
    let coordset' : BNode F := .obj [(chars! "type", .str (chars! "explicit")), (chars! "values", vals)]
    let fs ← fieldsOf fields tname
    let fs' ← fs.mapM (reorderField order r.1.points tname')
    .ok (some ⟨topo', coordset', .obj fs', r.1.old2new⟩)
  else .ok none

/-- `dest_coordset["type"] = "explicit"` on an existing node. -/
def setType (n : BNode F) : BNode F :=
  .obj (n.kids.map fun k => if k.1 = chars! "type" then (k.1, .str (chars! "explicit")) else k)

/-- conduit_blueprint_mesh_utils.cpp:2829-2832 when the destination is the coordset itself: its type is
    changed before it is converted.  Gives the values of the coordset. -/
def reorderCoordsetInPlace (A : Arith F) (coordset : BNode F) (points : List Int) : Res (BNode F) := do
  let n := setType coordset
  let ex ← coordsetToExplicit A n
  sliceField (valuesOrEmpty ex) points

end Conduit.Mesh
