import Verif.Model.Partition
import Verif.Model.MeshPoints
/-
The partitioner taking elements out of a domain: the points they use, the new coordset and topology, the fields.
Source: /repo/src/libs/blueprint/conduit_blueprint_mesh_partition.cpp
Simplifications throughout: as in Partition.lean; topologies with "element_types" and a "stream" (deprecated) are left out;
matsets are left out.
-/
namespace Conduit.Part
open Conduit.Mesh
variable {F : Type}

def uint64 : IntTy := ⟨false, .w64⟩

/-- `to_unsigned_int_array`, `to_unsigned_long_array`: the numbers converted. -/
def toInts (A : Arith F) (t : IntTy) : BNode F → Res (List Int)
  | .ints _ l => .ok (l.map t.cast)
  | .flts _ l => .ok (l.map fun v => t.cast (A.trunc v))
  | _ => .error

/-- `as_unsigned_long_array()`: another type is an error. -/
def asUnsignedLongs : BNode F → Res (List Int)
  | .ints t l => if t = uint64 then .ok l else .error
  | _ => .error

/-! ### the points of elements -/

/-- conduit_blueprint_mesh_utils.cpp:1603-1621 `topology::dims` of a topology that is not unstructured.
    A missing coordset is a null pointer. -/
def gridDims (mesh topo : BNode F) : Res Nat := do
  match ← coordsetOf mesh topo with
  | none => .ub
  | some cset => do .ok (← axes cset).length

/-- conduit_blueprint_mesh_partition.cpp:2819-2829: the steps to the corners. -/
def cornerSteps : List Ijk :=
  [⟨0, 0, 0⟩, ⟨1, 0, 0⟩, ⟨0, 1, 0⟩, ⟨1, 1, 0⟩, ⟨0, 0, 1⟩, ⟨1, 0, 1⟩, ⟨0, 1, 1⟩, ⟨1, 1, 1⟩]

/-- conduit_blueprint_mesh_partition.cpp:2807-2847: the points of the elements of a grid, one element after the other. -/
def gridPoints (A : Arith F) (mesh topo : BNode F) (ids : List Int) : Res (List Int) := do
  let nd ← gridDims mesh topo
  let e ← logicalDims A mesh topo
  let dims : Ijk := ⟨e.i + 1, e.j + (if nd > 1 then 1 else 0), e.k + (if nd > 2 then 1 else 0)⟩
  let steps := if nd = 2 then cornerSteps.take 4 else cornerSteps
  .ok (ids.flatMap fun id =>
    let c := gridIdToIjk id ⟨e.i, e.j, e.k⟩
    steps.map fun s => gridIjkToId ⟨c.i + s.i, c.j + s.j, c.k + s.k⟩ dims)

/-- conduit_blueprint_mesh_partition.cpp:2861-2873, 3332-3344: the offsets of polygons, read or made. -/
def polyOffsets (A : Arith F) (topo : BNode F) : Res (List Int) := do
  let e ← topo.get (chars! "elements")
  if e.hasChild (chars! "offsets") then do toInts A uint64 (← e.get (chars! "offsets"))
  else do asUnsignedLongs (← generateOffsets1 A topo .empty)

/-- How the points of an element are found: conduit_blueprint_mesh_partition.cpp:2853-2883, 2977-2988 and again
    3321-3346, 3613-3619. -/
inductive Cells where
  | fixed (n : Int) (conn : List Int)
  | polygons (conn offsets sizes : List Int)
deriving DecidableEq, Repr

/-- The connectivity with what is needed to read it.  A name that is no shape reads `TOPO_SHAPE_INDEX_COUNTS[-1]`. -/
def cellsOf (A : Arith F) (topo : BNode F) : Res Cells := do
  let sh ← shapeOfTopo topo
  let e ← topo.get (chars! "elements")
  let conn ← asIndices A (← e.get (chars! "connectivity"))
  if sh.isPolygonal then do
    let offsets ← polyOffsets A topo
    let sizes ← toInts A uint32 (← e.get (chars! "sizes"))
    .ok (.polygons conn offsets sizes)
  else if sh.indices < 0 then .ub
  else .ok (.fixed sh.indices conn)

/-- `for(j = 0; j < n; j++) … a[offset + j]` -/
def readRun (l : List Int) (offset n : Int) : Res (List Int) :=
  (List.range n.toNat).mapM fun (j : Nat) => pick l (offset + (j : Int))

/-- The points of element `id`. -/
def cellPoints (c : Cells) (id : Int) : Res (List Int) :=
  match c with
  | .fixed n conn => readRun conn (id * n) n
  | .polygons conn offsets sizes => do
    let o ← pick offsets id
    let n ← pick sizes id
    readRun conn o n

/-- The type of a topology that is a grid: conduit_blueprint_mesh_partition.cpp:2803-2807. -/
def baseOf (ty : Str) : Option Base :=
  if ty = chars! "uniform" then some .uniform
  else if ty = chars! "rectilinear" then some .rectilinear
  else if ty = chars! "structured" then some .structured
  else none

/-! ### polyhedra -/

/-- The arrays of a topology of polyhedra. -/
structure Polyhedra where
  conn : List Int
  offsets : List Int
  sizes : List Int
  seConn : List Int
  seOffsets : List Int
  seSizes : List Int
deriving DecidableEq, Repr

/-- conduit_blueprint_mesh_partition.cpp:2887-2905, 3366-3374. -/
def polyhedraOf (A : Arith F) (topo : BNode F) : Res Polyhedra := do
  let e ← topo.get (chars! "elements")
  let s ← topo.get (chars! "subelements")
  .ok ⟨← asIndices A (← e.get (chars! "connectivity")), ← asIndices A (← e.get (chars! "offsets")),
    ← asIndices A (← e.get (chars! "sizes")), ← asIndices A (← s.get (chars! "connectivity")),
    ← asIndices A (← s.get (chars! "offsets")), ← asIndices A (← s.get (chars! "sizes"))⟩

/-- The points of face `f`. -/
def facePoints (p : Polyhedra) (f : Int) : Res (List Int) := do
  let o ← pick p.seOffsets f
  let n ← pick p.seSizes f
  readRun p.seConn o n

/-- conduit_blueprint_mesh_partition.cpp:2907-2923: the points of the faces of element `id`. -/
def polyhedronPoints (p : Polyhedra) (id : Int) : Res (List Int) := do
  let o ← pick p.offsets id
  let n ← pick p.sizes id
  let l ← (List.range n.toNat).mapM fun (j : Nat) => do
    let f ← pick p.conn (o + (j : Int))
    facePoints p f
  .ok l.flatten

/-- conduit_blueprint_mesh_partition.cpp:2798-2991 `get_vertex_ids_for_element_ids`, 2995-3001: the different points, ascending. -/
def vertexIds (A : Arith F) (mesh topo : BNode F) (ids : List Int) : Res (List Int) := do
  let ty ← (← topo.get (chars! "type")).asString
  if (baseOf ty).isSome then do
    .ok (unique (← gridPoints A mesh topo ids))
  else do
    let sh ← shapeOfTopo topo
    if sh.isPolyhedral then do
      let p ← polyhedraOf A topo
      let l ← ids.mapM (polyhedronPoints p)
      .ok (unique l.flatten)
    else do
      let c ← cellsOf A topo
      let l ← ids.mapM (cellPoints c)
      .ok (unique l.flatten)

/-! ### the new topology -/

/-- conduit_blueprint_mesh_partition.cpp:3317-3319 and `old2new[v]`: the place of the point; 0 for a point that is not there. -/
def newPoint (vids : List Int) (v : Int) : Int := ((vids.findIdx? (· == v)).getD 0 : Nat)

/-- The state of conduit_blueprint_mesh_partition.cpp:3389-3460: the new numbers of faces (in the order they were met) and the
    new arrays. -/
structure NewFaces where
  seen : List Int
  conn : List Int
  seConn : List Int
  seSizes : List Int
deriving DecidableEq, Repr

/-- conduit_blueprint_mesh_partition.cpp:3376-3387: how often the face was met before, for every entry of the connectivity, modulo 256.
    A negative face is outside of the vector. -/
def orientations (conn : List Int) : List Int :=
  (List.range conn.length).map fun i => ((conn.take i).countP (fun x => x == conn.getD i 0) % 256 : Nat)

/-- conduit_blueprint_mesh_partition.cpp:3398-3449: one face of an element. -/
def addFace (p : Polyhedra) (orient vids : List Int) (at_ : Int) (s : NewFaces) : Res NewFaces := do
  let f ← pick p.conn at_
  match s.seen.findIdx? (· == f) with
  | some n => .ok { s with conn := s.conn ++ [(n : Int)] }
  | none => do
    let pts ← facePoints p f
    let o ← pick orient at_
    let l := if o = 0 then pts else pts.reverse
    if l.all fun v => vids.contains v then
      .ok ⟨s.seen ++ [f], s.conn ++ [(s.seen.length : Int)], s.seConn ++ l.map (newPoint vids), s.seSizes ++ [(pts.length : Int)]⟩
    else .error

/-- conduit_blueprint_mesh_partition.cpp:3392-3456: one element; gives its number of faces as well. -/
def addPolyhedron (p : Polyhedra) (orient vids : List Int) (id : Int) (s : NewFaces) : Res (Int × NewFaces) := do
  let o ← pick p.offsets id
  let n ← pick p.sizes id
  let s ← forTo n (fun j s => addFace p orient vids (o + j) s) s
  .ok (n, s)

/-- conduit_blueprint_mesh_partition.cpp:3392-3456: all elements. -/
def addPolyhedra (p : Polyhedra) (orient vids : List Int) : List Int → NewFaces → Res (List Int × NewFaces)
  | [], s => .ok ([], s)
  | id :: ids, s => do
    let r ← addPolyhedron p orient vids id s
    let q ← addPolyhedra p orient vids ids r.2
    .ok (r.1 :: q.1, q.2)

/-- conduit_blueprint_mesh_partition.cpp:3307-3647 `unstructured_topo_from_unstructured`.
    Simplification: the size of a negative face number's vector is not looked at (`conn.max() + 1`). -/
def newTopo (A : Arith F) (topo : BNode F) (csname : Str) (ids vids : List Int) : Res (BNode F) := do
  let sh ← shapeOfTopo topo
  let e ← topo.get (chars! "elements")
  let head : List (Str × BNode F) := [(chars! "type", .str (chars! "unstructured")), (chars! "coordset", .str csname)]
  if sh.isPolyhedral then do
    let p ← polyhedraOf A topo
    if p.conn.any fun f => decide (f < 0) then .ub
    else do
      let r ← addPolyhedra p (orientations p.conn) vids ids ⟨[], [], [], []⟩
      let s ← (← topo.get (chars! "subelements")).get (chars! "shape")
      let ss ← s.asString
      .ok (.obj (head ++ [(chars! "elements", .obj [(chars! "sizes", .ints int64 r.1),
          (chars! "offsets", .ints int64 (runningSums 0 r.1)), (chars! "shape", ← e.get (chars! "shape")),
          (chars! "connectivity", .ints int64 r.2.conn)]),
        (chars! "subelements", .obj [(chars! "shape", .str ss), (chars! "connectivity", .ints int64 r.2.seConn),
          (chars! "sizes", .ints int64 r.2.seSizes), (chars! "offsets", .ints int64 (runningSums 0 r.2.seSizes))])]))
  else do
    let c ← cellsOf A topo
    let l ← ids.mapM (cellPoints c)
    let conn := (l.flatten).map (newPoint vids)
    let shape ← e.get (chars! "shape")
    match c with
    | .fixed _ _ => .ok (.obj (head ++ [(chars! "elements", .obj [(chars! "shape", shape), (chars! "connectivity", .ints int64 conn)])]))
    | .polygons _ _ _ =>
      let sizes := l.map fun x => (x.length : Int)
      .ok (.obj (head ++ [(chars! "elements", .obj [(chars! "shape", shape), (chars! "connectivity", .ints int64 conn),
        (chars! "sizes", .ints int64 sizes), (chars! "offsets", .ints int64 (runningSums 0 sizes))])]))

/-- conduit_blueprint_mesh_partition.cpp:3275-3305 `create_new_unstructured_topo`; a topology of another type stays empty. -/
def createTopo (A : Arith F) (mesh topo : BNode F) (csname : Str) (ids vids : List Int) : Res (BNode F) := do
  let ty ← (← topo.get (chars! "type")).asString
  match baseOf ty with
  | some b => do
    match ← coordsetOf mesh topo with
    | none => .ub
    | some cset => do
      let u ← toUnstructured A b topo cset []
      newTopo A u.1 csname ids vids
  | none => if ty = chars! "unstructured" then newTopo A topo csname ids vids else .ok .empty

/-! ### the new coordset -/

/-- conduit_blueprint_mesh_partition.cpp:3154-3200 `create_new_explicit_coordset`. -/
def explicitCoords (A : Arith F) (cset : BNode F) (vids : List Int) : Res (BNode F) := do
  let ty ← (← cset.get (chars! "type")).asString
  let head : Str × BNode F := (chars! "type", .str (chars! "explicit"))
  if ty = chars! "uniform" ∨ ty = chars! "rectilinear" ∨ ty = chars! "explicit" then do
    let ex ← (if ty = chars! "explicit" then .ok cset else coordsetToExplicit A cset)
    let as ← axes ex
    let vals ← ex.get (chars! "values")
    let cols ← as.mapM fun a => do
      let c ← sliceArray (← vals.get a) vids
      .ok (a, c)
    .ok (.obj [head, (chars! "values", match cols with | [] => .empty | _ => .obj cols)])
  else .ok (.obj [head])

/-! ### fields -/

/-- The options of the partitioner that bear on the extraction: the fields wanted (none: all), the mapping and its names. -/
structure Opts where
  fields : List Str
  mapping : Bool
  vertexName : Str
  elementName : Str
deriving DecidableEq, Repr

/-- conduit_blueprint_mesh_partition.cpp:2760-2792 `copy_field`: the fields with this one. -/
def copyField (o : Opts) (f : Str × BNode F) (ids : List Int) (out : BNode F) : Res (BNode F) := do
  if o.fields ≠ [] ∧ ¬ o.fields.contains f.1 then .ok out
  else do
    let base := [chars! "association", chars! "grid_function", chars! "volume_dependent", chars! "topology"].foldl
      (fun (n : BNode F) k => match f.2.get k with | .ok v => n.setChild k v | _ => n) (out.getOrEmpty f.1)
    let v ← sliceField (← f.2.get (chars! "values")) ids
    .ok (out.setChild f.1 (base.setChild (chars! "values") v))

/-- conduit_blueprint_mesh_partition.cpp:2698-2711, 2731-2744: the fields of one association on the topology. -/
def copyAssoc (o : Opts) (topo assoc : Str) (ids : List Int) : List (Str × BNode F) → BNode F → Res (BNode F)
  | [], out => .ok out
  | f :: fs, out =>
    if f.2.hasChild (chars! "association") then do
      let a ← (← f.2.get (chars! "association")).asString
      let t ← (← f.2.get (chars! "topology")).asString
      if a = assoc ∧ topo = t then do
        let out ← copyField o f ids out
        copyAssoc o topo assoc ids fs out
      else copyAssoc o topo assoc ids fs out
    else copyAssoc o topo assoc ids fs out

/-- conduit_blueprint_mesh_partition.cpp:2713-2725, 2746-2758: the field with the original numbers. -/
def mapField (name topo assoc : Str) (domain : Int) (ids : List Int) (out : BNode F) : BNode F :=
  let f := (out.getOrEmpty name).setChild (chars! "association") (.str assoc)
  let f := if topo = [] then f else f.setChild (chars! "topology") (.str topo)
  let v := (f.getOrEmpty (chars! "values")).setChild (chars! "domains") (.ints int64 (ids.map fun _ => domain))
  out.setChild name (f.setChild (chars! "values") (v.setChild (chars! "ids") (.ints int64 ids)))

/-- One half of `copy_fields`. -/
def copyHalf (o : Opts) (topo assoc name : Str) (domain : Int) (ids : List Int) (fs : List (Str × BNode F)) (out : BNode F) :
    Res (BNode F) :=
  if ids = [] then .ok out
  else do
    let out ← copyAssoc o topo assoc ids fs out
    .ok (if o.mapping then mapField name topo assoc domain ids out else out)

/-- conduit_blueprint_mesh_partition.cpp:2684-2757 `copy_fields`: the child "fields", `empty` if it is not made. -/
def copyFields (o : Opts) (domain : Int) (topo : Str) (vids ids : List Int) (mesh : BNode F) : Res (BNode F) :=
  if mesh.hasChild (chars! "fields") then do
    let fs ← mesh.get (chars! "fields")
    let out ← copyHalf o topo (chars! "vertex") o.vertexName domain vids fs.kids .empty
    copyHalf o topo (chars! "element") o.elementName domain ids fs.kids out
  else .ok .empty

/-! ### logical selections -/

/-- conduit_blueprint_mesh_partition.cpp:601-636 `SelectionLogical::get_vertex_ids`. -/
def boxVertexIds (A : Arith F) (mesh topo : BNode F) (a b : I3) : Res (List Int) := caught (do
  let d ← logicalDims A mesh topo
  let nd ← (do
    let ty ← (← topo.get (chars! "type")).asString
    if ty = chars! "unstructured" then do .ok (← shapeOfTopo topo).dim
    else do .ok (((← gridDims mesh topo) : Nat) : Int))
  .ok (boxIds ⟨d.i + 1, d.j + 1, if nd > 2 then d.k + 1 else d.k⟩ a
    ⟨b.i + 1, b.j + 1, if nd > 2 then b.k + 1 else a.k⟩)) []

/-- The children of a node in order. -/
def nth (n : BNode F) (i : Nat) : Res (Str × BNode F) :=
  match n.kids[i]? with
  | some k => .ok k
  | none => .ub

/-- `d[n]` -/
def I3.at (d : I3) (n : Nat) : Int :=
  match n with
  | 0 => d.i
  | 1 => d.j
  | _ => d.k

/-- conduit_blueprint_mesh_partition.cpp:3104-3129 `create_new_uniform_coordset`; `org + spacing * start` is `lin`. -/
def uniformCoords (A : Arith F) (cset : BNode F) (a b : I3) : Res (BNode F) := do
  let nd := (← axes cset).length
  let o ← cset.get (chars! "origin")
  let s ← cset.get (chars! "spacing")
  let org ← (List.range nd).mapM fun i => do
    let oi ← nth o i
    let si ← nth s i
    .ok (oi.1, BNode.flts true [A.lin (← oi.2.toF64 A) (a.at i) (← si.2.toF64 A)])
  let dims : List (Str × BNode F) := [(chars! "i", .ints int64 [b.i - a.i + 2]), (chars! "j", .ints int64 [b.j - a.j + 2])] ++
    (if nd > 2 then [(chars! "k", .ints int64 [b.k - a.k + 2])] else [])
  .ok (.obj [(chars! "type", .str (chars! "uniform")), (chars! "dims", .obj dims),
    (chars! "origin", match org with | [] => .empty | _ => .obj org), (chars! "spacing", s)])

/-- conduit_blueprint_mesh_partition.cpp:3132-3151 `create_new_rectilinear_coordset`. -/
def rectilinearCoords (cset : BNode F) (a b : I3) : Res (BNode F) := do
  let vals ← cset.get (chars! "values")
  let nd := (← axes cset).length
  let cols ← (List.range nd).mapM fun d => do
    let src ← nth vals d
    let c ← sliceArray src.2 (upTo (a.at d) (b.at d + 1))
    .ok (src.1, c)
  .ok (.obj [(chars! "values", match cols with | [] => .empty | _ => .obj cols), (chars! "type", .str (chars! "rectilinear"))])

/-- conduit_blueprint_mesh_partition.cpp:3208-3220, 3229-3241: the origin of the elements, moved. -/
def movedOrigin (A : Arith F) (topo : BNode F) (a : I3) : List Nat → Res (List (Str × BNode F))
  | [] => .ok []
  | n :: ns => do
    let name := logicalAxes.getD n []
    let rest ← movedOrigin A topo a ns
    match (do (← (← topo.get (chars! "elements")).get (chars! "origin")).get name) with
    | .ok v => do .ok ((name, .ints int64 [int64.cast ((← v.toInt64 A) + a.at n)]) :: rest)
    | _ => .ok rest

/-- conduit_blueprint_mesh_partition.cpp:3203-3243 `create_new_uniform_topo`, `create_new_rectilinear_topo`. -/
def boxTopo (A : Arith F) (topo : BNode F) (ty csname : Str) (a : I3) : Res (BNode F) := do
  let org ← movedOrigin A topo a [0, 1, 2]
  .ok (.obj ([(chars! "type", .str ty), (chars! "coordset", .str csname)] ++
    (match org with | [] => [] | _ => [(chars! "elements", .obj [(chars! "origin", .obj org)])])))

/-- conduit_blueprint_mesh_partition.cpp:3246-3270 `create_new_structured_topo`.  `has_child` is asked for a path, which no child
    has: the origin is not copied. -/
def boxStructured (topo : BNode F) (csname : Str) (a b : I3) : Res (BNode F) := do
  let hasK := match (do (← (← topo.get (chars! "elements")).get (chars! "dims")).get (chars! "k")) with
    | .ok _ => true
    | _ => false
  .ok (.obj [(chars! "type", .str (chars! "structured")), (chars! "coordset", .str csname),
    (chars! "elements", .obj [(chars! "dims", .obj ([(chars! "i", .ints int64 [b.i - a.i + 1]), (chars! "j", .ints int64 [b.j - a.j + 1])] ++
      (if hasK then [(chars! "k", .ints int64 [b.k - a.k + 1])] else [])))])])

/-! ### extract -/

/-- conduit_blueprint_mesh_partition.cpp:3027-3036: the state. -/
def newState (mesh : BNode F) (dd : Int) : Res (List (Str × BNode F)) :=
  if mesh.hasChild (chars! "state") then do
    let st ← mesh.get (chars! "state")
    .ok [(chars! "state", if dd = -1 then st else st.setChild (chars! "domain_id") (.ints int32 [dd]))]
  else .ok []

/-- The child "fields", if there is one. -/
def fieldsKid : BNode F → List (Str × BNode F)
  | .empty => []
  | fs => [(chars! "fields", fs)]

/-- conduit_blueprint_mesh_partition.cpp:3005-3100 `extract`: the new mesh and the points taken; `none` is a null pointer. -/
def extract (A : Arith F) (o : Opts) (s : Sel) (mesh : BNode F) : Res (Option (BNode F × List Int)) := caught (do
  let t ← selected s mesh
  let csets ← mesh.get (chars! "coordsets")
  let csname ← (← t.2.get (chars! "coordset")).asString
  let cset ← csets.get csname
  let st ← newState mesh (destDomain s)
  let ids ← elementIds A s mesh
  let tty ← (← t.2.get (chars! "type")).asString
  let r ← (match s.kind with
    | .logical a b => do
      let vids ← boxVertexIds A mesh t.2 a b
      let cty ← (← cset.get (chars! "type")).asString
      let c ← (if cty = chars! "uniform" then uniformCoords A cset a b
        else if cty = chars! "rectilinear" then rectilinearCoords cset a b
        else explicitCoords A cset vids)
      let tp ← (if tty = chars! "uniform" ∨ tty = chars! "rectilinear" then do .ok (some (← boxTopo A t.2 tty csname a))
        else if tty = chars! "structured" then do .ok (some (← boxStructured t.2 csname a b))
        else .ok none)
      .ok (vids, c, tp)
    | _ => do
      let vids ← vertexIds A mesh t.2 ids
      let c ← explicitCoords A cset vids
      let tp ← createTopo A mesh t.2 csname ids vids
      .ok (vids, c, some tp))
  let fs ← copyFields o s.domain t.1 r.1 ids mesh
  .ok (some (.obj ([(chars! "coordsets", .obj [(csname, r.2.1)]),
      (chars! "topologies", match r.2.2 with | some tp => .obj [(t.1, tp)] | none => .empty)] ++ st ++
      fieldsKid fs), r.1))) none

end Conduit.Part
