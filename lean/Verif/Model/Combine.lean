import Verif.Model.Extract
import Verif.Model.PointMerge
import Verif.Model.TopoMeta
/-
The partitioner putting the chunks of an output domain together as an unstructured mesh.
Source: /repo/src/libs/blueprint/conduit_blueprint_mesh_partition.cpp
Simplifications throughout: as in Extract.lean and PointMerge.lean; the children of a node have different names; no pointer to
a chunk is null; stream topologies, matsets and adjsets are left out.
-/
namespace Conduit.Comb
open Conduit.Mesh Conduit.Part Conduit.Merge
variable {F : Type}

/-! ### going through the elements -/

/-- conduit_blueprint_mesh_utils_iterate_elements.hpp:62-68 `entity`: the name of its shape, its number, its points (or faces)
    and the points of its faces. -/
structure Entity where
  name : Str
  shape : ShapeType
  id : Nat
  pts : List Int
  faces : List (List Int)
deriving DecidableEq, Repr

/-- conduit_blueprint_mesh_utils_iterate_elements.hpp:263-290 `traverse_fixed_elements`; `start` is the number of the first element.
    A name that is no shape asks for a vector of length -1. -/
def traverseFixed (A : Arith F) (eles : BNode F) (name : Str) (sh : ShapeType) (start : Nat) : Res (List Entity) := do
  let conn ← asIndices A (← eles.get (chars! "connectivity"))
  if sh.indices ≤ 0 then .error
  else
    let n := sh.indices.toNat
    .ok ((List.range (conn.length / n)).map fun i => ⟨name, sh, start + i, (conn.drop (i * n)).take n, []⟩)

/-- conduit_blueprint_mesh_utils_iterate_elements.hpp:300-318: runs of the sizes given, one after the other. -/
def runs : List Int → List Int → Res (List (List Int))
  | _, [] => .ok []
  | conn, n :: ns =>
    if n < 0 then .error
    else if conn.length < n.toNat then .ub
    else do .ok (conn.take n.toNat :: (← runs (conn.drop n.toNat) ns))

/-- The elements `els`, numbered from `start` on. -/
def numbered (name : Str) (sh : ShapeType) : Nat → List (List Int) → List Entity
  | _, [] => []
  | k, l :: ls => ⟨name, sh, k, l, []⟩ :: numbered name sh (k + 1) ls

/-- conduit_blueprint_mesh_utils_iterate_elements.hpp:293-318 `traverse_polygonal_elements`.  The offsets are not read. -/
def traversePolygons (A : Arith F) (eles : BNode F) (sh : ShapeType) (start : Nat) : Res (List Entity) := do
  let conn ← asIndices A (← eles.get (chars! "connectivity"))
  let sizes ← asIndices A (← eles.get (chars! "sizes"))
  let l ← runs conn sizes
  .ok (numbered (chars! "polygonal") sh start l)

/-- The points of face `f`: conduit_blueprint_mesh_utils_iterate_elements.hpp:349-361. -/
def faceOf (conn sizes offsets : List Int) (f : Int) : Res (List Int) := do
  let n ← pick sizes f
  let o ← pick offsets f
  readRun conn o n

/-- conduit_blueprint_mesh_utils_iterate_elements.hpp:321-366 `traverse_polyhedral_elements`. -/
def traversePolyhedra (A : Arith F) (eles sub : BNode F) (sh : ShapeType) (start : Nat) : Res (List Entity) := do
  let conn ← asIndices A (← eles.get (chars! "connectivity"))
  let sizes ← asIndices A (← eles.get (chars! "sizes"))
  let sconn ← asIndices A (← sub.get (chars! "connectivity"))
  let ssizes ← asIndices A (← sub.get (chars! "sizes"))
  let soffs ← asIndices A (← sub.get (chars! "offsets"))
  let l ← runs conn sizes
  (numbered (chars! "polyhedral") sh start l).mapM fun e => do
    let fs ← e.pts.mapM (faceOf sconn ssizes soffs)
    .ok { e with faces := fs }

/-- The elements of one bucket: conduit_blueprint_mesh_utils_iterate_elements.hpp:596-611, 622-650; `sub` is where the faces are. -/
def traverse (A : Arith F) (eles : BNode F) (sub : Res (BNode F)) (name : Str) (start : Nat) : Res (List Entity) := do
  let sh ← shapeInit name
  if sh.isPolyhedral then do traversePolyhedra A eles (← sub) sh start
  else if sh.isPolygonal then traversePolygons A eles sh start
  else traverseFixed A eles name sh start

/-- conduit_blueprint_mesh_utils_iterate_elements.hpp:613-651: several buckets; those of a list have no name. -/
def traverseAll (A : Arith F) (topo : BNode F) : List (Str × BNode F) → Nat → Res (List Entity)
  | [], _ => .ok []
  | b :: bs, start => do
    let name ← (← b.2.get (chars! "shape")).asString
    let es ← traverse A b.2 (do (← topo.get (chars! "subelements")).get b.1) name start
    let rest ← traverseAll A topo bs (start + es.length)
    .ok (es ++ rest)

/-- conduit_blueprint_mesh_utils_iterate_elements.hpp:578-677 `iterate_elements` of an unstructured topology: the entities given to
    the function, in order.  Another type of topology is never given to it here. -/
def iterElements (A : Arith F) (topo : BNode F) : Res (List Entity) := do
  let ty ← (← topo.get (chars! "type")).asString
  if ty ≠ chars! "unstructured" then .error
  else do
    let e ← topo.get (chars! "elements")
    match e.get (chars! "shape") with
    | .ok s => do
      let name ← s.asString
      if ¬ topoShapes.contains name then .error
      else traverse A e (topo.get (chars! "subelements")) name 0
    | _ => match e with
      | .list ks => traverseAll A topo (ks.map fun k => ([], k)) 0
      | .obj ks => traverseAll A topo ks 0
      | _ => .error

/-! ### the new topology -/

/-- Elements of one shape: the points one after the other, and for each element the number of the topology and its number there. -/
structure Bucket where
  shape : Str
  conn : List Int
  emap : List Int
deriving DecidableEq, Repr

/-- conduit_blueprint_mesh_partition.cpp:6260-6282: to the bucket of the shape; a new one comes last. -/
def toBucket (shape : Str) (conn emap : List Int) : List Bucket → List Bucket
  | [] => [⟨shape, conn, emap⟩]
  | b :: bs => if b.shape = shape then ⟨b.shape, b.conn ++ conn, b.emap ++ emap⟩ :: bs else b :: toBucket shape conn emap bs

/-- `pmap_da[id]` for points. -/
def mapPts (pm : List Int) (pts : List Int) : Res (List Int) := pts.mapM (pick pm)

/-- conduit_blueprint_mesh_partition.cpp:6259-6283: the elements of topology `i`. -/
def addBuckets (pm : List Int) (i : Nat) : List Entity → List Bucket → Res (List Bucket)
  | [], bs => .ok bs
  | e :: es, bs => do
    let l ← mapPts pm e.pts
    addBuckets pm i es (toBucket e.name l [(i : Int), (e.id : Int)] bs)

/-- conduit_blueprint_mesh_partition.cpp:6239-6284; `i` is the number of the first topology.  A topology without elements is left out. -/
def allBuckets (A : Arith F) : Nat → List (BNode F × List Int) → List Bucket → Res (List Bucket)
  | _, [], bs => .ok bs
  | i, (t, pm) :: ts, bs =>
    if t.hasChild (chars! "elements") then do
      let es ← iterElements A t
      let bs ← addBuckets pm i es bs
      allBuckets A (i + 1) ts bs
    else allBuckets A (i + 1) ts bs

/-- conduit_blueprint_mesh_partition.cpp:6286-6310: one shape, or several in buckets named after them. -/
def bucketTopo (cset : Str) (bs : List Bucket) : BNode F :=
  .obj ([(chars! "type", .str (chars! "unstructured")), (chars! "coordset", .str cset)] ++
    match bs with
    | [] => []
    | [b] => [(chars! "element_map", .ints int64 b.emap),
        (chars! "elements", .obj [(chars! "shape", .str b.shape), (chars! "connectivity", .ints int64 b.conn)])]
    | _ => [(chars! "elements", .obj (bs.map fun b =>
          (b.shape ++ chars! "s", .obj [(chars! "shape", .str b.shape), (chars! "connectivity", .ints int64 b.conn)]))),
        (chars! "element_map", .ints int64 (bs.flatMap (·.emap)))])

/-- conduit_blueprint_mesh_partition.cpp:6226-6310 `build_unstructured_output`. -/
def buildUnstructured (A : Arith F) (ts : List (BNode F × List Int)) (cset : Str) : Res (BNode F) := do
  .ok (bucketTopo cset (← allBuckets A 0 ts []))

/-- A new polygon: the number of the topology, the number of the element there, the points. -/
structure Poly where
  topo : Nat
  elem : Nat
  pts : List Int
deriving DecidableEq, Repr

/-- conduit_blueprint_mesh_partition.cpp:6341-6383: the polygons of an element. -/
def polysOf (pm : List Int) (i : Nat) (e : Entity) : Res (List Poly) :=
  if e.shape.isPolygonal ∨ e.shape.dim = 2 ∨ e.shape.dim = 1 then do
    .ok [⟨i, e.id, ← mapPts pm e.pts⟩]
  else if e.shape.isPolyhedral then .ok []
  else if e.name = chars! "tet" ∨ e.name = chars! "hex" then
    match Meta.embedding e.name with
    | some (_, sides) => sides.mapM fun s => do
      let l ← s.mapM fun k : Nat => pick e.pts (k : Int)
      .ok ⟨i, e.id, ← mapPts pm l⟩
    | none => .ub
  else .error

/-- conduit_blueprint_mesh_partition.cpp:6327-6385. -/
def allPolys (A : Arith F) : Nat → List (BNode F × List Int) → Res (List Poly)
  | _, [] => .ok []
  | i, (t, pm) :: ts => do
    let es ← iterElements A t
    let ps ← es.mapM (polysOf pm i)
    let rest ← allPolys A (i + 1) ts
    .ok (ps.flatten ++ rest)

/-- conduit_blueprint_mesh_partition.cpp:6312-6390 `build_polygonal_output`. -/
def buildPolygonal (A : Arith F) (ts : List (BNode F × List Int)) (cset : Str) : Res (BNode F) := do
  let ps ← allPolys A 0 ts
  let sizes := ps.map fun p => (p.pts.length : Int)
  .ok (.obj [(chars! "type", .str (chars! "unstructured")), (chars! "coordset", .str cset),
    (chars! "elements", .obj [(chars! "shape", .str (chars! "polygonal")), (chars! "sizes", .ints int64 sizes),
      (chars! "offsets", .ints int64 (runningSums 0 sizes)), (chars! "connectivity", .ints int64 (ps.flatMap (·.pts)))]),
    (chars! "element_map", .ints int64 (ps.flatMap fun p => [(p.topo : Int), (p.elem : Int)]))])

/-! ### combining the topologies -/

/-- conduit_blueprint_mesh_partition.cpp:9571-9589: to the group of this name. -/
def addGroup {α : Type} (name : Str) (n : α) : List (Str × List α) → List (Str × List α)
  | [] => [(name, [n])]
  | g :: gs => if g.1 = name then (g.1, g.2 ++ [n]) :: gs else g :: addGroup name n gs

/-- conduit_blueprint_mesh_partition.cpp:9550-9593 `group_coordsets`. -/
def groupCoordsets (inputs : List (BNode F)) : List (Str × List (BNode F)) :=
  inputs.foldl (fun gs m => ((m.getOrEmpty (chars! "coordsets")).kids).foldl (fun gs k => addGroup k.1 k.2 gs) gs) []

/-- conduit_blueprint_mesh_partition.cpp:9618-9643: to the group of this name, if the coordset has the same name; a topology is kept
    together with its mesh. -/
def addTopo (name : Str) (m t : BNode F) : List (Str × List (BNode F × BNode F)) → Res (List (Str × List (BNode F × BNode F)))
  | [] => .ok [(name, [(m, t)])]
  | g :: gs =>
    if g.1 = name then
      match g.2 with
      | [] => .ub
      | t0 :: _ =>
        if t0.2.hasChild (chars! "coordset") ∧ t.hasChild (chars! "coordset") then do
          let a ← (← t0.2.get (chars! "coordset")).asString
          let b ← (← t.get (chars! "coordset")).asString
          .ok (if a = b then (g.1, g.2 ++ [(m, t)]) :: gs else g :: gs)
        else .ok (g :: gs)
    else do .ok (g :: (← addTopo name m t gs))

/-- conduit_blueprint_mesh_partition.cpp:9595-9647 `group_topologies`. -/
def groupTopologies (inputs : List (BNode F)) : Res (List (Str × List (BNode F × BNode F))) :=
  inputs.foldlM (fun gs m => ((m.getOrEmpty (chars! "topologies")).kids).foldlM (fun gs k => addTopo k.1 m k.2 gs) gs) []

/-- The group of this name. -/
def groupOf {α : Type} (name : Str) (gs : List (Str × List α)) : Option (List α) := (gs.find? fun g => g.1 == name).map (·.2)

/-- conduit_blueprint_mesh_partition.cpp:10402-10450: the topology as an unstructured one; nothing if it is to be left out.  A topology
    of points becomes an empty node. -/
def working (A : Arith F) (m t : BNode F) : Res (Option (BNode F)) :=
  if t.hasChild (chars! "type") ∧ t.hasChild (chars! "coordset") then do
    let ty ← (← t.get (chars! "type")).asString
    if ty = chars! "points" then .ok (some .empty)
    else match baseOf ty with
      | some b => do
        match ← coordsetOf m t with
        | none => .ub
        | some cset => do
          let u ← toUnstructured A b t cset []
          .ok (some u.1)
      | none => .ok (if ty = chars! "unstructured" then some t else none)
  else .ok none

/-- Which kind of topology is made. -/
inductive Kind where
  | fixed
  | polygons
  | polyhedra
deriving DecidableEq, Repr

/-- conduit_blueprint_mesh_partition.cpp:10463-10499. -/
def kindOf (pg : Bool) (dim : Int) : List (BNode F) → Res Kind
  | [] => .ok (if pg ∧ dim > 2 then .polyhedra else if pg then .polygons else .fixed)
  | t :: ts =>
    match (t.getOrEmpty (chars! "elements")).get (chars! "shape") with
    | .ok s => do
      let sh ← shapeInit (← s.asString)
      if sh.isPolyhedral then .ok .polyhedra
      else kindOf (pg || sh.isPolygonal) (max dim sh.dim) ts
    | _ => kindOf pg dim ts

/-- The children of a list or an object. -/
def childrenOf : BNode F → List (BNode F)
  | .obj ks => ks.map (·.2)
  | .list ks => ks
  | _ => []

/-- `DataArray<index_t> pmap = pointmap->value()`: another type is an error. -/
def indexArray : BNode F → Res (List Int)
  | .ints t l => if t = int64 then .ok l else .error
  | _ => .error

/-- conduit_blueprint_mesh_partition.cpp:10360-10500 `combine_as_unstructured`: the children "coordsets" and "topologies".
    `build_polyhedral_output` is not modelled: an error here. -/
def combineUnstructured (o : MOps F) (tol : F) (tname : Str) (tgs : List (Str × List (BNode F × BNode F)))
    (cgs : List (Str × List (BNode F))) : Res (BNode F × BNode F) :=
  match groupOf tname tgs with
  | none => .error
  | some [] => .ub
  | some (t0 :: ts) => do
    let csname ← (← t0.2.get (chars! "coordset")).asString
    match groupOf csname cgs with
    | none => .error
    | some csets => do
      let out ← execute o 32 tol csets
      let cset := out.getD .empty
      let pms := cset.getOrEmpty (chars! "pointmaps")
      let ws ← (t0 :: ts).mapM fun t => working o.arith t.1 t.2
      let ws := ws.filterMap id
      if (childrenOf pms).length ≠ ws.length then .error
      else do
        let k ← kindOf false 0 ((t0 :: ts).map (·.2))
        let maps ← (childrenOf pms).mapM indexArray
        let topo ← (match k with
          | .polyhedra => .error
          | .polygons => buildPolygonal o.arith (ws.zip maps) csname
          | .fixed => buildUnstructured o.arith (ws.zip maps) csname)
        .ok (.obj [(csname, cset)], .obj [(tname, if ws.isEmpty then .empty else topo)])

/-! ### fields -/

/-- A value copied by `memcpy` from an array of this integer type.  Bytes of another type are not looked at: undefined here. -/
def readInt (t : IntTy) (c : BNode F) (i : Int) : Res Int :=
  match c with
  | .ints t' l => if t' = t then pick l i else .ub
  | _ => .ub

/-- The same for a floating point type. -/
def readFlt (w : Bool) (c : BNode F) (i : Int) : Res F :=
  match c with
  | .flts w' l => if w' = w then pick l i else .ub
  | _ => .ub

/-- An array of the type of `first` with the values read one after the other. -/
def gatherCol {α : Type} (first : BNode F) (src : α → Res (BNode F × Int)) (l : List α) : Res (BNode F) :=
  match first with
  | .ints t _ => do
    let vs ← l.mapM fun a => do
      let c ← src a
      readInt t c.1 c.2
    .ok (.ints t vs)
  | .flts w _ => do
    let vs ← l.mapM fun a => do
      let c ← src a
      readFlt w c.1 c.2
    .ok (.flts w vs)
  | _ => .ub

/-- A new array of the type of `first` with `n` zeros, into which the values are written one after the other. -/
def scatterCol {α : Type} (zero : F) (first : BNode F) (n : Nat) (src : α → Res (BNode F × Int)) (l : List (Int × α)) :
    Res (BNode F) :=
  match first with
  | .ints t _ => do
    let vs ← l.foldlM (fun (acc : List Int) (w : Int × α) => do
      let c ← src w.2
      put acc w.1 (← readInt t c.1 c.2)) (List.replicate n 0)
    .ok (.ints t vs)
  | .flts w _ => do
    let vs ← l.foldlM (fun (acc : List F) (w' : Int × α) => do
      let c ← src w'.2
      put acc w'.1 (← readFlt w c.1 c.2)) (List.replicate n zero)
    .ok (.flts w vs)
  | _ => .ub

/-- conduit_blueprint_mesh_partition.cpp:8657-8730 `determine_schema` and the loops over the components: the array itself or for each
    component, by its place, an array.  Simplifications: components have names; how they are stored is not looked at. -/
def columns (v0 : BNode F) (col : (BNode F → Res (BNode F)) → BNode F → Res (BNode F)) : Res (BNode F) :=
  match v0 with
  | .obj (k :: ks) => do
    let l ← (k :: ks).zipIdx.mapM fun kc => do
      let c ← col (fun v => do .ok (← nth v kc.2).2) kc.1.2
      .ok (kc.1.1, c)
    .ok (.obj l)
  | v0 => col .ok v0

/-- Two by two. -/
def pairs : List Int → List (Int × Int)
  | a :: b :: l => (a, b) :: pairs l
  | _ => []

/-- conduit_blueprint_mesh_partition.cpp:8940-9034 `map_element_field` into a new node, which stays empty if there is nothing to copy. -/
def mapElementField (ins : List (BNode F)) (emap : List Int) : Res (BNode F) :=
  match ins with
  | [] => .ok .empty
  | f0 :: _ => do
    let v0 ← f0.get (chars! "values")
    let ps := pairs emap
    if ps.isEmpty then .ok .empty
    else columns v0 fun comp first => gatherCol first (fun (p : Int × Int) => do
      let f ← pick ins p.1
      let c ← comp (← f.get (chars! "values"))
      .ok (c, p.2)) ps

/-- The writes of conduit_blueprint_mesh_partition.cpp:8806-8847: for point `k` of chunk `i`, the number of the new point first. -/
def pointWrites : Nat → List (List Int) → List (Int × (Nat × Nat))
  | _, [] => []
  | i, m :: ms => (m.zipIdx.map fun qk => (qk.1, (i, qk.2))) ++ pointWrites (i + 1) ms

/-- conduit_blueprint_mesh_partition.cpp:8753-8849 `map_vertex_field` into a new node.  A different number of fields and maps is warned
    of, which raises. -/
def mapVertexField (A : Arith F) (ins : List (BNode F)) (pms : List (List Int)) (n : Int) : Res (BNode F) :=
  match ins, pms with
  | [], _ => .ok .empty
  | _, [] => .ok .empty
  | f0 :: _, _ =>
    if ins.length ≠ pms.length then .error
    else do
      let v0 ← f0.get (chars! "values")
      if n ≤ 0 then .ok .empty
      else columns v0 fun comp first => scatterCol A.zero first n.toNat (fun (ik : Nat × Nat) => do
        let f ← pick ins (ik.1 : Int)
        let c ← comp (← f.get (chars! "values"))
        .ok (c, (ik.2 : Int))) (pointWrites 0 pms)

/-- conduit_blueprint_mesh_partition.cpp:9036-9085 `fields::combine`.  Point maps of two components (of a structured mesh) are left
    out: an error here. -/
def combineField (A : Arith F) (ins : List (BNode F)) (topo cset : BNode F) : Res (BNode F) :=
  match ins with
  | [] => .ub
  | f0 :: _ => do
    let assoc ← (← f0.get (chars! "association")).asString
    let t ← (← f0.get (chars! "topology")).asString
    let v ← (if assoc = chars! "vertex" then do
        let pm ← cset.get (chars! "pointmaps")
        match pm with
        | .obj _ => .error
        | _ => do
          let pms ← (childrenOf pm).mapM indexArray
          let n ← coordsetLength A cset
          mapVertexField A ins pms n
      else if assoc = chars! "element" then do
        mapElementField ins (← indexArray (← topo.get (chars! "element_map")))
      else .error)
    .ok (.obj [(chars! "topology", .str t), (chars! "association", .str assoc), (chars! "values", v)])

/-- conduit_blueprint_mesh_partition.cpp:9840-9867: the fields of all chunks by name. -/
def groupFields (inputs : List (BNode F)) : List (Str × List (BNode F)) :=
  inputs.foldl (fun gs m => ((m.getOrEmpty (chars! "fields")).kids).foldl (fun gs k => addGroup k.1 k.2 gs) gs) []

/-- conduit_blueprint_mesh_partition.cpp:9869-9911: one field; nothing if it is not on all chunks.  What is not on a topology is warned of,
    which raises. -/
def oneField (A : Arith F) (tgs : List (Str × List (BNode F × BNode F))) (topos csets : BNode F) (g : Str × List (BNode F)) :
    Res (Option (Str × BNode F)) :=
  match g.2 with
  | [] => .ub
  | f0 :: _ =>
    if ¬ (f0.hasChild (chars! "topology") ∧ f0.hasChild (chars! "values")) then .error
    else do
      let t ← (← f0.get (chars! "topology")).asString
      let topo ← topos.get t
      match groupOf t tgs with
      | none => .ub
      | some ts =>
        if ts.length ≠ g.2.length then .ok none
        else do
          let cs ← (← topo.get (chars! "coordset")).asString
          let cset ← csets.get cs
          let f ← combineField A g.2 topo cset
          .ok (some (g.1, f))

/-- conduit_blueprint_mesh_partition.cpp:9826-9913: the fields, if all chunks have some. -/
def combineFields (A : Arith F) (inputs : List (BNode F)) (tgs : List (Str × List (BNode F × BNode F))) (topos csets : BNode F) :
    Res (List (Str × BNode F)) :=
  if inputs.all fun m => m.hasChild (chars! "fields") then do
    let l ← (groupFields inputs).mapM (oneField A tgs topos csets)
    .ok (l.filterMap id)
  else .ok []

/-- The number of chunk `i`'s domain: conduit_blueprint_mesh_partition.cpp:9957-9971, 10017-10021. -/
def domainId (A : Arith F) (m : BNode F) (i : Nat) : Res Int :=
  match (m.getOrEmpty (chars! "state")).get (chars! "domain_id") with
  | .ok d => d.toInt64 A
  | _ => .ok i

/-- conduit_blueprint_mesh_partition.cpp:9934-9983: where the elements came from.
    Simplification: a topology without elements gives empty arrays. -/
def originElements (A : Arith F) (inputs : List (BNode F)) (t : Str × BNode F) : Res (BNode F) := do
  let em ← (match t.2.get (chars! "element_map") with | .ok m => indexArray m | _ => .ok [])
  let doms ← inputs.zipIdx.mapM fun mi => domainId A mi.1 mi.2
  let ds ← (pairs em).mapM fun p => pick doms p.1
  .ok (.obj [(chars! "topology", .str t.1), (chars! "association", .str (chars! "element")),
    (chars! "values", .obj [(chars! "domains", .ints int64 ds), (chars! "ids", .ints int64 ((pairs em).map (·.2)))])])

/-- conduit_blueprint_mesh_partition.cpp:9990-10045: where the points came from. -/
def originPoints (A : Arith F) (inputs : List (BNode F)) (t : Str × BNode F) (csets : BNode F) : Res (BNode F) := do
  let cs ← (← t.2.get (chars! "coordset")).asString
  let cset ← csets.get cs
  let pms ← (childrenOf (cset.getOrEmpty (chars! "pointmaps"))).mapM indexArray
  let n ← coordsetLength A cset
  let doms ← inputs.zipIdx.mapM fun mi => domainId A mi.1 mi.2
  let zeros : List Int := List.replicate n.toNat 0
  let ds ← (pointWrites 0 pms).foldlM (fun (acc : List Int) w => do put acc w.1 (← pick doms (w.2.1 : Int))) zeros
  let is ← (pointWrites 0 pms).foldlM (fun (acc : List Int) w => put acc w.1 (w.2.2 : Int)) zeros
  .ok (.obj [(chars! "topology", .str t.1), (chars! "association", .str (chars! "vertex")),
    (chars! "values", .obj [(chars! "domains", .ints int64 ds), (chars! "ids", .ints int64 is)])])

/-! ### combining -/

/-- The place of a name in a list, or its length. -/
def rankIn (l : List Str) (s : Str) : Nat := l.idxOf s

/-- conduit_blueprint_mesh_partition.cpp:9450-9547 `recommended_topology`. -/
def recommended (inputs : List (BNode F)) (tname : Str) : Res Str := do
  let l : List (Nat × Nat) ← inputs.mapM fun m => do
    let t ← (← m.get (chars! "topologies")).get tname
    let cs ← (← t.get (chars! "coordset")).asString
    let c ← (← m.get (chars! "coordsets")).get cs
    let ct ← (← c.get (chars! "type")).asString
    let tt ← (← t.get (chars! "type")).asString
    .ok (rankIn [chars! "uniform", chars! "rectilinear", chars! "explicit"] ct,
      rankIn [chars! "points", chars! "uniform", chars! "rectilinear", chars! "structured", chars! "unstructured"] tt)
  let wc : Nat := (l.map (·.1)).foldl max 0
  let wt : Nat := (l.map (·.2)).foldl max 0
  .ok (if wt < 2 ∧ wc < 1 then chars! "uniform"
    else if wt < 3 ∧ wc < 2 then chars! "rectilinear"
    else if wt < 4 then chars! "structured"
    else chars! "unstructured")

/-- `n.remove(name)` on every child. -/
def withoutIn (name : Str) (n : BNode F) : BNode F :=
  match n with
  | .obj ks => .obj (ks.map fun k => (k.1, match k.2 with | .obj cs => .obj (cs.filter fun c => !(c.1 == name)) | c => c))
  | n => n

/-- conduit_blueprint_mesh_partition.cpp:9681-9687: the state of the first chunk with the number of the domain. -/
def combinedState (m : BNode F) (domain : Int) : BNode F :=
  (m.getOrEmpty (chars! "state")).setChild (chars! "domain_id") (.ints int32 [domain])

/-- conduit_blueprint_mesh_partition.cpp:9650-10057 `combine`.  `implicit` is `combine_as_structured` (not modelled): the coordsets and
    topologies, if it succeeds. -/
def combine (o : MOps F) (tol : F) (op : Opts) (implicit : Str → Str → List (BNode F) → Res (Option (BNode F × BNode F)))
    (domain : Int) (inputs : List (BNode F)) : Res (BNode F) :=
  match inputs with
  | [] => .error
  | [m] => .ok (m.setChild (chars! "state") (combinedState m domain))
  | m0 :: _ => do
    let t0 ← nth (← m0.get (chars! "topologies")) 0
    let rt ← recommended inputs t0.1
    let tgs ← groupTopologies inputs
    let cgs := groupCoordsets inputs
    let ct ← (if rt = chars! "unstructured" then combineUnstructured o tol t0.1 tgs cgs
      else do
        match ← implicit t0.1 rt inputs with
        | some r => .ok r
        | none => combineUnstructured o tol t0.1 tgs cgs)
    let fs ← combineFields o.arith inputs tgs ct.2 ct.1
    let t ← nth ct.2 0
    let fs ← (if fs.any fun f => f.1 == op.elementName then .ok fs
      else do .ok (fs ++ [(op.elementName, ← originElements o.arith inputs t)]))
    let fs ← (if fs.any fun f => f.1 == op.vertexName then .ok fs
      else do .ok (fs ++ [(op.vertexName, ← originPoints o.arith inputs t ct.1)]))
    .ok (.obj [(chars! "state", combinedState m0 domain), (chars! "coordsets", withoutIn (chars! "pointmaps") ct.1),
      (chars! "topologies", withoutIn (chars! "element_map") ct.2), (chars! "fields", .obj fs)])

end Conduit.Comb
