import Verif.Model.MeshReorder
import Verif.Model.O2M
/-
The offsets of the elements of an unstructured topology, and the points of an element.
Source: /repo/src/libs/blueprint/conduit_blueprint_mesh_utils.cpp
-/
namespace Conduit.Mesh
variable {F : Type}

/-- `n[name] = v` on a node that may be changed: a missing child is made, last; a leaf becomes an object. -/
def BNode.setChild (n : BNode F) (name : Str) (v : BNode F) : BNode F :=
  if n.hasChild name then .obj (n.kids.map fun k => if k.1 = name then (k.1, v) else k)
  else .obj (n.kids ++ [(name, v)])

/-- `n[name]` on a node that may be changed, if nothing is done with it: the child, or a new empty one. -/
def BNode.getOrEmpty (n : BNode F) (name : Str) : BNode F :=
  match n.get name with
  | .ok v => v
  | _ => .empty

/-- `n.has_child("offsets") && !n["offsets"].dtype().is_empty()` -/
def offsetsExist (n : BNode F) : Bool :=
  match n.getOrEmpty (chars! "offsets") with
  | .empty => false
  | _ => true

/-- conduit_blueprint_mesh_utils.cpp:2499-2512, 2531-2540, 2550-2558: the running sums of the sizes. -/
def runningSums : Int → List Int → List Int
  | _, [] => []
  | s, n :: ns => s :: runningSums (s + n) ns

/-- The shape of the topology by name (`topo_shape.type`). -/
def topoShapeName (topo : BNode F) : Res Str := do (← (← topo.get (chars! "elements")).get (chars! "shape")).asString

/-- conduit_blueprint_mesh_utils.cpp:2348-2566 `generate_offsets(topo, dest_ele_offsets, dest_subele_offsets)`:
    what is in the two destinations afterwards.
    Simplifications: the deprecated stream topologies are left out (undefined here); `set_external` is a copy;
    sums of sizes are unbounded. -/
def generateOffsets (A : Arith F) (topo destEle destSub : BNode F) : Res (BNode F × BNode F) := do
  let shape ← shapeOfTopo topo
  let name ← topoShapeName topo
  let t := widestInt topo
  let e ← topo.get (chars! "elements")
  if e.hasChild (chars! "stream") then .ub
  else do
    let conn ← e.get (chars! "connectivity")
    let haveEle := offsetsExist e
    if name = chars! "polyhedral" then do
      let s ← topo.get (chars! "subelements")
      let haveSub := offsetsExist s
      if haveEle ∧ haveSub then .ok (e.getOrEmpty (chars! "offsets"), s.getOrEmpty (chars! "offsets"))
      else do
        let ele ← if haveEle then .ok destEle else do
          let sizes ← leafInts A (← e.get (chars! "sizes"))
          .ok (.ints int64 (runningSums 0 sizes))
        let sub ← if haveSub then .ok destSub else do
          let sizes ← leafInts A (← s.get (chars! "sizes"))
          .ok (.ints int64 (runningSums 0 sizes))
        .ok (ele, sub)
    else if haveEle then .ok (e.getOrEmpty (chars! "offsets"), destSub)
    else if name = chars! "polygonal" then do
      let sizes ← leafInts A (← e.get (chars! "sizes"))
      .ok (.ints t ((runningSums 0 sizes).map t.cast), .empty)
    else do
      let l ← alloc (0 : Int) ((conn.numElements : Int).tdiv shape.indices)
      .ok (.ints t ((List.range l.length).map fun s : Nat => t.cast ((s : Int) * shape.indices)), .empty)

/-- conduit_blueprint_mesh_utils.cpp:2338-2344, the form with one destination. -/
def generateOffsets1 (A : Arith F) (topo dest : BNode F) : Res (BNode F) :=
  (generateOffsets A topo dest .empty).map' (·.1)

/-- conduit_blueprint_mesh_utils.cpp:2306-2334 `generate_offsets_inline`: the topology with its offsets.
    Simplification: a missing "elements" child is an error at once. -/
def generateOffsetsInline (A : Arith F) (topo : BNode F) : Res (BNode F) := do
  let e ← topo.get (chars! "elements")
  if topo.hasChild (chars! "subelements") then do
    let s ← topo.get (chars! "subelements")
    if !offsetsExist e || !offsetsExist s then do
      let r ← generateOffsets A topo (e.getOrEmpty (chars! "offsets")) (s.getOrEmpty (chars! "offsets"))
      .ok ((topo.setChild (chars! "elements") (e.setChild (chars! "offsets") r.1)).setChild (chars! "subelements")
        (s.setChild (chars! "offsets") r.2))
    else .ok topo
  else if !offsetsExist e then do
    let r ← generateOffsets1 A topo (e.getOrEmpty (chars! "offsets"))
    .ok (topo.setChild (chars! "elements") (e.setChild (chars! "offsets") r))
  else .ok topo

/-- An optional child of a relation node. -/
def optInts (A : Arith F) (n : BNode F) (name : Str) : Res (Option (List Int)) :=
  if n.hasChild name then do .ok (some (← leafInts A (← n.get name))) else .ok none

/-- `O2MIterator(n)` for a node with connectivity (conduit_blueprint_o2mrelation_iterator.cpp:36-72).
    Simplification: the only data array is the connectivity. -/
def relOf (A : Arith F) (n : BNode F) (conn : List Int) : Res (O2M.Rel Int) := do
  .ok ⟨← optInts A n (chars! "sizes"), ← optInts A n (chars! "offsets"), ← optInts A n (chars! "indices"), [conn]⟩

/-- conduit_blueprint_mesh_utils.cpp:2595-2602, 2610-2617: `to(one, ONE)`, `to_front(MANY)`, then every
    `next(MANY)`; what the data array holds at `index(DATA)` is put into the set. -/
def gather (r : O2M.Rel Int) (conn : List Int) (one : Int) (set : List Int) : Res (List Int) := do
  let n ← O2M.elementsMany r one
  forTo n (fun k set => do
    let i ← O2M.index r one (k + 1) .data
    let v ← pick conn i
    .ok (setInsert v set)) set

/-- conduit_blueprint_mesh_utils.cpp:2570-2664 `topology::unstructured::points`. -/
def points (A : Arith F) (n : BNode F) (ei : Int) (unique : Bool) : Res (List Int) := do
  let topo ← generateOffsetsInline A n
  let shape ← shapeOfTopo topo
  let e ← topo.get (chars! "elements")
  if shape.isPolyhedral then do
    let sub ← topo.get (chars! "subelements")
    let econn ← leafInts A (← e.get (chars! "connectivity"))
    let er ← relOf A e econn
    let faces ← gather er econn ei []
    let sconn ← leafInts A (← sub.get (chars! "connectivity"))
    let sr ← relOf A sub sconn
    faces.foldlM (fun set f => gather sr sconn f set) []
  else do
    let offs ← leafInts A (← e.get (chars! "offsets"))
    let off ← pick offs ei
    let npts ← if shape.isPolygonal then do
        let sizes ← leafInts A (← e.get (chars! "sizes"))
        pick sizes ei
      else .ok shape.indices
    let conn ← leafInts A (← e.get (chars! "connectivity"))
    if unique then
      forTo npts (fun pi set => do
        let v ← pick conn (off + pi)
        .ok (setInsert v set)) []
    else
      forTo npts (fun pi l => do
        let v ← pick conn (off + pi)
        .ok (l ++ [v])) []

end Conduit.Mesh
