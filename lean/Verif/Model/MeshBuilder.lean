import Verif.Model.MeshPoints
import Verif.Model.Hash
/-
Building a topology from selected elements, and searching the elements of one topology in another.
Source: /repo/src/libs/blueprint/conduit_blueprint_mesh_utils.cpp
-/
namespace Conduit.Mesh
variable {F : Type}

/-! ### TopologyBuilder -/

/-- The members of `TopologyBuilder` that change; the map is kept in key order. -/
structure Builder where
  oldToNew : List (Int × Int)
  conn : List Int
  sizes : List Int
deriving DecidableEq, Repr

/-- conduit_blueprint_mesh_utils.cpp:2069-2073, 2168-2174: a new one, or `clear()`. -/
def Builder.new : Builder := ⟨[], [], []⟩

/-- conduit_blueprint_mesh_utils.cpp:2083-2099 `newPointId`. -/
def newPointId (b : Builder) (id : Int) : Builder × Int :=
  match mapGet b.oldToNew id with
  | none => ({ b with oldToNew := mapMod intLt id 0 (fun _ => (b.oldToNew.length : Int)) b.oldToNew }, (b.oldToNew.length : Int))
  | some k => (b, k)

/-- conduit_blueprint_mesh_utils.cpp:2108-2112: one point of an element. -/
def addPoint (b : Builder) (id : Int) : Builder :=
  let r := newPointId b id
  { r.1 with conn := r.1.conn ++ [r.2] }

/-- conduit_blueprint_mesh_utils.cpp:2102-2122 `add`: the number of the new element, and the builder. -/
def addElement (b : Builder) (ids : List Int) : Nat × Builder :=
  let b' := ids.foldl addPoint b
  (b.sizes.length, { b' with sizes := b'.sizes ++ [(ids.length : Int)] })

/-- `as_double_accessor()`: all elements. -/
def leafDoubles (A : Arith F) : BNode F → Res (List F)
  | .ints _ l => .ok (l.map A.ofInt)
  | .flts _ l => .ok l
  | .str _ => .ub
  | _ => .ok []

/-- conduit_blueprint_mesh_utils.cpp:2143-2155: one axis of the new coordset. -/
def selectAxis (A : Arith F) (cset : BNode F) (m : List (Int × Int)) (axis : Str) : Res (Str × BNode F) := do
  let acc ← leafDoubles A (← (← cset.get (chars! "values")).get axis)
  let coords ← m.foldlM (fun (coords : List F) e => do
    let v ← pick acc e.1
    put coords e.2 v) (List.replicate m.length A.zero)
  .ok (axis, .flts true coords)

/-- conduit_blueprint_mesh_utils.cpp:2125-2165 `execute`: the output and the builder afterwards.  `cset` and `cname` are
    the coordset of the topology and its name, `tname` is the name of the topology. -/
def Builder.execute (A : Arith F) (b : Builder) (cset : BNode F) (cname tname shape : Str) : Res (BNode F × Builder) := do
  let as ← axes cset
  let cols ← as.mapM (selectAxis A cset b.oldToNew)
  let newcset : BNode F := .obj ((chars! "type", .str (chars! "explicit")) :: objKid (chars! "values") cols)
  let newtopo ← generateOffsetsInline A (.obj [(chars! "type", .str (chars! "unstructured")), (chars! "coordset", .str cname),
    (chars! "elements", .obj [(chars! "shape", .str shape), (chars! "connectivity", .ints int64 b.conn),
      (chars! "sizes", .ints int64 b.sizes)])])
  .ok (.obj [(chars! "coordsets", .obj [(cname, newcset)]), (chars! "topologies", .obj [(tname, newtopo)])], .new)

/-! ### search -/

/-- conduit_blueprint_mesh_utils.cpp:2189-2197: `ids.push_back(topo_conn[idx++])`, `n` times. -/
def takeIds (conn : List Int) (n idx : Int) : Res (List Int) :=
  forTo n (fun pi l => do
    let v ← pick conn (idx + pi)
    .ok (l ++ [v])) []

/-- The loops of conduit_blueprint_mesh_utils.cpp:2191-2199, 2207-2213 over elements of these sizes. -/
def iterateSizes (conn : List Int) : List Int → Int → Res (List (List Int))
  | [], _ => .ok []
  | n :: ns, idx => do
    let ids ← takeIds conn n idx
    let r ← iterateSizes conn ns (idx + max n 0)
    .ok (ids :: r)

/-- conduit_blueprint_mesh_utils.cpp:2177-2215 `topology_iterate_elements`: the lists given to the body. -/
def iterateElements (A : Arith F) (topo : BNode F) : Res (List (List Int)) := do
  let e ← topo.get (chars! "elements")
  let conn ← leafInts A (← e.get (chars! "connectivity"))
  if e.hasChild (chars! "sizes") then do
    let sizes ← leafInts A (← e.get (chars! "sizes"))
    iterateSizes conn sizes 0
  else do
    let shape ← shapeOfTopo topo
    iterateSizes conn (List.replicate ((conn.length : Int).tdiv shape.indices).toNat shape.indices) 0

/-- conduit_blueprint_mesh_utils.cpp:2284-2289: the points of an element of the second topology in the first, and
    whether one is missing. -/
def mapPoints (r : List Int) (ids : List Int) : Res (Bool × List Int) :=
  ids.foldlM (fun (s : Bool × List Int) pt => do
    let v ← pick r pt
    .ok (s.1 || v == -1, s.2 ++ [v])) (false, [])

/-- conduit_blueprint_mesh_utils.cpp:2259-2302 of `topology::search`; `r` are the results of the point query for the points
    of the second coordset, `NotFound` is -1 (conduit_blueprint_mesh_utils.cpp:3505). -/
def search (A : Arith F) (topo1 topo2 : BNode F) (r : List Int) : Res (List Int) := do
  let els1 ← iterateElements A topo1
  let hashes := els1.map fun ids => Hash.hashIds (sortBy intLt ids)
  let els2 ← iterateElements A topo2
  els2.mapM fun ids => do
    let m ← mapPoints r ids
    if m.1 then .ok 0
    else .ok (if hashes.contains (Hash.hashIds (sortBy intLt m.2)) then 1 else 0)

end Conduit.Mesh
