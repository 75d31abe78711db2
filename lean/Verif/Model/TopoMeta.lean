import Verif.Model.MeshBuilder
/-
The sides of the elements of an unstructured topology: edges of faces, faces of cells.
Source: /repo/src/libs/blueprint/conduit_blueprint_mesh_topology_metadata.cpp
-/
namespace Conduit.Mesh.Meta
variable {F : Type}

/-! ### shapes -/

/-- conduit_blueprint_mesh_utils.hpp:116-168 `TOPO_SHAPE_EMBED_TYPES`, `TOPO_SHAPE_EMBED_COUNTS`,
    `TOPO_SHAPE_EMBEDDINGS`: the shape of the sides and the corners of each; only the shapes of fixed size of two or three
    dimensions. -/
def embedding (name : Str) : Option (Str × List (List Nat)) :=
  if name = chars! "tri" then some (chars! "line", [[0, 1], [1, 2], [2, 0]])
  else if name = chars! "quad" then some (chars! "line", [[0, 1], [1, 2], [2, 3], [3, 0]])
  else if name = chars! "tet" then some (chars! "tri", [[0, 2, 1], [0, 1, 3], [0, 3, 2], [1, 2, 3]])
  else if name = chars! "hex" then some (chars! "quad", [[0, 3, 2, 1], [0, 1, 5, 4], [1, 2, 6, 5], [2, 3, 7, 6], [3, 0, 4, 7],
    [4, 5, 6, 7]])
  else if name = chars! "wedge" then some (chars! "tri", [[0, 1, 2], [0, 1, 3], [1, 3, 4], [1, 2, 4], [2, 4, 5], [2, 0, 5],
    [0, 5, 3], [3, 4, 5]])
  else if name = chars! "pyramid" then some (chars! "tri", [[0, 1, 2], [3, 2, 0], [0, 1, 4], [1, 2, 4], [2, 3, 4], [3, 0, 4]])
  else none

/-! ### finding equal sides -/

/-- `std::pair<uint64, uint64>`'s order. -/
def pairLt (a b : Nat × Nat) : Bool := decide (a.1 < b.1) || (decide (a.1 = b.1) && decide (a.2 < b.2))

/-- conduit_blueprint_mesh_topology_metadata.cpp:993-996, 1179-1182: the order by the first member. -/
def fstLt (a b : Nat × Nat) : Bool := decide (a.1 < b.1)

/-- conduit_blueprint_mesh_topology_metadata.cpp:1785-1797: `start` is the label at `start`.  The numbers are written when
    a pair is met, not when the next label is. -/
def uniqueLoop : Nat → Nat → List (Nat × Nat) → List (Nat × Nat) × Nat
  | _, u, [] => ([], u + 1)
  | start, u, (k, ef) :: r =>
    if start ≠ k then ((ef, u + 1) :: (uniqueLoop k (u + 1) r).1, (uniqueLoop k (u + 1) r).2)
    else ((ef, u) :: (uniqueLoop start u r).1, (uniqueLoop start u r).2)

/-- conduit_blueprint_mesh_topology_metadata.cpp:1775-1801 `make_unique`: the pairs of place and number, and how many
    numbers there are. -/
def makeUnique : List (Nat × Nat) → List (Nat × Nat) × Nat
  | [] => ([], 0)
  | (k, ef) :: r => uniqueLoop k 0 ((k, ef) :: r)

/-- conduit_blueprint_mesh_topology_metadata.cpp:976-999, 1168-1195: pairs of label and place are sorted, numbered and
    sorted back. -/
def relabel (l : List (Nat × Nat)) : List (Nat × Nat) × Nat :=
  let r := makeUnique (sortBy pairLt l)
  (sortBy fstLt r.1, r.2)

/-- The variables of the loops at conduit_blueprint_mesh_topology_metadata.cpp:1044-1075, 1224-1254.
    `avail` and `edge_reorder` of the second are one array, as in the first; arrays that are filled from the start are lists
    that grow. -/
structure Emit where
  reorder : List Int
  next : Int
  conn : List Int
  refs : List Int

/-- One pass of these loops; `side` reads the corners of the side at a place. -/
def emitStep (side : Nat → Res (List Int)) (s : Emit) (ef u : Nat) : Res Emit := do
  let r ← pick s.reorder (u : Int)
  if r == -1 then do
    let pts ← side ef
    let ro ← put s.reorder (u : Int) s.next
    .ok ⟨ro, s.next + 1, s.conn ++ pts, s.refs ++ [s.next]⟩
  else .ok { s with refs := s.refs ++ [r] }

/-- The connectivity of the sides, for each place the number of its side, and the number of sides. -/
structure Sides where
  conn : List Int
  refs : List Int
  count : Nat

/-- conduit_blueprint_mesh_topology_metadata.cpp:1036-1076, 1220-1254: sides in the order of first use. -/
def emitAll (side : Nat → Res (List Int)) (u : List (Nat × Nat)) (count : Nat) : Res Sides := do
  let s ← u.foldlM (fun s p => emitStep side s p.1 p.2) ⟨List.replicate count (-1), 0, [], []⟩
  .ok ⟨s.conn, s.refs, count⟩

/-- conduit_blueprint_mesh_topology_metadata.cpp:950-953, 1058-1064: the corners of one side of an element. -/
def sidePoints (ppe : Int) (conn : List Int) (elem : Int) (row : List Nat) : Res (List Int) :=
  row.mapM fun i : Nat => pick conn (elem * ppe + (i : Int))

/-- conduit_blueprint_mesh_topology_metadata.cpp:944-973: the labels of the sides of all elements.
    Simplification: the loop is not parallel. -/
def sideLabels (ppe : Int) (table : List (List Nat)) (conn : List Int) (nelem : Nat) : Res (List Nat) := do
  let ls ← (List.range nelem).mapM fun elem : Nat => table.mapM fun row => do
    let pts ← sidePoints ppe conn (elem : Int) row
    .ok (Hash.hashIds (sortBy intLt pts))
  .ok ls.flatten

/-- conduit_blueprint_mesh_topology_metadata.cpp:887-1110 `make_embedded_connectivity`.
    Simplification: what is not asked for is computed as well. -/
def makeEmbedded (ppe : Nat) (table : List (List Nat)) (conn : List Int) : Res Sides := do
  let nelem := conn.length / ppe
  let labels ← sideLabels (ppe : Int) table conn nelem
  let u := relabel labels.zipIdx
  emitAll (fun ef => do
    let row ← pick table ((ef % table.length : Nat) : Int)
    sidePoints (ppe : Int) conn ((ef / table.length : Nat) : Int) row) ((u.1.map (·.2)).zipIdx.map fun p => (p.2, p.1)) u.2

/-! ### associations -/

/-- conduit_blueprint_mesh_topology_metadata.cpp:163-170 `association`. -/
structure Assoc where
  data : List Int
  sizes : List Int
  offsets : List Int
  single : Int
deriving DecidableEq, Repr

/-- The order by the second member (conduit_blueprint_mesh_topology_metadata.cpp:2485-2488). -/
def sndLt (a b : Int × Int) : Bool := decide (a.2 < b.2)

/-- `std::sort` of `n` elements from `off` on. -/
def sortRange (l : List Int) (off n : Nat) : List Int := l.take off ++ sortBy intLt ((l.drop off).take n) ++ l.drop (off + n)

/-- conduit_blueprint_mesh_topology_metadata.cpp:2455-2479: pairs of parent and child.  A `p2c` that is too long keeps zeros
    at its end. -/
def parentPairs (pc : Assoc) : Res (List (Int × Int)) :=
  if pc.sizes ≠ [] then
    let ids := pc.sizes.zipIdx.flatMap fun p => List.replicate p.1.toNat ((p.2 : Nat) : Int)
    if ids.length ≤ pc.data.length then
      .ok (ids.zip pc.data ++ List.replicate (pc.data.length - ids.length) (0, 0))
    else .ub
  else if pc.single = 0 ∧ pc.data ≠ [] then .ub
  else .ok (pc.data.zipIdx.map fun p => (((p.2 : Nat) : Int).tdiv pc.single, p.1))

/-- conduit_blueprint_mesh_topology_metadata.cpp:2418-2516 `build_child_to_parent_association`; `len` is the number of
    children. -/
def childToParent (len : Nat) (pc : Assoc) : Res Assoc := do
  let sizes ← pc.data.foldlM (fun sizes v => do
    let n ← pick sizes v
    put sizes v (n + 1)) (List.replicate len (0 : Int))
  let offsets := runningSums 0 sizes
  let p2c ← parentPairs pc
  let data := (sortBy sndLt p2c).map (·.1)
  .ok ⟨(sizes.zip offsets).foldl (fun d p => if p.1 > 1 then sortRange d p.2.toNat p.1.toNat else d) data, sizes, offsets, 1⟩

/-- conduit_blueprint_mesh_topology_metadata.cpp:2963-3025 `get_global_dim_map` for a map that was requested; `len` is the
    number of entities, `t` is `int_dtype`.
    Simplification: arrays without elements have an address. -/
def dimMap (t : IntTy) (len : Nat) (a : Assoc) : BNode F :=
  let conv : List Int → BNode F := fun l => if t = int64 then .ints int64 l else .ints t (l.map t.cast)
  .obj [(chars! "values", conv a.data),
    (chars! "sizes", conv (if a.sizes = [] then List.replicate len a.single else a.sizes)),
    (chars! "offsets", conv (if a.offsets = [] then (List.range len).map fun i : Nat => (i : Int) * a.single else a.offsets))]

/-! ### topologies -/

/-- conduit_blueprint_mesh_topology_metadata.cpp:1680-1690 of `copy_convert`. -/
def convLeaf (t : IntTy) : BNode F → BNode F
  | .ints t' l => if t' = t then .ints t' l else .ints t (l.map t.cast)
  | n => n

/-- The children with these names that are there, converted. -/
def copyKeys (t : IntTy) (e : BNode F) (keys : List Str) : List (Str × BNode F) :=
  keys.filterMap fun k => match e.get k with
    | .ok v => some (k, convLeaf t v)
    | _ => none

/-- conduit_blueprint_mesh_topology_metadata.cpp:1695-1753 `copy_topology` for a shape that is not polyhedral. -/
def copyTopology (A : Arith F) (src : BNode F) (cname : Str) (t : IntTy) : Res (BNode F) := do
  let e ← src.get (chars! "elements")
  let shape ← (← e.get (chars! "shape")).asString
  let els : BNode F := .obj ((chars! "shape", .str shape) :: copyKeys t e [chars! "connectivity", chars! "sizes", chars! "offsets"])
  let base : BNode F := .obj [(chars! "type", .str (chars! "unstructured")), (chars! "coordset", .str cname), (chars! "elements", els)]
  if els.hasChild (chars! "offsets") then .ok base
  else do
    let off ← generateOffsets1 A base .empty
    .ok (base.setChild (chars! "elements") (els.setChild (chars! "offsets") (convLeaf t off)))

/-- conduit_blueprint_mesh_utils.cpp:1669-1723 `topology::length` for an unstructured topology.
    Simplification: streams are left out. -/
def topoLength (topo : BNode F) : Res Nat := do
  let e ← topo.get (chars! "elements")
  if e.hasChild (chars! "sizes") then do
    .ok (← e.get (chars! "sizes")).numElements
  else do
    let conn ← e.get (chars! "connectivity")
    let shape ← shapeOfTopo topo
    if shape.indices ≤ 0 then .ub else .ok (conn.numElements / shape.indices.toNat)

/-- conduit_blueprint_mesh_topology_metadata.cpp:1001-1006, 1103-1109: the node of the sides. -/
def sideTopo (cname shape : Str) (width : Nat) (s : Sides) : BNode F :=
  .obj [(chars! "type", .str (chars! "unstructured")), (chars! "coordset", .str cname),
    (chars! "elements", .obj [(chars! "shape", .str shape), (chars! "connectivity", .ints int64 s.conn),
      (chars! "offsets", .ints int64 ((List.range s.count).map fun i : Nat => (width : Int) * (i : Int)))])]

/-- conduit_blueprint_mesh_topology_metadata.cpp:1437: `find_widest_dtype(link_nodes(topology, coordset), …)`. -/
def intType (topo cset : BNode F) : IntTy := widestInt (.obj [([], topo), ([], cset)])

/-- conduit_blueprint_mesh_topology_metadata.cpp:1543-1568 `convert_topology_dtype`. -/
def convertTopology (A : Arith F) (topo : BNode F) (cname : Str) (t : IntTy) : Res (BNode F) :=
  if t = int64 then .ok topo else copyTopology A topo cname t

/-- conduit_blueprint_mesh.cpp:4674-4736 `generate_lines` of a topology of faces and `generate_faces` of a topology of cells,
    all of one shape of fixed size: the sides, the map from elements to sides and the map back.  `cset` is the coordset,
    `cname` its name.
    Simplifications: `topology::verify` (conduit_blueprint_mesh_topology_metadata.cpp:1821) is taken to pass on the
    topologies made here; arrays are compact. -/
def generateSides (A : Arith F) (topo cset : BNode F) (cname : Str) : Res (BNode F × BNode F × BNode F) := do
  let e ← topo.get (chars! "elements")
  let name ← topoShapeName topo
  let shape ← shapeOfTopo topo
  match embedding name with
  | none => .error
  | some (sname, table) => do
    let t := intType topo cset
    let width := (table.head?.map (·.length)).getD 0
    let top ← copyTopology A topo cname int64
    let conn ← leafInts A (← e.get (chars! "connectivity"))
    let s ← makeEmbedded shape.indices.toNat table conn
    let topo' := sideTopo cname sname width s
    let n ← topoLength top
    let m ← topoLength topo'
    let down : Assoc := ⟨s.refs, [], [], (table.length : Int)⟩
    let up ← childToParent m down
    let dest ← convertTopology A topo' cname t
    .ok (dest, dimMap t n down, dimMap t m up)

end Conduit.Mesh.Meta
