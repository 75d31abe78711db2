import Verif.Model.TopoMeta
/-
The lines of polygons.
Source: /repo/src/libs/blueprint/conduit_blueprint_mesh_topology_metadata.cpp
-/
namespace Conduit.Mesh.Meta
variable {F : Type}

/-- One entry of `edgeid_to_ee` and `ee_to_edge`: the label, the place and the points of a line. -/
structure Edge where
  label : Nat
  place : Nat
  fst : Int
  snd : Int
deriving DecidableEq, Repr

/-- conduit_blueprint_mesh_topology_metadata.cpp:1163-1165: the hash of the points in order. -/
def edgeLabel (a b : Int) : Nat := if a > b then Hash.hashIds [b, a] else Hash.hashIds [a, b]

/-- conduit_blueprint_mesh_topology_metadata.cpp:1140-1147: the points of a polygon; there is room for 32. -/
def polygonPoints (conn : List Int) (size off : Int) : Res (List Int) :=
  if size > 32 then .ub else (List.range size.toNat).mapM fun i : Nat => pick conn (off + (i : Int))

/-- conduit_blueprint_mesh_topology_metadata.cpp:1150-1167: the lines of a polygon are written from its offset on. -/
def polygonEdges (pts : List Int) (size off : Int) (arr : List Edge) : Res (List Edge) :=
  forTo size (fun i arr => do
    let a ← pick pts i
    let b ← pick pts ((i + 1).tmod size)
    put arr (off + i) ⟨edgeLabel a b, (off + i).toNat, a, b⟩) arr

/-- conduit_blueprint_mesh_topology_metadata.cpp:1134-1168: the lines of all polygons.
    Simplification: the loop is not parallel. -/
def allEdges (sizes offsets conn : List Int) : Res (List Edge) :=
  if sizes.sum < 0 then .error
  else sizes.zipIdx.foldlM (fun arr p => do
    let off ← pick offsets ((p.2 : Nat) : Int)
    let pts ← polygonPoints conn p.1 off
    polygonEdges pts p.1 off arr) (List.replicate sizes.sum.toNat ⟨0, 0, 0, 0⟩)

/-- conduit_blueprint_mesh_topology_metadata.cpp:1118-1298 `make_embedded_connectivity_polygons_to_lines`.
    Simplification: what is not asked for is computed as well. -/
def polygonsToLines (sizes offsets conn : List Int) : Res Sides := do
  let arr ← allEdges sizes offsets conn
  let u := relabel (arr.map fun x => (x.label, x.place))
  emitAll (fun ee => do
    let x ← pick arr (ee : Int)
    .ok [x.fst, x.snd]) u.1 u.2

/-- conduit_blueprint_mesh.cpp:4674-4705 `generate_lines` of a topology of polygons: the lines, the map from polygons to lines
    and the map back.  `cset` is the coordset, `cname` its name.
    Simplifications: as in `generateSides`. -/
def polygonLines (A : Arith F) (topo cset : BNode F) (cname : Str) : Res (BNode F × BNode F × BNode F) := do
  let e ← topo.get (chars! "elements")
  let name ← topoShapeName topo
  if name ≠ chars! "polygonal" then .error
  else do
    let t := intType topo cset
    let top ← copyTopology A topo cname int64
    let te ← top.get (chars! "elements")
    let conn ← leafInts A (← e.get (chars! "connectivity"))
    let sizes ← leafInts A (← te.get (chars! "sizes"))
    let offsets ← leafInts A (← te.get (chars! "offsets"))
    let s ← polygonsToLines sizes offsets conn
    let topo' := sideTopo cname (chars! "line") 2 s
    let n ← topoLength top
    let m ← topoLength topo'
    let down : Assoc := ⟨s.refs, sizes, offsets, 1⟩
    let up ← childToParent m down
    let dest ← convertTopology A topo' cname t
    .ok (dest, dimMap t n down, dimMap t m up)

end Conduit.Mesh.Meta
