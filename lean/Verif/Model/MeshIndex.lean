import Verif.Model.MeshVerify
import Verif.Model.MeshConvert
import Verif.Model.Str
/-
Model of the mesh index: `blueprint::mesh::generate_index` and `blueprint::mesh::index::verify`.
-/
namespace Conduit.Mesh
section
variable {F : Type}
open V

/-! ### Checking an index -/

/-- conduit_blueprint_mesh_utils.hpp:78 `COORD_SYSTEMS`. -/
def coordSystems : List Str := [chars! "cartesian", chars! "cylindrical", chars! "spherical"]

/-- conduit_blueprint_mesh.cpp:4082-4099: the axis names of a coordinate system. -/
def axisOk (sys name : Str) : Bool :=
  if sys = chars! "cartesian" then name == chars! "x" || name == chars! "y" || name == chars! "z"
  else if sys = chars! "cylindrical" then name == chars! "r" || name == chars! "z"
  else if sys = chars! "spherical" then name == chars! "r" || name == chars! "theta" || name == chars! "phi"
  else true

/-- conduit_blueprint_mesh.cpp:4055-4113 `coordset::coord_system::verify`. -/
def coordSystemVerify (n : BNode F) : V Bool := do
  let p := chars! "mesh::coordset::coord_system"
  reset
  let r1 ← enumField p n (chars! "type") coordSystems
  let sys ← (if r1 then do
      let c ← lift (n.get (chars! "type"))
      lift c.asString
    else return chars! "unknown" : V Str)
  let r2 ← objectField p n (chars! "axes")
  let r3 ← (if r2 then
      if sys = chars! "unknown" then return true
      else do
        let c ← lift (n.get (chars! "axes"))
        all (fun (k : Str × BNode F) => demand (axisOk sys k.1) p
          (chars! "unsupported " ++ sys ++ chars! " axis name: " ++ k.1)) c.items
    else return false : V Bool)
  finish (r1 && r3)

/-- conduit_blueprint_mesh.cpp:4122-4140 `coordset::index::verify`. -/
def coordsetIndexVerify (n : BNode F) : V Bool := do
  let p := chars! "mesh::coordset::index"
  reset
  let r1 ← existsAnd p n (chars! "type") (enumVerify (chars! "mesh::coordset::type") coordTypes)
  let r2 ← stringField p n (chars! "path")
  let r3 ← objectAnd p n (chars! "coord_system") coordSystemVerify
  finish (r1 && r2 && r3)

/-- conduit_blueprint_mesh.cpp:6058-6080 `topology::index::verify`. -/
def topologyIndexVerify (n : BNode F) : V Bool := do
  let p := chars! "mesh::topology::index"
  reset
  let r1 ← existsAnd p n (chars! "type") (enumVerify (chars! "mesh::topology::type") topoTypes)
  let r2 ← stringField p n (chars! "coordset")
  let r3 ← stringField p n (chars! "path")
  let r4 ← (if n.hasChild (chars! "grid_function") then do
      opt p (chars! "includes grid_function")
      stringField p n (chars! "grid_function")
    else return true : V Bool)
  finish (r1 && r2 && r3 && r4)

/-- conduit_blueprint_mesh.cpp:6394-6424 `matset::index::verify`. -/
def matsetIndexVerify (n : BNode F) : V Bool := do
  let p := chars! "mesh::matset::index"
  reset
  let r1 ← stringField p n (chars! "topology")
  let r2 ← (if n.hasChild (chars! "material_map") then materialMapVerify p n
    else objectField p n (chars! "materials") : V Bool)
  let r3 ← stringField p n (chars! "path")
  finish (r1 && r2 && r3)

/-- conduit_blueprint_mesh.cpp:6579-6625 `field::index::verify`. -/
def fieldIndexVerify (n : BNode F) : V Bool := do
  let p := chars! "mesh::field::index"
  reset
  let r1 ← demand (n.hasChild (chars! "association") || n.hasChild (chars! "basis")) p
    (chars! "missing child 'association' or 'basis'")
  let r2 ← ifHas n (chars! "association") fun c => sub (chars! "association") (associationVerify c)
  let r3 ← ifHas n (chars! "basis") fun c => sub (chars! "basis") (basisVerify c)
  let r4 ← demand (n.hasChild (chars! "topology") || n.hasChild (chars! "matset")) p
    (chars! "missing child 'topology' or 'matset'")
  let r5 ← (if n.hasChild (chars! "topology") then stringField p n (chars! "topology") else return true : V Bool)
  let r6 ← (if n.hasChild (chars! "matset") then stringField p n (chars! "matset") else return true : V Bool)
  let r7 ← integerField p n (chars! "number_of_components")
  let r8 ← stringField p n (chars! "path")
  finish (r1 && r2 && r3 && r4 && r5 && r6 && r7 && r8)

/-- conduit_blueprint_mesh.cpp:6692-6710 `specset::index::verify`. -/
def specsetIndexVerify (n : BNode F) : V Bool := do
  let p := chars! "mesh::specset::index"
  reset
  let r1 ← stringField p n (chars! "matset")
  let r2 ← objectField p n (chars! "species")
  let r3 ← stringField p n (chars! "path")
  finish (r1 && r2 && r3)

/-- conduit_blueprint_mesh.cpp:7073-7090 `adjset::index::verify`, 7163-7180 `nestset::index::verify`: they
    differ in the name. -/
def adjacencyIndexVerify (p : Str) (n : BNode F) : V Bool := do
  reset
  let r1 ← stringField p n (chars! "topology")
  let r2 ← existsAnd p n (chars! "association") associationVerify
  let r3 ← stringField p n (chars! "path")
  finish (r1 && r2 && r3)

/-- conduit_blueprint_mesh.cpp:7206-7412 `index::verify`.  (`n.has_path("matsets")` is `has_child`.) -/
def indexVerify (n : BNode F) : V Bool := do
  let p := chars! "mesh::index"
  let entry (coll : Str) (check : BNode F → V Bool) (ref refPath : Str) (name : Str) (c : BNode F) : V Bool := do
    let a ← sub coll (sub name (check c))
    let b ← referenceField p n coll name c ref refPath
    return (a && b)
  reset
  let r1 ← collection p n (chars! "coordsets") fun name c =>
    sub (chars! "coordsets") (sub name (coordsetIndexVerify c))
  let r2 ← collection p n (chars! "topologies")
    (entry (chars! "topologies") topologyIndexVerify (chars! "coordset") (chars! "coordsets"))
  let r3 ← (if n.hasChild (chars! "matsets") then collection p n (chars! "matsets")
    (entry (chars! "matsets") matsetIndexVerify (chars! "topology") (chars! "topologies")) else return true : V Bool)
  let r4 ← (if n.hasChild (chars! "specsets") then collection p n (chars! "specsets")
    (entry (chars! "specsets") specsetIndexVerify (chars! "matset") (chars! "matsets")) else return true : V Bool)
  let r5 ← (if n.hasChild (chars! "fields") then
      collection p n (chars! "fields") fun name c => do
        let a ← sub (chars! "fields") (sub name (fieldIndexVerify c))
        let b ← (if c.hasChild (chars! "topology") then
          referenceField p n (chars! "fields") name c (chars! "topology") (chars! "topologies")
          else return true : V Bool)
        let d ← (if c.hasChild (chars! "matset") then
          referenceField p n (chars! "fields") name c (chars! "matset") (chars! "matsets")
          else return true : V Bool)
        return (a && b && d)
    else return true : V Bool)
  let r6 ← (if n.hasChild (chars! "adjsets") then collection p n (chars! "adjsets")
    (entry (chars! "adjsets") (adjacencyIndexVerify (chars! "mesh::adjset::index")) (chars! "topology") (chars! "topologies"))
    else return true : V Bool)
  let r7 ← (if n.hasChild (chars! "nestsets") then collection p n (chars! "nestsets")
    (entry (chars! "nestsets") (adjacencyIndexVerify (chars! "mesh::nestset::index")) (chars! "topology") (chars! "topologies"))
    else return true : V Bool)
  finish (r1 && r2 && r3 && r4 && r5 && r6 && r7)

/-! ### Making an index -/

/-- `n[name];` for each name: an object with these children, all empty. -/
def emptyKids : List Str → List (Str × BNode F) := List.map fun a => (a, .empty)

/-- A name is added to an object once. -/
def addNames : List Str → List Str → List Str
  | acc, [] => acc
  | acc, a :: l => addNames (if acc.contains a then acc else acc ++ [a]) l

/-- conduit_blueprint_mesh.cpp:2198-2257: the axis names put into the index. -/
def indexAxes (c : BNode F) (ty : Str) : Res (List Str) :=
  if ty = chars! "uniform" then
    if c.hasChild (chars! "origin") then (c.get (chars! "origin")).map' fun o => o.items.map (·.1)
    else if c.hasChild (chars! "spacing") then (c.get (chars! "spacing")).map' fun s => addNames [] (s.items.map fun k => axisName k.1)
    else (c.get (chars! "dims")).map' fun d => cartesianAxes.take d.numChildren
  else (c.get (chars! "values")).map' fun v => v.items.map (·.1)

/-- conduit_blueprint_mesh_utils.cpp:1273-1293: the coordinate system the names belong to. -/
def systemOf (names : List Str) : Str :=
  if chars! "theta" ∈ names ∨ chars! "phi" ∈ names then chars! "spherical"
  else if chars! "r" ∈ names then chars! "cylindrical"
  else if chars! "x" ∈ names ∨ chars! "y" ∈ names ∨ chars! "z" ∈ names then chars! "cartesian"
  else if chars! "i" ∈ names ∨ chars! "j" ∈ names ∨ chars! "k" ∈ names then chars! "logical"
  else chars! "unknown"

/-- conduit_blueprint_mesh_utils.cpp:1226-1293, 1361-1365 `coordset::coordsys`. -/
def coordsys (n : BNode F) : Res Str := do
  let ty ← (← n.get (chars! "type")).asString
  let c ← n.get (axesChild n ty)
  .ok (systemOf (c.items.map fun k => axisName k.1))

/-- The entry `path` (for example conduit_blueprint_mesh.cpp:2270-2272). -/
def indexPath (ref coll name : Str) : Str × BNode F := (chars! "path", .str (joinPath (joinPath ref coll) name))

/-- A string that is read and written (`idx[f] = n[f].as_string()`). -/
def copyString (n : BNode F) (f : Str) : Res (Str × BNode F) := do
  let s ← (← n.get f).asString
  .ok (f, .str s)

/-- The same, if it is there. -/
def copyOptional (n : BNode F) (f : Str) : Res (List (Str × BNode F)) :=
  if n.hasChild f then (copyString n f).map' fun k => [k] else .ok []

/-- conduit_blueprint_mesh.cpp:2187-2273: a coordset. -/
def indexCoordset (ref name : Str) (c : BNode F) : Res (BNode F) := do
  let ty ← (← c.get (chars! "type")).asString
  let names ← indexAxes c ty
  let sys ← coordsys c
  let sys := if sys = chars! "logical" then chars! "cartesian" else sys
  .ok (.obj [(chars! "type", .str ty),
    (chars! "coord_system", .obj (objKid (chars! "axes") (emptyKids names) ++ [(chars! "type", .str sys)])),
    indexPath ref (chars! "coordsets") name])

/-- conduit_blueprint_mesh.cpp:2283-2299: a topology. -/
def indexTopology (ref name : Str) (c : BNode F) : Res (BNode F) := do
  let ty ← copyString c (chars! "type")
  let cs ← copyString c (chars! "coordset")
  let g ← copyOptional c (chars! "grid_function")
  .ok (.obj ([ty, cs, indexPath ref (chars! "topologies") name] ++ g))

/-- conduit_blueprint_mesh.cpp:2314-2349: the materials of a matset. -/
def indexMaterials (c : BNode F) : Res (List (Str × BNode F)) :=
  if c.hasChild (chars! "material_map") then (c.get (chars! "material_map")).map' fun m => [(chars! "material_map", m)]
  else if c.hasChild (chars! "materials") then
    (c.get (chars! "materials")).map' fun m => objKid (chars! "materials") (emptyKids (m.items.map (·.1)))
  else if c.hasChild (chars! "volume_fractions") then
    (c.get (chars! "volume_fractions")).map' fun v =>
      objKid (chars! "material_map") (v.items.zipIdx.map fun k => (k.1.1, .ints int64 [(k.2 : Int)]))
  else .error

/-- conduit_blueprint_mesh.cpp:2308-2353: a matset. -/
def indexMatset (ref name : Str) (c : BNode F) : Res (BNode F) := do
  let t ← copyString c (chars! "topology")
  let m ← indexMaterials c
  .ok (.obj ([t] ++ m ++ [indexPath ref (chars! "matsets") name]))

/-- conduit_blueprint_mesh.cpp:2362-2386: a specset. -/
def indexSpecset (ref name : Str) (c : BNode F) : Res (BNode F) := do
  let m ← copyString c (chars! "matset")
  let v ← c.get (chars! "matset_values")
  let species := v.items.flatMap fun k => objKid k.1 (emptyKids (k.2.items.map (·.1)))
  .ok (.obj ([m] ++ objKid (chars! "species") species ++ [indexPath ref (chars! "specsets") name]))

/-- conduit_blueprint_mesh.cpp:2399-2414: the number of components of a field.  `child(0)` of a node
    without children is an error. -/
def indexComponents (c : BNode F) : Res Nat :=
  if c.hasChild (chars! "values") then
    (c.get (chars! "values")).map' fun v => if v.isObject then v.numChildren else 1
  else do
    let v ← c.get (chars! "matset_values")
    match v.items with
    | k :: _ => .ok (if k.2.isObject then k.2.numChildren else 1)
    | [] => .error

/-- conduit_blueprint_mesh.cpp:2395-2445: a field. -/
def indexField (ref name : Str) (c : BNode F) : Res (BNode F) := do
  let n ← indexComponents c
  let t ← copyOptional c (chars! "topology")
  let m ← copyOptional c (chars! "matset")
  let v ← copyOptional c (chars! "volume_dependent")
  let a ← (if c.hasChild (chars! "association") then (c.get (chars! "association")).map' fun x => (chars! "association", x)
    else (c.get (chars! "basis")).map' fun x => (chars! "basis", x) : Res (Str × BNode F))
  .ok (.obj ([(chars! "number_of_components", .ints int64 [(n : Int)])] ++ t ++ m ++ v ++
    [a, indexPath ref (chars! "fields") name]))

/-- conduit_blueprint_mesh.cpp:2448-2466: an adjset, 2468-2486: a nestset. -/
def indexAdjacency (coll ref name : Str) (c : BNode F) : Res (BNode F) := do
  let a ← copyString c (chars! "association")
  let t ← copyString c (chars! "topology")
  .ok (.obj [a, t, indexPath ref coll name])

/-- The loop over the entries of a collection; `f` fills `index_out[coll][name]`.  Names are distinct, so each
    entry is new; an empty collection leaves nothing.
    Simplification: a name is not split at `/` (conduit_node.cpp, `fetch` of a path). -/
def indexEntries (f : Str → BNode F → Res (BNode F)) : List (Str × BNode F) → Res (List (Str × BNode F))
  | [] => .ok []
  | k :: l => do
    let e ← f k.1 k.2
    let r ← indexEntries f l
    .ok ((k.1, e) :: r)

/-- One collection of a domain. -/
def indexCollection (n : BNode F) (coll : Str) (f : Str → BNode F → Res (BNode F)) : Res (List (Str × BNode F)) :=
  if n.hasChild coll then do
    let c ← n.get coll
    let es ← indexEntries f c.items
    .ok (objKid coll es)
  else .ok []

/-- conduit_blueprint_mesh.cpp:2162-2183: the state. -/
def indexState (n : BNode F) (ref : Str) : Res (List (Str × BNode F)) :=
  if n.hasChild (chars! "state") then do
    let s ← n.get (chars! "state")
    let copy (f : Str) : List (Str × BNode F) := match s.get f with | .ok x => [(f, x)] | _ => []
    .ok [(chars! "state", .obj (copy (chars! "cycle") ++ copy (chars! "time") ++
      [(chars! "path", .str (joinPath ref (chars! "state")))]))]
  else .ok []

/-- conduit_blueprint_mesh.cpp:2149-2487 `generate_index_for_single_domain`. -/
def indexSingle (n : BNode F) (ref : Str) : Res (BNode F) := do
  if !n.hasChild (chars! "coordsets") then .error
  else do
    let s ← indexState n ref
    let c1 ← indexCollection n (chars! "coordsets") (indexCoordset ref)
    let c2 ← indexCollection n (chars! "topologies") (indexTopology ref)
    let c3 ← indexCollection n (chars! "matsets") (indexMatset ref)
    let c4 ← indexCollection n (chars! "specsets") (indexSpecset ref)
    let c5 ← indexCollection n (chars! "fields") (indexField ref)
    let c6 ← indexCollection n (chars! "adjsets") (indexAdjacency (chars! "adjsets") ref)
    let c7 ← indexCollection n (chars! "nestsets") (indexAdjacency (chars! "nestsets") ref)
    .ok (.obj (s ++ c1 ++ c2 ++ c3 ++ c4 ++ c5 ++ c6 ++ c7))

/-- `n[name]` on an object: the child is changed, or made from an empty node. -/
def modKid (name : Str) (f : BNode F → BNode F) : List (Str × BNode F) → List (Str × BNode F)
  | [] => [(name, f .empty)]
  | k :: l => if k.1 = name then (name, f k.2) :: l else k :: modKid name f l

/-- conduit_node.cpp:8510-8585 `Node::update(n_src)`: `update src dest`.
    Simplification: of a string what follows its end is not kept. -/
def BNode.update : (src dest : BNode F) → BNode F
  | .obj ks, d => match ks with
    | [] => d
    | _ => .obj (updO ks d.kids)
  | .list ks, d => match ks with
    | [] => d
    | _ => .list (updL ks (match d with | .list ds => ds | _ => []))
  | .empty, d => d
  | .ints t l, d => match d with
    | .ints t' l' => if t' = t ∧ l.length ≤ l'.length then .ints t (l ++ l'.drop l.length) else .ints t l
    | _ => .ints t l
  | .flts w l, d => match d with
    | .flts w' l' => if w' = w ∧ l.length ≤ l'.length then .flts w (l ++ l'.drop l.length) else .flts w l
    | _ => .flts w l
  | .str s, _ => .str s
where
  updO : List (Str × BNode F) → List (Str × BNode F) → List (Str × BNode F)
    | [], ds => ds
    | k :: ks, ds => updO ks (modKid k.1 (BNode.update k.2) ds)
  updL : List (BNode F) → List (BNode F) → List (BNode F)
    | [], ds => ds
    | k :: ks, ds => match ds with
      | [] => BNode.update k .empty :: updL ks []
      | d :: ds => BNode.update k d :: updL ks ds

/-- conduit_blueprint_mesh.cpp:2123-2136: the loop over the domains. -/
def indexDomains (ref : Str) : List (Str × BNode F) → BNode F → Res (BNode F)
  | [], acc => .ok acc
  | k :: l, acc => do
    let i ← indexSingle k.2 ref
    indexDomains ref l (i.update acc)

/-- conduit_blueprint_mesh.cpp:2111-2146 `generate_index(mesh, ref_path, number_of_domains, index_out)`. -/
def generateIndex (n : BNode F) (ref : Str) (doms : Int) : Res (BNode F) := do
  if n.isEmpty then .error
  else do
    let i ← (if n.hasChild (chars! "coordsets") then indexSingle n ref else indexDomains ref n.items .empty : Res (BNode F))
    .ok (.obj (modKid (chars! "state") (fun s => .obj (modKid (chars! "number_of_domains") (fun _ => .ints int64 [doms]) s.kids)) i.kids))

end
end Conduit.Mesh
