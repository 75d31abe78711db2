import Verif.Model.MeshTree
/-
Conversions between kinds of coordinate sets and topologies.
Sources: /repo/src/libs/blueprint/conduit_blueprint_mesh.cpp, conduit_blueprint_mesh_utils.cpp
-/
namespace Conduit.Mesh
variable {F : Type}

/-- conduit_blueprint_mesh_utils.hpp:72-75. -/
def cartesianAxes : List Str := [chars! "x", chars! "y", chars! "z"]
def cylindricalAxes : List Str := [chars! "z", chars! "r"]
def sphericalAxes : List Str := [chars! "r", chars! "theta", chars! "phi"]
def logicalAxes : List Str := [chars! "i", chars! "j", chars! "k"]

/-- conduit_blueprint_mesh_utils.cpp:1263-1270: `dx` is the axis `x`. -/
def axisName : Str → Str
  | 'd' :: c :: rest => c :: rest
  | name => name

/-- conduit_blueprint_mesh_utils.cpp:1233-1251: the child that names the axes. -/
def axesChild (n : BNode F) (ty : Str) : Str :=
  if ty = chars! "uniform" then
    if n.hasChild (chars! "origin") then chars! "origin"
    else if n.hasChild (chars! "spacing") then chars! "spacing"
    else chars! "dims"
  else chars! "values"

/-- conduit_blueprint_mesh_utils.cpp:1273-1296: the axes of the coordinate system the names belong to. -/
def baseAxes (names : List Str) : List Str :=
  if chars! "theta" ∈ names ∨ chars! "phi" ∈ names then sphericalAxes
  else if chars! "r" ∈ names then cylindricalAxes
  else if chars! "x" ∈ names ∨ chars! "y" ∈ names ∨ chars! "z" ∈ names then cartesianAxes
  else if chars! "i" ∈ names ∨ chars! "j" ∈ names ∨ chars! "k" ∈ names then logicalAxes
  else []

/-- conduit_blueprint_mesh_utils.cpp:1226-1312, 1354-1357 `coordset::axes`.
    Simplification: the children of a list have no usable names; they are not looked at. -/
def axes (n : BNode F) : Res (List Str) := do
  let ty ← (← n.get (chars! "type")).asString
  let c ← n.get (axesChild n ty)
  let names := c.kids.map fun k => axisName k.1
  .ok ((baseAxes names).filter fun b => names.contains b)

/-- A write through `element_ptr(i)`: outside of the array it is undefined behaviour. -/
def put {α : Type} (l : List α) (i : Int) (v : α) : Res (List α) :=
  if 0 ≤ i ∧ i < l.length then .ok (l.set i.toNat v) else .ub

/-- A read through `element_ptr(i)`. -/
def pick {α : Type} (l : List α) (i : Int) : Res α :=
  if 0 ≤ i then (match l[i.toNat]? with | some v => .ok v | none => .ub) else .ub

/-- `for(d = 0; d < n; d++)` -/
def forTo {α : Type} (n : Int) (f : Int → α → Res α) (a : α) : Res α :=
  (List.range n.toNat).foldlM (fun a (d : Nat) => f (d : Int) a) a

/-- `set(DataType(id, n))`: a new array of zeros (conduit_utils.cpp default allocator: `calloc`).
    A negative length asks for more memory than there is: undefined behaviour. -/
def alloc {α : Type} (zero : α) (n : Int) : Res (List α) :=
  if 0 ≤ n then .ok (List.replicate n.toNat zero) else .ub

/-- `for(i = 0; i < names.size(); i++)`, one result for each name. -/
def forNames {α β : Type} (f : Nat → α → Res β) : Nat → List α → Res (List β)
  | _, [] => .ok []
  | i, a :: as => do
    let b ← f i a
    let bs ← forNames f (i + 1) as
    .ok (b :: bs)

/-- `(*coordset)["dims"][logical_axes[i]].to_int64()` -/
def dimLen (A : Arith F) (n : BNode F) (i : Nat) : Res Int := do
  let name ← Res.ofIdx logicalAxes i
  (← (← n.get (chars! "dims")).get name).toInt64 A

/-- `coordset.has_child("origin") ? coordset["origin"][axis].to_float64() : 0.0` -/
def originOf (A : Arith F) (n : BNode F) (a : Str) : Res F :=
  if n.hasChild (chars! "origin") then do (← (← n.get (chars! "origin")).get a).toF64 A else .ok A.zero

/-- `coordset.has_child("spacing") ? coordset["spacing"]["d"+axis].to_float64() : 1.0` -/
def spacingOf (A : Arith F) (n : BNode F) (a : Str) : Res F :=
  if n.hasChild (chars! "spacing") then do (← (← n.get (chars! "spacing")).get ('d' :: a)).toF64 A
  else .ok A.one

/-- `to_data_type(float_dtype.id(), dst)` from a float64 or float32. -/
def storeF (A : Arith F) (wide srcWide : Bool) (v : F) : F := if wide || !srcWide then v else A.narrow v

/-- The same from an integer. -/
def storeI (A : Arith F) (wide : Bool) (v : Int) : F := if wide then A.ofInt v else A.ofInt32 v

/-- Element `d` of a source array, converted (conduit_blueprint_mesh.cpp:1034-1046). -/
def storeElem (A : Arith F) (wide : Bool) (src : BNode F) (d : Int) : Res F :=
  match src with
  | .ints _ l => (pick l d).map' (storeI A wide)
  | .flts sw l => (pick l d).map' (storeF A wide sw)
  | _ => .ub

/-- One axis of conduit_blueprint_mesh.cpp:944-967. -/
def rectilinearAxis (A : Arith F) (n : BNode F) (wide : Bool) (i : Nat) (a : Str) :
    Res (Str × BNode F) := do
  let o ← originOf A n a
  let s ← spacingOf A n a
  let len ← dimLen A n i
  let arr ← alloc A.zero len
  let arr ← forTo len (fun d arr => put arr d (storeF A wide true (A.lin o d s))) arr
  .ok (a, .flts wide arr)

/-- An object, or nothing if it would have no children (`dest["values"][axis]` makes it). -/
def objKid (name : Str) (ks : List (Str × BNode F)) : List (Str × BNode F) :=
  match ks with
  | [] => []
  | _ => [(name, .obj ks)]

/-- conduit_blueprint_mesh.cpp:933-969 `convert_coordset_to_rectilinear`. -/
def toRectilinear (A : Arith F) (n : BNode F) : Res (BNode F) := do
  let wide := widestFloat n
  let as ← axes n
  let cols ← forNames (rectilinearAxis A n wide) 0 as
  .ok (.obj ((chars! "type", .str (chars! "rectilinear")) :: objKid (chars! "values") cols))

/-- `base_type` -/
inductive Base where
  | uniform | rectilinear | structured
deriving DecidableEq, Repr

/-- conduit_blueprint_mesh.cpp:988-993: the number of points along an axis. -/
def axisLen (A : Arith F) (base : Base) (n : BNode F) (i : Nat) (a : Str) : Res Int :=
  if base = .rectilinear then do
    .ok ((← (← n.get (chars! "values")).get a).numElements : Nat)
  else dimLen A n i

/-- A product of lengths. -/
def prod (l : List Int) : Int := l.foldl (· * ·) 1

/-- The value of axis `a` at index `d`: conduit_blueprint_mesh.cpp:1034-1048. -/
def axisValue (A : Arith F) (base : Base) (src : BNode F) (o s : F) (wide : Bool) (d : Int) : Res F :=
  if base = .rectilinear then storeElem A wide src d
  else .ok (storeF A wide true (A.lin o d s))

/-- conduit_blueprint_mesh.cpp:1022-1051: the three loops that fill one axis. -/
def fillAxis (bs bc len : Int) (val : Int → Res F) (arr : List F) : Res (List F) :=
  forTo len (fun d arr =>
    forTo bc (fun b arr =>
      forTo bs (fun bi arr => do
        let v ← val d
        put arr (d * bs + b * bs * len + bi) v) arr) arr) arr

/-- `coordset.has_child("values") ? coordset["values"][axis] : info` -/
def sourceOf (n : BNode F) (a : Str) : Res (BNode F) :=
  if n.hasChild (chars! "values") then do (← n.get (chars! "values")).get a else .ok .empty

/-- One axis of conduit_blueprint_mesh.cpp:997-1052. -/
def explicitAxis (A : Arith F) (base : Base) (n : BNode F) (wide : Bool) (lens : List Int) (i : Nat) (a : Str) :
    Res (Str × BNode F) := do
  let src ← sourceOf n a
  let o ← originOf A n a
  let s ← spacingOf A n a
  let len ← Res.ofIdx lens i
  let arr ← alloc A.zero (prod lens)
  let arr ← fillAxis (prod (lens.take i)) (prod (lens.drop (i + 1))) len (axisValue A base src o s wide) arr
  .ok (a, .flts wide arr)

/-- conduit_blueprint_mesh.cpp:972-1053 `convert_coordset_to_explicit`; `base` is uniform or
    rectilinear. -/
def toExplicit (A : Arith F) (base : Base) (n : BNode F) : Res (BNode F) := do
  let wide := widestFloat n
  let as ← axes n
  let lens ← forNames (axisLen A base n) 0 as
  let cols ← forNames (explicitAxis A base n wide lens) 0 as
  .ok (.obj ((chars! "type", .str (chars! "explicit")) :: objKid (chars! "values") cols))

/-- conduit_blueprint_mesh_utils.cpp:1325-1350 `coordset::length`. -/
def coordsetLength (A : Arith F) (n : BNode F) : Res Int := do
  let ty ← (← n.get (chars! "type")).asString
  let as ← axes n
  if ty = chars! "uniform" then do
    let lens ← forNames (fun i _ => dimLen A n i) 0 as
    .ok (prod lens)
  else if ty = chars! "rectilinear" then do
    let lens ← forNames (axisLen A .rectilinear n) 0 as
    .ok (prod lens)
  else do
    let lens ← forNames (axisLen A .rectilinear n) 0 as
    .ok (lens.getLast?.getD 1)

/-- Three indices or three lengths (`index_t v[3]`). -/
structure Ijk where
  i : Int
  j : Int
  k : Int
deriving DecidableEq, Repr

/-- conduit_blueprint_mesh.cpp:100-115 `grid_ijk_to_id` (the loops over three axes written out). -/
def gridIjkToId (v dims : Ijk) : Int := v.i + v.j * dims.i + v.k * dims.i * dims.j

/-- conduit_blueprint_mesh.cpp:118-134 `grid_id_to_ijk`; `/` and `%` round towards zero. -/
def gridIdToIjk (id : Int) (dims : Ijk) : Ijk :=
  let s2 := dims.i * dims.j
  let k := id.tdiv s2
  let r2 := id.tmod s2
  let s1 := dims.i
  let j := r2.tdiv s1
  let r1 := r2.tmod s1
  let i := r1.tdiv 1
  ⟨i, j, k⟩

/-- conduit_blueprint_mesh.cpp:1214-1238: the number of elements along axis `i`, named `a`. -/
def elemLen (A : Arith F) (base : Base) (topo coordset : BNode F) (i : Nat) (a : Str) : Res Int :=
  match base with
  | .structured => do
    let name ← Res.ofIdx logicalAxes i
    (← (← (← topo.get (chars! "elements")).get (chars! "dims")).get name).toInt32 A
  | .rectilinear => do
    .ok (((← (← coordset.get (chars! "values")).get a).numElements : Int) - 1)
  | .uniform => do
    let name ← Res.ofIdx logicalAxes i
    .ok ((← (← (← coordset.get (chars! "dims")).get name).toInt32 A) - 1)

/-- conduit_blueprint_mesh.cpp:1213-1238 `edims_axes`: 1 along an axis that is not there. -/
def elemDims (A : Arith F) (base : Base) (topo coordset : BNode F) (as : List Str) : Res Ijk := do
  let l ← forNames (elemLen A base topo coordset) 0 as
  .ok ⟨l.getD 0 1, l.getD 1 1, l.getD 2 1⟩

/-- conduit_blueprint_mesh.cpp:1266-1270: corner `i` of the element at `e`; bit `d` of `i` is the
    step along axis `d`, for the first `n` axes. -/
def cornerOf (n : Nat) (e : Ijk) (c : Nat) : Ijk :=
  ⟨e.i + (if 0 < n then (c / 1 % 2 : Nat) else 0), e.j + (if 1 < n then (c / 2 % 2 : Nat) else 0),
   e.k + (if 2 < n then (c / 4 % 2 : Nat) else 0)⟩

/-- Exchange of two entries: conduit_blueprint_mesh.cpp:1283-1294. -/
def exchange (l : List Int) (p q : Int) : Res (List Int) := do
  let x ← pick l p
  let y ← pick l q
  let l ← put l p y
  put l q x

/-- conduit_blueprint_mesh.cpp:1257-1296: the corners of one element. -/
def fillElement (t : IntTy) (n : Nat) (ed vd : Ijk) (e : Int) (conn : List Int) : Res (List Int) := do
  let ipe : Nat := 2 ^ n
  let cur := gridIdToIjk e ed
  let conn ← forTo ipe (fun i conn =>
    put conn (e * ipe + i) (t.cast (gridIjkToId (cornerOf n cur i.toNat) vd))) conn
  ((List.range ipe).filter fun p => p % 4 == 2).foldlM
    (fun conn (p : Nat) => exchange conn (e * ipe + p) (e * ipe + p + 1)) conn

/-- conduit_blueprint_mesh.cpp:1246-1296: the connectivity array of an element type `t`. -/
def connectivity (t : IntTy) (n : Nat) (ed : Ijk) : Res (List Int) := do
  let num := ed.i * ed.j * ed.k
  let conn ← alloc 0 (num * (2 ^ n : Nat))
  forTo num (fillElement t n ed ⟨ed.i + 1, ed.j + 1, ed.k + 1⟩) conn

/-- conduit_blueprint_mesh.cpp:1206-1211. -/
def shapeName : Nat → Str
  | 1 => chars! "line"
  | 2 => chars! "quad"
  | 3 => chars! "hex"
  | _ => []

/-- `if(topo.has_child("origin")) dest["origin"].set(topo["origin"])` -/
def originKid (topo : BNode F) : Res (List (Str × BNode F)) :=
  if topo.hasChild (chars! "origin") then do
    let o ← topo.get (chars! "origin")
    .ok [(chars! "origin", o)]
  else .ok []

/-- The coordset of the converted mesh. -/
def convertCoordset (A : Arith F) (base : Base) (coordset : BNode F) : Res (BNode F) :=
  match base with
  | .structured => .ok coordset
  | b => toExplicit A b coordset

/-- conduit_blueprint_mesh.cpp:1170-1298 `convert_topology_to_unstructured`; gives the topology and
    the coordset.  `cname` is the name of the node given for the coordset.
    Simplification: the coordset of the topology is an argument instead of being looked up through
    the parent. -/
def toUnstructured (A : Arith F) (base : Base) (topo coordset : BNode F) (cname : Str) :
    Res (BNode F × BNode F) := do
  let cdest ← convertCoordset A base coordset
  let org ← originKid topo
  let t := widestInt topo
  let as ← axes coordset
  let ed ← elemDims A base topo coordset as
  let conn ← connectivity t as.length ed
  .ok (.obj ([(chars! "type", .str (chars! "unstructured")), (chars! "coordset", .str cname)] ++ org ++
        [(chars! "elements", .obj [(chars! "shape", .str (shapeName as.length)),
          (chars! "connectivity", .ints t conn)])]), cdest)

/-- conduit_blueprint_mesh.cpp:1119-1167 `convert_topology_to_structured`; `base` is uniform or
    rectilinear. -/
def toStructured (A : Arith F) (base : Base) (topo coordset : BNode F) (cname : Str) :
    Res (BNode F × BNode F) := do
  let cdest ← toExplicit A base coordset
  let org ← originKid topo
  let t := widestInt topo
  let as ← axes coordset
  let dims ← forNames (fun i a => do
    let len ← axisLen A base coordset i a
    let name ← Res.ofIdx logicalAxes i
    .ok (name, BNode.ints t [t.cast (len - 1)])) 0 as
  .ok (.obj ([(chars! "type", .str (chars! "structured")), (chars! "coordset", .str cname)] ++ org ++
        objKid (chars! "elements") (objKid (chars! "dims") dims)), cdest)

end Conduit.Mesh
