import Verif.Model.Adjset
import Verif.Model.Array
import Verif.Model.MeshIndex
import Verif.Model.MeshConvert
/-
The merging of the points of several coordsets by the partitioner, with a kd-tree that grows as points are put in.
Source: /repo/src/libs/blueprint/conduit_blueprint_mesh_partition.cpp:4667-6197, conduit_blueprint_mesh_utils.cpp:1420-1515
-/
namespace Conduit.Merge
open Conduit.Mesh
variable {F : Type}

/-- `float64 p[3]`, `utils::vec3` (conduit_blueprint_mesh_partition.cpp:4774-4893). -/
structure V3 (F : Type) where
  a : F
  b : F
  c : F
deriving DecidableEq, Repr

/-- `p[i]` -/
def V3.at (p : V3 F) : Nat → F
  | 0 => p.a
  | 1 => p.b
  | _ => p.c

/-- Arithmetic of the platform on `float64`. -/
structure MOps (F : Type) where
  arith : Arith F
  /-- `a < b` -/
  lt : F → F → Bool
  /-- `a <= b`, that is `b >= a` -/
  le : F → F → Bool
  add : F → F → F
  sub : F → F → F
  mul : F → F → F
  /-- `numeric_limits<T>::max()` of `float64` (`true`) or `float32`, as a `float64` -/
  maxLim : Bool → F
  /-- `numeric_limits<T>::lowest()` -/
  lowest : Bool → F
  /-- conduit_blueprint_mesh_partition.cpp:6105-6110 `rtp_to_xyz` -/
  rtpToXyz : V3 F → V3 F
  /-- conduit_blueprint_mesh_partition.cpp:6095-6101 `xyz_to_rtp` -/
  xyzToRtp : V3 F → V3 F

/-- `std::min(a, b)` -/
def minF (o : MOps F) (a b : F) : F := if o.lt b a then b else a
/-- `std::max(a, b)` -/
def maxF (o : MOps F) (a b : F) : F := if o.lt a b then b else a

/-! ### the tree -/

/-- conduit_blueprint_mesh_partition.cpp:4899-4932 `bounding_box`. -/
structure BB (F : Type) where
  min : V3 F
  max : V3 F
deriving DecidableEq, Repr

/-- conduit_blueprint_mesh_partition.cpp:4841-4855: `point >= lo && point <= hi`, every coordinate. -/
def within (o : MOps F) (lo hi p : V3 F) : Bool :=
  (o.le lo.a p.a && o.le lo.b p.b && o.le lo.c p.c) && (o.le p.a hi.a && o.le p.b hi.b && o.le p.c hi.c)

/-- conduit_blueprint_mesh_partition.cpp:4908-4911 `contains(point)`. -/
def BB.has (o : MOps F) (b : BB F) (p : V3 F) : Bool := within o b.min b.max p

/-- conduit_blueprint_mesh_partition.cpp:4857-4875: `operator+` and `operator-` with a scalar. -/
def V3.plus (o : MOps F) (p : V3 F) (t : F) : V3 F := ⟨o.add p.a t, o.add p.b t, o.add p.c t⟩
def V3.minus (o : MOps F) (p : V3 F) (t : F) : V3 F := ⟨o.sub p.a t, o.sub p.b t, o.sub p.c t⟩

/-- conduit_blueprint_mesh_partition.cpp:4913-4916 `contains(point, tolerance)`. -/
def BB.near (o : MOps F) (b : BB F) (p : V3 F) (t : F) : Bool := within o (b.min.minus o t) (b.max.plus o t) p

/-- conduit_blueprint_mesh_partition.cpp:4918-4925 `expand`. -/
def BB.expand (o : MOps F) (b : BB F) (p : V3 F) : BB F :=
  ⟨⟨minF o b.min.a p.a, minF o b.min.b p.b, minF o b.min.c p.c⟩, ⟨maxF o b.max.a p.a, maxF o b.max.b p.b, maxF o b.max.c p.c⟩⟩

/-- conduit_blueprint_mesh_partition.cpp:5052-5070: the box of a new node. -/
def BB.none (o : MOps F) : BB F :=
  ⟨⟨o.maxLim true, o.maxLim true, o.maxLim true⟩, ⟨o.lowest true, o.lowest true, o.lowest true⟩⟩

/-- conduit_blueprint_mesh_partition.cpp:4877-4887 `p.distance2(q)`. -/
def dist2 (o : MOps F) (p q : V3 F) : F :=
  let sq x := o.mul x x
  o.add (o.add (o.add o.arith.zero (sq (o.sub q.a p.a))) (sq (o.sub q.b p.b))) (sq (o.sub q.c p.c))

/-- conduit_blueprint_mesh_partition.cpp:4967-4979 `kdnode`: without children it has points and their data, with children none. -/
inductive KTree (F : Type) where
  | leaf (bb : BB F) (pts : List (V3 F × Nat))
  | node (bb : BB F) (dim : Nat) (split : F) (left right : KTree F)
deriving Repr

def KTree.bb : KTree F → BB F
  | .leaf b _ => b
  | .node b _ _ _ _ => b

/-- conduit_blueprint_mesh_partition.cpp:5173-5241 `find_point(node, ...)`. -/
def KTree.find (o : MOps F) (p : V3 F) (tol : F) : KTree F → Option Nat
  | .leaf _ pts => (pts.find? fun q => o.le (dist2 o p q.1) (o.mul tol tol)).map (·.2)
  | .node _ _ _ l r =>
    let left := l.bb.near o p tol
    let right := r.bb.near o p tol
    if left && right then
      if l.bb.has o p then (match l.find o p tol with | some i => some i | none => r.find o p tol)
      else (match r.find o p tol with | some i => some i | none => l.find o p tol)
    else if left then l.find o p tol
    else if right then r.find o p tol
    else none

/-- conduit_blueprint_mesh_partition.cpp:5080-5085 `node_add_data`. -/
def leafAdd (o : MOps F) (l : BB F × List (V3 F × Nat)) (q : V3 F × Nat) : BB F × List (V3 F × Nat) :=
  (l.1.expand o q.1, l.2 ++ [q])

/-- conduit_blueprint_mesh_partition.cpp:5093-5106: the longest side of the box. -/
def longest (o : MOps F) (b : BB F) : Nat :=
  ((List.range 3).foldl (fun (s : F × Nat) i =>
    let len := o.sub (b.max.at i) (b.min.at i)
    if o.lt s.1 len then (len, i) else s) (o.lowest true, 0)).2

/-- conduit_blueprint_mesh_partition.cpp:5108-5128: the value to split at.  Equal values may be sorted in any order: that makes
    no difference to the values.  Simplification: with fewer than two points the indices would be outside; the buckets have 32. -/
def medianOf (o : MOps F) (pts : List (V3 F × Nat)) (dim : Nat) (p : V3 F) : F :=
  let s := sortBy o.lt (pts.map fun q => q.1.at dim)
  let m := s.getD (s.length / 2) o.arith.zero
  if o.lt (s.getD (s.length / 2 - 1) o.arith.zero) (p.at dim) && o.lt (p.at dim) m then p.at dim else m

/-- conduit_blueprint_mesh_partition.cpp:5090-5171 `node_split`; `bb` has the new point already. -/
def splitLeaf (o : MOps F) (bb : BB F) (pts : List (V3 F × Nat)) (q : V3 F × Nat) : KTree F :=
  let dim := longest o bb
  let m := medianOf o pts dim q.1
  let lr := (pts ++ [q]).foldl (fun (s : (BB F × List (V3 F × Nat)) × (BB F × List (V3 F × Nat))) x =>
    if o.lt (x.1.at dim) m then (leafAdd o s.1 x, s.2) else (s.1, leafAdd o s.2 x)) ((BB.none o, []), (BB.none o, []))
  .node bb dim m (.leaf lr.1.1 lr.1.2) (.leaf lr.2.1 lr.2.2)

/-- conduit_blueprint_mesh_partition.cpp:5243-5282 `insert(node, ...)`; `bucket` is `point_vec_size`. -/
def KTree.insert (o : MOps F) (bucket : Nat) (q : V3 F × Nat) : KTree F → KTree F
  | .leaf bb pts =>
    if pts.length = bucket then splitLeaf o (bb.expand o q.1) pts q else .leaf ((bb.expand o q.1).expand o q.1) (pts ++ [q])
  | .node bb dim split l r =>
    if o.lt (q.1.at dim) split then .node (bb.expand o q.1) dim split (l.insert o bucket q) r
    else .node (bb.expand o q.1) dim split l (r.insert o bucket q)

/-- conduit_blueprint_mesh_partition.cpp:4996-5008 `find_point`. -/
def findPoint (o : MOps F) (t : Option (KTree F)) (p : V3 F) (tol : F) : Option Nat :=
  match t with
  | none => none
  | some t => if t.bb.near o p tol then t.find o p tol else none

/-- conduit_blueprint_mesh_partition.cpp:5010-5022 `insert`. -/
def insertPoint (o : MOps F) (bucket : Nat) (t : Option (KTree F)) (q : V3 F × Nat) : KTree F :=
  match t with
  | none => let l := leafAdd o (BB.none o, []) q; .leaf l.1 l.2
  | some t => t.insert o bucket q

/-! ### the coordsets -/

/-- conduit_blueprint_mesh_partition.cpp:4681-4687 `coord_system`. -/
inductive Sys where
  | cartesian | cylindrical | spherical | logical
deriving DecidableEq, Repr

/-- conduit_blueprint_mesh_partition.cpp:5578-5596. -/
def sysOf (s : Str) : Sys :=
  if s = chars! "cylindrical" then .cylindrical
  else if s = chars! "spherical" then .spherical
  else if s = chars! "logical" then .logical
  else .cartesian

/-- conduit_blueprint_mesh_partition.cpp:6172-6193 `get_axes_for_system`. -/
def Sys.axes : Sys → List Str
  | .cartesian => cartesianAxes
  | .cylindrical => cylindricalAxes
  | .spherical => sphericalAxes
  | .logical => logicalAxes

/-- conduit_blueprint_mesh_partition.cpp:6114-6168 `translate_system`. -/
def translate (o : MOps F) (inS outS : Sys) (p : V3 F) : V3 F :=
  match outS with
  | .cartesian | .logical | .cylindrical => if inS = .spherical then o.rtpToXyz p else p
  | .spherical => if inS = .cylindrical ∨ inS = .cartesian then o.xyzToRtp p else p

/-- `as_float64_accessor()` of an array of numbers, read from its first to its last element.
    Simplification: anything else is an error. -/
def floats (o : MOps F) : BNode F → Res (List F)
  | .ints _ l => .ok (l.map o.arith.ofInt)
  | .flts _ l => .ok l
  | _ => .error

/-- Element `i` of a coordinate array, or 0 if there is no such array (conduit_blueprint_mesh_partition.cpp:5880-5920). -/
def coordAt (o : MOps F) (l : Option (List F)) (i : Nat) : Res F :=
  match l with
  | none => .ok o.arith.zero
  | some l => match l[i]? with | some v => .ok v | none => .ub

/-- `fetch_ptr(name)` and the values of the array, if there is one. -/
def axisValues (o : MOps F) (v : BNode F) (name : Option Str) : Res (Option (List F)) :=
  match name with
  | none => .ok none
  | some name =>
    match v.get name with
    | .ok c => (floats o c).map' some
    | _ => .ok none

/-- conduit_blueprint_mesh_partition.cpp:5851-5875: the names looked for. -/
def axisNames (v : BNode F) : List Str :=
  if v.hasChild (chars! "x") then [chars! "x", chars! "y", chars! "z"]
  else if v.hasChild (chars! "z") then [chars! "z", chars! "r"]
  else if v.hasChild (chars! "r") then [chars! "r", chars! "theta", chars! "phi"]
  else [chars! "i", chars! "j", chars! "k"]

/-- conduit_blueprint_mesh_partition.cpp:5877-5924: without a second array a third is not read. -/
def pointsOf (o : MOps F) (xs : Option (List F)) (ys zs : Option (List F)) : Res (List (V3 F)) :=
  match xs with
  | none => .error
  | some x =>
    let zs := if ys.isSome then zs else none
    (List.range x.length).mapM fun i => do
      let a ← coordAt o (some x) i
      let b ← coordAt o ys i
      let c ← coordAt o zs i
      .ok ⟨a, b, c⟩

/-- conduit_blueprint_mesh_partition.cpp:5830-5924 `iterate_coordinates`: the points it goes through. -/
def iterate (o : MOps F) (cset : BNode F) : Res (List (V3 F)) := do
  let ty ← (← cset.get (chars! "type")).asString
  if ty ≠ chars! "explicit" then .error else do
  let v ← cset.get (chars! "values")
  let ns := axisNames v
  let x ← axisValues o v ns[0]?
  let y ← axisValues o v ns[1]?
  let z ← axisValues o v ns[2]?
  pointsOf o x y z

/-- conduit_blueprint_mesh_utils.cpp:1420-1437 `typed_minmax`.  Any node that holds no number leaves the two values as they were:
    not set. -/
def minMax (o : MOps F) : BNode F → Res (F × F)
  | .ints t l =>
    let m := l.foldl (fun (s : Int × Int) v => (if v < s.1 then v else s.1, if s.2 < v then v else s.2)) (t.maxVal, t.minVal)
    .ok (o.arith.ofInt m.1, o.arith.ofInt m.2)
  | .flts w l => .ok (l.foldl (fun s v => (minF o s.1 v, maxF o s.2 v)) (o.maxLim w, o.lowest w))
  | _ => .ub

/-- conduit_blueprint_mesh_utils.cpp:1453-1471: the origin is read as an integer. -/
def uniformExtent (o : MOps F) (n : BNode F) (i : Nat) (a : Str) : Res (F × F) := do
  let dim ← dimLen o.arith n i
  let org ← (match n.get (chars! "origin") with
    | .ok v => (match v.get a with | .ok v => v.toInt64 o.arith | _ => .ok 0)
    | _ => .ok 0)
  let sp ← (match n.get (chars! "spacing") with
    | .ok v => (match v.get ('d' :: a) with | .ok v => v.toF64 o.arith | _ => .ok o.arith.one)
    | _ => .ok o.arith.one)
  let lo := o.arith.ofInt org
  let hi := o.arith.lin lo (dim - 1) sp
  .ok (if o.lt sp o.arith.zero then (hi, lo) else (lo, hi))

/-- conduit_blueprint_mesh_utils.cpp:1440-1515 `coordset::extents`: the two values of each axis. -/
def extents (o : MOps F) (n : BNode F) : Res (List (F × F)) := do
  let ty ← (← n.get (chars! "type")).asString
  let as ← axes n
  forNames (fun i a =>
    if ty = chars! "uniform" then uniformExtent o n i a
    else do minMax o (← (← n.get (chars! "values")).get a)) 0 as

/-- conduit_blueprint_mesh_partition.cpp:5662-5675: do the boxes overlap; axes that are missing have the extent 0 to 0. -/
def overlap (o : MOps F) (e f : List (F × F)) : Bool :=
  (List.range 3).all fun i =>
    let x := e.getD i (o.arith.zero, o.arith.zero)
    let y := f.getD i (o.arith.zero, o.arith.zero)
    o.le y.1 x.2 && o.le x.1 y.2

/-- conduit_blueprint_mesh_partition.cpp:5660-5701 `examine_extents`: is any pair counted. -/
def anyOverlap (o : MOps F) : List (List (F × F)) → Bool
  | [] => false
  | e :: es => es.any (fun f => overlap o e f || overlap o f e) || anyOverlap o es

/-- What is known of a coordset before merging. -/
structure Work (F : Type) where
  dims : Nat
  ext : List (F × F)
  sys : Sys
  cset : BNode F

/-- conduit_blueprint_mesh_partition.cpp:5571-5611. -/
def prepare (o : MOps F) (cset : BNode F) : Res (Work F) := do
  let ty ← (← cset.get (chars! "type")).asString
  let as ← axes cset
  let e ← extents o cset
  let s ← coordsys cset
  let w ← if ty = chars! "uniform" then toExplicit o.arith .uniform cset
    else if ty = chars! "rectilinear" then toExplicit o.arith .rectilinear cset
    else .ok cset
  .ok ⟨as.length, e, sysOf s, w⟩

/-- conduit_blueprint_mesh_partition.cpp:5616-5634: the coordinate system of the result. -/
def outSystem (ss : List Sys) : Option Sys :=
  if ss.contains .cartesian || (ss.contains .cylindrical && ss.contains .spherical) then some .cartesian
  else if ss.contains .spherical then some .spherical
  else if ss.contains .cylindrical then some .cylindrical
  else none

/-- The points of a coordset, in the coordinate system `out` if they are not already, and are not logical
    (conduit_blueprint_mesh_partition.cpp:5719-5740, 6069-6085). -/
def inSystem (o : MOps F) (out : Sys) (w : Work F) : Res (List (V3 F)) := do
  let ps ← iterate o w.cset
  .ok (if w.sys ≠ out ∧ w.sys ≠ .logical then ps.map (translate o w.sys out) else ps)

/-- `p[d]` for the dimensions of the result. -/
def row (dim : Nat) (p : V3 F) : List F := [p.a, p.b, p.c].take dim

/-- The new coordinates (a list for each point) and the tree. -/
structure MState (F : Type) where
  rows : List (List F)
  tree : Option (KTree F)

/-- conduit_blueprint_mesh_partition.cpp:6045-6067: a point is merged. -/
def mergePoint (o : MOps F) (tol : F) (bucket dim : Nat) (s : MState F) (p : V3 F) : Nat × MState F :=
  match findPoint o s.tree p tol with
  | some i => (i, s)
  | none => (s.rows.length, ⟨s.rows ++ [row dim p], some (insertPoint o bucket s.tree (p, s.rows.length))⟩)

/-- The points of a coordset: their new numbers. -/
def mergeSet (o : MOps F) (tol : F) (bucket dim : Nat) : MState F → List (V3 F) → List Nat × MState F
  | s, [] => ([], s)
  | s, p :: ps =>
    let r := mergePoint o tol bucket dim s p
    let rs := mergeSet o tol bucket dim r.2 ps
    (r.1 :: rs.1, rs.2)

/-- conduit_blueprint_mesh_partition.cpp:6031-6092 `spatial_search_merge`. -/
def mergeSets (o : MOps F) (tol : F) (bucket dim : Nat) : MState F → List (List (V3 F)) → List (List Nat) × MState F
  | s, [] => ([], s)
  | s, ps :: pss =>
    let r := mergeSet o tol bucket dim s ps
    let rs := mergeSets o tol bucket dim r.2 pss
    (r.1 :: rs.1, rs.2)

/-- conduit_blueprint_mesh_partition.cpp:5704-5740 `append_data`. -/
def appendSets (dim : Nat) : List (List F) → List (List (V3 F)) → List (List Nat) × List (List F)
  | rows, [] => ([], rows)
  | rows, ps :: pss =>
    let rs := appendSets dim (rows ++ ps.map (row dim)) pss
    (((List.range ps.length).map fun k => rows.length + k) :: rs.1, rs.2)

/-- conduit_blueprint_mesh_partition.cpp:5757-5826 `create_output`. -/
def createOutput (o : MOps F) (out : Sys) (dim : Nat) (ids : List (List Nat)) (rows : List (List F)) : BNode F :=
  .obj [(chars! "type", .str (chars! "explicit")),
    (chars! "values", .obj ((List.range dim).map fun d =>
      (out.axes.getD d [], .flts true (rows.map fun r => r.getD d o.arith.zero)))),
    (chars! "pointmaps", .list (ids.map fun l => .ints int64 (l.map fun i : Nat => (i : Int))))]

/-- conduit_blueprint_mesh_partition.cpp:5537-5657 `point_merge::execute`; `none`: the output is left as it was.
    Simplification: no pointer is null. -/
def execute (o : MOps F) (bucket : Nat) (tol : F) (csets : List (BNode F)) : Res (Option (BNode F)) :=
  match csets with
  | [] => .ok none
  | [c] => .ok (some (.obj [(chars! "coordsets", .obj [(chars! "coords", c)])]))
  | _ => do
    let ws ← (csets.filter fun c => c.hasChild (chars! "type")).mapM (prepare o)
    let dim := (ws.map (·.dims)).foldl max 0
    match outSystem (ws.map (·.sys)) with
    | none => .ok none
    | some out =>
      if anyOverlap o (ws.map (·.ext)) then do
        let pss ← ws.mapM (inSystem o .cartesian)
        let r := mergeSets o tol bucket dim ⟨[], none⟩ pss
        .ok (some (createOutput o out dim r.1 r.2.rows))
      else do
        let pss ← ws.mapM (inSystem o out)
        let r := appendSets dim [] pss
        .ok (some (createOutput o out dim r.1 r.2))

end Conduit.Merge
