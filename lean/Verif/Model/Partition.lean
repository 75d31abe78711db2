import Verif.Model.MeshConvert
import Verif.Model.TopoMeta
/-
The partitioner up to the plan: which elements of which input domains go to which output domain.
Selections, their initialization from the options, their splitting towards the target number of
domains and the mapping of the resulting chunks to domains, without MPI.
Source: /repo/src/libs/blueprint/conduit_blueprint_mesh_partition.cpp, conduit_blueprint_mesh_partition.hpp,
conduit_blueprint_mesh_utils.cpp, conduit_blueprint_mesh.cpp
Simplifications throughout: `index_t` is an unbounded `Int` where numbers are added and multiplied;
`int` counters (domain ids) do not overflow.
-/
namespace Conduit.Part
open Conduit.Mesh
open Conduit.Mesh.Meta (topoLength)
variable {F : Type}

/-- `catch(conduit::Error &)` with a default. -/
def caught {α : Type} (r : Res α) (d : α) : Res α :=
  match r with
  | .error => .ok d
  | r => r

/-! ### reading numbers -/

/-- conduit_blueprint_mesh_partition.cpp:91-115 `get_index_t`; `none` is `ok = false`. -/
def getIndex : BNode F → Res (Option Int)
  | .ints _ (v :: _) => .ok (some (int64.cast v))
  | .ints _ [] => .ub
  | _ => .ok none

/-- conduit_blueprint_mesh_partition.cpp:117-126 `as_index_t`, the bits then read as `index_t`.
    Simplification: `(uint64) x` of a negative floating point number is taken as its bits. -/
def asIndices (A : Arith F) : BNode F → Res (List Int)
  | .ints _ l => .ok (l.map int64.cast)
  | .flts _ l => .ok (l.map A.trunc)
  | _ => .error

/-- `dtype().is_number()` -/
def isNumber : BNode F → Bool
  | .ints _ _ => true
  | .flts _ _ => true
  | _ => false

/-! ### the shape of a topology -/

/-- Three numbers, one for each logical axis. -/
structure I3 where
  i : Int
  j : Int
  k : Int
deriving DecidableEq, Repr

/-- `d[n] = v` -/
def I3.set (d : I3) (n : Nat) (v : Int) : I3 :=
  match n with
  | 0 => { d with i := v }
  | 1 => { d with j := v }
  | _ => { d with k := v }

/-- conduit_blueprint_mesh_utils.cpp:363-392 `find_reference_node(topo, "coordset")` within a domain. -/
def coordsetOf (mesh topo : BNode F) : Res (Option (BNode F)) :=
  if topo.hasChild (chars! "coordset") then do
    let name ← (← topo.get (chars! "coordset")).asString
    if mesh.hasChild (chars! "coordsets") then do
      let cs ← mesh.get (chars! "coordsets")
      if cs.hasChild name then do .ok (some (← cs.get name)) else .ok none
    else .ok none
  else .ok none

/-- conduit_blueprint_mesh_utils.cpp:1638-1643, 1404-1411: the number of points along axis `n`. -/
def axisPoints (A : Arith F) (cset : BNode F) (uniform : Bool) (n : Nat) (axis : Str) : Res Int :=
  if uniform then do
    (← (← cset.get (chars! "dims")).get (logicalAxes.getD n [])).toInt64 A
  else do
    .ok ((← (← cset.get (chars! "values")).get axis).numElements : Int)

/-- conduit_blueprint_mesh_utils.cpp:1636-1643 and 1402-1413: the loop over the axes. -/
def axesLoop (A : Arith F) (cset : BNode F) (uniform : Bool) (less : Int) : Nat → List Str → I3 → Res I3
  | _, [], d => .ok d
  | n, a :: as, d => do
    let v ← axisPoints A cset uniform n a
    axesLoop A cset uniform less (n + 1) as (d.set n (v - less))

/-- conduit_blueprint_mesh_utils.cpp:1388-1418 `coordset::logical_dims`. -/
def coordDims (A : Arith F) (cset : BNode F) : Res I3 := do
  let as ← axes cset
  let ty ← (← cset.get (chars! "type")).asString
  if ty = chars! "uniform" ∨ ty = chars! "rectilinear" then
    axesLoop A cset (decide (ty = chars! "uniform")) 0 0 as ⟨1, 1, 1⟩
  else match as with
    | [] => .ub
    | a :: _ => do .ok ⟨((← (← cset.get (chars! "values")).get a).numElements : Int), 1, 1⟩

/-- conduit_blueprint_mesh_utils.cpp:1649-1660: the loop over the dims of a structured topology. -/
def dimsLoop (A : Arith F) : List (Str × BNode F) → I3 → Res I3
  | [], d => .ok d
  | (name, v) :: rest, d =>
    match logicalAxes.findIdx? (· == name) with
    | some n => do
      let x ← v.toInt64 A
      dimsLoop A rest (d.set n (max 1 x))
    | none => dimsLoop A rest d

/-- conduit_blueprint_mesh_utils.cpp:1626-1714 `topology::logical_dims`.  A missing coordset is a null pointer.
    Simplification: stream topologies are left out. -/
def logicalDims (A : Arith F) (mesh topo : BNode F) : Res I3 := do
  let ty ← (← topo.get (chars! "type")).asString
  if ty = chars! "uniform" ∨ ty = chars! "rectilinear" then do
    match ← coordsetOf mesh topo with
    | none => .ub
    | some cset => do
      let as ← axes cset
      axesLoop A cset (decide (ty = chars! "uniform")) 1 0 as ⟨1, 1, 1⟩
  else if ty = chars! "structured" then do
    let dims ← (← topo.get (chars! "elements")).get (chars! "dims")
    dimsLoop A dims.kids ⟨1, 1, 1⟩
  else if ty = chars! "points" then do
    match ← coordsetOf mesh topo with
    | none => .error
    | some cset => coordDims A cset
  else do
    let n ← topoLength topo
    .ok ⟨(n : Int), 1, 1⟩

/-- conduit_blueprint_mesh_utils.cpp:1718-1723 `topology::length`. -/
def length (A : Arith F) (mesh topo : BNode F) : Res Int := do
  let d ← logicalDims A mesh topo
  .ok (d.i * d.j * d.k)

/-! ### selections -/

/-- conduit_blueprint_mesh_partition.cpp:341-412, 672-737, 940-987, 1246-1333: the data of the four kinds of selection.
    The ranges are kept as pairs.  A field selection has its value once it is split. -/
inductive Kind where
  | logical (start stop : I3)
  | explicit (ids : List Int)
  | ranges (r : List (Int × Int))
  | field (name : Str) (value : Option Int) (ranks : Option (List Int))
deriving DecidableEq, Repr

/-- conduit_blueprint_mesh_partition.hpp:45-200 `Selection`: `whole` is undetermined as `none`. -/
structure Sel where
  whole : Option Bool
  domain : Int
  topology : Str
  any : Bool
  kind : Kind
deriving DecidableEq, Repr

/-- conduit_blueprint_mesh_partition.cpp:293-309 `selected_topology`: name and node. -/
def selected (s : Sel) (mesh : BNode F) : Res (Str × BNode F) :=
  if mesh.hasChild (chars! "topologies") then do
    let ts ← mesh.get (chars! "topologies")
    if s.topology = [] then
      match ts.kids with
      | t :: _ => .ok t
      | [] => .ub
    else if ts.hasChild s.topology then do .ok (s.topology, ← ts.get s.topology)
    else .error
  else .error

/-- conduit_blueprint_mesh_partition.cpp:401-404 `cells_for_axis`. -/
def cells (start stop : Int) : Int := stop - start + 1

/-- conduit_blueprint_mesh_partition.cpp:1048-1061: the length of the ranges. -/
def rangesLength (r : List (Int × Int)) : Int := (r.map fun p => p.2 - p.1 + 1).sum

/-- conduit_blueprint_mesh_partition.cpp:1410-1438 `const_applicable` of a field selection. -/
def fieldApplies (s : Sel) (name : Str) (mesh : BNode F) : Res Bool := do
  let fields ← mesh.get (chars! "fields")
  if fields.hasChild name then do
    let f ← fields.get name
    if f.hasChild (chars! "association") ∧ f.hasChild (chars! "topology") then do
      let t ← selected s mesh
      let ft ← (← f.get (chars! "topology")).asString
      if t.1 ≠ ft then .ok false
      else do
        let a ← (← f.get (chars! "association")).asString
        .ok (decide (a = chars! "element"))
    else .ok false
  else .ok false

/-- conduit_blueprint_mesh_partition.cpp:1459-1463, 1519-1522: the values of the field. -/
def fieldValues (A : Arith F) (name : Str) (mesh : BNode F) : Res (List Int) := do
  asIndices A (← (← (← mesh.get (chars! "fields")).get name).get (chars! "values"))

/-- `length` of the four kinds: conduit_blueprint_mesh_partition.cpp:353-358, 700-704, 1048-1061, 1448-1476. -/
def selLength (A : Arith F) (s : Sel) (mesh : BNode F) : Res Int :=
  match s.kind with
  | .logical a b => .ok (cells a.i b.i * cells a.j b.j * cells a.k b.k)
  | .explicit ids => .ok (ids.length : Int)
  | .ranges r => .ok (rangesLength r)
  | .field name value _ => do
    let fields ← mesh.get (chars! "fields")
    if ← fieldApplies s name mesh then
      match value with
      | some v => do .ok ((← fieldValues A name mesh).countP (· == v) : Int)
      | none => do .ok ((← (← fields.get name).get (chars! "values")).numElements : Int)
    else .ok 0

/-- `for(index_t i = a; i <= b; i++)` -/
def upTo (a b : Int) : List Int := (List.range (b - a + 1).toNat).map fun n : Nat => a + (n : Int)

/-- conduit_blueprint_mesh_partition.cpp:650-659: the loops over a box. -/
def boxIds (dims start stop : I3) : List Int :=
  (upTo start.k stop.k).flatMap fun k => (upTo start.j stop.j).flatMap fun j => (upTo start.i stop.i).map fun i =>
    k * (dims.i * dims.j) + j * dims.i + i

/-- The positions of a value, conduit_blueprint_mesh_partition.cpp:1620-1625. -/
def positionsOf (v : Int) (vals : List Int) : List Int :=
  ((List.range vals.length).filter fun n => vals[n]? == some v).map fun n : Nat => (n : Int)

/-- `get_element_ids` of the four kinds: conduit_blueprint_mesh_partition.cpp:640-664, 892-914, 1194-1218, 1606-1627. -/
def elementIds (A : Arith F) (s : Sel) (mesh : BNode F) : Res (List Int) :=
  match s.kind with
  | .logical a b => caught (do
      let t ← selected s mesh
      let d ← logicalDims A mesh t.2
      .ok (boxIds d a b)) []
  | .explicit ids => caught (do
      let t ← selected s mesh
      let n ← length A mesh t.2
      .ok (ids.filter fun e => decide (e < n))) []
  | .ranges r => caught (do
      let t ← selected s mesh
      let n ← length A mesh t.2
      .ok ((r.flatMap fun p => upTo p.1 p.2).filter fun e => decide (e < n))) []
  | .field name value _ => do
    if ← fieldApplies s name mesh then do
      .ok (positionsOf (value.getD 0) (← fieldValues A name mesh))
    else .ok []

/-- conduit_blueprint_mesh_partition.cpp:562-595 and its like: a part of a selection. -/
def part (s : Sel) (k : Kind) : Sel := { whole := some false, domain := s.domain, topology := s.topology, any := false, kind := k }

/-- conduit_blueprint_mesh_partition.cpp:552-557: the longest axis. -/
def longest (a b : I3) : Nat :=
  let la := if cells a.j b.j > cells a.i b.i then 1 else 0
  let n := if la = 1 then cells a.j b.j else cells a.i b.i
  if cells a.k b.k > n then 2 else la

/-- conduit_blueprint_mesh_partition.cpp:546-600 `SelectionLogical::partition`. -/
def splitLogical (a b : I3) : List Kind :=
  if cells a.i b.i * cells a.j b.j * cells a.k b.k > 1 then
    match longest a b with
    | 0 =>
      let h := Int.tdiv (cells a.i b.i) 2
      [.logical a ⟨a.i + h - 1, b.j, b.k⟩, .logical ⟨a.i + h, a.j, a.k⟩ b]
    | 1 =>
      let h := Int.tdiv (cells a.j b.j) 2
      [.logical a ⟨b.i, a.j + h - 1, b.k⟩, .logical ⟨a.i, a.j + h, a.k⟩ b]
    | _ =>
      let h := Int.tdiv (cells a.k b.k) 2
      [.logical a ⟨b.i, b.j, a.k + h - 1⟩, .logical ⟨a.i, a.j, a.k + h⟩ b]
  else []

/-- conduit_blueprint_mesh_partition.cpp:1119-1133: the range to split, from the half still to come. -/
def splitIndex (half : Int) : Nat → Int → List (Int × Int) → Nat
  | _, _, [] => 0
  | i, count, p :: rest =>
    let rc := p.2 - p.1 + 1
    if count + rc > half then i else splitIndex half (i + 1) (count + rc) rest

/-- conduit_blueprint_mesh_partition.cpp:1143-1169: the two parts of the range that is split. -/
def cutRange (p : Int × Int) : List (Int × Int) × List (Int × Int) :=
  let rc := p.2 - p.1 + 1
  if rc = 1 then ([(p.1, p.1)], [])
  else if rc = 2 then ([(p.1, p.1)], [(p.2, p.2)])
  else
    let h := Int.tdiv rc 2
    ([(p.1, p.1 + h)], [(p.1 + h + 1, p.2)])

/-- conduit_blueprint_mesh_partition.cpp:1113-1191 `SelectionRanges::partition`. -/
def splitRanges (r : List (Int × Int)) : List Kind :=
  let at_ := splitIndex (Int.tdiv (rangesLength r) 2) 0 0 r
  match r[at_]? with
  | none => [.ranges [], .ranges []]
  | some p => [.ranges (r.take at_ ++ (cutRange p).1), .ranges ((cutRange p).2 ++ r.drop (at_ + 1))]

/-- `std::set<index_t>::insert` -/
def insertNew (v : Int) : List Int → List Int
  | [] => [v]
  | a :: l => if v < a then v :: a :: l else if v = a then a :: l else a :: insertNew v l

/-- The different values in ascending order: `std::set<index_t>`. -/
def unique (l : List Int) : List Int := l.foldr insertNew []

/-- `partition` of the four kinds: conduit_blueprint_mesh_partition.cpp:546-600, 839-887, 1113-1191, 1503-1574. -/
def split (A : Arith F) (s : Sel) (mesh : BNode F) : Res (List Sel) :=
  match s.kind with
  | .logical a b => .ok ((splitLogical a b).map (part s))
  | .explicit ids => do
    let n ← caught (do
      let t ← selected s mesh
      length A mesh t.2) 0
    let h := ids.length / 2
    .ok [part s (.explicit ((ids.take h).filter fun e => decide (e < n))),
         part s (.explicit ((ids.drop h).filter fun e => decide (e < n)))]
  | .ranges r => .ok ((splitRanges r).map (part s))
  | .field name value ranks => do
    if ← fieldApplies s name mesh then
      match value with
      | none => do
        let vals ← fieldValues A name mesh
        .ok ((unique vals).map fun v => part s (.field name (some v) ranks))
      | some _ => do
        let ids ← elementIds A s mesh
        let h := ids.length / 2
        .ok [part s (.explicit (ids.take h)), part s (.explicit (ids.drop h))]
    else .ok []

/-- conduit_blueprint_mesh_partition.hpp:55, .cpp:1577-1582 `get_destination_domain`; -1 is `FREE_DOMAIN_ID`. -/
def destDomain (s : Sel) : Int :=
  match s.kind with
  | .field _ (some v) _ => int32.cast v
  | _ => -1

/-- conduit_blueprint_mesh_partition.cpp:1585-1602 `get_destination_rank`; -1 is `FREE_RANK_ID`. -/
def destRank (s : Sel) : Res Int :=
  match s.kind with
  | .field _ (some v) (some ranks) =>
    if ranks.length = 0 then .ok (-1)
    else (pick ranks (Int.tmod v ranks.length)).map' int32.cast
  | _ => .ok (-1)

/-- `determine_is_whole` of the four kinds: conduit_blueprint_mesh_partition.cpp:520-538, 800-834, 1070-1107, 1479-1496. -/
def isWhole (A : Arith F) (s : Sel) (mesh : BNode F) : Res Bool :=
  let count := do
    let t ← selected s mesh
    length A mesh t.2
  match s.kind with
  | .explicit ids => caught (do
      let n ← count
      if (ids.length : Int) = n then
        .ok (decide (((unique ids).length : Int) = n) && (List.range (ids.length - 1)).all fun m => decide (ids.getD m 0 < ids.getD (m + 1) 0))
      else .ok false) false
  | .ranges r => do
    let n ← caught count 0
    match r with
    | [p] => .ok (decide (p.1 = 0) && decide (min p.2 (n - 1) = n - 1))
    | _ => .ok (decide (((unique (r.flatMap fun p => upTo p.1 (min p.2 (n - 1)))).length : Int) = n))
  | _ => caught (do
      let n ← count
      .ok (decide (n = (← selLength A s mesh)))) false

/-- conduit_blueprint_mesh_partition.cpp:180-189 `get_whole`. -/
def getWhole (A : Arith F) (s : Sel) (mesh : BNode F) : Res Bool :=
  match s.whole with
  | some w => .ok w
  | none => isWhole A s mesh

/-! ### initialization -/

/-- conduit_blueprint_mesh_partition.cpp:249-290 `Selection::init`: domain, whether any, topology; `none` is `false`. -/
def initBase (opts : BNode F) (supportsAny : Bool) : Res (Option (Int × Bool × Str)) := caught (do
  let d ← (if opts.hasChild (chars! "domain_id") then do
      let n ← opts.get (chars! "domain_id")
      match n with
      | .str x => .ok (if x = chars! "any" ∧ supportsAny then some (0, true) else none)
      | _ => do .ok (some (((← getIndex n).getD 0), false))
    else .ok (some (0, false)))
  let t ← (if opts.hasChild (chars! "topology") then do (← opts.get (chars! "topology")).asString else .ok [])
  .ok (d.map fun p => (p.1, p.2, t))) none

/-- Three numbers of an array. -/
def three : List Int → Option I3
  | [a, b, c] => some ⟨a, b, c⟩
  | _ => none

/-- The pairs of an array; `none` if the number of elements is odd. -/
def pairs : List Int → Option (List (Int × Int))
  | [] => some []
  | [_] => none
  | a :: b :: rest => (pairs rest).map ((a, b) :: ·)

/-- `init` of the four kinds: conduit_blueprint_mesh_partition.cpp:446-472, 767-788, 1017-1038, 1370-1404. -/
def initKind (A : Arith F) (opts : BNode F) (ty : Str) : Res (Option Kind) :=
  if ty = chars! "logical" then
    if opts.hasChild (chars! "start") ∧ opts.hasChild (chars! "end") then do
      let s ← asIndices A (← opts.get (chars! "start"))
      let e ← asIndices A (← opts.get (chars! "end"))
      .ok (match three s, three e with
        | some a, some b => some (.logical a b)
        | _, _ => none)
    else .ok none
  else if ty = chars! "explicit" then
    if opts.hasChild (chars! "elements") then do
      let n ← opts.get (chars! "elements")
      if isNumber n then do .ok (some (.explicit (← asIndices A n))) else .ok none
    else .ok none
  else if ty = chars! "ranges" then
    if opts.hasChild (chars! "ranges") then do
      let n ← opts.get (chars! "ranges")
      if isNumber n then do .ok ((pairs (← asIndices A n)).map .ranges) else .ok none
    else .ok none
  else if ty = chars! "field" then
    if opts.hasChild (chars! "field") then do
      let f ← (← opts.get (chars! "field")).asString
      match opts.get (chars! "destination_ranks") with
      | .ok (.ints _ l) =>
        if (l.map int64.cast).any fun v => decide (v < 0) then .error else .ok (some (.field f none (some l)))
      | _ => .ok (some (.field f none none))
    else .ok none
  else .error

/-- conduit_blueprint_mesh_partition.cpp:1879-1881: a selection from its options. -/
def initSel (A : Arith F) (opts : BNode F) (ty : Str) : Res (Option Sel) := do
  if ¬ (ty = chars! "logical" ∨ ty = chars! "explicit" ∨ ty = chars! "ranges" ∨ ty = chars! "field") then .error
  else
    match ← initBase opts (decide (ty = chars! "field")) with
    | none => .ok none
    | some (d, any, t) => do
      match ← initKind A opts ty with
      | none => .ok none
      | some k => .ok (some ⟨none, d, t, any, k⟩)

/-- conduit_blueprint_mesh_partition.cpp:489-494, 1752-1755: a coordset and topology that look structured. -/
def looksLogical (cset topo : BNode F) : Res Bool := do
  let ct ← (← cset.get (chars! "type")).asString
  if ct = chars! "uniform" ∨ ct = chars! "rectilinear" then .ok true
  else if ct = chars! "explicit" then do
    let tt ← (← topo.get (chars! "type")).asString
    .ok (decide (tt = chars! "structured"))
  else .ok false

/-- `applicable` of the four kinds: conduit_blueprint_mesh_partition.cpp:479-517, 794-797, 1043-1046, 1442-1445.
    The selection returned is the one clamped to the mesh. -/
def applicable (A : Arith F) (s : Sel) (mesh : BNode F) : Res (Option Sel) :=
  match s.kind with
  | .logical a b => caught (do
      let t ← selected s mesh
      let name ← (← t.2.get (chars! "coordset")).asString
      let cset ← (← mesh.get (chars! "coordsets")).get name
      if ← looksLogical cset t.2 then do
        let d ← logicalDims A mesh t.2
        if a.i < d.i ∧ a.j < d.j ∧ a.k < d.k then
          .ok (some { s with kind := .logical a ⟨min b.i (d.i - 1), min b.j (d.j - 1), min b.k (d.k - 1)⟩ })
        else .ok none
      else .ok none) none
  | .field name _ _ => do
    if ← fieldApplies s name mesh then .ok (some s) else .ok none
  | _ => .ok (some s)

/-- A domain of the mesh: its position, its id and its tree. -/
structure Dom (F : Type) where
  idx : Nat
  id : Int
  mesh : BNode F

/-- conduit_blueprint_mesh.cpp:1957-2039 `domains`. -/
def domains (mesh : BNode F) : List (BNode F) :=
  if mesh.hasChild (chars! "coordsets") then [mesh]
  else match mesh with
    | .obj ks => ks.map (·.2)
    | .list ks => ks
    | _ => []

/-- conduit_blueprint_mesh_partition.cpp:2022-2038 `get_global_domids`, one domain. -/
def domId (n : Nat) (d : BNode F) : Res Int :=
  match d.get (chars! "state") with
  | .ok st => match st.get (chars! "domain_id") with
    | .ok v => do .ok ((← getIndex v).getD n)
    | _ => .ok n
  | _ => .ok n

/-- conduit_blueprint_mesh_partition.cpp:1859-1861: the domains with their ids. -/
def domsOf (mesh : BNode F) : Res (List (Dom F)) :=
  ((domains mesh).zipIdx).mapM fun p => do .ok ⟨p.2, ← domId p.2 p.1, p.1⟩

/-- conduit_blueprint_mesh_partition.cpp:1885-1928: a selection against the domains. -/
def place (A : Arith F) (s : Sel) : List (Dom F) → Res (List (Sel × Dom F))
  | [] => .ok []
  | d :: rest =>
    if d.id = s.domain ∨ s.any then do
      match ← applicable A s d.mesh with
      | none => place A s rest
      | some s' => do
        let here ← (match s'.kind with
          | .field _ _ _ => do
            let ps ← split A (if s'.any then { s' with domain := d.id } else s') d.mesh
            .ok (ps.map fun p => (p, d))
          | _ => .ok [(s', d)])
        if s'.any then do
          let more ← place A { s' with domain := d.id } rest
          .ok (here ++ more)
        else .ok here
    else place A s rest

/-- conduit_blueprint_mesh_partition.cpp:1741-1801 `create_selection_all_elements`, with the id of its domain. -/
def allElements (A : Arith F) (d : Dom F) : Res Sel := do
  let ts ← d.mesh.get (chars! "topologies")
  match ts.kids with
  | [] => .ub
  | (tname, topo) :: _ => do
    let name ← (← topo.get (chars! "coordset")).asString
    let cset ← (← d.mesh.get (chars! "coordsets")).get name
    if ← looksLogical cset topo then do
      let e ← logicalDims A d.mesh topo
      .ok ⟨some true, d.id, tname, false, .logical ⟨0, 0, 0⟩
        ⟨if e.i > 0 then e.i - 1 else 0, if e.j > 0 then e.j - 1 else 0, if e.k > 0 then e.k - 1 else 0⟩⟩
    else do
      let n ← length A d.mesh topo
      .ok ⟨some true, d.id, tname, false, .ranges [(0, n - 1)]⟩

/-- conduit_blueprint_mesh_partition.cpp:1870-1942: the selections of the options; `none` is a return of false.
    What is raised within is caught. -/
def optionSels (A : Arith F) (doms : List (Dom F)) : List (BNode F) → Res (Option (List (Sel × Dom F)))
  | [] => .ok (some [])
  | o :: rest =>
    if o.hasChild (chars! "type") then do
      let here ← caught (do
        let ty ← (← o.get (chars! "type")).asString
        match ← initSel A o ty with
        | none => .ok none
        | some s => do .ok (some (← place A s doms))) none
      match here with
      | none => .ok none
      | some l => do
        match ← optionSels A doms rest with
        | none => .ok none
        | some more => .ok (some (l ++ more))
    else optionSels A doms rest

/-- conduit_blueprint_mesh_partition.cpp:2043-2063 `count_targets`. -/
def countTargets (dds : List Int) : Nat :=
  (dds.countP (· == -1)) + (unique (dds.filter (· != -1))).length

def uint32 : IntTy := ⟨false, .w32⟩

/-- conduit_blueprint_mesh_partition.cpp:1805-1851 `options_get_target`. -/
def optTarget (A : Arith F) (opts : BNode F) : Res (Option Nat) :=
  match opts.get (chars! "target") with
  | .ok (.ints _ (v :: _)) => .ok (some (uint32.cast (max 0 v)).toNat)
  | .ok (.flts _ (v :: _)) => .ok (some (uint32.cast (A.trunc v)).toNat)
  | .ok (.ints _ []) => .ub
  | .ok (.flts _ []) => .ub
  | _ => .ok none

/-- conduit_blueprint_mesh_partition.cpp:1855-2019 `initialize`: the selections and the target; `none` is a return of false.
    Simplification: the options that do not bear on the plan (fields, mapping, names, adjsets, tolerance) are left out. -/
def initPlan (A : Arith F) (mesh opts : BNode F) : Res (Option (List (Sel × Dom F) × Nat)) := do
  let doms ← domsOf mesh
  let sels ← (if opts.hasChild (chars! "selections") then do
      let l ← opts.get (chars! "selections")
      optionSels A doms (match l with | .obj ks => ks.map (·.2) | .list ks => ks | _ => [])
    else do
      .ok (some (← doms.mapM fun d => do .ok (← allElements A d, d))))
  match sels with
  | none => .ok none
  | some ss => do
    let t ← optTarget A opts
    .ok (some (ss, t.getD (countTargets (ss.map fun p => destDomain p.1))))

/-! ### splitting towards the target -/

/-- conduit_blueprint_mesh_partition.cpp:2067-2081 `get_largest_selection` from selection `n` on; `none` is index -1. -/
def largest : Nat → Int → Option Nat → List Int → Option Nat
  | _, _, best, [] => best
  | n, size, best, l :: rest => if l > size then largest (n + 1) l (some n) rest else largest (n + 1) size best rest

/-- conduit_blueprint_mesh_partition.cpp:2092-2150 `split_selections` of a single rank; `none` when the fuel runs out. -/
def splitAll (A : Arith F) (target : Nat) : Nat → List (Sel × Dom F) → Res (Option (List (Sel × Dom F)))
  | 0, _ => .ok none
  | fuel + 1, ss =>
    let nt := countTargets (ss.map fun p => destDomain p.1)
    if nt = 0 ∨ target ≤ nt then .ok (some ss)
    else do
      let lens ← ss.mapM fun p => selLength A p.1 p.2.mesh
      match largest 0 0 none lens with
      | none => .ub
      | some n =>
        match ss[n]? with
        | none => .ub
        | some (s, d) => do
          let ps ← split A s d.mesh
          splitAll A target fuel (if ps = [] then ss else ss.take n ++ ps.map (fun p => (p, d)) ++ ss.drop (n + 1))

/-! ### chunks and domains -/

/-- `while(reserved_dd.find(domid) != reserved_dd.end()) domid++;` the first argument bounds the number of turns. -/
def skip (reserved : List Int) : Nat → Int → Int
  | 0, d => d
  | fuel + 1, d => if reserved.contains d then skip reserved fuel (d + 1) else d

/-- conduit_blueprint_mesh_partition.cpp:4515-4517, 4540-4542, 4595-4597: the next free domain id. -/
def nextId (reserved : List Int) (d : Int) : Int := skip reserved (reserved.length + 1) d

/-- conduit_blueprint_mesh_partition.cpp:4528-4550: as many targets as wanted. -/
def numberAll : List Int → Int → List Int → List Int
  | _, _, [] => []
  | reserved, d, dd :: rest =>
    if dd = -1 then
      let d' := nextId reserved d
      d :: numberAll (d' :: reserved) d' rest
    else dd :: numberAll reserved d rest

/-- conduit_blueprint_mesh_partition.cpp:4573-4605: the loop that groups the chunks.  Chunks are size and destination. -/
def group : List Int → Int → (remaining perTarget remTarget running : Int) → List (Int × Int) → List Int
  | _, _, _, _, _, _, [] => []
  | reserved, d, remaining, per, remT, running, (size, dd) :: rest =>
    if dd = -1 then
      let chunksLeft : Int := rest.length
      let running' := running + size
      let remaining' := remaining - size
      if chunksLeft ≠ 0 ∧ (running' ≥ per ∨ chunksLeft = remT) then
        let d' := nextId reserved d
        d :: group (d' :: reserved) d' remaining' (Int.tdiv remaining' (max remT 1)) (remT - 1) 0 rest
      else d :: group reserved d remaining' per remT running' rest
    else dd :: group reserved d remaining per remT running rest

/-- conduit_blueprint_mesh_partition.cpp:4459-4627 `map_chunks`: the domain of every chunk.
    Simplification: the targets of the selections are counted from the chunks, which have the same destinations. -/
def mapChunks (target : Nat) (chunks : List (Int × Int)) : Res (List Int) :=
  let dds := chunks.map (·.2)
  let reserved := dds.filter (· != -1)
  let d := nextId reserved 0
  let n := countTargets dds
  let total := (chunks.map (·.1)).sum
  if n = target then .ok (numberAll (d :: reserved) d dds)
  else if n > target then
    .ok (group (d :: reserved) d total (Int.tdiv total (max (target : Int) 1)) (uint32.cast ((target : Int) - 1)) 0 chunks)
  else .error

/-- The number of elements of all topologies of a mesh, conduit_blueprint_mesh_partition.cpp:4483-4486. -/
def allLengths (A : Arith F) (mesh : BNode F) : Res Int := do
  let ts ← mesh.get (chars! "topologies")
  let l ← ts.kids.mapM fun t => length A mesh t.2
  .ok l.sum

/-- What is to be taken of an input domain, for an output domain: elements of its selected topology. -/
structure Piece where
  dom : Nat
  ids : List Int
deriving DecidableEq, Repr

/-- conduit_blueprint_mesh_partition.cpp:4283-4339, 4481-4489: the chunk of a selection, its size and its destination.
    A whole domain is taken as it is.  Where `extract` raises an error there is no chunk, and `map_chunks` reads through a null pointer.
    Simplification: the topology that `extract` makes has the elements it is given; errors in copying fields and matsets
    are left out. -/
def chunkOf (A : Arith F) (s : Sel) (d : Dom F) : Res (Piece × Int × Int) := do
  let _ ← destRank s
  if ← getWhole A s d.mesh then do
    let t ← selected s d.mesh
    let n ← length A d.mesh t.2
    let size ← allLengths A d.mesh
    .ok (⟨d.idx, upTo 0 (n - 1)⟩, size, destDomain s)
  else
    match selected s d.mesh with
    | .ok _ => do
      let ids ← elementIds A s d.mesh
      .ok (⟨d.idx, ids⟩, (ids.length : Int), destDomain s)
    | _ => .ub

/-- conduit_blueprint_mesh_partition.cpp:4375-4412: the chunks of every output domain, by ascending domain id. -/
def assemble (dests : List Int) (chunks : List Piece) : List (Int × List Piece) :=
  (unique dests).map fun d => (d, ((dests.zip chunks).filter fun p => p.1 == d).map (·.2))

/-- conduit_blueprint_mesh_partition.cpp:4267-4413 `execute` up to the plan. -/
def execute (A : Arith F) (target : Nat) (ss : List (Sel × Dom F)) : Res (List (Int × List Piece)) := do
  let chunks ← ss.mapM fun p => chunkOf A p.1 p.2
  let dests ← mapChunks target (chunks.map fun c => c.2)
  .ok (assemble dests (chunks.map (·.1)))

/-- conduit_blueprint_mesh.cpp:7481-7495 `partition`: the plan; `none` within if the options are refused, outer `none` if
    the fuel of the splitting runs out. -/
def plan (A : Arith F) (fuel : Nat) (mesh opts : BNode F) : Res (Option (Option (List (Int × List Piece)))) := do
  match ← initPlan A mesh opts with
  | none => .ok (some none)
  | some (ss, target) => do
    match ← splitAll A target fuel ss with
    | none => .ok none
    | some ss' => do .ok (some (some (← execute A target ss')))

end Conduit.Part
