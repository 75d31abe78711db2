import Verif.Model.Combine
/-
Fields of a partitioned mesh brought back to the mesh it was made from.
Source: /repo/src/libs/blueprint/conduit_blueprint_mesh_partition.cpp (the partitioner without MPI: `communicate_mapback` and
`synchronize_gvids` do nothing).
Simplifications throughout: as in Combine.lean; the meshes are given as the lists of their domains; hash tables are gone through in the
order in which their keys were first met.
-/
namespace Conduit.Back
open Conduit.Mesh Conduit.Part Conduit.Merge Conduit.Comb
variable {F : Type}

/-! ### fields written into nodes that may be there -/

/-- conduit_blueprint_mesh_partition.cpp:8734-8750 `total_storage_size`. -/
def storageSize (n : BNode F) : Nat :=
  match childrenOf n with
  | [] => n.numElements
  | c :: cs => ((c :: cs).map (·.numElements)).sum

/-- conduit_blueprint_mesh_partition.cpp:8657-8730 `determine_schema`: the number of components. -/
def numComps (v : BNode F) : Nat := (childrenOf v).length

/-- A new array of the type of `c` with `n` zeros.  Arrays of characters are left out: undefined here. -/
def zerosLike (zero : F) (n : Nat) : BNode F → Res (BNode F)
  | .ints t _ => .ok (.ints t (List.replicate n 0))
  | .flts w _ => .ok (.flts w (List.replicate n zero))
  | _ => .ub

/-- `out_node.set(out_schema)`; how the components are stored is not looked at. -/
def fresh (zero : F) (n : Nat) (v0 : BNode F) : Res (BNode F) :=
  match v0 with
  | .obj (k :: ks) => do
    let l ← (k :: ks).mapM fun c => do .ok (c.1, ← zerosLike zero n c.2)
    .ok (.obj l)
  | v0 => zerosLike zero n v0

/-- conduit_blueprint_mesh_partition.cpp:8786-8800, 8973-8986: the node as it is if it holds as many numbers as are needed, whatever
    they are; otherwise a new one. -/
def room (zero : F) (n : Nat) (v0 old : BNode F) : Res (BNode F) :=
  if storageSize old ≠ n * max (numComps v0) 1 then fresh zero n v0 else .ok old

/-- `memcpy(out_data, in_data, bytes)` for each of the writes into one array.  Arrays of different types are left out: undefined here. -/
def storeCol {α : Type} (old : BNode F) (src : α → Res (BNode F × Int)) (ws : List (Int × α)) : Res (BNode F) :=
  match old with
  | .ints t l => do
    let vs ← ws.foldlM (fun (acc : List Int) (w : Int × α) => do
      let c ← src w.2
      put acc w.1 (← Comb.readInt t c.1 c.2)) l
    .ok (.ints t vs)
  | .flts b l => do
    let vs ← ws.foldlM (fun (acc : List F) (w : Int × α) => do
      let c ← src w.2
      put acc w.1 (← Comb.readFlt b c.1 c.2)) l
    .ok (.flts b vs)
  | _ => .ub

/-- The loops of conduit_blueprint_mesh_partition.cpp:8802-8847, 9003-9033: into each of the components, by their places, or into the array
    itself. -/
def store {α : Type} (zero : F) (n : Nat) (v0 old : BNode F) (src : (BNode F → Res (BNode F)) → α → Res (BNode F × Int))
    (ws : List (Int × α)) : Res (BNode F) := do
  let base ← room zero n v0 old
  if ws.isEmpty then .ok base
  else match v0 with
    | .obj (k :: ks) =>
      match base with
      | .obj bs =>
        if bs.length < (k :: ks).length then .ub
        else do
          let l ← bs.zipIdx.mapM fun bc =>
            if bc.2 < (k :: ks).length then do
              let c ← storeCol bc.1.2 (src fun v => do .ok (← nth v bc.2).2) ws
              .ok (bc.1.1, c)
            else .ok bc.1
          .ok (.obj l)
      | _ => .ub
    | _ => storeCol base (src .ok) ws

/-- The value of a component of field `ik.1` at `ik.2`. -/
def valueAt {α β : Type} (ins : List (BNode F)) (a : α → Int) (b : β → Int) (comp : BNode F → Res (BNode F)) (ik : α × β) :
    Res (BNode F × Int) := do
  let f ← pick ins (a ik.1)
  let c ← comp (← f.get (chars! "values"))
  .ok (c, b ik.2)

/-- conduit_blueprint_mesh_partition.cpp:8940-9034 `map_element_field`; `emap` has the two entries of an element together. -/
def storeElements (A : Arith F) (ins : List (BNode F)) (emap : List (Nat × Nat)) (old : BNode F) : Res (BNode F) :=
  match ins with
  | [] => .ok old
  | f0 :: _ => do
    let v0 ← f0.get (chars! "values")
    store A.zero emap.length v0 old (valueAt ins (fun i : Nat => (i : Int)) (fun k : Nat => (k : Int)))
      (emap.zipIdx.map fun x => ((x.2 : Int), x.1))

/-- conduit_blueprint_mesh_partition.cpp:8753-8849 `map_vertex_field`.  A different number of fields and maps is warned of, which raises. -/
def storePoints (A : Arith F) (ins : List (BNode F)) (pms : List (List Int)) (n : Int) (old : BNode F) : Res (BNode F) :=
  match ins, pms with
  | [], _ => .ok old
  | _, [] => .ok old
  | f0 :: _, _ =>
    if ins.length ≠ pms.length then .error
    else do
      let v0 ← f0.get (chars! "values")
      store A.zero n.toNat v0 old (valueAt ins (fun i : Nat => (i : Int)) (fun k : Nat => (k : Int))) (pointWrites 0 pms)

/-! ### where elements and points came from -/

/-- conduit_blueprint_mesh_partition.cpp:10123-10134: the domain and the number each element had. -/
def origins (A : Arith F) (ename : Str) (dom : BNode F) : Res (List (Int × Int)) := do
  let fs ← dom.get (chars! "fields")
  if fs.hasChild ename then do
    let v ← (← fs.get ename).get (chars! "values")
    let ids ← asIndices A (← v.get (chars! "ids"))
    let ds ← asIndices A (← v.get (chars! "domains"))
    ids.zipIdx.mapM fun ek => do .ok (← pick ds (ek.2 : Int), ek.1)
  else .error

/-- `map_sel_elems`, conduit_blueprint_mesh_partition.cpp:10132: the numbers of the elements that came from domain `d`. -/
def selElems (d : Int) (ps : List (Int × Int)) : List Int := (ps.zipIdx.filter fun x => x.1.1 == d).map fun x => (x.2 : Int)

/-- `map_tgt_elems`, conduit_blueprint_mesh_partition.cpp:10131: the numbers they had there. -/
def tgtElems (d : Int) (ps : List (Int × Int)) : List Int := (ps.filter fun x => x.1 == d).map (·.2)

/-- conduit_blueprint_mesh_partition.cpp:10096-10110: if there are fields on points among those asked for, going by the first domain. -/
def hasPointFields (names : List Str) (doms : List (BNode F)) : Res Bool :=
  match doms with
  | [] => .ok false
  | dom :: _ => do
    let fs ← dom.get (chars! "fields")
    let l ← (fs.kids.filter fun k => names.contains k.1).mapM fun k => do (← k.2.get (chars! "association")).asString
    .ok (l.any fun a => a == chars! "vertex")

/-- conduit_blueprint_mesh_partition.cpp:10164-10182: the global numbers of the points of an original domain. -/
def gidsOf (A : Arith F) (gname : Str) (dom : BNode F) : Res (List Int) := do
  let fs ← dom.get (chars! "fields")
  if fs.hasChild gname then do asIndices A (← (← fs.get gname).get (chars! "values"))
  else .error

/-- conduit_blueprint_mesh_partition.cpp:10187-10201: those of a new domain, none if it does not have them. -/
def newGids (A : Arith F) (gname : Str) (dom : BNode F) : Res (List Int) := do
  let fs ← dom.get (chars! "fields")
  if fs.hasChild gname then do asIndices A (← (← fs.get gname).get (chars! "values"))
  else .ok []

/-- `gvid_to_repart_vid`: the last place of a number. -/
def lastPlace (g : Int) : List Int → Nat → Option Nat
  | [], _ => none
  | x :: l, k =>
    match lastPlace g l (k + 1) with
    | some r => some r
    | none => if x = g then some k else none

/-- conduit_blueprint_mesh_partition.cpp:10210-10223: the points of the original domain that the new one has, with their numbers in both. -/
def sharedPoints (ogids ngids : List Int) : List (Int × Int) :=
  ogids.zipIdx.filterMap fun gv => (lastPlace gv.1 ngids 0).map fun r => ((gv.2 : Int), (r : Int))

/-! ### what goes back to a domain -/

/-- conduit_blueprint_mesh_partition.cpp:10253-10276: what a new domain has for original domain `d`; `vs` are the points both have. -/
def chunkFor (op : Opts) (names : List Str) (dom : BNode F) (ps vs : List (Int × Int)) (d : Int) : Res (BNode F) := do
  let fields ← names.foldlM (fun (out : BNode F) name => do
    let f ← (← dom.get (chars! "fields")).get name
    let a ← (← f.get (chars! "association")).asString
    if a = chars! "vertex" then copyField op (name, f) (vs.map (·.2)) out
    else if a = chars! "element" then copyField op (name, f) (selElems d ps) out
    else .error) .empty
  .ok (.obj ((match fields with | .empty => [] | fs => [(chars! "fields", fs)]) ++
    [(chars! "elem_map", .ints int64 (tgtElems d ps)), (chars! "vert_map", .ints int64 (vs.map (·.1)))]))

/-- conduit_blueprint_mesh_partition.cpp:10283-10311: where each element of the original domain is to be found: chunk and place.  There is
    room for as many as there are in the chunks. -/
def elemTable (maps : List (List Int)) : Res (List (Nat × Nat)) :=
  (pointWrites 0 maps).foldlM (fun (acc : List (Nat × Nat)) w => put acc w.1 w.2) (List.replicate (maps.map (·.length)).sum (0, 0))

/-- conduit_blueprint_mesh_partition.cpp:10323-10343: one field into the original domain. -/
def backField (A : Arith F) (emap : List (Nat × Nat)) (vmaps : List (List Int)) (dom : BNode F) (g : Str × List (BNode F)) : Res (BNode F) :=
  match g.2 with
  | [] => .ub
  | f0 :: _ => do
    let assoc ← (← f0.get (chars! "association")).asString
    let t ← (← f0.get (chars! "topology")).asString
    let fs := dom.getOrEmpty (chars! "fields")
    let f := fs.getOrEmpty g.1
    let old := f.getOrEmpty (chars! "values")
    let v ← (if assoc = chars! "vertex" then do
        let cs ← (((dom.getOrEmpty (chars! "topologies")).getOrEmpty t).getOrEmpty (chars! "coordset")).asString
        let n ← coordsetLength A ((dom.getOrEmpty (chars! "coordsets")).getOrEmpty cs)
        storePoints A g.2 vmaps n old
      else storeElements A g.2 emap old)
    .ok (dom.setChild (chars! "fields") (fs.setChild g.1 (((f.setChild (chars! "association") (.str assoc)).setChild
      (chars! "topology") (.str t)).setChild (chars! "values") v)))

/-- conduit_blueprint_mesh_partition.cpp:10281-10345: the chunks into the original domain. -/
def backDomain (A : Arith F) (chunks : List (BNode F)) (dom : BNode F) : Res (BNode F) :=
  if chunks.all fun c => c.hasChild (chars! "fields") then do
    let emaps ← chunks.mapM fun c => do indexArray (← c.get (chars! "elem_map"))
    let vmaps ← chunks.mapM fun c => do indexArray (← c.get (chars! "vert_map"))
    let emap ← elemTable emaps
    (groupFields chunks).foldlM (backField A emap vmaps) dom
  else .error

/-- `gid_to_orig_dom[d]`: the place of the last domain with this number.  There must be one: the pointer would be null. -/
def domainAt (ids : List Int) (d : Int) : Res Nat :=
  match lastPlace d ids 0 with
  | some k => .ok k
  | none => .ub

/-- A new domain with what is known of it: where its elements came from and the global numbers of its points. -/
structure Parted (F : Type) where
  mesh : BNode F
  from_ : List (Int × Int)
  gids : List Int

/-- The chunks for original domain `d`, from those new domains that have elements of it. -/
def chunksFor (op : Opts) (names : List Str) (ogids : Int → Res (List Int)) (vert : Bool) (parts : List (Parted F)) (d : Int) :
    Res (List (BNode F)) :=
  (parts.filter fun p => p.from_.any fun x => x.1 == d).mapM fun p => do
    let vs ← (if vert then do .ok (sharedPoints (← ogids d) p.gids) else .ok [])
    chunkFor op names p.mesh p.from_ vs d

/-- conduit_blueprint_mesh_partition.cpp:10060-10347 `map_back_fields`: the original domains afterwards.  `names` are the fields asked for,
    `gname` the name of the global numbers of points, with its prefix. -/
def mapBack (A : Arith F) (op : Opts) (gname : Str) (names : List Str) (parts origs : List (BNode F)) : Res (List (BNode F)) := do
  let ids ← origs.zipIdx.mapM fun d => domId d.2 d.1
  let vert ← hasPointFields names parts
  let from_ ← parts.mapM (origins A op.elementName)
  let gids ← (if vert then origs.mapM (gidsOf A gname) else .ok [])
  let ngids ← (if vert then parts.mapM (newGids A gname) else .ok (parts.map fun _ => []))
  let ps : List (Parted F) := (parts.zip (from_.zip ngids)).map fun x => ⟨x.1, x.2.1, x.2.2⟩
  let ogids : Int → Res (List Int) := fun d =>
    match lastPlace d ids 0 with
    | some k => pick gids (k : Int)
    | none => .error
  let targets := ((from_.flatten).map (·.1)).eraseDups
  let packed ← targets.mapM fun d => do .ok (d, ← chunksFor { op with fields := [] } names ogids vert ps d)
  packed.foldlM (fun (doms : List (BNode F)) p => do
    let k ← domainAt ids p.1
    let dom ← pick doms (k : Int)
    let dom ← backDomain A p.2 dom
    put doms (k : Int) dom) origs

end Conduit.Back
