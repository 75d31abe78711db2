import Verif.Model.O2M
import Verif.Model.Str
/-
Material sets and the conversions between their flavours.
Source: /repo/src/libs/blueprint/conduit_blueprint_mesh_matset_xforms.cpp; the flavour tests are in
/repo/src/libs/blueprint/conduit_blueprint_mesh.cpp:6364-6388.

Simplifications common to this file: volume fractions and material dependent field values are
opaque values with a zero and the test `> epsilon` (`big`); integers are unbounded (`int`, `int64`
and `index_t` do not overflow); material names are plain child names (no '/'), so that
`dest[matname]` is the child of that name; the arrays of a multi-buffer matset are plain arrays
(not one-to-many relations of their own).
-/
namespace Conduit.Matset

open Conduit.O2M (rd wr)

variable {α β γ : Type}

/-! ### std::map<std::string, β> -/

/-- `std::string` comparison: lexicographic by byte -/
def strLt : Str → Str → Bool
  | _, [] => false
  | [], _ :: _ => true
  | a :: as, b :: bs =>
    if a.toNat < b.toNat then true else if b.toNat < a.toNat then false else strLt as bs

/-- `map[k] = f(map[k])`, where `map[k]` creates the entry `d` if there is none.
    The entries are kept in key order, the order in which a `std::map` is iterated. -/
def omod (k : Str) (d : β) (f : β → β) : List (Str × β) → List (Str × β)
  | [] => [(k, f d)]
  | (k', v) :: m =>
    if k = k' then (k', f v) :: m
    else if strLt k k' then (k, f d) :: (k', v) :: m
    else (k', v) :: omod k d f m

/-- the value stored at a key -/
def oget (m : List (Str × β)) (k : Str) : Option β := (m.find? fun e => e.1 = k).map (·.2)

/-! ### Matsets -/

/-- A uni-buffer, element dominant matset ("sparse by element"): its "material_map", the integer
    children of its one-to-many relation, "material_ids" and "volume_fractions". -/
structure Sbe (α : Type) where
  matmap : List (Str × Int)
  sizes : Option (List Int)
  offsets : Option (List Int)
  indices : Option (List Int)
  ids : List Int
  vals : List α
deriving DecidableEq, Repr

/-- the matset as the one-to-many relation `O2MIndex(src_matset)` sees -/
def Sbe.rel (S : Sbe α) : O2M.Rel α := ⟨S.sizes, S.offsets, S.indices, [S.vals]⟩

/-- The flavours of a matset that `matset::verify` accepts. -/
inductive Mset (α : Type) where
  /-- multi-buffer, element dominant ("full"): one array over all elements for each material -/
  | full (vfs : List (Str × List α))
  /-- uni-buffer, element dominant -/
  | sbe (S : Sbe α)
  /-- multi-buffer, material dominant ("sparse by material"): per material its volume fractions
      and its element ids -/
  | sbm (vfs : List (Str × List α)) (eids : List (Str × List Int))
  /-- uni-buffer, material dominant: a uni-buffer matset with an "element_ids" array -/
  | ubm (S : Sbe α) (eids : List Int)
deriving DecidableEq, Repr

/-! ### Helpers -/

/-- conduit_blueprint_mesh_matset_xforms.cpp:532-544 `create_reverse_matmap`, and the lookup
    `reverse_matmap[id]`, which yields an empty name for an unknown id.
    A later entry with the same id replaces an earlier one. -/
def revGet (mm : List (Str × Int)) (id : Int) : Str :=
  ((mm.reverse.find? fun e => e.2 = id).map (·.1)).getD []

/-- the names in the reverse map (its iteration order does not matter to the code) -/
def revNames (mm : List (Str × Int)) : List Str := (mm.filter fun e => revGet mm e.2 = e.1).map (·.1)

/-- the number of different values in a list: the size of a `std::set` -/
def distinct : List Int → Nat
  | [] => 0
  | a :: l => if a ∈ l then distinct l else distinct l + 1

/-- conduit_blueprint_mesh_matset_xforms.cpp:549-567
    `determine_num_elems_in_multi_buffer_by_material` -/
def numElems (eids : List (Str × List Int)) : Nat := distinct (eids.flatMap (·.2))

/-- conduit_blueprint_mesh_matset_xforms.cpp:571-601
    `walk_uni_buffer_by_element_to_multi_buffer_by_element`: `vals` is either the volume fractions
    or a field's matset values. -/
def walk (S : Sbe α) (vals : List β) (zero : β) : Res (List (Str × List β)) := do
  let n ← O2M.indexSize S.rel (-1)
  let init := (revNames S.matmap).foldl (fun m nm => omod nm [] (fun _ => List.replicate n.toNat zero) m) []
  (List.range n.toNat).foldlM (fun m (e : Nat) => do
    let s ← O2M.indexSize S.rel (e : Int)
    (List.range s.toNat).foldlM (fun m (k : Nat) => do
      let d ← O2M.indexIndex S.rel (e : Int) (k : Int)
      let v ← rd vals d
      let id ← rd S.ids d
      let nm := revGet S.matmap id
      let row ← wr ((oget m nm).getD []) (e : Int) v
      .ok (omod nm [] (fun _ => row) m)) m) init

/-- conduit_blueprint_mesh_matset_xforms.cpp:620-639 `create_sbm_rep`: a `std::map` from material
    names to element ids and values; an accessor that is not assigned is empty. -/
def sbmRep (eids : List (Str × List Int)) (vals : List (Str × List β)) : List (Str × List Int × List β) :=
  let m := eids.foldl (fun m e => omod e.1 ([], []) (fun p => (e.2, p.2)) m) []
  vals.foldl (fun m e => omod e.1 ([], []) (fun p => (p.1, e.2)) m) m

/-- conduit_blueprint_mesh_matset_xforms.cpp:643-666 `sbm_rep_to_full`, the loop over one material -/
def fillRow (n : Nat) (zero : β) (p : List Int × List β) : Res (List β) :=
  (List.range p.2.length).foldlM (fun row (i : Nat) => do
    let e ← rd p.1 (i : Int)
    let v ← rd p.2 (i : Int)
    wr row e v) (List.replicate n zero)

/-- conduit_blueprint_mesh_matset_xforms.cpp:643-666 `sbm_rep_to_full` -/
def repToFull (n : Nat) (zero : β) : List (Str × List Int × List β) → Res (List (Str × List β))
  | [] => .ok []
  | (k, p) :: m => do
    let row ← fillRow n zero p
    let rest ← repToFull n zero m
    .ok ((k, row) :: rest)

/-! ### full to sparse by element -/

/-- the vectors filled by the loops over the elements -/
structure Acc (β : Type) where
  vals : List β
  ids : List Int
  sizes : List Int
  offsets : List Int
  offset : Int

/-- `volume_fractions[0].dtype().number_of_elements()`; `child(0)` of an empty object is an error
    (conduit_node.cpp:14508-14516) -/
def firstLen : List (Str × List α) → Res Nat
  | [] => .error
  | c :: _ => .ok c.2.length

/-- conduit_blueprint_mesh_matset_xforms.cpp:671-725
    `multi_buffer_by_element_to_uni_buffer_by_element_matset`. -/
def fullToSbe (big : α → Bool) (vfs : List (Str × List α)) : Res (Sbe α) := do
  let cols := vfs.map (·.2)
  let n ← firstLen vfs
  let a ← (List.range n).foldlM (fun (a : Acc α) (e : Nat) => do
    let r ← cols.zipIdx.foldlM (fun (r : List α × List Int × Int) cm => do
      let v ← rd cm.1 (e : Int)
      if big v then .ok (r.1 ++ [v], r.2.1 ++ [(cm.2 : Int)], r.2.2 + 1) else .ok r) (a.vals, a.ids, 0)
    .ok ⟨r.1, r.2.1, a.sizes ++ [r.2.2], a.offsets ++ [a.offset], a.offset + r.2.2⟩) ⟨[], [], [], [], 0⟩
  .ok { matmap := vfs.zipIdx.map (fun x => (x.1.1, (x.2 : Int))), sizes := some a.sizes, offsets := some a.offsets,
        indices := none, ids := a.ids, vals := a.vals }

/-- The loop that pairs the materials of a matset with those of a field
    (conduit_blueprint_mesh_matset_xforms.cpp:754-769 and :1022-1032): it stops at the shorter list
    and `CONDUIT_ASSERT`s equal names. -/
def pairUp : List (Str × List α) → List (Str × List β) → Res (List (Str × List α × List β))
  | (n, c) :: vfs, (n', f) :: fvs =>
    if n = n' then do
      let rest ← pairUp vfs fvs
      .ok ((n, c, f) :: rest)
    else .error
  | _, _ => .ok []

/-- conduit_blueprint_mesh_matset_xforms.cpp:730-795
    `multi_buffer_by_element_to_uni_buffer_by_element_field`: the new "matset_values". -/
def fullToSbeField (big : α → Bool) (vfs : List (Str × List α)) (fvs : List (Str × List β)) : Res (List β) := do
  let cols ← pairUp vfs fvs
  let n ← firstLen vfs
  (List.range n).foldlM (fun r (e : Nat) =>
    cols.foldlM (fun r c => do
      let w ← rd c.2.2 (e : Int)
      let v ← rd c.2.1 (e : Int)
      if big v then .ok (r ++ [w]) else .ok r) r) []

/-! ### sparse by element to full -/

/-- conduit_blueprint_mesh_matset_xforms.cpp:800-826
    `uni_buffer_by_element_to_multi_buffer_by_element_matset` -/
def sbeToFull (zero : α) (S : Sbe α) : Res (List (Str × List α)) := walk S S.vals zero

/-- conduit_blueprint_mesh_matset_xforms.cpp:831-868
    `uni_buffer_by_element_to_multi_buffer_by_element_field` -/
def sbeToFullField (zero : β) (S : Sbe α) (fv : List β) : Res (List (Str × List β)) := walk S fv zero

/-! ### sparse by element to sparse by material -/

/-- conduit_blueprint_mesh_matset_xforms.cpp:873-912
    `uni_buffer_by_element_to_multi_buffer_by_material_matset` -/
def sbeToSbm (S : Sbe α) : Res (List (Str × List α) × List (Str × List Int)) := do
  let n ← O2M.indexSize S.rel (-1)
  (List.range n.toNat).foldlM (fun m (e : Nat) => do
    let s ← O2M.indexSize S.rel (e : Int)
    (List.range s.toNat).foldlM (fun (m : List (Str × List α) × List (Str × List Int)) (k : Nat) => do
      let d ← O2M.indexIndex S.rel (e : Int) (k : Int)
      let v ← rd S.vals d
      let id ← rd S.ids d
      let nm := revGet S.matmap id
      .ok (omod nm [] (· ++ [v]) m.1, omod nm [] (· ++ [(e : Int)]) m.2)) m) ([], [])

/-- conduit_blueprint_mesh_matset_xforms.cpp:917-963
    `uni_buffer_by_element_to_multi_buffer_by_material_field` -/
def sbeToSbmField (S : Sbe α) (fv : List β) : Res (List (Str × List β)) := do
  let n ← O2M.indexSize S.rel (-1)
  (List.range n.toNat).foldlM (fun m (e : Nat) => do
    let s ← O2M.indexSize S.rel (e : Int)
    (List.range s.toNat).foldlM (fun m (k : Nat) => do
      let d ← O2M.indexIndex S.rel (e : Int) (k : Int)
      let w ← rd fv d
      let id ← rd S.ids d
      .ok (omod (revGet S.matmap id) [] (· ++ [w]) m)) m) []

/-! ### full to sparse by material -/

/-- conduit_blueprint_mesh_matset_xforms.cpp:988-995: the loop over the elements of one material -/
def keepBig (big : α → Bool) (c : List α) : Nat → List α × List Int
  | 0 => ([], [])
  | n + 1 =>
    let r := keepBig big c n
    match c[n]? with
    | some v => if big v then (r.1 ++ [v], r.2 ++ [(n : Int)]) else r
    | none => r

/-- conduit_blueprint_mesh_matset_xforms.cpp:968-1000
    `multi_buffer_by_element_to_multi_buffer_by_material_matset` -/
def fullToSbm (big : α → Bool) (vfs : List (Str × List α)) : List (Str × List α) × List (Str × List Int) :=
  (vfs.map fun e => (e.1, (keepBig big e.2 e.2.length).1), vfs.map fun e => (e.1, (keepBig big e.2 e.2.length).2))

/-- conduit_blueprint_mesh_matset_xforms.cpp:1038-1044: the loop over the elements of one material -/
def keepField (big : α → Bool) (c : List α) (f : List β) : Nat → Res (List β)
  | 0 => .ok []
  | n + 1 => do
    let r ← keepField big c f n
    let v ← rd c (n : Int)
    if big v then do
      let w ← rd f (n : Int)
      .ok (r ++ [w])
    else .ok r

/-- the loop of conduit_blueprint_mesh_matset_xforms.cpp:1022-1047 over the paired materials -/
def keepFields (big : α → Bool) : List (Str × List α × List β) → Res (List (Str × List β))
  | [] => .ok []
  | (n, c, f) :: l => do
    let r ← keepField big c f c.length
    let rest ← keepFields big l
    .ok ((n, r) :: rest)

/-- conduit_blueprint_mesh_matset_xforms.cpp:1005-1053
    `multi_buffer_by_element_to_multi_buffer_by_material_field` -/
def fullToSbmField (big : α → Bool) (vfs : List (Str × List α)) (fvs : List (Str × List β)) : Res (List (Str × List β)) := do
  let l ← pairUp vfs fvs
  keepFields big l

/-! ### sparse by material to full -/

/-- conduit_blueprint_mesh_matset_xforms.cpp:1058-1075
    `multi_buffer_by_material_to_multi_buffer_by_element_matset`, and :1080-1108 (`…_field`), which
    does the same with a field's matset values. -/
def sbmToFull (zero : β) (vals : List (Str × List β)) (eids : List (Str × List Int)) : Res (List (Str × List β)) :=
  repToFull (numElems eids) zero (sbmRep eids vals)

/-! ### sparse by material to sparse by element -/

/-- conduit_blueprint_mesh_matset_xforms.cpp:1154-1172: spread the entries of one material over the
    intermediate vectors of the elements -/
def spread (x : β → γ) (p : List Int × List β) (rows : List (List γ)) : Res (List (List γ)) :=
  (List.range p.2.length).foldlM (fun rows (i : Nat) => do
    let e ← rd p.1 (i : Int)
    let v ← rd p.2 (i : Int)
    let row ← rd rows e
    wr rows e (row ++ [x v])) rows

/-- conduit_blueprint_mesh_matset_xforms.cpp:1113-1197
    `multi_buffer_by_material_to_uni_buffer_by_element_matset`.  The two intermediate vectors of
    vectors are one here, of pairs (volume fraction, material id). -/
def sbmToSbe (vfs : List (Str × List α)) (eids : List (Str × List Int)) : Res (Sbe α) := do
  let mm := vfs.zipIdx.map (fun x => (x.1.1, (x.2 : Int)))
  let rows ← (sbmRep eids vfs).foldlM (fun rows m => spread (fun v => (v, (oget mm m.1).getD 0)) m.2 rows)
    (List.replicate (numElems eids) [])
  let a := rows.foldl (fun (a : Acc α) row =>
    (⟨a.vals ++ row.map (·.1), a.ids ++ row.map (·.2), a.sizes ++ [(row.length : Int)], a.offsets ++ [a.offset],
      a.offset + row.length⟩ : Acc α)) ⟨[], [], [], [], 0⟩
  .ok { matmap := mm, sizes := some a.sizes, offsets := some a.offsets, indices := none, ids := a.ids, vals := a.vals }

/-- conduit_blueprint_mesh_matset_xforms.cpp:1202-1276
    `multi_buffer_by_material_to_uni_buffer_by_element_field` -/
def sbmToSbeField (eids : List (Str × List Int)) (fvs : List (Str × List β)) : Res (List β) := do
  let rows ← (sbmRep eids fvs).foldlM (fun rows m => spread id m.2 rows) (List.replicate (numElems eids) [])
  .ok rows.flatten

/-! ### The public conversions
A uni-buffer, material dominant matset goes the way of a multi-buffer one: its arrays have no
children. -/

/-- conduit_blueprint_mesh_matset_xforms.cpp:1309-1341 `to_multi_buffer_full` -/
def toFull (zero : α) : Mset α → Res (Mset α)
  | .full vfs => .ok (.full vfs)
  | .sbe S => (sbeToFull zero S).map' .full
  | .sbm vfs eids => (sbmToFull zero vfs eids).map' .full
  | .ubm _ _ => (sbmToFull zero [] []).map' .full

/-- conduit_blueprint_mesh_matset_xforms.cpp:1345-1379 `to_sparse_by_element` -/
def toSbe (big : α → Bool) : Mset α → Res (Mset α)
  | .full vfs => (fullToSbe big vfs).map' .sbe
  | .sbe S => .ok (.sbe S)
  | .sbm vfs eids => (sbmToSbe vfs eids).map' .sbe
  | .ubm _ _ => (sbmToSbe [] []).map' .sbe

/-- conduit_blueprint_mesh_matset_xforms.cpp:1383-1417 `to_multi_buffer_by_material` -/
def toSbm (big : α → Bool) : Mset α → Res (Mset α)
  | .full vfs => let r := fullToSbm big vfs; .ok (.sbm r.1 r.2)
  | .sbe S => (sbeToSbm S).map' fun r => .sbm r.1 r.2
  | .sbm vfs eids => .ok (.sbm vfs eids)
  | .ubm S eids => .ok (.ubm S eids)

end Conduit.Matset
