import Verif.Model.Matset
/-
Material sets and material dependent fields in the form the Silo library takes.
Source: /repo/src/libs/blueprint/conduit_blueprint_mesh_matset_xforms.cpp:77-505 (`detail::to_silo`,
reached from `matset::to_silo` :1285-1305 and `field::to_silo` :1706-1731).

Simplifications as in Model/Matset, and: `wrap` stands for the conversion of an `index_t` to the
widest integer type found in the matset (`int_dtype`); values are not narrowed to `float_dtype`;
the output arrays, allocated with their final sizes and written front to back, are lists that grow;
a matset's "topology" and a field's "values" are copied and left out here.
-/
namespace Conduit.Matset

open Conduit.O2M (rd wr)

variable {α β σ : Type}

/-! ### std::map<index_t, β> -/

/-- `map[k] = v`, the entries being kept in key order -/
def iset (k : Int) (v : β) : List (Int × β) → List (Int × β)
  | [] => [(k, v)]
  | (k', v') :: m =>
    if k = k' then (k, v) :: m
    else if k < k' then (k, v) :: (k', v') :: m
    else (k', v') :: iset k v m

/-- `map.find(k)` -/
def iget (m : List (Int × β)) (k : Int) : Option β := (m.find? fun e => e.1 = k).map (·.2)

/-- `maps[e][id] = v` on a `std::vector` of maps -/
def putAt (maps : List (List (Int × β))) (e id : Int) (v : β) : Res (List (List (Int × β))) := do
  let m ← rd maps e
  wr maps e (iset id v m)

/-- `elem_mat_maps` and `elem_matset_values_maps` -/
structure Maps (α β : Type) where
  vf : List (List (Int × α))
  mv : List (List (Int × β))
deriving DecidableEq, Repr

/-- `elem_mat_maps(n)` and `elem_matset_values_maps(n)` as constructed -/
def Maps.init (n : Nat) : Maps α β := ⟨List.replicate n [], List.replicate n []⟩

/-! ### uni-buffer matsets -/

/-- conduit_blueprint_mesh_matset_xforms.cpp:233-242: the field's value, if a field is passed -/
def rdField : Option (List β) → Int → Res (Option β)
  | none, _ => .ok none
  | some fv, d => do .ok (some (← rd fv d))

/-- conduit_blueprint_mesh_matset_xforms.cpp:257-260 -/
def putField (maps : List (List (Int × β))) (e id : Int) : Option β → Res (List (List (Int × β)))
  | none => .ok maps
  | some w => putAt maps e id w

/-- conduit_blueprint_mesh_matset_xforms.cpp:219-262: one data element of a zone -/
def uniEntry (big : α → Bool) (S : Sbe α) (fv : Option (List β)) (e : Int) (M : Maps α β) (d : Int) : Res (Maps α β) := do
  let v ← rd S.vals d
  let w ← rdField fv d
  let id ← rd S.ids d
  if big v then do
    let vf ← putAt M.vf e id v
    let mv ← putField M.mv e id w
    .ok ⟨vf, mv⟩
  else .ok M

/-- `while(mat_iter.has_next(MANY)) { mat_iter.next(MANY); f(mat_iter.index(DATA)); }`
    (conduit_blueprint_mesh_matset_xforms.cpp:217-262); `none`: not ended within `fuel` steps. -/
def manyLoop (r : O2M.Rel α) (f : σ → Int → Res σ) : Nat → O2M.It → σ → Option (Res (O2M.It × σ))
  | 0, _, _ => none
  | fuel + 1, it, s => match O2M.hasNext r it .many with
    | .ok false => some (.ok (it, s))
    | .ok true => match (do
        let (it', _) ← O2M.next r it .many
        let d ← O2M.index r it'.one it'.many .data
        let s' ← f s d
        .ok (it', s') : Res (O2M.It × σ)) with
      | .ok (it', s') => manyLoop r f fuel it' s'
      | .error => some .error
      | .ub => some .ub
    | .error => some .error
    | .ub => some .ub

/-- `while(mat_iter.has_next(DATA)) { one = mat_iter.next(ONE); … mat_iter.to_front(MANY); … }`
    (conduit_blueprint_mesh_matset_xforms.cpp:198-263); `g` is the element id of a ONE index. -/
def oneLoop (r : O2M.Rel α) (g : Int → Res Int) (f : Int → σ → Int → Res σ) : Nat → O2M.It → σ → Option (Res σ)
  | 0, _, _ => none
  | fuel + 1, it, s => match O2M.hasNext r it .data with
    | .ok false => some (.ok s)
    | .ok true => match (do
        let (it', one) ← O2M.next r it .one
        let e ← g one
        .ok (it', e) : Res (O2M.It × Int)) with
      | .ok (it', e) => match manyLoop r (f e) fuel (O2M.toFront it' .many) s with
        | some (.ok (it'', s')) => oneLoop r g f fuel it'' s'
        | some .error => some .error
        | some .ub => some .ub
        | none => none
      | .error => some .error
      | .ub => some .ub
    | .error => some .error
    | .ub => some .ub

/-- the element of a ONE index: itself, or what "element_ids" says
    (conduit_blueprint_mesh_matset_xforms.cpp:202-212) -/
def elemAt : Option (List Int) → Int → Res Int
  | none, i => .ok i
  | some es, i => rd es i

/-- conduit_blueprint_mesh_matset_xforms.cpp:126-152: one more than the largest element id -/
def maxElem (es : List Int) : Int := es.foldl (fun n e => max n (e + 1)) 0

/-- conduit_blueprint_mesh_matset_xforms.cpp:126-179: the number of elements of a uni-buffer matset -/
def uniCount (S : Sbe α) : Option (List Int) → Int
  | none => O2M.elementsOne S.rel
  | some es => maxElem es

/-- conduit_blueprint_mesh_matset_xforms.cpp:181-264: the maps of a uni-buffer matset -/
def uniMaps (big : α → Bool) (S : Sbe α) (eids : Option (List Int)) (fv : Option (List β)) (fuel : Nat) : Option (Res (Maps α β)) :=
  oneLoop S.rel (elemAt eids) (uniEntry big S fv) fuel ⟨0, 0⟩ (.init (uniCount S eids).toNat)

/-! ### multi-buffer matsets -/

/-- a lookup by name in a const node: an error if there is no such child -/
def named {γ : Type} (m : List (Str × γ)) (n : Str) : Res γ :=
  match oget m n with
  | some x => .ok x
  | none => .error

/-- "element_ids" of one material; element dominant matsets have none -/
def eidsOf : Option (List (Str × List Int)) → Str → Res (Option (List Int))
  | none, _ => .ok none
  | some m, n => do .ok (some (← named m n))

/-- conduit_blueprint_mesh_matset_xforms.cpp:302-336: one material's volume fractions.
    The iteration over a plain array visits its elements in order. -/
def multiMat (big : α → Bool) (id : Int) (es : Option (List Int)) (vs : List α) (maps : List (List (Int × α))) :
    Res (List (List (Int × α))) :=
  (List.range vs.length).foldlM (fun maps (k : Nat) => do
    let v ← rd vs (k : Int)
    let e ← elemAt es (k : Int)
    if big v then putAt maps e id v else .ok maps) maps

/-- conduit_blueprint_mesh_matset_xforms.cpp:265-336: the volume fractions of all materials -/
def multiVfs (big : α → Bool) (mm : List (Str × Int)) (eids : Option (List (Str × List Int))) :
    List (Str × List α) → List (List (Int × α)) → Res (List (List (Int × α)))
  | [], maps => .ok maps
  | (n, vs) :: rest, maps => do
    let id ← named mm n
    let es ← eidsOf eids n
    let maps' ← multiMat big id es vs maps
    multiVfs big mm eids rest maps'

/-- conduit_blueprint_mesh_matset_xforms.cpp:378-411: one material's field values -/
def multiFieldMat (id : Int) (es : Option (List Int)) (vf : List (List (Int × α))) (ws : List β) (maps : List (List (Int × β))) :
    Res (List (List (Int × β))) :=
  (List.range ws.length).foldlM (fun maps (k : Nat) => do
    let e ← elemAt es (k : Int)
    let m ← rd vf e
    if (iget m id).isSome then do
      let w ← rd ws (k : Int)
      putAt maps e id w
    else .ok maps) maps

/-- conduit_blueprint_mesh_matset_xforms.cpp:338-414: the field values of all materials -/
def multiFvs (mm : List (Str × Int)) (eids : Option (List (Str × List Int))) (vf : List (List (Int × α))) :
    List (Str × List β) → List (List (Int × β)) → Res (List (List (Int × β)))
  | [], maps => .ok maps
  | (n, ws) :: rest, maps => do
    let id ← named mm n
    let es ← eidsOf eids n
    let maps' ← multiFieldMat id es vf ws maps
    multiFvs mm eids vf rest maps'

/-- conduit_blueprint_mesh_matset_xforms.cpp:126-179: the number of elements of a multi-buffer matset -/
def multiCount (vfs : List (Str × List α)) : Option (List (Str × List Int)) → Res Int
  | none => (firstLen vfs).map' fun n => (n : Int)
  | some eids => .ok (maxElem (eids.flatMap (·.2)))

/-- conduit_blueprint_mesh_matset_xforms.cpp:265-415: the maps of a multi-buffer matset -/
def multiMaps (big : α → Bool) (mm : List (Str × Int)) (vfs : List (Str × List α)) (eids : Option (List (Str × List Int)))
    (fvs : List (Str × List β)) : Res (Maps α β) := do
  let n ← multiCount vfs eids
  let vf ← multiVfs big mm eids vfs (List.replicate n.toNat [])
  let mv ← multiFvs mm eids vf fvs (List.replicate n.toNat [])
  .ok ⟨vf, mv⟩

/-- conduit_blueprint_mesh_matset_xforms.cpp:97-123: a given "material_map", or else the positions
    of the materials -/
def multiMap (wrap : Int → Int) (mm : Option (List (Str × Int))) (vfs : List (Str × List α)) : List (Str × Int) :=
  match mm with
  | some m => m
  | none => vfs.zipIdx.map fun x => (x.1.1, wrap (x.2 : Int))

/-! ### the silo arrays -/

/-- the arrays of the result; "field_mixvar_values" is there if a field is passed -/
structure Silo (α β : Type) where
  matmap : List (Str × Int)
  matlist : List Int
  mixNext : List Int
  mixMat : List Int
  mixVf : List α
  mixVar : List β
deriving DecidableEq, Repr

/-- conduit_blueprint_mesh_matset_xforms.cpp:445-504: the loop body for one zone.
    `~slot_index` is `-slot_index - 1`. -/
def zoneOut (wrap : Int → Int) (zero : β) (o : Silo α β) (z : List (Int × α) × List (Int × β)) : Res (Silo α β) :=
  match z.1 with
  | [] => .error
  | [(id, _)] => .ok { o with matlist := o.matlist ++ [wrap id] }
  | m =>
    let slot := o.mixMat.length
    .ok { matmap := o.matmap
          matlist := o.matlist ++ [wrap (-(slot : Int) - 1)]
          mixNext := o.mixNext ++ ((List.range m.length).map fun (i : Nat) => wrap ((slot + i : Nat) + 1 + 1)).set (m.length - 1) (wrap 0)
          mixMat := o.mixMat ++ m.map fun x => wrap x.1
          mixVf := o.mixVf ++ m.map (·.2)
          mixVar := o.mixVar ++ m.map fun x => (iget z.2 x.1).getD zero }

/-- conduit_blueprint_mesh_matset_xforms.cpp:417-505: from the maps to the arrays -/
def siloOut (wrap : Int → Int) (zero : β) (mm : List (Str × Int)) (M : Maps α β) : Res (Silo α β) :=
  (M.vf.zip M.mv).foldlM (zoneOut wrap zero) ⟨mm, [], [], [], [], []⟩

/-- `to_silo` of a uni-buffer matset -/
def uniSilo (wrap : Int → Int) (big : α → Bool) (zero : β) (S : Sbe α) (eids : Option (List Int)) (fv : Option (List β)) (fuel : Nat) :
    Option (Res (Silo α β)) :=
  match uniMaps big S eids fv fuel with
  | some (.ok M) => some (siloOut wrap zero S.matmap M)
  | some .error => some .error
  | some .ub => some .ub
  | none => none

/-- `to_silo` of a multi-buffer matset -/
def multiSilo (wrap : Int → Int) (big : α → Bool) (zero : β) (mm : Option (List (Str × Int))) (vfs : List (Str × List α))
    (eids : Option (List (Str × List Int))) (fvs : List (Str × List β)) : Res (Silo α β) := do
  let M ← multiMaps big (multiMap wrap mm vfs) vfs eids fvs
  siloOut wrap zero (multiMap wrap mm vfs) M

/-- conduit_blueprint_mesh_matset_xforms.cpp:1285-1305 `matset::to_silo`: without a field.
    `mm` is the optional "material_map" of a multi-buffer matset. -/
def toSilo (wrap : Int → Int) (big : α → Bool) (mm : Option (List (Str × Int))) (ms : Mset α) (fuel : Nat) : Option (Res (Silo α Unit)) :=
  match ms with
  | .full vfs => some (multiSilo wrap big () mm vfs none [])
  | .sbe S => uniSilo wrap big () S none none fuel
  | .sbm vfs eids => some (multiSilo wrap big () mm vfs (some eids) [])
  | .ubm S eids => uniSilo wrap big () S (some eids) none fuel

end Conduit.Matset
