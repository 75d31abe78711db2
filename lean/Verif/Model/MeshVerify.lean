import Verif.Model.Log
import Verif.Model.MeshTree
import Verif.Model.MeshConvert
/-
Verification of blueprint meshes: the checks on fields of a node, coordsets, topologies, matsets,
fields, specsets, adjsets, nestsets, single domains and whole meshes, with the report they write.
Sources: /repo/src/libs/blueprint/conduit_blueprint_mesh.cpp,
conduit_blueprint_mesh_utils.hpp, conduit_blueprint_mcarray.cpp, conduit_blueprint_o2mrelation.cpp,
/repo/src/libs/conduit/conduit_log.cpp
-/
namespace Conduit.Mesh
open Log (Info)

/-- A call that is given the node `info` by reference: it reads and writes it and returns a value. -/
abbrev V (α : Type) := StateT Info Res α

namespace V
/-- conduit_log.cpp:58-63 `log::error(info, protocol, msg)`. -/
def err (p m : Str) : V Unit := fun t => .ok ((), Log.error t p m)
/-- conduit_log.cpp:40-45 `log::info`. -/
def note (p m : Str) : V Unit := fun t => .ok ((), Log.info t p m)
/-- conduit_log.cpp:49-54 `log::optional`. -/
def opt (p m : Str) : V Unit := fun t => .ok ((), Log.optional t p m)
/-- conduit_log.cpp:68-76 `log::validation(info, res)`. -/
def valid (b : Bool) : V Unit := fun t => (Log.validation t b).map' fun t' => ((), t')
/-- `info.reset()`. -/
def reset : V Unit := fun _ => .ok ((), .empty)
/-- `act(info[name])`: the child is created empty when it is missing (conduit_node.cpp:14416-14483).
    Simplification: `name` is one path component: not empty, not `..` and without `/`. -/
def sub {α : Type} (name : Str) (act : V α) : V α := fun t => do
  let r ← act ((t.child? name).getD .empty)
  .ok (r.1, t.update name fun _ => r.2)
/-- A value computed from the mesh. -/
def lift {α : Type} (r : Res α) : V α := fun t => r.map' fun a => (a, t)
/-- `log::validation(info, res); return res;` -/
def finish (b : Bool) : V Bool := do
  valid b
  return b
/-- `log::error(info, protocol, msg); res = false;` when `b` is false. -/
def demand (b : Bool) (p m : Str) : V Bool := do
  if b then return true else do
    err p m
    return false
/-- `a() && b()`. -/
def andAlso (a b : V Bool) : V Bool := do
  if ← a then b else return false
/-- `res &= f(x)` for every `x`: no early exit. -/
def all {β : Type} (f : β → V Bool) : List β → V Bool
  | [] => return true
  | x :: l => do
    let a ← f x
    let b ← all f l
    return (a && b)
end V

/-- conduit_log.cpp:159-165 `log::quote(str, pad_before)`. -/
def quote (s : Str) (padBefore : Bool := false) : Str :=
  if s = [] then [] else
    (if padBefore then chars! " " else []) ++ chars! "'" ++ s ++ chars! "'" ++ (if padBefore then [] else chars! " ")

/-- A number written by an output stream. -/
def decimal (i : Int) : Str := (toString i).toList

namespace BNode
variable {F : Type}
/-- `dtype().is_integer()` -/
def isInt : BNode F → Bool | .ints _ _ => true | _ => false
/-- `dtype().is_number()` -/
def isNumber : BNode F → Bool | .ints _ _ => true | .flts _ _ => true | _ => false
/-- `dtype().is_string()` -/
def isString : BNode F → Bool | .str _ => true | _ => false
/-- `dtype().is_object()` -/
def isObject : BNode F → Bool | .obj _ => true | _ => false
/-- `dtype().is_list()` -/
def isList : BNode F → Bool | .list _ => true | _ => false
/-- `dtype().is_empty()` -/
def isEmpty : BNode F → Bool | .empty => true | _ => false

/-- `children()` with `itr.name()` (conduit_node_iterator.cpp:391-406): the children of a list are
    named by their index. -/
def items : BNode F → List (Str × BNode F)
  | .obj ks => ks
  | .list ks => ks.zipIdx.map fun k => (decimal k.2, k.1)
  | _ => []

/-- `number_of_children()` -/
def numChildren (n : BNode F) : Nat := n.items.length

/-- conduit_schema.cpp:1305-1315 `child_names()`: none for a list. -/
def childNames (n : BNode F) : List Str := n.kids.map (·.1)

/-- conduit_node.cpp:14808-14815 `as_int32()`: another type is an error; an empty array is read past
    its end. -/
def asInt32 : BNode F → Res Int
  | .ints t l => if t = int32 then (match l with | v :: _ => .ok v | [] => .ub) else .error
  | _ => .error

/-- The elements read by an `int32_accessor`: a string is an error
    (conduit_data_accessor.cpp, `element`); a node without elements is not read.
    Simplification: a float is truncated as a float64. -/
def int32Elems (A : Arith F) : BNode F → Res (List Int)
  | .ints _ l => .ok (l.map int32.cast)
  | .flts _ l => .ok (l.map fun x => int32.cast (A.trunc x))
  | .str _ => .error
  | _ => .ok []

/-- Depth of the deepest node under `n`. -/
def height : BNode F → Nat
  | .obj ks => heightO ks
  | .list ks => heightL ks
  | _ => 0
where
  heightO : List (Str × BNode F) → Nat
    | [] => 0
    | k :: ks => max (height k.2 + 1) (heightO ks)
  heightL : List (BNode F) → Nat
    | [] => 0
    | k :: ks => max (height k + 1) (heightL ks)

/-- The nodes `d` levels below `n`. -/
def atDepth (n : BNode F) : Nat → List (BNode F)
  | 0 => [n]
  | d + 1 => (n.atDepth d).flatMap fun k => k.items.map (·.2)
end BNode

section
variable {F : Type}
open V

/-- conduit_blueprint_mesh.cpp:197-216 `verify_field_exists`. -/
def fieldExists (p : Str) (n : BNode F) (f : Str) : V Bool := do
  let res ← demand (n.hasChild f) p (chars! "missing child" ++ quote f true)
  sub f (valid res)
  return res

/-- conduit_blueprint_mesh.cpp:219-243 `verify_integer_field`, 247-271 `verify_number_field`,
    275-299 `verify_string_field` with a field name: they differ in the test and the message. -/
def leafField (test : BNode F → Bool) (what : Str) (p : Str) (n : BNode F) (f : Str) : V Bool := do
  sub f (return ())
  let res ← andAlso (fieldExists p n f) do
    let c ← lift (n.get f)
    demand (test c) p (quote f ++ what)
  sub f (valid res)
  return res

/-- The same with an empty field name: the node itself is tested. -/
def leafSelf (test : BNode F → Bool) (what : Str) (p : Str) (n : BNode F) : V Bool := do
  let res ← demand (test n) p what
  finish res

/-- conduit_blueprint_mesh.cpp:219-243 `verify_integer_field`. -/
def integerField (p : Str) (n : BNode F) (f : Str) : V Bool :=
  leafField BNode.isInt (chars! "is not an integer (array)") p n f
/-- conduit_blueprint_mesh.cpp:247-271 `verify_number_field`. -/
def numberField (p : Str) (n : BNode F) (f : Str) : V Bool :=
  leafField BNode.isNumber (chars! "is not a number") p n f
/-- conduit_blueprint_mesh.cpp:275-299 `verify_string_field`. -/
def stringField (p : Str) (n : BNode F) (f : Str) : V Bool :=
  leafField BNode.isString (chars! "is not a string") p n f
/-- `verify_integer_field(protocol, node, info)`. -/
def integerSelf (p : Str) (n : BNode F) : V Bool := leafSelf BNode.isInt (chars! "is not an integer (array)") p n
/-- `verify_string_field(protocol, node, info)`. -/
def stringSelf (p : Str) (n : BNode F) : V Bool := leafSelf BNode.isString (chars! "is not a string") p n

/-- conduit_blueprint_mesh.cpp:318-340, the tests of `verify_object_field`; `num` is `num_children`,
    `f` the field name used in the message. -/
def objectTests (p f : Str) (n : BNode F) (allowList allowEmpty : Bool) (num : Nat) : V Bool := do
  if !(n.isObject || (allowList && n.isList)) then do
    err p (quote f ++ chars! "is not an object" ++ (if allowList then chars! " or a list" else []))
    return false
  else if !allowEmpty && n.numChildren == 0 then do
    err p (chars! "has no children")
    return false
  else if num != 0 && n.numChildren != num then do
    err p (chars! "has incorrect number of children (" ++ decimal n.numChildren ++ chars! " vs " ++
      decimal num ++ chars! ")")
    return false
  else return true

/-- conduit_blueprint_mesh.cpp:303-345 `verify_object_field` with a field name. -/
def objectField (p : Str) (n : BNode F) (f : Str) (allowList allowEmpty : Bool := false) (num : Nat := 0) :
    V Bool := do
  sub f (return ())
  let res ← andAlso (fieldExists p n f) do
    let c ← lift (n.get f)
    objectTests p f c allowList allowEmpty num
  sub f (valid res)
  return res

/-- `verify_object_field(protocol, node, info)`. -/
def objectSelf (p : Str) (n : BNode F) : V Bool := do
  let res ← objectTests p [] n false false 0
  finish res

/-- conduit_blueprint_mcarray.cpp:85-134, the loop over the components; `num` is `num_elems`. -/
def mcarrayLoop : List (Str × BNode F) → (num : Nat) → V Bool
  | [], _ => return true
  | (name, c) :: l, num => do
    let label := chars! "child \"" ++ name ++ chars! "\""
    if c.isNumber then do
      let num := if num = 0 then c.numElements else num
      let a ← demand (c.numElements == num) (chars! "mcarray")
        (label ++ chars! " does not have the same number of elements as mcarray components.")
      let b ← mcarrayLoop l num
      return (a && b)
    else do
      err (chars! "mcarray") (label ++ chars! " is not a numeric type.")
      let _ ← mcarrayLoop l num
      return false

/-- conduit_blueprint_mcarray.cpp:63-139 `mcarray::verify`.  (`itr.name()` is never empty: a child
    of a list is named by its index.) -/
def mcarrayVerify (n : BNode F) : V Bool := do
  reset
  let a ← demand (n.isObject || n.isList) (chars! "mcarray") (chars! "Node has no children")
  let b ← mcarrayLoop n.items 0
  finish (a && b)

/-- conduit_blueprint_mesh.cpp:349-374 `verify_mcarray_field`. -/
def mcarrayField (p : Str) (n : BNode F) (f : Str) : V Bool := do
  sub f (return ())
  let res ← andAlso (fieldExists p n f) do
    let c ← lift (n.get f)
    let res ← sub f (mcarrayVerify c)
    if res then do
      note p (quote f ++ chars! "is an mcarray")
      return true
    else do
      err p (quote f ++ chars! "is not an mcarray")
      return false
  sub f (valid res)
  return res

/-- Equality of two sets of names. -/
def sameSet (a b : List Str) : Bool := a.all (fun x => b.contains x) && b.all (fun x => a.contains x)

/-- conduit_blueprint_mcarray.cpp:380-397: whether the nodes of one depth have the same child names as
    the first.  Which one is first (the map is ordered by address) makes no difference to the result. -/
def levelSame (n : BNode F) (d : Nat) : Bool :=
  match n.atDepth d with
  | [] => true
  | k :: ks => ks.all fun c => sameSet c.childNames k.childNames

/-- conduit_blueprint_mcarray.cpp:378-398, the loop over the depths above the leaves. -/
def mlarrayLevels (n : BNode F) : List Nat → (res : Bool) → V Bool
  | [], res => return res
  | d :: ds, res => do
    if res && !levelSame n d then do
      err (chars! "mlarray") (chars! "node subdepth " ++ decimal d ++ chars! " has subtree mismatches")
      mlarrayLevels n ds false
    else mlarrayLevels n ds res

/-- conduit_blueprint_mcarray.cpp:319-437 `mlarray::verify(n, info, min_depth, max_depth, false)`.
    It does not call `log::validation`. -/
def mlarrayVerify (n : BNode F) (minDepth maxDepth : Nat) : V Bool := do
  reset
  let r0 ← demand (!n.isEmpty) (chars! "mlarray") (chars! "mlarray is empty")
  let r1 ← mlarrayLevels n (List.range n.height) r0
  let r2 ← (if r1 then
    demand ((n.atDepth n.height).all BNode.isNumber) (chars! "mlarray") (chars! "node leaves have non-numerical types")
    else return false : V Bool)
  let r3 ← demand (decide (minDepth ≤ n.height) && decide (n.height ≤ maxDepth)) (chars! "mlarray")
    (chars! "mlarray depth has depth " ++ decimal n.height ++ chars! ", which isn't in the required depth bounds of [" ++
      decimal minDepth ++ chars! ", " ++ decimal maxDepth ++ chars! "]")
  return (r2 && r3)

/-- conduit_blueprint_mesh.cpp:378-406 `verify_mlarray_field(…, min_depth, max_depth, false)`. -/
def mlarrayField (p : Str) (n : BNode F) (f : Str) (minDepth maxDepth : Nat) : V Bool := do
  sub f (return ())
  let res ← andAlso (fieldExists p n f) do
    let c ← lift (n.get f)
    let res ← sub f (mlarrayVerify c minDepth maxDepth)
    if res then do
      note p (quote f ++ chars! "is an mlarray")
      return true
    else do
      err p (quote f ++ chars! "is not an mlarray")
      return false
  sub f (valid res)
  return res

/-- conduit_blueprint_o2mrelation_utils.hpp:56 `O2M_PATHS`. -/
def o2mPaths : List Str := [chars! "sizes", chars! "offsets", chars! "indices"]

/-- conduit_blueprint_o2mrelation.cpp:85-98, one of the index arrays. -/
def o2mMeta (n : BNode F) (path : Str) : V Bool := do
  if n.hasChild path then do
    let c ← lift (n.get path)
    demand c.isInt (chars! "o2mrelation") (chars! "'" ++ path ++ chars! "' metadata uses non-index type")
  else return true

/-- conduit_blueprint_o2mrelation.cpp:100-119, `sizes` and `offsets` together. -/
def o2mPair (n : BNode F) : V Bool := do
  let hasSizes := n.hasChild (chars! "sizes")
  let hasOffsets := n.hasChild (chars! "offsets")
  if hasSizes || hasOffsets then do
    if !(hasSizes && hasOffsets) then do
      err (chars! "o2mrelation") (chars! "requires both 'sizes' and 'offsets' specs")
      return false
    else do
      let s ← lift (n.get (chars! "sizes"))
      let o ← lift (n.get (chars! "offsets"))
      demand (s.numElements == o.numElements) (chars! "o2mrelation")
        (chars! "requires equal length 'sizes' and 'offsets' specs")
  else return true

/-- conduit_blueprint_o2mrelation.cpp:123-138: whether there is a data array. -/
def o2mData : List (Str × BNode F) → V Bool
  | [] => return false
  | (name, c) :: l => do
    let here := !o2mPaths.contains name && c.isNumber
    if here then
      note (chars! "o2mrelation") (chars! "applying relation to path '" ++ name ++ chars! "'")
    let rest ← o2mData l
    return (here || rest)

/-- conduit_blueprint_o2mrelation.cpp:69-152 `o2mrelation::verify`.  `info` is not reset. -/
def o2mVerify (n : BNode F) : V Bool := do
  let r0 ← demand n.isObject (chars! "o2mrelation") (chars! "base node is not an object")
  let r1 ← all (o2mMeta n) o2mPaths
  let r2 ← o2mPair n
  let found ← o2mData n.items
  let r3 ← demand found (chars! "o2mrelation") (chars! "need at least one relation data array")
  finish (r0 && r1 && r2 && r3)

/-- conduit_blueprint_mesh.cpp:410-435 `verify_o2mrelation_field`. -/
def o2mField (p : Str) (n : BNode F) (f : Str) : V Bool := do
  sub f (return ())
  let res ← andAlso (fieldExists p n f) do
    let c ← lift (n.get f)
    let res ← sub f (o2mVerify c)
    if res then do
      note p (quote f ++ chars! "describes a one-to-many relation")
      return true
    else do
      err p (quote f ++ chars! "doesn't describe a one-to-many relation")
      return false
  sub f (valid res)
  return res

/-- conduit_blueprint_mesh.cpp:452-471, the tests of `verify_enum_field` on a string. -/
def enumTest (p f : Str) (values : List Str) (s : Str) : V Bool := do
  if values.contains s then do
    note p (quote f ++ chars! "has valid value" ++ quote s true)
    return true
  else do
    err p (quote f ++ chars! "has invalid value" ++ quote s true)
    return false

/-- conduit_blueprint_mesh.cpp:439-478 `verify_enum_field` with a field name. -/
def enumField (p : Str) (n : BNode F) (f : Str) (values : List Str) : V Bool := do
  sub f (return ())
  let res ← andAlso (stringField p n f) do
    let c ← lift (n.get f)
    let s ← lift c.asString
    enumTest p f values s
  sub f (valid res)
  return res

/-- `verify_enum_field(protocol, node, info, "", values)`. -/
def enumSelf (p : Str) (n : BNode F) (values : List Str) : V Bool := do
  let res ← andAlso (stringSelf p n) do
    let s ← lift n.asString
    enumTest p [] values s
  finish res

/-- The functions that reset `info`, check the node itself against a list of values and write the
    verdict: conduit_blueprint_mesh.cpp:3733-3745 `association::verify`, 4034-4046
    `coordset::type::verify`, 6088-6100 `topology::type::verify`, 6108-6120 `topology::shape::verify`,
    7187-7199 `nestset::type::verify`. -/
def enumVerify (p : Str) (values : List Str) (n : BNode F) : V Bool := do
  reset
  let res ← enumSelf p n values
  finish res

/-- `verify_field_exists(protocol, n, info, f) && g(n[f], info[f])`. -/
def existsAnd (p : Str) (n : BNode F) (f : Str) (g : BNode F → V Bool) : V Bool :=
  andAlso (fieldExists p n f) do
    let c ← lift (n.get f)
    sub f (g c)

/-- `verify_object_field(protocol, n, info, f) && g(n[f], info[f])`. -/
def objectAnd (p : Str) (n : BNode F) (f : Str) (g : BNode F → V Bool) : V Bool :=
  andAlso (objectField p n f) do
    let c ← lift (n.get f)
    sub f (g c)

/-- `!n.has_child(f) || g(n[f], info[f])`; also `if(n.has_child(f)) res &= …`. -/
def ifHas (n : BNode F) (f : Str) (g : BNode F → V Bool) : V Bool := do
  if n.hasChild f then do
    let c ← lift (n.get f)
    g c
  else return true

/-- conduit_blueprint_mesh_utils.hpp:67-94. -/
def associations : List Str := [chars! "vertex", chars! "element"]
def nestsetTypes : List Str := [chars! "parent", chars! "child"]
def coordinateAxes : List Str :=
  [chars! "x", chars! "y", chars! "z", chars! "r", chars! "theta", chars! "phi"]
def coordTypes : List Str := [chars! "uniform", chars! "rectilinear", chars! "explicit"]
def topoTypes : List Str :=
  [chars! "points", chars! "uniform", chars! "rectilinear", chars! "structured", chars! "unstructured"]
def shapeTypes : List Str :=
  [chars! "point", chars! "line", chars! "tri", chars! "quad", chars! "tet", chars! "hex", chars! "wedge",
   chars! "pyramid", chars! "polygonal", chars! "polyhedral", chars! "mixed"]

/-- conduit_blueprint_mesh.cpp:3733-3745 `association::verify`. -/
def associationVerify (n : BNode F) : V Bool := enumVerify (chars! "mesh::association") associations n

/-- conduit_blueprint_mesh.cpp:3703-3724 `logical_dims::verify`. -/
def logicalDimsVerify (n : BNode F) : V Bool := do
  let p := chars! "mesh::logical_dims"
  reset
  let r1 ← integerField p n (chars! "i")
  let r2 ← (if n.hasChild (chars! "j") then integerField p n (chars! "j") else return true : V Bool)
  let r3 ← (if n.hasChild (chars! "k") then integerField p n (chars! "k") else return true : V Bool)
  finish (r1 && r2 && r3)

/-- conduit_blueprint_mesh.cpp:3759-3778 `uniform::origin::verify` (`pre` empty) and 3784-3804
    `uniform::spacing::verify` (`pre` is `d`). -/
def axesVerify (p pre : Str) (n : BNode F) : V Bool := do
  reset
  let r ← all (fun ax => (if n.hasChild (pre ++ ax) then numberField p n (pre ++ ax) else return true : V Bool))
    coordinateAxes
  finish r

/-- conduit_blueprint_mesh.cpp:3808-3838 `coordset::uniform::verify`. -/
def coordsetUniform (n : BNode F) : V Bool := do
  let p := chars! "mesh::coordset::uniform"
  reset
  let r1 ← enumField p n (chars! "type") [chars! "uniform"]
  let r2 ← objectAnd p n (chars! "dims") logicalDimsVerify
  let r3 ← ifHas n (chars! "origin") fun c => do
    opt p (chars! "has origin")
    sub (chars! "origin") (axesVerify (chars! "mesh::coordset::uniform::origin") [] c)
  let r4 ← ifHas n (chars! "spacing") fun c => do
    opt p (chars! "has spacing")
    sub (chars! "spacing") (axesVerify (chars! "mesh::coordset::uniform::spacing") (chars! "d") c)
  finish (r1 && r2 && r3 && r4)

/-- conduit_blueprint_mesh.cpp:3842-3876 `coordset::rectilinear::verify`. -/
def coordsetRectilinear (n : BNode F) : V Bool := do
  let p := chars! "mesh::coordset::rectilinear"
  reset
  let r1 ← enumField p n (chars! "type") [chars! "rectilinear"]
  let r2 ← andAlso (objectField p n (chars! "values") true) do
    let c ← lift (n.get (chars! "values"))
    all (fun k => demand k.2.isNumber p (chars! "value child " ++ quote k.1 ++ chars! " is not a number array")) c.items
  finish (r1 && r2)

/-- conduit_blueprint_mesh.cpp:3880-3896 `coordset::_explicit::verify`. -/
def coordsetExplicit (n : BNode F) : V Bool := do
  let p := chars! "mesh::coordset::explicit"
  reset
  let r1 ← enumField p n (chars! "type") [chars! "explicit"]
  let r2 ← mcarrayField p n (chars! "values")
  finish (r1 && r2)

/-- conduit_blueprint_mesh.cpp:3900-3931 `coordset::verify`. -/
def coordsetVerify (n : BNode F) : V Bool := do
  let p := chars! "mesh::coordset"
  reset
  let r0 ← existsAnd p n (chars! "type") (enumVerify (chars! "mesh::coordset::type") coordTypes)
  let res ← (if r0 then do
      let c ← lift (n.get (chars! "type"))
      let s ← lift c.asString
      if s = chars! "uniform" then coordsetUniform n
      else if s = chars! "rectilinear" then coordsetRectilinear n
      else if s = chars! "explicit" then coordsetExplicit n
      else return true
    else return false : V Bool)
  finish res

/-- conduit_blueprint_mesh.cpp:4247-4263 `topology::points::verify`, 4273-4289
    `topology::uniform::verify`, 4329-4345 `topology::rectilinear::verify`: they differ in the name. -/
def topologyImplicit (kind : Str) (n : BNode F) : V Bool := do
  let p := chars! "mesh::topology::" ++ kind
  reset
  let r1 ← stringField p n (chars! "coordset")
  let r2 ← enumField p n (chars! "type") [kind]
  finish (r1 && r2)

/-- conduit_blueprint_mesh.cpp:4375-4411 `topology::structured::verify`. -/
def topologyStructured (n : BNode F) : V Bool := do
  let p := chars! "mesh::topology::structured"
  reset
  let r1 ← stringField p n (chars! "coordset")
  let r2 ← enumField p n (chars! "type") [chars! "structured"]
  let r3 ← andAlso (objectField p n (chars! "elements")) do
    let c ← lift (n.get (chars! "elements"))
    sub (chars! "elements") do
      let r ← objectAnd p c (chars! "dims") logicalDimsVerify
      finish r
  finish (r1 && r2 && r3)

/-- conduit_blueprint_mesh.cpp:6108-6120 `topology::shape::verify`. -/
def shapeVerify (n : BNode F) : V Bool := enumVerify (chars! "mesh::topology::shape") shapeTypes n

/-- conduit_blueprint_mesh.cpp:6128-6159 `topology::shape_map::verify`. -/
def shapeMapVerify (n : BNode F) : V Bool := do
  let p := chars! "mesh::topology::shape_map"
  reset
  let r0 ← objectSelf p n
  let r1 ← all (fun k => do
    let v ← lift k.2.asInt32
    let msg := quote k.1 ++ chars! "(" ++ decimal v ++ chars! ")"
    if shapeTypes.contains k.1 then do
      note p (chars! "has valid value " ++ msg)
      return true
    else do
      err p (chars! "has invalid value " ++ msg)
      return false) n.items
  finish (r0 && r1)

/-- The shape numbers of a shape map (conduit_blueprint_mesh.cpp:517-521). -/
def shapeRange (A : Arith F) : List (Str × BNode F) → Res (List Int)
  | [] => .ok []
  | k :: ks => do
    let v ← k.2.toInt32 A
    let vs ← shapeRange A ks
    .ok (v :: vs)

/-- conduit_blueprint_mesh.cpp:509-546 `verify_shapes_node`. -/
def shapesNode (A : Arith F) (n shapeMap : BNode F) : V Bool := do
  let p := chars! "mesh::topology::unstructured"
  let r0 ← integerSelf p n
  let range ← lift (shapeRange A shapeMap.items)
  let shapes ← lift (n.int32Elems A)
  let r1 ← all (fun s => demand (range.contains s) p (chars! "shape not in shape_map")) shapes
  let res := r0 && r1
  if res then do
    let _ ← all (fun k => do
      note p (chars! "cells found for shape " ++ k.1.1 ++ chars! " (" ++ decimal k.2 ++ chars! ").")
      return true) (shapeMap.items.zip range)
    return true
  else return false

/-- conduit_blueprint_mesh.cpp:548-562 `verify_mixed_elements_node`; `info` is the node of the
    elements. -/
def mixedElements (A : Arith F) (n : BNode F) : V Bool := do
  let p := chars! "mesh::topology::unstructured"
  let r1 ← existsAnd p n (chars! "shape") shapeVerify
  let r2 ← existsAnd p n (chars! "shape_map") shapeMapVerify
  let r3 ← existsAnd p n (chars! "shapes") fun c => do
    let m ← lift (n.get (chars! "shape_map"))
    shapesNode A c m
  return (r1 && r2 && r3)

/-- conduit_blueprint_mesh.cpp:564-585 `verify_mixed_node`: `elems_res` and `subelems_res`. -/
def mixedNode (A : Arith F) (topo : BNode F) : V (Bool × Bool) := do
  let p := chars! "mesh::topology::unstructured"
  let elems ← lift (topo.get (chars! "elements"))
  let r1 ← sub (chars! "elements") (mixedElements A elems)
  let r2 ← o2mField p topo (chars! "elements")
  let r3 ← ifHas topo (chars! "subelements") fun c => do
    let r1 ← sub (chars! "subelements") (mixedElements A c)
    let r2 ← o2mField p topo (chars! "subelements")
    return (r1 && r2)
  return (r1 && r2, r3)

/-- conduit_blueprint_mesh.cpp:631-651: the subelements `n` of a polyhedral node; `info` is theirs. -/
def subNode (n : BNode F) : V Bool := do
  let p := chars! "mesh::topology::unstructured"
  let res ← (if n.hasChild (chars! "shape") then do
      let r1 ← existsAnd p n (chars! "shape") shapeVerify
      let r2 ← integerField p n (chars! "connectivity")
      let c ← lift (n.get (chars! "shape"))
      let s ← lift c.asString
      let r4 ← o2mVerify n
      return (r1 && r2 && s == chars! "polygonal" && r4)
    else return false : V Bool)
  finish res

/-- conduit_blueprint_mesh.cpp:604-655: the check of `subelements` for a polyhedral node; `name` is
    given when the topology has several groups of elements.  `info` is the topology's.
    `verify_object_field` has refused lists, so `has_subnames` is true. -/
def polySub (name : Option Str) (topo : BNode F) : V Bool := do
  let p := chars! "mesh::topology::unstructured"
  andAlso (objectField p topo (chars! "subelements")) do
    let c ← lift (topo.get (chars! "subelements"))
    sub (chars! "subelements") do
      let res ← (match name with
        | none => if c.hasChild (chars! "shape") then subNode c else return false
        | some nm => if c.hasChild nm then do
            let k ← lift (c.get nm)
            sub nm (subNode k)
          else return false : V Bool)
      finish res

/-- `node.has_child("shape") && node["shape"].dtype().is_string() && node["shape"].as_string() == s`. -/
def hasShape (n : BNode F) (s : Str) : Bool :=
  match n.get (chars! "shape") with
  | .ok (.str x) => x == s
  | _ => false

/-- conduit_blueprint_mesh.cpp:588-659 `verify_poly_node`: `node_res` before `elems_res` is joined to
    it, and the verdict on the subelements that is joined to `elems_res`.  `nodeInfo` leads to the
    info of the node. -/
def polyNode (name : Option Str) (n : BNode F) (nodeInfo : V Bool → V Bool) (topo : BNode F) :
    V (Bool × Bool) := do
  if hasShape n (chars! "polygonal") || hasShape n (chars! "polyhedral") then do
    let r ← nodeInfo (o2mVerify n)
    let s ← (if hasShape n (chars! "polyhedral") then polySub name topo else return true : V Bool)
    return (r, s)
  else return (true, true)

/-- conduit_blueprint_mesh.cpp:4476-4499: the loop over several groups of elements; `elemsRes` is
    the verdict so far. -/
def groupsLoop (topo : BNode F) : List (Str × BNode F) → (elemsRes : Bool) → V Bool
  | [], elemsRes => return elemsRes
  | (name, c) :: l, elemsRes => do
    let p := chars! "mesh::topology::unstructured"
    let info {α : Type} (act : V α) : V α := sub (chars! "elements") (sub name act)
    let r1 ← info (existsAnd p c (chars! "shape") shapeVerify)
    let r2 ← info (integerField p c (chars! "connectivity"))
    let r3 ← polyNode (some name) c info topo
    let elemsRes := elemsRes && r3.2
    let res := r1 && r2 && r3.1 && elemsRes
    info (valid res)
    groupsLoop topo l (elemsRes && res)

/-- conduit_blueprint_mesh.cpp:4428-4515 `topology::unstructured::verify`.
    `verify_object_field` has refused elements without children, so the last branch (4501-4505) is not
    reached. -/
def topologyUnstructured (A : Arith F) (n : BNode F) : V Bool := do
  let p := chars! "mesh::topology::unstructured"
  reset
  let r1 ← stringField p n (chars! "coordset")
  let r2 ← enumField p n (chars! "type") [chars! "unstructured"]
  let r3 ← andAlso (objectField p n (chars! "elements")) do
    let c ← lift (n.get (chars! "elements"))
    let info {α : Type} (act : V α) : V α := sub (chars! "elements") act
    let r ← (if c.hasChild (chars! "shape") then do
        let a ← info (existsAnd p c (chars! "shape") shapeVerify)
        let b ← info (integerField p c (chars! "connectivity"))
        if hasShape c (chars! "mixed") then do
          let m ← mixedNode A n
          return (a && b && m.1 && m.2, m.2)
        else do
          let m ← polyNode none c info n
          return (a && b && m.1 && m.2, true)
      else if c.hasChild (chars! "element_types") then return (true, true)
      else do
        let g ← groupsLoop n c.items true
        return (g, true) : V (Bool × Bool))
    info (valid r.1)
    return (r.1 && r.2)
  finish (r1 && r2 && r3)

/-- conduit_blueprint_mesh.cpp:4146-4194 `topology::verify`. -/
def topologyVerify (A : Arith F) (n : BNode F) : V Bool := do
  let p := chars! "mesh::topology"
  reset
  let r0 ← existsAnd p n (chars! "type") (enumVerify (chars! "mesh::topology::type") topoTypes)
  let r1 ← (if r0 then do
      let c ← lift (n.get (chars! "type"))
      let s ← lift c.asString
      if s = chars! "points" then topologyImplicit (chars! "points") n
      else if s = chars! "uniform" then topologyImplicit (chars! "uniform") n
      else if s = chars! "rectilinear" then topologyImplicit (chars! "rectilinear") n
      else if s = chars! "structured" then topologyStructured n
      else if s = chars! "unstructured" then topologyUnstructured A n
      else return true
    else return false : V Bool)
  let r2 ← (if n.hasChild (chars! "grid_function") then do
      opt p (chars! "includes grid_function")
      stringField p n (chars! "grid_function")
    else return true : V Bool)
  finish (r1 && r2)

/-- conduit_blueprint_mesh.cpp:6170-6200 `verify_matset_material_map`. -/
def materialMapVerify (p : Str) (n : BNode F) : V Bool := do
  let res ← andAlso (objectField p n (chars! "material_map")) do
    let c ← lift (n.get (chars! "material_map"))
    all (fun k => demand k.2.isInt p (quote (chars! "material_map") ++ chars! "child " ++ quote k.1 ++
      chars! " is not an integer leaf.")) c.items
  finish res

/-- conduit_blueprint_mesh.cpp:6217-6262: `volume_fractions`; the verdict `vfs_res` (which is joined to
    `res` in every branch) and `mat_map_is_optional`. -/
def volumeFractions (p : Str) (n : BNode F) : V (Bool × Bool) := do
  let ex ← fieldExists p n (chars! "volume_fractions")
  if ex then do
    let c ← lift (n.get (chars! "volume_fractions"))
    if !c.isNumber && !c.isObject then do
      err p (chars! "'volume_fractions' isn't the correct type")
      return (false, true)
    else if c.isNumber then do
      let isNum ← numberField p n (chars! "volume_fractions")
      if isNum then do
        note p (chars! "detected uni-buffer matset")
        let a ← integerField p n (chars! "material_ids")
        let b ← o2mVerify n
        return (a && b, false)
      else return (true, true)
    else do
      let isObj ← objectField p n (chars! "volume_fractions")
      if isObj then do
        note p (chars! "detected multi-buffer matset")
        let r ← sub (chars! "volume_fractions") do
          let r ← all (fun (k : Str × BNode F) =>
            if k.2.isObject then o2mField p c k.1 else numberField p c k.1) c.items
          finish r
        return (r, true)
      else return (true, true)
  else return (false, true)

/-- conduit_blueprint_mesh.cpp:6306-6352: `element_ids`, given that `vfs_res` is true. -/
def elementIds (p : Str) (n : BNode F) : V Bool := do
  let e ← lift (n.get (chars! "element_ids"))
  let v ← lift (n.get (chars! "volume_fractions"))
  if !e.isInt && !e.isObject then do
    err p (chars! "'element_ids' isn't the correct type")
    return false
  else if e.isObject && v.isObject then do
    let a ← demand (sameSet v.childNames e.childNames) p
      (chars! "'element_ids' hierarchy must match 'volume_fractions'")
    sub (chars! "element_ids") do
      let b ← all (fun (k : Str × BNode F) => integerField p e k.1) e.items
      finish (a && b)
  else if e.isInt && v.isNumber then integerField p n (chars! "element_ids")
  else do
    err p (chars! "'element_ids' hierarchy must match 'volume_fractions'")
    return false

/-- conduit_blueprint_mesh.cpp:6264-6304: `material_map`. -/
def materialMapPart (p : Str) (n : BNode F) (isOptional : Bool) : V Bool := do
  let r0 ← (if !isOptional && !n.hasChild (chars! "material_map") then do
      err p (chars! "'material_map' is missing (required for uni-buffer matsets) ")
      return false
    else return true : V Bool)
  let r1 ← ifHas n (chars! "material_map") fun m => do
    if isOptional then opt p (chars! "includes material_map")
    let a ← materialMapVerify p n
    let b ← (if n.hasChild (chars! "volume_fractions") then do
        let v ← lift (n.get (chars! "volume_fractions"))
        if v.isObject then
          all (fun (k : Str × BNode F) => demand (v.hasChild k.1) p
            (chars! "'material_map' hierarchy must be a subset of 'volume_fractions'.  'volume_fractions' is missing child '"
              ++ k.1 ++ chars! "' which exists in 'material_map`")) m.items
        else return true
      else return true : V Bool)
    return (a && b)
  return (r0 && r1)

/-- conduit_blueprint_mesh.cpp:6204-6357 `matset::verify`. -/
def matsetVerify (n : BNode F) : V Bool := do
  let p := chars! "mesh::matset"
  reset
  let r1 ← stringField p n (chars! "topology")
  let vf ← volumeFractions p n
  let r3 ← materialMapPart p n vf.2
  let r4 ← (if n.hasChild (chars! "element_ids") && vf.1 then elementIds p n else return true : V Bool)
  finish (r1 && vf.1 && r3 && r4)

/-- conduit_blueprint_mesh.cpp:6560-6572 `field::basis::verify`. -/
def basisVerify (n : BNode F) : V Bool := do
  reset
  let r ← stringSelf (chars! "mesh::field::basis") n
  finish r

/-- conduit_blueprint_mesh.cpp:6464-6500: a name and the values it goes with. -/
def fieldValues (p : Str) (n : BNode F) (ref vals : Str) (maxDepth : Nat) : V Bool := do
  let hasRef := n.hasChild ref
  let hasVals := n.hasChild vals
  if hasRef ^^ hasVals then do
    err p (chars! "'" ++ (if hasRef then ref else vals) ++ chars! "' is present, but its companion '" ++
      (if hasRef then vals else ref) ++ chars! "' is missing")
    return false
  else if hasRef && hasVals then do
    let a ← stringField p n ref
    let b ← mlarrayField p n vals 0 maxDepth
    return (a && b)
  else return true

/-- conduit_blueprint_mesh.cpp:6432-6508 `field::verify`. -/
def fieldVerify (n : BNode F) : V Bool := do
  let p := chars! "mesh::field"
  reset
  let r1 ← demand (n.hasChild (chars! "association") || n.hasChild (chars! "basis")) p
    (chars! "missing child 'association' or 'basis'")
  let r2 ← ifHas n (chars! "association") fun c => sub (chars! "association") (associationVerify c)
  let r3 ← ifHas n (chars! "basis") fun c => sub (chars! "basis") (basisVerify c)
  let r4 ← demand (n.hasChild (chars! "topology") || n.hasChild (chars! "matset")) p
    (chars! "missing child 'topology' or 'matset'")
  let r5 ← fieldValues p n (chars! "topology") (chars! "values") 1
  let r6 ← fieldValues p n (chars! "matset") (chars! "matset_values") 2
  finish (r1 && r2 && r3 && r4 && r5 && r6)

/-- conduit_blueprint_mesh.cpp:6655-6680, the loop over the materials; `len` is `specmats_len`. -/
def specLoop (p : Str) (mats : BNode F) : List (Str × BNode F) → (len : Nat) → V Bool
  | [], _ => return true
  | (name, c) :: l, len => do
    let ok ← mcarrayField p mats name
    if ok then do
      let first ← lift (match c.items with | k :: _ => .ok k.2 | [] => .error : Res (BNode F))
      let n := first.numElements
      if len = 0 then specLoop p mats l n
      else do
        let a ← demand (len == n) p (quote name ++
          chars! " has mismatched length relative to other material mcarrays in this specset")
        let b ← specLoop p mats l len
        return (a && b)
    else do
      let _ ← specLoop p mats l len
      return false

/-- conduit_blueprint_mesh.cpp:6633-6687 `specset::verify`. -/
def specsetVerify (n : BNode F) : V Bool := do
  let p := chars! "mesh::specset"
  reset
  let r1 ← stringField p n (chars! "matset")
  let r2 ← objectAnd p n (chars! "matset_values") fun c => do
    let r ← specLoop p c c.items 0
    finish r
  finish (r1 && r2)

/-- conduit_blueprint_mesh.cpp:6758-6794: one window of an adjset; `window_dim` is passed as
    `allow_empty`. -/
def adjsetWindow (p : Str) (n : BNode F) : V Bool := do
  let r1 ← existsAnd p n (chars! "origin") logicalDimsVerify
  let r2 ← existsAnd p n (chars! "dims") logicalDimsVerify
  let r3 ← existsAnd p n (chars! "ratio") logicalDimsVerify
  let res ← (if r1 && r2 && r3 then do
      let o ← lift (n.get (chars! "origin"))
      let dim := o.numChildren
      let a ← (if n.hasChild (chars! "dims") then objectField p n (chars! "dims") false (dim != 0) else return true : V Bool)
      let b ← (if n.hasChild (chars! "ratio") then objectField p n (chars! "ratio") false (dim != 0) else return true : V Bool)
      return (a && b)
    else return false : V Bool)
  finish res

/-- conduit_blueprint_mesh.cpp:6738-6805: one group of an adjset; `group_res` and the verdict on its
    windows, which is not part of `group_res`. -/
def adjsetGroup (p : Str) (n : BNode F) : V (Bool × Bool) := do
  let r1 ← integerField p n (chars! "neighbors")
  let r ← (if n.hasChild (chars! "values") then do
      let a ← integerField p n (chars! "values")
      return (a, true)
    else if n.hasChild (chars! "windows") then do
      let a ← objectField p n (chars! "windows")
      let w ← lift (n.get (chars! "windows"))
      let ws ← sub (chars! "windows") do
        let r ← all (fun (k : Str × BNode F) => sub k.1 (adjsetWindow p k.2)) w.items
        finish r
      let b ← (if n.hasChild (chars! "orientation") then integerField p n (chars! "orientation") else return true : V Bool)
      return (a && b, ws)
    else return (true, true) : V (Bool × Bool))
  let _ ← finish (r1 && r.1)
  return (r1 && r.1, r.2)

/-- conduit_blueprint_mesh.cpp:6718-6817 `adjset::verify`. -/
def adjsetVerify (n : BNode F) : V Bool := do
  let p := chars! "mesh::adjset"
  reset
  let r1 ← stringField p n (chars! "topology")
  let r2 ← existsAnd p n (chars! "association") associationVerify
  let r3 ← andAlso (objectField p n (chars! "groups") false true) do
    let c ← lift (n.get (chars! "groups"))
    let r ← sub (chars! "groups") do
      let r ← groups p c.items
      valid r.1
      return r
    return (r.1 && r.2)
  finish (r1 && r2 && r3)
where
  /-- the loop over the groups -/
  groups (p : Str) : List (Str × BNode F) → V (Bool × Bool)
    | [] => return (true, true)
    | (name, c) :: l => do
      let a ← sub name (adjsetGroup p c)
      let b ← groups p l
      return (a.1 && b.1, a.2 && b.2)

/-- conduit_blueprint_mesh.cpp:7117-7150: one window of a nestset. -/
def nestsetWindow (p : Str) (n : BNode F) : V Bool := do
  let r1 ← integerField p n (chars! "domain_id")
  let r2 ← existsAnd p n (chars! "domain_type") (enumVerify (chars! "mesh::nestset::type") nestsetTypes)
  let r3 ← existsAnd p n (chars! "ratio") logicalDimsVerify
  let r4 ← ifHas n (chars! "origin") fun c => sub (chars! "origin") (logicalDimsVerify c)
  let r5 ← ifHas n (chars! "dims") fun c => sub (chars! "dims") (logicalDimsVerify c)
  let res ← (if r1 && r2 && r3 && r4 && r5 then do
      let o ← lift (n.get (chars! "ratio"))
      let dim := o.numChildren
      let a ← (if n.hasChild (chars! "origin") then objectField p n (chars! "origin") false false dim else return true : V Bool)
      let b ← (if n.hasChild (chars! "dims") then objectField p n (chars! "dims") false false dim else return true : V Bool)
      return (a && b)
    else return false : V Bool)
  finish res

/-- conduit_blueprint_mesh.cpp:7097-7160 `nestset::verify`. -/
def nestsetVerify (n : BNode F) : V Bool := do
  let p := chars! "mesh::nestset"
  reset
  let r1 ← stringField p n (chars! "topology")
  let r2 ← existsAnd p n (chars! "association") associationVerify
  let r3 ← objectAnd p n (chars! "windows") fun c => do
    let r ← all (fun (k : Str × BNode F) => sub k.1 (nestsetWindow p k.2)) c.items
    finish r
  finish (r1 && r2 && r3)

/-- conduit_blueprint_mesh.cpp:482-507 `verify_reference_field(protocol, n, info, chld, chld_info, f,
    refPath)`, where `chld_info` is `info[coll][name]`.  The verdict of the entry referred to is read
    from `info[refPath][refName]["valid"]`; a node that is not a string there is an error. -/
def referenceField (p : Str) (n : BNode F) (coll name : Str) (c : BNode F) (f refPath : Str) : V Bool := do
  let info {α : Type} (act : V α) : V α := sub coll (sub name act)
  let res ← andAlso (info (stringField p c f)) do
    let s ← lift (c.get f)
    let ref ← lift s.asString
    let found ← lift (if n.hasChild refPath then (n.get refPath).map' fun r => r.hasChild ref else .ok false : Res Bool)
    if !found then do
      info (err p (chars! "reference to non-existent " ++ f ++ quote ref true))
      return false
    else do
      let v ← sub refPath (sub ref (sub (chars! "valid") fun t =>
        (match t with | .str s => .ok (s, .str s) | _ => .error : Res (Str × Info))))
      if v ≠ chars! "true" then do
        info (err p (chars! "reference to invalid " ++ f ++ quote ref true))
        return false
      else return true
  info (sub f (valid res))
  info (valid res)
  return res

/-- `verify_object_field(p, n, info, coll)` and then, for every child, the verdict of `check`, joined
    into `info[coll]` (for example conduit_blueprint_mesh.cpp:671-688). -/
def collection (p : Str) (n : BNode F) (coll : Str) (check : Str → BNode F → V Bool) : V Bool :=
  andAlso (objectField p n coll) do
    let c ← lift (n.get coll)
    let r ← all (fun (k : Str × BNode F) => check k.1 k.2) c.items
    sub coll (valid r)
    return r

/-- conduit_blueprint_mesh.cpp:661-881 `verify_single_domain`. -/
def singleDomain (A : Arith F) (n : BNode F) : V Bool := do
  let p := chars! "mesh"
  let entry (coll : Str) (check : BNode F → V Bool) (ref refPath : Str) (name : Str) (c : BNode F) : V Bool := do
    let a ← sub coll (sub name (check c))
    let b ← referenceField p n coll name c ref refPath
    return (a && b)
  reset
  let r1 ← collection p n (chars! "coordsets") fun name c =>
    sub (chars! "coordsets") (sub name (coordsetVerify c))
  let r2 ← collection p n (chars! "topologies")
    (entry (chars! "topologies") (topologyVerify A) (chars! "coordset") (chars! "coordsets"))
  let r3 ← (if n.hasChild (chars! "matsets") then collection p n (chars! "matsets")
    (entry (chars! "matsets") matsetVerify (chars! "topology") (chars! "topologies")) else return true : V Bool)
  let r4 ← (if n.hasChild (chars! "specsets") then collection p n (chars! "specsets")
    (entry (chars! "specsets") specsetVerify (chars! "matset") (chars! "matsets")) else return true : V Bool)
  let r5 ← (if n.hasChild (chars! "fields") then
      collection (chars! "mesh::fields") n (chars! "fields") fun name c => do
        let a ← sub (chars! "fields") (sub name (fieldVerify c))
        let b ← (if c.hasChild (chars! "topology") then
          referenceField (chars! "mesh::field") n (chars! "fields") name c (chars! "topology") (chars! "topologies")
          else return true : V Bool)
        let d ← (if c.hasChild (chars! "matset") then
          referenceField (chars! "mesh::field") n (chars! "fields") name c (chars! "matset") (chars! "matsets")
          else return true : V Bool)
        return (a && b && d)
    else return true : V Bool)
  let r6 ← (if n.hasChild (chars! "adjsets") then collection p n (chars! "adjsets")
    (entry (chars! "adjsets") adjsetVerify (chars! "topology") (chars! "topologies")) else return true : V Bool)
  let r7 ← (if n.hasChild (chars! "nestsets") then collection p n (chars! "nestsets")
    (entry (chars! "nestsets") nestsetVerify (chars! "topology") (chars! "topologies")) else return true : V Bool)
  let r8 ← (if n.hasChild (chars! "topologies") then do
      let c ← lift (n.get (chars! "topologies"))
      let r ← all (fun (k : Str × BNode F) => do
        sub (chars! "topologies") (sub k.1 (return ()))
        if k.2.hasChild (chars! "grid_function") then
          referenceField p n (chars! "topologies") k.1 k.2 (chars! "grid_function") (chars! "fields")
        else return true) c.items
      sub (chars! "topologies") (valid r)
      return r
    else return true : V Bool)
  finish (r1 && r2 && r3 && r4 && r5 && r6 && r7 && r8)

/-- conduit_blueprint_mesh.cpp:885-925 `verify_multi_domain`. -/
def multiDomain (A : Arith F) (n : BNode F) : V Bool := do
  let p := chars! "mesh"
  reset
  let res ← (if !n.isObject && !n.isList && !n.isEmpty then do
      err p (chars! "not an object, a list, or empty")
      return false
    else do
      let r ← (if n.isEmpty || n.numChildren == 0 then do
          note p (chars! "is an empty mesh")
          return true
        else all (fun (k : Str × BNode F) => sub k.1 (singleDomain A k.2)) n.items : V Bool)
      note p (chars! "is a multi domain mesh")
      return r : V Bool)
  finish res

/-- conduit_blueprint_mesh.cpp:1936-1955 `mesh::verify(n, info)`. -/
def meshVerify (A : Arith F) (n : BNode F) : V Bool := do
  reset
  if n.hasChild (chars! "coordsets") then singleDomain A n else multiDomain A n

end
end Conduit.Mesh
