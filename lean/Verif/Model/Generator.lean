import Verif.Model.Json
import Verif.Model.Schema
import Verif.Model.NodeEndian
import Verif.Model.NodeIO
/-
Schema to JSON text and back.
Sources: /repo/src/libs/conduit/conduit_schema.cpp, conduit_data_type.cpp,
conduit_generator.cpp
-/
namespace Conduit
open Spec

/-- conduit_utils.cpp:1060-1072 `indent`: `indent * depth` copies of the pad string. -/
def indentText (indent depth : Nat) (pad : Str) : Str :=
  (List.replicate depth (List.replicate indent pad).flatten).flatten

/-- conduit_data_type.cpp:1339-1388 `to_json_stream(os, 0, 0, "", "")`: how a schema
    prints a leaf.  `big`: the machine is big endian. -/
def DataType.toJson (big : Bool) (d : DataType) : Str :=
  chars! "{\"dtype\":\"" ++ d.id.name ++ chars! "\"" ++
  (if d.id = .empty ∨ d.id = .object ∨ d.id = .list then []
   else chars! ",\"number_of_elements\": " ++ intText d.n ++
     chars! ",\"offset\": " ++ intText d.offset ++
     chars! ",\"stride\": " ++ intText d.stride ++
     chars! ",\"element_bytes\": " ++ intText d.ele ++
     chars! ",\"endianness\": \"" ++ (Node.resolve big d.endian).name ++ chars! "\"") ++
  chars! "}"

/-- conduit_schema.cpp:551-552: a comma unless this was the last child. -/
def sepText {α : Type} (rest : List α) : Str := if rest.isEmpty then [] else [',']

namespace Schema

mutual
/-- conduit_schema.cpp:533-580 `to_json_stream`.  The child names are written as they
    are, without escaping. -/
def toJson (big : Bool) (indent : Nat) (pad eoe : Str) : Schema → Nat → Str
  | .leaf d, _ => d.toJson big
  | .obj es, depth =>
    eoe ++ indentText indent depth pad ++ '{' :: eoe ++
      toJsonE big indent pad eoe es (depth + 1) ++ indentText indent depth pad ++ ['}']
  | .lst cs, depth =>
    eoe ++ indentText indent depth pad ++ '[' :: eoe ++
      toJsonL big indent pad eoe cs (depth + 1) ++ indentText indent depth pad ++ [']']
/-- conduit_schema.cpp:546-554, the loop over the children of an object. -/
def toJsonE (big : Bool) (indent : Nat) (pad eoe : Str) : List (Str × Schema) → Nat → Str
  | [], _ => []
  | (n, c) :: es, depth =>
    indentText indent depth pad ++ '"' :: n ++ chars! "\": " ++ toJson big indent pad eoe c depth ++
      sepText es ++ eoe ++ toJsonE big indent pad eoe es depth
/-- conduit_schema.cpp:565-572, the loop over the children of a list. -/
def toJsonL (big : Bool) (indent : Nat) (pad eoe : Str) : List Schema → Nat → Str
  | [], _ => []
  | c :: cs, depth =>
    indentText indent depth pad ++ toJson big indent pad eoe c depth ++
      sepText cs ++ eoe ++ toJsonL big indent pad eoe cs depth
end

end Schema

namespace Gen

/-- conduit_data_type.cpp:1114-1163 `c_type_name_to_id` on an LP64 machine with signed
    `char`, with `long long` and without `long double`. -/
def cTypeNameToId (s : Str) : TypeId :=
  if s = chars! "char" then .int8
  else if s = chars! "short" then .int16
  else if s = chars! "int" then .int32
  else if s = chars! "long" then .int64
  else if s = chars! "long long" then .int64
  else if s = chars! "signed char" then .int8
  else if s = chars! "signed short" then .int16
  else if s = chars! "signed int" then .int32
  else if s = chars! "signed long" then .int64
  else if s = chars! "signed long long" then .int64
  else if s = chars! "unsigned char" then .uint8
  else if s = chars! "unsigned short" then .uint16
  else if s = chars! "unsigned int" then .uint32
  else if s = chars! "unsigned long" then .uint64
  else if s = chars! "unsigned long long" then .uint64
  else if s = chars! "float" then .float32
  else if s = chars! "double" then .float64
  else if s = chars! "char8_str" then .char8Str
  else .empty

/-- conduit_generator.cpp:455-472 `parse_leaf_dtype_name`. -/
def leafName (s : Str) : Res TypeId :=
  let id := if nameToId s = .empty then cTypeNameToId s else nameToId s
  if id = .empty ∧ s ≠ chars! "empty" then .error else .ok id

/-- `(index_t) GetUint64()`: 64-bit wrap to signed. -/
def toIndex (i : Int) : Int := if i < 2 ^ 63 then i else i - 2 ^ 64

/-- A number member read with `GetUint64()` (document.h): other JSON types are an error;
    a number that is no unsigned integer fails a rapidjson `assert` (the program aborts, or
    with NDEBUG reads the raw union), modelled as `ub`. -/
def getU64 : JV → Res Int
  | .int i => if 0 ≤ i then .ok (toIndex i) else .ub
  | .real _ => .ub
  | _ => .error

/-- `GetInt()`, conduit_generator.cpp:1150 (with the type test before it). -/
def getInt : JV → Res Int
  | .int i => if -(2 ^ 31) ≤ i ∧ i < 2 ^ 31 then .ok i else .ub
  | .real _ => .ub
  | _ => .error

/-- conduit_generator.cpp:832-843 `extract_uint64_member`. -/
def u64Member (ms : List (Str × JV)) (name : Str) (dflt : Int) : Res Int :=
  match ms.lookup name with
  | none => .ok dflt
  | some v => getU64 v

/-- conduit_generator.cpp:888-917: the endianness member. -/
def endianMember (ms : List (Str × JV)) : Res Endian :=
  match ms.lookup (chars! "endianness") with
  | none => .ok .default
  | some (.str s) =>
    if s = chars! "big" then .ok .big else if s = chars! "little" then .ok .little else .error
  | some _ => .error

/-- conduit_generator.cpp:845-873: the element count, 0 when not given. -/
def lengthMember (ms : List (Str × JV)) : Res Int :=
  match ms.lookup (chars! "number_of_elements") with
  | some v => getU64 v
  | none => u64Member ms (chars! "length") 0

/-- conduit_generator.cpp:805-948 `parse_leaf_dtype` of an object. -/
def leafDtype (ms : List (Str × JV)) (offset : Int) : Res DataType :=
  match ms.lookup (chars! "dtype") with
  | some (.str name) => do
    let length ← lengthMember ms
    let id ← leafName name
    let offset ← u64Member ms (chars! "offset") offset
    let stride ← u64Member ms (chars! "stride") id.bytes
    let ele ← u64Member ms (chars! "element_bytes") id.bytes
    let endian ← endianMember ms
    let n : Int :=
      if length = 0 then
        match ms.lookup (chars! "value") with
        | some (.arr vs) => vs.length
        | _ => if (ms.lookup (chars! "number_of_elements")).isNone then 1 else 0
      else length
    .ok { id, n, offset, stride, ele, endian }
  | _ => .error

/-- conduit_generator.cpp:810-821: a leaf given only by the name of its type. -/
def leafDtypeName (name : Str) (offset : Int) : Res DataType := do
  let id ← leafName name
  .ok { id, n := 1, offset, stride := id.bytes, ele := id.bytes, endian := .default }

/-- conduit_generator.cpp:1139-1158: the length of a "list_of". -/
def listOfLength (ms : List (Str × JV)) : Res Int :=
  match ms.lookup (chars! "length") with
  | none => .ok 1
  | some (.obj _) => .error
  | some v => getInt v

/-- `add_child(name)` and overwriting that child: an existing child keeps its place. -/
def putChild (es : List (Str × Schema)) (n : Str) (c : Schema) : List (Str × Schema) :=
  if n ∈ es.map (·.1) then es.map (fun e => if e.1 = n then (n, c) else e) else es ++ [(n, c)]

/-- conduit_generator.cpp:1190-1199: the members of an object, one after the other. -/
def objLoop (es : List (Str × Schema)) (off : Int) :
    List (Str × (Schema → Int → Res Schema)) → Res (List (Str × Schema))
  | [] => .ok es
  | (n, f) :: fs =>
    match f (.obj []) off with
    | .ok c => objLoop (putChild es n c) (off + c.totalStridedBytes) fs
    | .error => .error
    | .ub => .ub

/-- conduit_generator.cpp:1164-1170 and 1211-1217: children appended one after the other. -/
def lstLoop (cs : List Schema) (off : Int) : List (Schema → Int → Res Schema) → Res (List Schema)
  | [] => .ok cs
  | f :: fs =>
    match f (.lst []) off with
    | .ok c => lstLoop (cs ++ [c]) (off + c.totalStridedBytes) fs
    | .error => .error
    | .ub => .ub

mutual
/-- conduit_generator.cpp:1124-1228 `walk_json_schema(Schema*, jvalue, curr_offset)`.
    The second argument is the schema before the call (empty at the root, an empty object or
    list below it). -/
def walkS : JV → Schema → Int → Res Schema
  | .obj ms, init, off =>
    match ms.lookup (chars! "dtype") with
    | some (.obj _) =>
      match listOfLength ms, (walkSM ms).lookup (chars! "dtype") with
      | .ok len, some f =>
        if len ≤ 0 then .ok init
        else (lstLoop [] off (List.replicate len.toNat f)).map' .lst
      | .ub, _ => .ub
      | _, _ => .error
    | some _ => (leafDtype ms off).map' Tree.setDtype
    | none => (objLoop [] off (walkSM ms)).map' .obj
  | .arr vs, _, off => (lstLoop [] off (walkSL vs)).map' .lst
  | .str s, _, off => (leafDtypeName s off).map' Tree.setDtype
  | .null, _, _ => .error
  | .bool _, _, _ => .error
  | .int _, _, _ => .error
  | .real _, _, _ => .error
def walkSM : List (Str × JV) → List (Str × (Schema → Int → Res Schema))
  | [] => []
  | (n, v) :: ms => (n, walkS v) :: walkSM ms
def walkSL : List JV → List (Schema → Int → Res Schema)
  | [] => []
  | v :: vs => walkS v :: walkSL vs
end

/-- conduit_generator.cpp:3323-3342 `walk(Schema&)` with a json protocol. -/
def parseSchema (text : Str) : Res Schema :=
  match JV.parseDoc (jsonSanitize text) with
  | none => .error
  | some v => walkS v Tree.empty 0

end Gen

namespace Node

/-- conduit_node.cpp:386-400 `save(path, "conduit_bin")`: contents of the schema file
    (conduit_schema.cpp:707-727 `Schema::save` with its default arguments,
    conduit_schema.hpp:303-307) and of the data file. -/
def saveBinFiles (big : Bool) (n : Node) (m : Mem) : Res (Str × List UInt8) := do
  let r ← saveBin n m
  .ok (r.1.toJson big 2 (chars! " ") (chars! "\n") 0, r.2)

/-- conduit_node.cpp:329-360 `load(path, "conduit_bin")` with `Schema::load`
    (conduit_schema.cpp:731-745). -/
def loadBinFiles (text : Str) (file : List UInt8) (dest : Node) (m : Mem) : Res (Mem × Node) := do
  let s ← Gen.parseSchema text
  loadBin s file dest m

end Node
end Conduit
