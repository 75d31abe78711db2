import Verif.Model.Base64Json
import Verif.Model.Array
/-
Node trees from JSON text (protocols json, conduit_json, conduit_json_external) and JSON
text from node trees.
Sources: /repo/src/libs/conduit/conduit_generator.cpp, conduit_node.cpp,
conduit_data_array.cpp, conduit_data_type.cpp
-/
namespace Conduit
open Spec

/-- The parts of the C and C++ libraries this code calls whose result is not modelled: every
    theorem holds whatever they return.  Floating point numbers are bit patterns. -/
structure Lib where
  /-- rapidjson `GetDouble()` of a number -/
  double : JV → Nat
  /-- `strtod`, when it accepts the whole text -/
  strtod : Str → Option Nat
  /-- `(float64)` and `(float32)` of a 64-bit integer -/
  ofInt : Int → Nat
  ofInt32 : Int → Nat
  /-- `(float32)` of a `float64` and back -/
  narrow : Nat → Nat
  widen : Nat → Nat
  /-- `(T)` of a `float64`; undefined behaviour out of range -/
  toInt : IntTy → Nat → Res Int
  /-- `utils::float64_to_string`, conduit_utils.cpp:1335-1355 -/
  text : Nat → Str
  /-- `utils::hex_string_to_value<void*>` and `utils::to_hex_string(m_data)` -/
  addr : Str → Option Ptr
  hex : Option Ptr → Str

/-- The C++ type `uint64` / `uint32` as a container of the bits of a floating point number. -/
def bits64 : IntTy := ⟨false, .w64⟩
def bits32 : IntTy := ⟨false, .w32⟩

/-- A number read from JSON, before it is converted to the leaf's type. -/
inductive Num where
  | int (i : Int)
  | dbl (bits : Nat)
deriving DecidableEq

/-- `(T)value` as bytes of the leaf's element, conduit_data_array.cpp:690-1180 (`set` of the
    various source types); for types that are not numbers the callers raise an error. -/
def Num.bytes (L : Lib) (big : Bool) (t : TypeId) (v : Num) : Res (List UInt8) :=
  match t.intTy, v with
  | some ty, .int i => .ok (machineBytes big ty (ty.cast i))
  | some ty, .dbl b => (L.toInt ty b).map' (machineBytes big ty)
  | none, .int i =>
    if t = .float64 then .ok (machineBytes big bits64 (L.ofInt i))
    else if t = .float32 then .ok (machineBytes big bits32 (L.ofInt32 i)) else .error
  | none, .dbl b =>
    if t = .float64 then .ok (machineBytes big bits64 b)
    else if t = .float32 then .ok (machineBytes big bits32 (L.narrow b)) else .error

namespace Gen

/-- `GetInt64()`: anything but a number in that range fails a rapidjson assertion. -/
def getInt64 : JV → Res Int
  | .int i => if i < 2 ^ 63 then .ok i else .ub
  | _ => .ub

/-- `GetUint64()` -/
def getUint64 : JV → Res Int
  | .int i => if 0 ≤ i then .ok i else .ub
  | _ => .ub

/-- conduit_generator.cpp:406-414 `string_is_double` -/
def stringIsDouble (L : Lib) (s : Str) : Bool := !s.isEmpty && (L.strtod s).isSome

/-- conduit_generator.cpp:479-508 `json_to_numeric_dtype`. -/
def numType (L : Lib) : JV → TypeId
  | .int _ => .int64
  | .real _ => .float64
  | .str s => if stringIsDouble L s then .float64 else .empty
  | _ => .empty

/-- conduit_generator.cpp:527-542, the loop of `check_homogenous_json_array`. -/
def homLoop (L : Lib) (t : TypeId) : List JV → TypeId
  | [] => t
  | v :: vs =>
    if t = .int64 ∧ numType L v = .float64 then homLoop L .float64 vs
    else if numType L v = .empty then .empty
    else homLoop L t vs

/-- conduit_generator.cpp:511-545 `check_homogenous_json_array`. -/
def homType (L : Lib) : List JV → TypeId
  | [] => .empty
  | v :: vs => if numType L v = .empty then .empty else homLoop L (numType L v) vs

/-- conduit_generator.cpp:548-557, 624-634, 696-719: the vectors of an array's numbers. -/
def getAll (f : JV → Res Int) : List JV → Res (List Num)
  | [] => .ok []
  | v :: vs => do
    let i ← f v
    let is ← getAll f vs
    .ok (.int i :: is)

def getDoubles (L : Lib) : List JV → Res (List Num)
  | [] => .ok []
  | v :: vs => do
    let i ← (match v with
      | .int i => .ok (L.double (.int i))
      | .real t => .ok (L.double (.real t))
      | .str s => .ok ((L.strtod s).getD 0)
      | _ => .error : Res Nat)
    let is ← getDoubles L vs
    .ok (.dbl i :: is)

/-- `as_xxx_array().set(vals)`: the loop of conduit_data_array.cpp `set(values, num_elements)`, element
    by element from index `i`. -/
def setNums (L : Lib) (big : Bool) (x : Info) (d : DataType) : List Num → Nat → Mem → Res Mem
  | [], _, m => .ok m
  | v :: vs, i, m => do
    let bs ← v.bytes L big d.id
    let m1 ← m.store x.data (d.elementIndex i) bs
    setNums L big x d vs (i + 1) m1

/-- `node.set((T) value)` for a number and the node's own type. -/
def setNum (L : Lib) (big : Bool) (n : Node) (v : Num) (m : Mem) : Res (Mem × Node) := do
  let bs ← v.bytes L big n.dtype.id
  n.setScalar n.dtype.id bs m

/-- conduit_generator.cpp:951-1045 `parse_inline_leaf`.  (A JSON object is in no branch.) -/
def inlineLeaf (L : Lib) (big : Bool) (v : JV) (n : Node) (m : Mem) : Res (Mem × Node) :=
  match v with
  | .str s =>
    if n.dtype.id = .char8Str then n.setString ((unescape s).map charByte) m else .error
  | .bool b => if n.dtype.id = .uint8 then n.setScalar .uint8 [if b then 1 else 0] m else .error
  | .int i =>
    match n.dtype.id.intTy with
    | some ty => do
      let w ← if ty.signed then getInt64 (.int i) else getUint64 (.int i)
      setNum L big n (.int w) m
    | none => setNum L big n (.dbl (L.double (.int i))) m
  | .real t =>
    match n.dtype.id.intTy with
    | some _ => .ub
    | none => setNum L big n (.dbl (L.double (.real t))) m
  | .null => n.reset m
  | .arr _ => .ok (m, n)
  | .obj _ => .ok (m, n)

/-- conduit_generator.cpp:1073-1120 `parse_inline_value`. -/
def inlineValue (L : Lib) (big : Bool) (v : JV) (n : Node) (m : Mem) : Res (Mem × Node) :=
  match v with
  | .arr vs =>
    if n.dtype.n < vs.length then .error
    else if homType L vs = .empty then .ok (m, n)
    else do
      let nums ← (if homType L vs = .int64 then
          getAll (match n.dtype.id.intTy with
            | some ty => if ty.signed then getInt64 else getUint64
            | none => getInt64) vs
        else getDoubles L vs : Res (List Num))
      if n.dtype.id.intTy.isNone ∧ n.dtype.id ≠ .float32 ∧ n.dtype.id ≠ .float64 then .error
      else do
        let m1 ← setNums L big n.info n.dtype nums 0 m
        .ok (m1, n)
  | v => inlineLeaf L big v n m

/-- conduit_generator.cpp:1376-1394: the length of a "list_of".  A length given by reference to
    another node is outside the model (`ub`). -/
def listOfLengthN (ms : List (Str × JV)) : Res Int :=
  match ms.lookup (chars! "length") with
  | none => .ok 1
  | some (.obj rs) => if (rs.lookup (chars! "reference")).isSome then .ub else .error
  | some v => getInt v

/-- The leaf with explicit properties before its inline value: conduit_generator.cpp:1422-1457 (copying
    walk, `ext = false`) and 1625-1650 (external walk, `ext = true`).  The node is empty before;
    `x` are its pointer and flag. -/
def leafData (ext : Bool) (data : Option Ptr) (src : DataType) (x : Info) (m : Mem) : Res (Mem × Node) :=
  if ext then
    match data with
    | some p => .ok (m, Node.ofDtype ⟨some p, x.alloced⟩ src)
    | none => (Node.leaf x {}).init src m
  else do
    let r ← (Node.leaf x {}).init src.compactTo m
    match data with
    | none => .ok r
    | some p =>
      -- a negative count becomes a huge one
      if src.n < 0 ∧ src.id.bytes ≠ 0 then .ub
      else do
        let m1 ← r.1.stridedCopy r.2.info.data 0 src.n.toNat src.id.bytes src.id.bytes (some p) src.offset src.stride
        .ok (m1, r.2)

/-- conduit_generator.cpp:1404-1464 (copying walk) and 1607-1657 (external walk): a leaf with
    explicit properties. -/
def leafExplicit (L : Lib) (big ext : Bool) (data : Option Ptr) (ms : List (Str × JV)) (x : Info) (off : Int) (m : Mem) :
    Res (Mem × Node) := do
  let src ← leafDtype ms off
  match ms.lookup (chars! "address") with
  | some (.str s) => .ok (m, Node.ofDtype ⟨L.addr s, x.alloced⟩ src)
  | some _ => .error
  | none => do
    let r ← leafData ext data src x m
    match ms.lookup (chars! "value") with
    | some v => inlineValue L big v r.2 r.1
    | none => .ok r

/-- conduit_generator.cpp:1530-1548 (and 1727-1745): a leaf given by the name of its type.  The
    schema gets its type first; without data `node->set(dtype)` then finds a compatible type
    in place and allocates nothing. -/
def leafNamed (data : Option Ptr) (name : Str) (x : Info) (off : Int) (m : Mem) : Res (Mem × Node) := do
  let d ← leafDtypeName name off
  match data with
  | some p => .ok (m, Node.ofDtype ⟨some p, x.alloced⟩ d)
  | none => (Node.ofDtype x d).init d m

/-- `if(data != NULL) curr_offset += curr_schema->total_strided_bytes()` -/
def advance (data : Option Ptr) (off : Int) (c : Node) : Int :=
  if data.isSome then off + c.schema.totalStridedBytes else off

/-- conduit_generator.cpp:1471-1508 (and 1664-1702): the members of an object. -/
def objLoopN (data : Option Ptr) (es : List (Str × Node)) (off : Int) (m : Mem) :
    List (Str × (Int → Mem → Res (Mem × Node))) → Res (Mem × List (Str × Node))
  | [] => .ok (m, es)
  | (n, f) :: fs =>
    if n ∈ es.map (·.1) then .error
    else
      match f off m with
      | .ok r => objLoopN data (es ++ [(n, r.2)]) (advance data off r.2) r.1 fs
      | .error => .error
      | .ub => .ub

/-- conduit_generator.cpp:1400-1417, 1514-1529 (and 1603-1619, 1707-1725): children of a list. -/
def lstLoopN (data : Option Ptr) (cs : List Node) (off : Int) (m : Mem) :
    List (Int → Mem → Res (Mem × Node)) → Res (Mem × List Node)
  | [] => .ok (m, cs)
  | f :: fs =>
    match f off m with
    | .ok r => lstLoopN data (cs ++ [r.2]) (advance data off r.2) r.1 fs
    | .error => .error
    | .ub => .ub

mutual
/-- conduit_generator.cpp:1361-1558 `walk_json_schema(Node*, Schema*, data, jvalue, curr_offset)`
    (`ext = false`) and 1565-1755 `walk_json_schema_external` (`ext = true`).  The node is empty
    before the call; `x` are its pointer and ownership flag. -/
def walkN (L : Lib) (big ext : Bool) (data : Option Ptr) : JV → Info → Int → Mem → Res (Mem × Node)
  | .obj ms, x, off, m =>
    match ms.lookup (chars! "dtype") with
    | some (.obj _) =>
      match listOfLengthN ms, (walkNM L big ext data ms).lookup (chars! "dtype") with
      | .ok len, some f =>
        if len ≤ 0 then .ok (m, .leaf x {})
        else (lstLoopN data [] off m (List.replicate len.toNat f)).map' (fun r => (r.1, .lst x r.2))
      | .ub, _ => .ub
      | _, _ => .error
    | some _ => leafExplicit L big ext data ms x off m
    | none => (objLoopN data [] off m (walkNM L big ext data ms)).map' (fun r => (r.1, .obj x r.2))
  | .arr vs, x, off, m =>
    (lstLoopN data [] off m (walkNL L big ext data vs)).map' (fun r => (r.1, .lst x r.2))
  | .str s, x, off, m => leafNamed data s x off m
  | .null, _, _, _ => .error
  | .bool _, _, _, _ => .error
  | .int _, _, _, _ => .error
  | .real _, _, _, _ => .error
def walkNM (L : Lib) (big ext : Bool) (data : Option Ptr) :
    List (Str × JV) → List (Str × (Int → Mem → Res (Mem × Node)))
  | [] => []
  | (n, v) :: ms => (n, walkN L big ext data v {}) :: walkNM L big ext data ms
def walkNL (L : Lib) (big ext : Bool) (data : Option Ptr) : List JV → List (Int → Mem → Res (Mem × Node))
  | [] => []
  | v :: vs => walkN L big ext data v {} :: walkNL L big ext data vs
end

mutual
/-- conduit_generator.cpp:1232-1352 `walk_pure_json_schema`; the node is empty before the call. -/
def walkP (L : Lib) (big : Bool) : JV → Info → Mem → Res (Mem × Node)
  | .obj ms, x, m => (walkPM L big ms [] m).map' (fun r => (r.1, .obj x r.2))
  | .arr vs, x, m =>
    if homType L vs = .int64 then do
      let r ← (Node.leaf x {}).init (DataType.ofId .int64 vs.length) m
      let nums ← getAll getInt64 vs
      let m1 ← setNums L big r.2.info r.2.dtype nums 0 r.1
      .ok (m1, r.2)
    else if homType L vs = .float64 then do
      let r ← (Node.leaf x {}).init (DataType.ofId .float64 vs.length) m
      let nums ← getDoubles L vs
      let m1 ← setNums L big r.2.info r.2.dtype nums 0 r.1
      .ok (m1, r.2)
    else (walkPL L big vs m).map' (fun r => (r.1, .lst x r.2))
  | .str s, x, m => (Node.leaf x {}).setString (s.map charByte) m
  | .null, x, m => (Node.leaf x {}).reset m
  | .bool b, x, m => (Node.leaf x {}).setScalar .uint8 [if b then 1 else 0] m
  | .int i, x, m =>
    if i < 2 ^ 63 then (Node.leaf x {}).setScalar .int64 (machineBytes big ⟨true, .w64⟩ i) m
    else (Node.leaf x {}).setScalar .uint64 (machineBytes big ⟨false, .w64⟩ i) m
  | .real t, x, m => (Node.leaf x {}).setScalar .float64 (machineBytes big bits64 (L.double (.real t))) m
/-- 1245-1273; `es`: the children so far -/
def walkPM (L : Lib) (big : Bool) : List (Str × JV) → List (Str × Node) → Mem → Res (Mem × List (Str × Node))
  | [], es, m => .ok (m, es)
  | (n, v) :: ms, es, m =>
    if n ∈ es.map (·.1) then .error
    else do
      let r ← walkP L big v {} m
      walkPM L big ms (es ++ [(n, r.2)]) r.1
def walkPL (L : Lib) (big : Bool) : List JV → Mem → Res (Mem × List Node)
  | [], m => .ok (m, [])
  | v :: vs, m => do
    let r ← walkP L big v {} m
    let s ← walkPL L big vs r.1
    .ok (s.1, r.2 :: s.2)
end

/-- conduit_generator.cpp:3355-3440 `walk(Node&)` with protocol conduit_json (or
    conduit_json_external) and 3444-3520 `walk_external` with protocol conduit_json.  On an error the
    node is reset and the exception goes on (`.error`). -/
def genNode (L : Lib) (big ext : Bool) (text : Str) (data : Option Ptr) (dest : Node) (m : Mem) : Res (Mem × Node) := do
  let r ← dest.reset m
  match JV.parseDoc (jsonSanitize text) with
  | none => .error
  | some v => walkN L big ext data v r.2.info 0 r.1

/-- The same with protocol json, conduit_generator.cpp:3364-3377. -/
def genPure (L : Lib) (big : Bool) (text : Str) (dest : Node) (m : Mem) : Res (Mem × Node) := do
  let r ← dest.reset m
  match JV.parseDoc (jsonSanitize text) with
  | none => .error
  | some v => walkP L big v r.2.info r.1

end Gen

/-! ### output -/

/-- conduit_data_type.cpp:1339-1388 `to_json_stream(os, indent, depth, pad, eoe)`. -/
def DataType.toJsonText (big : Bool) (indent : Nat) (pad eoe : Str) (depth : Nat) (d : DataType) : Str :=
  let sep : Str := ',' :: (eoe ++ indentText indent (depth + 1) pad)
  eoe ++ indentText indent depth pad ++ '{' :: eoe ++ indentText indent (depth + 1) pad ++
  chars! "\"dtype\":\"" ++ d.id.name ++ ['"'] ++
  (if d.id = .empty ∨ d.id = .object ∨ d.id = .list then []
   else sep ++ chars! "\"number_of_elements\": " ++ intText d.n ++
     sep ++ chars! "\"offset\": " ++ intText d.offset ++
     sep ++ chars! "\"stride\": " ++ intText d.stride ++
     sep ++ chars! "\"element_bytes\": " ++ intText d.ele ++
     sep ++ chars! "\"endianness\": \"" ++ (Node.resolve big d.endian).name ++ ['"']) ++
  eoe ++ indentText indent depth pad ++ '}' :: eoe

namespace Node

/-- One element as JSON, conduit_data_array.cpp:611-656. -/
def elemText (L : Lib) (big : Bool) (m : Mem) (x : Info) (d : DataType) (i : Nat) : Res Str :=
  match d.id.intTy with
  | some t => (arrElement big t m x d i).map' intText
  | none => do
    let b ← (if d.id = .float64 then arrElement big bits64 m x d i
      else if d.id = .float32 then (arrElement big bits32 m x d i).map' (fun v => (L.widen v.toNat : Int))
      else .error : Res Int)
    let fs := L.text b.toNat
    .ok (if 'n' ∈ fs then '"' :: fs ++ ['"'] else fs)

/-- the loop of conduit_data_array.cpp:607-658: `k` elements from index `i` -/
def elemTexts (L : Lib) (big : Bool) (m : Mem) (x : Info) (d : DataType) : (k i : Nat) → Res Str
  | 0, _ => .ok []
  | k + 1, i => do
    let t ← elemText L big m x d i
    let ts ← elemTexts L big m x d k (i + 1)
    .ok ((if i = 0 then [] else chars! ", ") ++ t ++ ts)

/-- conduit_data_array.cpp:595-664 `to_json_stream`. -/
def arrayText (L : Lib) (big : Bool) (m : Mem) (x : Info) (d : DataType) : Res Str := do
  let ts ← elemTexts L big m x d d.n.toNat 0
  .ok (if d.n = 0 ∨ 1 < d.n then '[' :: ts ++ [']'] else ts)

/-- conduit_node.cpp:13543-13606: the value of a leaf. -/
def leafText (L : Lib) (big : Bool) (m : Mem) (x : Info) (d : DataType) : Res Str :=
  if d.id = .empty then .ok (chars! "null")
  else if d.id = .char8Str then (asString x d m).map' (fun bs => jsonLit (bs.map byteChar))
  else arrayText L big m x d

/-- conduit_node.cpp:13508-13616: a leaf. -/
def leafJson (L : Lib) (big detailed address : Bool) (indent : Nat) (pad eoe : Str) (m : Mem) (x : Info) (d : DataType)
    (depth : Nat) : Res Str := do
  let v ← (if address then .ok (chars! "\"address\": \"" ++ L.hex x.data ++ ['"']) else leafText L big m x d : Res Str)
  .ok (if detailed then
      (rsplitString (splitString (d.toJsonText big indent pad eoe depth) '}').1 '"').2 ++ chars! "\"," ++ eoe ++
        indentText indent (depth + 1) pad ++ (if address then [] else chars! "\"value\": ") ++ v ++
        eoe ++ indentText indent depth pad ++ ['}']
    else v)

mutual
/-- conduit_node.cpp:13475-13620 `to_json_generic`. -/
def toJsonG (L : Lib) (big detailed address : Bool) (indent : Nat) (pad eoe : Str) (m : Mem) : Node → Nat → Res Str
  | .leaf x d, depth => leafJson L big detailed address indent pad eoe m x d depth
  | .obj _ es, depth => (toJsonGE L big detailed address indent pad eoe m es (depth + 1)).map' (fun t =>
      eoe ++ indentText indent depth pad ++ '{' :: eoe ++ t ++ indentText indent depth pad ++ ['}'])
  | .lst _ cs, depth => (toJsonGL L big detailed address indent pad eoe m cs (depth + 1)).map' (fun t =>
      eoe ++ indentText indent depth pad ++ '[' :: eoe ++ t ++ indentText indent depth pad ++ [']'])
def toJsonGE (L : Lib) (big detailed address : Bool) (indent : Nat) (pad eoe : Str) (m : Mem) :
    List (Str × Node) → Nat → Res Str
  | [], _ => .ok []
  | (n, c) :: es, depth => do
    let t ← toJsonG L big detailed address indent pad eoe m c depth
    let ts ← toJsonGE L big detailed address indent pad eoe m es depth
    .ok (indentText indent depth pad ++ '"' :: n ++ chars! "\": " ++ t ++ sepText es ++ eoe ++ ts)
def toJsonGL (L : Lib) (big detailed address : Bool) (indent : Nat) (pad eoe : Str) (m : Mem) :
    List Node → Nat → Res Str
  | [], _ => .ok []
  | c :: cs, depth => do
    let t ← toJsonG L big detailed address indent pad eoe m c depth
    let ts ← toJsonGL L big detailed address indent pad eoe m cs depth
    .ok (indentText indent depth pad ++ t ++ sepText cs ++ eoe ++ ts)
end

end Node
end Conduit
