import Verif.Model.Base64
import Verif.Model.Generator
/-
The protocol conduit_base64_json: a node as JSON text with its data in base64.
Sources: /repo/src/libs/conduit/conduit_node.cpp, conduit_generator.cpp
-/
namespace Conduit
open Spec

/-- A character of a text as the byte it stands for. -/
def charByte (c : Char) : UInt8 := UInt8.ofNat c.toNat
def byteChar (b : UInt8) : Char := Char.ofNat b.toNat

namespace Base64

/-- conduit_generator.cpp:1783-1795: the decode buffer after `base64_decode`: `memset` to 0, then the
    completed bytes and the byte in progress.  Writing outside the buffer is undefined. -/
def decodeBuffer (text : List UInt8) : Res (List UInt8) :=
  if decodeBufferSize text.length < (decode text).extent then .ub
  else .ok (((decode text).out ++ (decode text).cell :: List.replicate (decodeBufferSize text.length) 0).take
    (decodeBufferSize text.length))

end Base64

namespace Node

/-- The bytes that conduit_node.cpp:13811-13822 hand to `base64_encode`: the first
    `spanned_bytes` bytes of the compacted node.  (A negative size: the cast to `int` gives a
    negative length, see `Base64.encode`.) -/
def base64Source (n : Node) (m : Mem) : Res (Schema × List UInt8) := do
  let r ← compactTo n new m
  if r.2.schema.spannedBytes < 0 then .ub
  else do
    let bytes ← r.1.load r.2.info.data 0 r.2.schema.spannedBytes.toNat
    .ok (r.2.schema, bytes)

/-- conduit_node.cpp:13838-13847: the member "data" (`bb64_data.to_pure_json` prints the text up to its
    NUL as a string literal). -/
def base64Data (indent : Nat) (pad eoe : Str) (depth : Nat) (text : Str) : Str :=
  indentText indent (depth + 1) pad ++ chars! "\"data\": " ++ eoe ++
  indentText indent (depth + 1) pad ++ chars! "{" ++ eoe ++
  indentText indent (depth + 2) pad ++ chars! "\"base64\": " ++ jsonLit text ++ eoe ++
  indentText indent (depth + 1) pad ++ chars! "}" ++ eoe

/-- conduit_node.cpp:13826-13850: the document around schema and encoded data. -/
def base64Doc (big : Bool) (indent : Nat) (pad eoe : Str) (depth : Nat) (s : Schema) (text : Str) : Str :=
  eoe ++ indentText indent depth pad ++ chars! "{" ++ eoe ++
  indentText indent (depth + 1) pad ++ chars! "\"schema\": " ++ s.toJson big indent pad eoe (depth + 1) ++
  chars! "," ++ eoe ++ base64Data indent pad eoe depth text ++ indentText indent depth pad ++ chars! "}"

/-- conduit_node.cpp:13794-13853 `to_base64_json`. -/
def toBase64Json (big : Bool) (indent : Nat) (pad eoe : Str) (n : Node) (depth : Nat) (m : Mem) : Res Str := do
  let r ← base64Source n m
  match Base64.encode r.2 with
  | none => .ub
  | some text => .ok (base64Doc big indent pad eoe depth r.1 (text.map byteChar))

/-- conduit_generator.cpp:1778-1797: decode into a temporary buffer (a node's block, freed
    at the end) and set the node from it. -/
def setDecoded (s : Schema) (text : List UInt8) (dest : Node) (m : Mem) : Res (Mem × Node) := do
  let buf ← Base64.decodeBuffer text
  let r ← setSchemaData s (some ⟨m.length, 0⟩) dest (m ++ [some buf])
  let m2 ← r.1.free ⟨m.length, 0⟩
  .ok (m2, r.2)

/-- conduit_generator.cpp:1758-1806 `parse_base64`.  `HasMember` of a value that is no object and
    `GetString` of a value that is no string fail a rapidjson assertion (modelled as `ub`).
    Texts of 2 GiB and more are outside the model (`(int)` cast). -/
def parseBase64 (v : JV) (dest : Node) (m : Mem) : Res (Mem × Node) :=
  match v with
  | .obj ms =>
    match ms.lookup (chars! "data") with
    | none => .error
    | some (.obj ds) =>
      match ds.lookup (chars! "base64") with
      | none => .error
      | some (.str t) =>
        match ms.lookup (chars! "schema") with
        | none => .error
        | some sv => do
          let s ← Gen.walkS sv Tree.empty 0
          setDecoded s (t.map charByte) dest m
      | some _ => .ub
    | some _ => .ub
  | _ => .error

/-- conduit_generator.cpp:3355-3404 `walk(Node&)` with protocol conduit_base64_json.  On an
    error the node is reset and the exception goes on (`.error`). -/
def genBase64 (text : Str) (dest : Node) (m : Mem) : Res (Mem × Node) := do
  let r ← dest.reset m
  match JV.parseDoc (jsonSanitize text) with
  | none => .error
  | some v => parseBase64 v r.2 r.1

end Node
end Conduit
