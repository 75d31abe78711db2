import Verif.Model.Str
/-
Model of the part of the builtin rapidjson that reads string literals.
Source: /repo/src/thirdparty_builtin/rapidjson/include/rapidjson/reader.h
-/
namespace Conduit

/-- The `escape[256]` table of reader.h:726-732. -/
def rjEscape (e : Char) : Option Char :=
  if e = '"' then some '"' else if e = '/' then some '/' else if e = '\\' then some '\\'
  else if e = 'b' then some '\x08' else if e = 'f' then some '\x0c'
  else if e = 'n' then some '\n' else if e = 'r' then some '\r'
  else if e = 't' then some '\t' else none

/-- reader.h:723-781 `ParseStringToStream`, after the opening quote.
    `some (value, rest)`: value of the literal and the text after the closing
    quote; `none`: parse error.
    Simplification: `\uXXXX` escapes are treated as an error (conduit never
    writes them, so no theorem below relies on this branch). -/
def rjString : Str → Option (Str × Str)
  | [] => none
  | c :: cs =>
    if c = '\\' then
      match cs with
      | [] => none
      | e :: cs' =>
        match rjEscape e with
        | some r => (rjString cs').map (fun p => (r :: p.1, p.2))
        | none => none
    else if c = '"' then some ([], cs)
    else if c.toNat < 0x20 then none
    else (rjString cs).map (fun p => (c :: p.1, p.2))

/-- conduit_node.cpp:13612-13616: how `to_json` prints a string leaf. -/
def jsonLit (s : Str) : Str := '"' :: escape s ++ ['"']

/-- Reading one JSON string literal (`"` first) with the `json` protocol:
    conduit_generator.cpp walk_pure_json_schema (jvalue.GetString(), no second
    unescape).  Value and remaining text. -/
def readLitJson : Str → Option (Str × Str)
  | '"' :: cs => rjString cs
  | _ => none

/-- Reading a JSON string literal as the inline value of a char8_str leaf with
    `conduit_json`: conduit_generator.cpp:955-961 applies
    `unescape_special_chars` to the already unescaped rapidjson value. -/
def readLitConduitJson (t : Str) : Option (Str × Str) :=
  (readLitJson t).map (fun p => (unescape p.1, p.2))

end Conduit
