/-
Model of the string and path helpers of conduit::utils.
Source: /repo/src/libs/conduit/conduit_utils.cpp
-/
namespace Conduit

/-- `std::string`: a sequence of `char`. Each byte is one `Char`. -/
abbrev Str := List Char

/-- `chars! "abc"` is the list literal `['a','b','c']` (notation only: reduces
    faster in proofs than `"abc".toList`). -/
syntax "chars! " str : term
macro_rules
  | `(chars! $s:str) => do
      let cs : Array (Lean.TSyntax `term) :=
        (s.getString.toList.map (fun c => ⟨Lean.Syntax.mkCharLit c⟩)).toArray
      `(([ $cs,* ] : List Char))

/-- `std::string::find(c)` : index of the first occurrence.
    Used by conduit_utils.cpp:458. -/
def find (c : Char) (s : Str) : Option Nat := s.findIdx? (· == c)

/-- `std::string::rfind(c)` : index of the last occurrence.
    Used by conduit_utils.cpp:511. -/
def rfind (c : Char) (s : Str) : Option Nat :=
  (s.reverse.findIdx? (· == c)).map (fun k => s.length - 1 - k)

/-- conduit_utils.cpp:450-470 `split_string(str, sep, curr, next)`.
    Simplification: `sep` is a single character (every caller passes a
    one-character string).  Result is `(curr, next)`.
    The guard `found != str.size()-1` is kept: when the separator is the last
    character, `next` stays empty. -/
def splitString (s : Str) (sep : Char) : Str × Str :=
  match find sep s with
  | some found => (s.take found, if found ≠ s.length - 1 then s.drop (found + 1) else [])
  | none => (s, [])

/-- conduit_utils.cpp:503-523 `rsplit_string(str, sep, curr, next)`.
    Result is `(curr, next)`: `curr` is the last component, `next` the rest. -/
def rsplitString (s : Str) (sep : Char) : Str × Str :=
  match rfind sep s with
  | some found => (if found ≠ s.length - 1 then s.drop (found + 1) else [], s.take found)
  | none => (s, [])

/-- conduit_utils.cpp:535-544 `split_path`. -/
def splitPath (p : Str) : Str × Str := splitString p '/'

/-- conduit_utils.cpp:547-556 `rsplit_path`. -/
def rsplitPath (p : Str) : Str × Str := rsplitString p '/'

/-- conduit_utils.cpp:559-572 `join_path(left, right)`. -/
def joinPath (left right : Str) : Str :=
  (if left.length > 0 ∧ left.getLast? ≠ some '/' ∧ right.length > 0
   then left ++ ['/'] else left) ++ right

/-- The scanning loop of conduit_utils.cpp:480-498: `start` is the text
    collected since the last separator (reversed), the loop ends at the
    terminating NUL of the C string. -/
def splitVecLoop (sep : Char) : (acc : Str) → Str → List Str
  | acc, [] => if acc.length > 0 then [acc.reverse] else []
  | acc, c :: cs =>
    if c = '\x00' then (if acc.length > 0 then [acc.reverse] else [])
    else if c = sep then
      (if acc.length > 0 then [acc.reverse] else []) ++ splitVecLoop sep [] cs
    else splitVecLoop sep (c :: acc) cs

/-- conduit_utils.cpp:473-500 `split_string(str, sep, vector)`. -/
def splitVec (s : Str) (sep : Char) : List Str := splitVecLoop sep [] s

/-- conduit_utils.cpp:526-532 `trim_string`: erase up to the first character
    not in the set, then erase after the last such character. -/
def trimString (s : Str) (chars : Str) : Str :=
  let l := s.dropWhile (fun c => chars.contains c)
  (l.reverse.dropWhile (fun c => chars.contains c)).reverse

/-- The test of conduit_utils.cpp:619-622 / 664-667: the path starts with a
    Windows drive letter (`X:\`) and we split at `:`. -/
def isDrive (p : Str) (sep : Char) : Bool :=
  sep == ':' && p.length > 2 && p[1]? == some ':' && p[2]? == some '\\'

/-- conduit_utils.cpp:608-648 `split_file_path(path, sep, curr, next)`. -/
def splitFilePath (p : Str) (sep : Char) : Str × Str :=
  if isDrive p sep then
    if p.length > 3 then
      let r := splitString (p.drop 3) sep
      (p.take 3 ++ r.1, r.2)
    else (p, [])
  else splitString p sep

/-- conduit_utils.cpp:653-707 `rsplit_file_path(path, sep, curr, next)`. -/
def rsplitFilePath (p : Str) (sep : Char) : Str × Str :=
  if isDrive p sep then
    if p.length > 3 then
      let r := rsplitString (p.drop 3) sep
      if r.2 = [] then (p.take 3 ++ r.1, r.2) else (r.1, p.take 3 ++ r.2)
    else (p, [])
  else rsplitString p sep

/-- conduit_utils.cpp:711-722 `join_file_path` with the unix separator '/'
    (`file_path_sep_string`, conduit_utils.cpp). -/
def joinFilePath (left right : Str) : Str :=
  (if left.length > 0 ∧ left.getLast? ≠ some '/' then left ++ ['/'] else left) ++ right

/-- One character of conduit_utils.cpp:1119-1176 `escape_special_chars`. -/
def escapeChar (c : Char) : Str :=
  if c = '"' ∨ c = '\\' then ['\\', c]
  else if c = '\n' then ['\\', 'n']
  else if c = '\t' then ['\\', 't']
  else if c = '\x08' then ['\\', 'b']
  else if c = '\x0c' then ['\\', 'f']
  else if c = '\r' then ['\\', 'r']
  else [c]

/-- conduit_utils.cpp:1118-1176 `escape_special_chars`. -/
def escape (s : Str) : Str := s.flatMap escapeChar

/-- The `switch(val)` of conduit_utils.cpp:1191-1252 after a backslash:
    `some r` = emit `r` and skip the character, `none` = the default branch,
    which emits `val` and does not skip it. -/
def unescapeCode (v : Char) : Option Char :=
  if v = '"' ∨ v = '\\' ∨ v = '/' then some v
  else if v = 'n' then some '\n'
  else if v = 't' then some '\t'
  else if v = 'b' then some '\x08'
  else if v = 'f' then some '\x0c'
  else if v = 'r' then some '\r'
  else none

/-- conduit_utils.cpp:1179-1261 `unescape_special_chars`.  A backslash that is
    the last character is emitted as is.  An unknown escape emits the second
    character and does NOT skip it (it is then processed again). -/
def unescape : Str → Str
  | [] => []
  | [c] => [c]
  | c :: v :: rest =>
    if c = '\\' then
      match unescapeCode v with
      | some r => r :: unescape rest
      | none => v :: unescape (v :: rest)
    else c :: unescape (v :: rest)
  termination_by s => s.length

/-! ### json_sanitize -/

/-- conduit_utils.cpp:915-924 `check_word_char`. -/
def checkWordChar (v : Char) : Bool :=
  ('A' ≤ v && v ≤ 'Z') || ('a' ≤ v && v ≤ 'z') || v == '_'

/-- conduit_utils.cpp:927-933 `check_num_char`. -/
def checkNumChar (v : Char) : Bool := '0' ≤ v && v ≤ '9'

/-- Loop state of conduit_utils.cpp:958-962. -/
structure San where
  res : Str := []
  inComment : Bool := false
  inString : Bool := false
  inId : Bool := false
  curId : Str := []
deriving Repr, DecidableEq

/-- One iteration of the loop conduit_utils.cpp:964-1053.
    `prev` = `json[i-1]` (none when i = 0), `c` = `json[i]`,
    `nxt` = `json[i+1]` (none at the last character). -/
def sanStep (st : San) (prev : Option Char) (c : Char) (nxt : Option Char) : San :=
  -- 968-974: start / end of a string
  let st := if c = '"' ∧ prev ≠ none ∧ prev ≠ some '\\'
            then { st with inString := !st.inString } else st
  if st.inString then { st with res := st.res ++ [c] }
  else
    -- 980-989
    let st := if !st.inComment && c == '/' && nxt == some '/'
              then { st with inComment := true } else st
    if st.inComment then
      -- 1041-1048: nothing is emitted inside a comment
      { st with inComment := c != '\n' }
    else if !st.inId && checkWordChar c then
      -- 994-1007
      match prev with
      | some p => if !checkNumChar p && p != '.'
                  then { st with inId := true, curId := st.curId ++ [c] }
                  else { st with res := st.res ++ [c] }
      | none => { st with res := st.res ++ [c] }
    else if st.inId then
      -- 1008-1038
      if checkWordChar c || checkNumChar c then { st with curId := st.curId ++ [c] }
      else
        let idText := if st.curId = "true".toList ∨ st.curId = "false".toList
                          ∨ st.curId = "null".toList
                      then st.curId else '"' :: st.curId ++ ['"']
        { st with inId := false, curId := [], res := st.res ++ idText ++ [c] }
    else { st with res := st.res ++ [c] }

/-- The loop of conduit_utils.cpp:964-1053 over the whole text. -/
def sanLoop : San → Option Char → Str → San
  | st, _, [] => st
  | st, prev, c :: cs => sanLoop (sanStep st prev c cs.head?) (some c) cs

/-- conduit_utils.cpp:937-1056 `json_sanitize`. -/
def jsonSanitize (s : Str) : Str := (sanLoop {} none s).res

end Conduit
