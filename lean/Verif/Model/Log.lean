import Verif.Model.Res
import Verif.Model.Str
/-
Model of conduit::utils::log.  Source: /repo/src/libs/conduit/conduit_log.cpp
-/
namespace Conduit.Log

/-- The content of an info node: conduit nodes where only string leaves have a visible value.
    Simplification: memory and layout are left out (see Model/Node.lean); `other` stands for
    a leaf of any non-string type. -/
inductive Info where
  | empty
  | str (s : Str)
  | other
  | obj (es : List (Str × Info))
  | lst (cs : List Info)
deriving Repr

/-- conduit_node.hpp `has_child(name)` and the child found. -/
def Info.child? : Info → Str → Option Info
  | .obj es, n => (es.find? (·.1 == n)).map (·.2)
  | _, _ => none

/-- conduit_node.cpp:14416-14483 `fetch(name)` for a one-component path, followed by an update
    `f` of the child: a node that is not an object becomes an empty object first, a missing
    child is created empty at the end. -/
def putEntry (n : Str) (f : Info → Info) : List (Str × Info) → List (Str × Info)
  | [] => [(n, f .empty)]
  | (k, c) :: es => if k = n then (k, f c) :: es else (k, c) :: putEntry n f es

def Info.update (t : Info) (n : Str) (f : Info → Info) : Info :=
  match t with
  | .obj es => .obj (putEntry n f es)
  | _ => .obj (putEntry n f [])

/-- conduit_node.cpp:14626-14641 `append()` followed by setting the new child: a node that is
    not a list becomes an empty list first. -/
def Info.push (t : Info) (c : Info) : Info :=
  match t with
  | .lst cs => .lst (cs ++ [c])
  | _ => .lst [c]

/-- conduit_log.cpp:40-45 `info`. -/
def info (t : Info) (proto msg : Str) : Info :=
  t.update (chars! "info") (·.push (.str (proto ++ chars! ": " ++ msg)))
/-- conduit_log.cpp:49-54 `optional`. -/
def optional (t : Info) (proto msg : Str) : Info :=
  t.update (chars! "optional") (·.push (.str (proto ++ chars! ": " ++ msg)))
/-- conduit_log.cpp:58-63 `error`. -/
def error (t : Info) (proto msg : Str) : Info :=
  t.update (chars! "errors") (·.push (.str (proto ++ chars! ": " ++ msg)))

/-- conduit_log.cpp:68-76 `validation`: `as_string` of a child `valid` that is not a string is
    a conduit error. -/
def validation (t : Info) (res : Bool) : Res Info := do
  let infoRes ← (match t.child? (chars! "valid") with
    | some (.str s) => .ok (s == chars! "true")
    | some _ => .error
    | none => .ok true : Res Bool)
  .ok (t.update (chars! "valid") (fun _ => .str (if res && infoRes then chars! "true" else chars! "false")))

/-- The log calls a verify function makes on one info node. -/
inductive Call where
  | info (proto msg : Str)
  | optional (proto msg : Str)
  | error (proto msg : Str)
  | validation (res : Bool)
deriving Repr

def Call.run (t : Info) : Call → Res Info
  | .info p m => .ok (Log.info t p m)
  | .optional p m => .ok (Log.optional t p m)
  | .error p m => .ok (Log.error t p m)
  | .validation r => Log.validation t r

def runAll : Info → List Call → Res Info
  | t, [] => .ok t
  | t, c :: cs => c.run t >>= fun t' => runAll t' cs

/-- conduit_log.cpp:117-120 `is_valid` (the name argument is only used by `isOptional`). -/
def isValid (_ : Str) (t : Info) : Bool :=
  match t with
  | .empty => true
  | t => match t.child? (chars! "valid") with
    | some (.str s) => s == chars! "true"
    | _ => false
/-- conduit_log.cpp:130-133 `is_invalid`. -/
def isInvalid (_ : Str) (t : Info) : Bool :=
  match t with
  | .empty => true
  | t => match t.child? (chars! "valid") with
    | some (.str s) => s == chars! "false"
    | _ => false
/-- conduit_log.cpp:144-147 `is_optional`; `name` is `n.name()`. -/
def isOptional (name : Str) (t : Info) : Bool :=
  match t with
  | .empty => true
  | _ => name == chars! "optional"

mutual
/-- conduit_log.cpp:80-112 `remove_tree(info, f)` for the node called `name`: the node
    afterwards and the value returned.  The children for which the recursive call returns
    true are removed (the removal loop runs from the last index down, which is filtering). -/
def removeTree (f : Str → Info → Bool) (name : Str) : Info → Info × Bool
  | .obj es =>
    let t := Info.obj (removeEntries f es)
    if f name t then (.empty, f name .empty) else (t, f name t)
  | .lst cs =>
    let t := Info.lst (removeItems f cs)
    if f name t then (.empty, f name .empty) else (t, f name t)
  | .empty => (.empty, f name .empty)
  | .str s => (.str s, f name (.str s))
  | .other => (.other, f name .other)
/-- the loop over named children -/
def removeEntries (f : Str → Info → Bool) : List (Str × Info) → List (Str × Info)
  | [] => []
  | (k, c) :: es =>
    let r := removeTree f k c
    if r.2 then removeEntries f es else (k, r.1) :: removeEntries f es
/-- the loop over list children (their name is empty) -/
def removeItems (f : Str → Info → Bool) : List Info → List Info
  | [] => []
  | c :: cs =>
    let r := removeTree f [] c
    if r.2 then removeItems f cs else r.1 :: removeItems f cs
end

end Conduit.Log
