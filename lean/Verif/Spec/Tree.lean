import Verif.Model.SchemaOp
import Verif.Spec.Json
/-
Specification of the schema tree (C11 - C15): an object is an ordered
association list, a list is a list.  Nothing here mentions index tables.
-/
namespace Conduit.Spec
open Conduit

/-- A tree whose inner nodes are ordered association lists or lists. -/
inductive Tree where
  | leaf (d : DataType)
  | obj (es : List (Str × Tree))
  | lst (cs : List Tree)

namespace Tree

def empty : Tree := .leaf {}

def kids : Tree → List Tree
  | .leaf _ => []
  | .obj es => es.map (·.2)
  | .lst cs => cs

def keys : Tree → List Str
  | .obj es => es.map (·.1)
  | _ => []

/-- Subtree at an address (list of child positions). -/
def get : Tree → List Nat → Option Tree
  | t, [] => some t
  | .leaf _, _ :: _ => none
  | .obj es, i :: a => match es[i]? with
    | some e => get e.2 a
    | none => none
  | .lst cs, i :: a => match cs[i]? with
    | some c => get c a
    | none => none

/-- Replace the subtree at an address. -/
def put : Tree → List Nat → Tree → Tree
  | _, [], x => x
  | .leaf d, _ :: _, _ => .leaf d
  | .obj es, i :: a, x => match es[i]? with
    | some e => .obj (es.set i (e.1, put e.2 a x))
    | none => .obj es
  | .lst cs, i :: a, x => match cs[i]? with
    | some c => .lst (cs.set i (put c a x))
    | none => .lst cs

/-- the entries of an object; any other node counts as a fresh object -/
def entries : Tree → List (Str × Tree)
  | .obj es => es
  | _ => []

/-- A new name is added at the end; an existing name changes nothing. -/
def addChild (t : Tree) (n : Str) : Tree :=
  if n ∈ t.entries.map (·.1) then .obj t.entries else .obj (t.entries ++ [(n, empty)])

def append : Tree → Tree
  | .lst cs => .lst (cs ++ [empty])
  | _ => .lst [empty]

/-- Exactly the entry at position `i` goes. -/
def removeIdx (t : Tree) (i : Int) : Option Tree :=
  match t with
  | .leaf _ => none
  | .obj es => if 0 ≤ i ∧ i < es.length then some (.obj (es.eraseIdx i.toNat)) else none
  | .lst cs => if 0 ≤ i ∧ i < cs.length then some (.lst (cs.eraseIdx i.toNat)) else none

/-- Exactly the entry with that name goes, the others keep their order. -/
def removeChild (t : Tree) (n : Str) : Option Tree :=
  match t with
  | .obj es => if n ∈ es.map (·.1) then some (.obj (es.filter (fun e => e.1 != n))) else none
  | _ => none

/-- The entry named `c` gets the name `n` in place. -/
def renameChild (t : Tree) (c n : Str) : Option Tree :=
  match t with
  | .obj es => if c ∈ es.map (·.1) ∧ n ∉ es.map (·.1) then
      some (.obj (es.map (fun e => if e.1 = c then (n, e.2) else e))) else none
  | _ => none

def setDtype (d : DataType) : Tree :=
  match d.id with
  | .object => .obj []
  | .list => .lst []
  | _ => .leaf d

/-- The names of a path: its segments, one trailing empty segment ignored. -/
def names (p : Str) : List Str :=
  let s := segments '/' p
  if s.length ≥ 2 ∧ s.getLast? = some [] then s.dropLast else s

/-- Position of a name among the entries. -/
def posOf (es : List (Str × Tree)) (n : Str) : Option Nat := es.findIdx? (fun e => e.1 == n)

/-- remove by a list of names -/
def removeNames : Tree → List Str → Option Tree
  | _, [] => none
  | t, [n] => t.removeChild n
  | .obj es, n :: ns => match posOf es n with
    | none => none
    | some i => match es[i]? with
      | none => none
      | some e => match removeNames e.2 ns with
        | none => none
        | some e' => some (.obj (es.set i (n, e')))
  | _, _ => none

/-- Add (if absent) the child `n` of the node at `a`; the new tree and the
    address of that child. -/
def descend (root : Tree) (a : List Nat) (n : Str) : Option (Tree × List Nat) :=
  match get root a with
  | none => none
  | some t =>
    match posOf ((t.addChild n).entries) n with
    | none => none
    | some i => some (put root a (t.addChild n), a ++ [i])

/-- fetch by a list of names.  A name ".." below the root goes to the parent;
    the node where it occurs becomes an object first; a final ".." continues
    with the empty name. -/
def fetchNames (root : Tree) (a : List Nat) : List Str → Option (Tree × List Nat)
  | [] => some (root, a)
  | n :: ns =>
    if n = ['.', '.'] ∧ a ≠ [] then
      match get root a with
      | none => none
      | some t =>
        if ns = [] then descend (put root a (.obj t.entries)) a.dropLast []
        else fetchNames (put root a (.obj t.entries)) a.dropLast ns
    else
      match descend root a n with
      | none => none
      | some (r, a') => fetchNames r a' ns

/-- One call at an address; `none` when it is refused. -/
def step (root : Tree) (a : List Nat) (op : SchemaOp) : Option Tree :=
  match get root a with
  | none => none
  | some t =>
    match op with
    | .addChild n => some (put root a (t.addChild n))
    | .append => some (put root a t.append)
    | .removeIdx i => (t.removeIdx i).map (put root a)
    | .removeChild n => (t.removeChild n).map (put root a)
    | .removePath p => (t.removeNames (names p)).map (put root a)
    | .renameChild c n => (t.renameChild c n).map (put root a)
    | .setDtype d => some (put root a (Tree.setDtype d))
    | .reset => some (put root a empty)
    | .fetch p => (fetchNames root a (names p)).map (·.1)

/-- A history: refused calls change nothing. -/
def run (root : Tree) : List (List Nat × SchemaOp) → Tree
  | [] => root
  | (a, op) :: rest => run ((step root a op).getD root) rest

/-- Look a list of names up. -/
def lookup : Tree → List Str → Option Tree
  | t, [] => some t
  | .obj es, n :: ns => match es.lookup n with
    | some c => lookup c ns
    | none => none
  | _, _ :: _ => none

/-- A path made of proper names: no empty name and no "..". -/
def PlainPath (p : Str) : Prop := ∀ n ∈ names p, n ≠ [] ∧ n ≠ ['.', '.']

end Tree
end Conduit.Spec
