import Verif.Model.DataType
import Verif.Model.Res
import Verif.Model.SchemaOp
/-
Model of conduit::Schema with its own bookkeeping: the name -> index map, the
order vector and the children vector of an object.
Source: /repo/src/libs/conduit/conduit_schema.cpp
Simplifications: the DataType of an object or list is not modelled (only its
id is observable through the modelled calls); `Schema::set(index_t OBJECT_ID)`,
which leaves the hierarchy pointer null, is not a constructor of this type.
-/
set_option linter.unusedVariables false
namespace Conduit

/-- conduit_schema.hpp `m_dtype` / `m_hierarchy_data` (`Schema_Object_Hierarchy`
    with `children`, `object_order`, `object_map`; `Schema_List_Hierarchy`). -/
inductive RSchema where
  | leaf (d : DataType)
  | object (map : List (Str × Int)) (order : List Str) (children : List RSchema)
  | list (children : List RSchema)

namespace RSchema

/-- `std::map<std::string,index_t>` as an association list. -/
def mfind (k : Str) (m : List (Str × Int)) : Option Int := m.lookup k
/-- `map.erase(k)` -/
def merase (k : Str) (m : List (Str × Int)) : List (Str × Int) := m.filter (fun e => e.1 != k)
/-- `map[k] = v` -/
def mset (k : Str) (v : Int) (m : List (Str × Int)) : List (Str × Int) := (k, v) :: merase k m
/-- `map[k]--` (`operator[]` makes an entry 0 when absent) -/
def mdecr (m : List (Str × Int)) (k : Str) : List (Str × Int) := mset k ((mfind k m).getD 0 - 1) m

/-- The default constructed schema, conduit_schema.cpp:1401-1407. -/
def empty : RSchema := .leaf {}

/-- conduit_schema.cpp:1410-1419 `init_object`. -/
def initObject : RSchema → RSchema
  | .object m o c => .object m o c
  | _ => .object [] [] []

/-- conduit_schema.cpp:1422-1431 `init_list`. -/
def initList : RSchema → RSchema
  | .list c => .list c
  | _ => .list []

/-- conduit_schema.cpp:1238-1255 `has_child`. -/
def hasChild (s : RSchema) (name : Str) : Bool :=
  match s with
  | .object m _ _ => (mfind name m).isSome
  | _ => false

/-- conduit_schema.cpp:985-1007 `child_index`.  On a schema that is no object
    `object_map()` raises the error (1556-1568). -/
def childIndex (s : RSchema) (name : Str) : Res Int :=
  match s with
  | .object m _ _ => match mfind name m with
    | some i => .ok i
    | none => .error
  | _ => .error

/-- conduit_schema.cpp:1010-1025 `child_name`. -/
def childName (s : RSchema) (idx : Nat) : Str :=
  match s with
  | .object _ o _ => (o[idx]?).getD []
  | _ => []

/-- conduit_schema.cpp:754-761 `number_of_children`. -/
def numberOfChildren : RSchema → Nat
  | .leaf _ => 0
  | .object _ _ c => c.length
  | .list c => c.length

/-- `children()[idx]`; `children()` raises an error on a leaf, conduit_schema.cpp:1586-1610. -/
def childAt (s : RSchema) (idx : Int) : Res RSchema :=
  match s with
  | .leaf _ => .error
  | .object _ _ c => if idx < 0 then .ub else Res.ofIdx c idx.toNat
  | .list c => if idx < 0 then .ub else Res.ofIdx c idx.toNat

/-- conduit_schema.cpp:874-901 `child(name)`. -/
def childByName (s : RSchema) (name : Str) : Res RSchema :=
  match s with
  | .object .. => do let i ← s.childIndex name; s.childAt i
  | _ => .error

/-- push a new empty child under `name`: conduit_schema.cpp:864-868 / 1098-1102. -/
def pushChild (s : RSchema) (name : Str) : RSchema :=
  match s with
  | .object m o c => .object (mset name c.length m) (o ++ [name]) (c ++ [empty])
  | s => s

/-- conduit_schema.cpp:854-870 `add_child`; the caller gets a reference to child
    `child_index(name)`. -/
def addChild (s : RSchema) (name : Str) : Res RSchema :=
  if s.hasChild name then .ok s else .ok (s.initObject.pushChild name)

/-- conduit_schema.cpp:1372-1380 `append`. -/
def append (s : RSchema) : RSchema :=
  match s.initList with
  | .list c => .list (c ++ [empty])
  | s => s

/-- conduit_schema.cpp:796-831 `remove(index)`.  The negative index is cast to
    `size_t` and is therefore out of range. -/
def removeIdx (s : RSchema) (idx : Int) : Res RSchema :=
  match s with
  | .leaf _ => .error
  | .list c => if idx < 0 ∨ idx.toNat ≥ c.length then .error else .ok (.list (c.eraseIdx idx.toNat))
  | .object m o c =>
    if idx < 0 ∨ idx.toNat ≥ c.length then .error
    else
      let m' := (o.drop idx.toNat).foldl mdecr m
      match o[idx.toNat]? with
      | none => .ub
      | some k => .ok (.object (merase k m') (o.eraseIdx idx.toNat) (c.eraseIdx idx.toNat))

/-- conduit_schema.cpp:1346-1369 `remove_child`. -/
def removeChild (s : RSchema) (name : Str) : Res RSchema :=
  match s with
  | .object m o c =>
    match mfind name m with
    | none => .error
    | some i =>
      if i < 0 ∨ i.toNat ≥ c.length ∨ i.toNat ≥ o.length then .ub
      else
        let m' := (o.drop i.toNat).foldl mdecr m
        .ok (.object (merase name m') (o.eraseIdx i.toNat) (c.eraseIdx i.toNat))
  | _ => .error

/-- conduit_schema.cpp:1028-1074 `rename_child`. -/
def renameChild (s : RSchema) (cur new : Str) : Res RSchema :=
  match s with
  | .object m o c =>
    if !s.hasChild cur then .error
    else if s.hasChild new then .error
    else
      let idx := (mfind cur m).getD 0
      if idx < 0 ∨ idx.toNat ≥ o.length then .ub
      else .ok (.object (mset new idx (merase cur m)) (o.set idx.toNat new) c)
  | _ => .error

/-- conduit_schema.cpp:160-170 `set(DataType)`. -/
def setDtype (_ : RSchema) (d : DataType) : RSchema :=
  match d.id with
  | .object => .object [] [] []
  | .list => .list []
  | _ => .leaf d

/-- `children()[idx] = s'` (the caller changes the child through a reference). -/
def setChild (s : RSchema) (idx : Nat) (ch : RSchema) : RSchema :=
  match s with
  | .leaf d => .leaf d
  | .object m o c => .object m o (c.set idx ch)
  | .list c => .list (c.set idx ch)

theorem split_next_lt {p : Str} (h : (splitPath p).2 ≠ []) : (splitPath p).2.length < p.length := by
  unfold splitPath splitString at *
  split at h <;> simp_all
  rename_i k hk
  have hk' : ∃ x, p[k]? = some x := by
    unfold find at hk
    have := List.findIdx?_eq_some_iff_getElem.1 hk
    exact ⟨_, List.getElem?_eq_getElem this.1⟩
  obtain ⟨x, hx⟩ := hk'
  have := (List.getElem?_eq_some_iff.1 hx).1
  omega

/-- conduit_schema.cpp:1270-1277: ignore one leading slash. -/
def cullSlash : Str → Str
  | [] => []
  | c :: r => if c = '/' then r else c :: r

/-- conduit_schema.cpp:1259-1300 `has_path`. -/
def hasPath (s : RSchema) (path : Str) : Res Bool :=
  match s with
  | .object m _ c =>
    match mfind (splitPath (cullSlash path)).1 m with
    | none => .ok false
    | some i =>
      if hn : (splitPath (cullSlash path)).2 = [] then .ok true
      else if i < 0 then .ub
      else match c[i.toNat]? with
        | none => .ub
        | some ch => hasPath ch (splitPath (cullSlash path)).2
  | _ => .ok false
termination_by path.length
decreasing_by
  have h1 := split_next_lt hn
  have h2 : (cullSlash path).length ≤ path.length := by
    cases path with
    | nil => simp [cullSlash]
    | cons c r => rw [cullSlash]; split <;> simp
  omega

/-- The schema a reference points to: `root` and a list of child positions. -/
def getAt : RSchema → List Nat → Option RSchema
  | s, [] => some s
  | .leaf _, _ :: _ => none
  | .object _ _ c, i :: a => match c[i]? with
    | some ch => getAt ch a
    | none => none
  | .list c, i :: a => match c[i]? with
    | some ch => getAt ch a
    | none => none

/-- Replace the schema a reference points to. -/
def putAt : RSchema → List Nat → RSchema → RSchema
  | _, [], x => x
  | .leaf d, _ :: _, _ => .leaf d
  | .object m o c, i :: a, x => match c[i]? with
    | some ch => .object m o (c.set i (putAt ch a x))
    | none => .object m o c
  | .list c, i :: a, x => match c[i]? with
    | some ch => .list (c.set i (putAt ch a x))
    | none => .list c

theorem split_dotdot_lt {p : Str} (h : (splitPath p).1 = ['.', '.']) :
    (splitPath p).2.length < p.length := by
  by_cases hn : (splitPath p).2 = []
  · rw [hn]
    cases p with
    | nil => simp [splitPath, splitString, find] at h
    | cons a b => simp
  · exact split_next_lt hn

/-- conduit_schema.cpp:1078-1115 `fetch(path)` on the schema at address `addr`
    of the tree `root` (`m_parent` is the schema at `addr.dropLast`, null at the
    root).  Returns the new tree and the address of the result. -/
def fetchAt (root : RSchema) (addr : List Nat) (path : Str) : Res (RSchema × List Nat) :=
  match getAt root addr with
  | none => .ub
  | some s =>
    let s1 := s.initObject
    if hd : (splitPath path).1 = ['.', '.'] ∧ addr ≠ [] then
      fetchAt (putAt root addr s1) addr.dropLast (splitPath path).2
    else
      match s1.hasPath (splitPath path).1 with
      | .error => .error
      | .ub => .ub
      | .ok b =>
        let s2 := if b then s1 else s1.pushChild (splitPath path).1
        match s2.childIndex (splitPath path).1 with
        | .error => .error
        | .ub => .ub
        | .ok idx =>
          if idx < 0 then .ub
          else if hn : (splitPath path).2 = [] then
            .ok (putAt root addr s2, addr ++ [idx.toNat])
          else fetchAt (putAt root addr s2) (addr ++ [idx.toNat]) (splitPath path).2
termination_by path.length
decreasing_by
  · exact split_dotdot_lt hd.1
  · exact split_next_lt hn

/-- conduit_schema.cpp:904-943 `fetch_existing(path)` (not const): the name is
    looked up before the test for "..". -/
def fetchExistingAt (root : RSchema) (addr : List Nat) (path : Str) : Res (List Nat) :=
  match getAt root addr with
  | none => .ub
  | some s =>
    match s with
    | .object .. =>
      match s.childIndex (splitPath path).1 with
      | .error => .error
      | .ub => .ub
      | .ok idx =>
        if hd : (splitPath path).1 = ['.', '.'] then
          if addr = [] then .error else fetchExistingAt root addr.dropLast (splitPath path).2
        else if idx < 0 then .ub
        else if hn : (splitPath path).2 = [] then .ok (addr ++ [idx.toNat])
        else fetchExistingAt root (addr ++ [idx.toNat]) (splitPath path).2
    | _ => .error
termination_by path.length
decreasing_by
  · exact split_dotdot_lt hd
  · exact split_next_lt hn

/-- conduit_schema.cpp:947-981 `fetch_existing(path) const`. -/
def fetchExistingConstAt (root : RSchema) (addr : List Nat) (path : Str) : Res (List Nat) :=
  match getAt root addr with
  | none => .ub
  | some s =>
    match s with
    | .object .. =>
      if hd : (splitPath path).1 = ['.', '.'] ∧ addr ≠ [] then
        fetchExistingConstAt root addr.dropLast (splitPath path).2
      else
        match s.childIndex (splitPath path).1 with
        | .error => .error
        | .ub => .ub
        | .ok idx =>
          if idx < 0 then .ub
          else if hn : (splitPath path).2 = [] then .ok (addr ++ [idx.toNat])
          else fetchExistingConstAt root (addr ++ [idx.toNat]) (splitPath path).2
    | _ => .error
termination_by path.length
decreasing_by
  · exact split_dotdot_lt hd.1
  · exact split_next_lt hn

/-- conduit_schema.cpp:1318-1343 `remove(path)`. -/
def removePath (s : RSchema) (path : Str) : Res RSchema :=
  match s with
  | .object m o c =>
    if hn : (splitPath path).2 = [] then s.removeChild (splitPath path).1
    else
      match mfind (splitPath path).1 m with
      | none => .error
      | some i =>
        if i < 0 then .ub
        else match c[i.toNat]? with
          | none => .ub
          | some ch => match removePath ch (splitPath path).2 with
            | .error => .error
            | .ub => .ub
            | .ok ch' => .ok (.object m o (c.set i.toNat ch'))
  | _ => .error
termination_by path.length
decreasing_by exact split_next_lt hn

/-- One call made on the schema at address `a` of the tree `root`.
    An address that points nowhere is not a reference a client can hold: the
    call is then skipped (`error`). -/
def step (root : RSchema) (a : List Nat) (op : SchemaOp) : Res RSchema :=
  match getAt root a with
  | none => .error
  | some s =>
    match op with
    | .addChild n => (s.addChild n).map' (putAt root a)
    | .append => .ok (putAt root a s.append)
    | .removeIdx i => (s.removeIdx i).map' (putAt root a)
    | .removeChild n => (s.removeChild n).map' (putAt root a)
    | .removePath p => (s.removePath p).map' (putAt root a)
    | .renameChild c n => (s.renameChild c n).map' (putAt root a)
    | .setDtype d => .ok (putAt root a (s.setDtype d))
    | .reset => .ok (putAt root a empty)
    | .fetch p => (fetchAt root a p).map' (·.1)

/-- A history of calls.  A call that throws leaves the tree as it was when the
    exception is raised; every throw in the modelled calls happens before the
    first update of the object's own tables (see `step`), except in `fetch`,
    which cannot throw. -/
def run (root : RSchema) : List (List Nat × SchemaOp) → Res RSchema
  | [] => .ok root
  | (a, op) :: rest =>
    match step root a op with
    | .ok r => run r rest
    | .error => run root rest
    | .ub => .ub

end RSchema
end Conduit
