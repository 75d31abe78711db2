import Verif.Model.Node
/-
Node and Schema as objects on a heap: every node has its own schema object, child
vectors, parent pointers and the flag that it owns its schema.
Source: /repo/src/libs/conduit/conduit_node.cpp, conduit_schema.cpp
Simplifications: the children of an object schema are a list of names and a list of
pointers (theorem C11 shows that the name map and the order vector of the code
always say this); memory maps and allocators are not modelled; a `const Schema &`
argument is a value (it is not part of the tree the call changes); a `const Node &`
source is read once before the call changes anything, except in `set(node)`, which
reads it as it goes, like the code.
-/
set_option linter.unusedVariables false
namespace Conduit
open Spec Node

/-- What a schema describes: `m_dtype` and, for an object, `object_order`. -/
inductive Kind where
  | leaf (d : DataType)
  | obj (names : List Str)
  | lst
deriving DecidableEq

namespace Kind
/-- `dtype()` -/
def dtype : Kind → DataType
  | .leaf d => d
  | .obj _ => { id := .object }
  | .lst => { id := .list }
/-- `Schema::set(const DataType &)`, conduit_schema.cpp:160-170 -/
def ofDtype (d : DataType) : Kind :=
  match d.id with
  | .object => .obj []
  | .list => .lst
  | _ => .leaf d
def isEmpty (k : Kind) : Bool := k.dtype.id == .empty
/-- the position of a name among the children of an object -/
def posOf (k : Kind) (name : Str) : Option Nat :=
  match k with
  | .obj names => names.findIdx? (· == name)
  | _ => none
end Kind

/-- A `Schema` object: `m_dtype`/`object_order`, `children()`, `m_parent`. -/
structure SObj where
  kind : Kind
  children : List Nat
  parent : Option Nat

/-- A `Node` object: `m_schema`, `m_owns_schema`, `m_parent`, `m_children`, `m_data`/`m_alloced`. -/
structure NObj where
  schema : Nat
  owns : Bool
  parent : Option Nat
  children : List Nat
  info : Info

/-- All objects; a pointer is a number, `none` is an object that was deleted or never made. -/
structure Heap where
  nodes : Nat → Option NObj
  schemas : Nat → Option SObj
  nextN : Nat
  nextS : Nat
  mem : Mem

namespace Heap

/-- `*p`, undefined for a deleted object -/
def getN (h : Heap) (i : Nat) : Res NObj :=
  match h.nodes i with
  | some o => .ok o
  | none => .ub
def getS (h : Heap) (i : Nat) : Res SObj :=
  match h.schemas i with
  | some o => .ok o
  | none => .ub
def putN (h : Heap) (i : Nat) (o : Option NObj) : Heap :=
  { h with nodes := fun j => if j = i then o else h.nodes j }
def putS (h : Heap) (i : Nat) (o : Option SObj) : Heap :=
  { h with schemas := fun j => if j = i then o else h.schemas j }
/-- `new`: a number that was not used before -/
def newN (h : Heap) (o : NObj) : Heap × Nat := ({ h.putN h.nextN (some o) with nextN := h.nextN + 1 }, h.nextN)
def newS (h : Heap) (o : SObj) : Heap × Nat := ({ h.putS h.nextS (some o) with nextS := h.nextS + 1 }, h.nextS)

/-! ### Schema -/

/-- `delete schema`: conduit_schema.cpp:90-91 and 1434-1459, the children first.  The first argument
    bounds the depth of the recursion (a cycle does not end: `ub`). -/
def delS : Nat → Heap → Nat → Res Heap
  | 0, _, _ => .ub
  | f + 1, h, s => do
    let o ← h.getS s
    let h1 ← o.children.foldlM (delS f) h
    .ok (h1.putS s none)

/-- conduit_schema.cpp:1434-1459 `release` (and `reset`): the children are deleted, the type becomes empty. -/
def releaseS (h : Heap) (s : Nat) : Res Heap := do
  let o ← h.getS s
  let h1 ← o.children.foldlM (delS h.nextS) h
  .ok (h1.putS s (some ⟨.leaf {}, [], o.parent⟩))

/-- `m_dtype = ...` and the child vector of a schema -/
def setKind (h : Heap) (s : Nat) (k : Kind) (cs : List Nat) : Res Heap := do
  let o ← h.getS s
  .ok (h.putS s (some ⟨k, cs, o.parent⟩))

/-- conduit_schema.cpp:160-170 `set(dtype)`; also 152-157 `set(EMPTY_ID)`. -/
def setDtypeS (h : Heap) (s : Nat) (d : DataType) : Res Heap := do
  let h1 ← h.releaseS s
  h1.setKind s (.ofDtype d) []

/-- conduit_schema.cpp:1410-1419 `init_object`. -/
def initObjectS (h : Heap) (s : Nat) : Res Heap := do
  let o ← h.getS s
  match o.kind with
  | .obj _ => .ok h
  | _ => do
    let h1 ← h.releaseS s
    h1.setKind s (.obj []) []

/-- conduit_schema.cpp:1422-1431 `init_list`. -/
def initListS (h : Heap) (s : Nat) : Res Heap := do
  let o ← h.getS s
  match o.kind with
  | .lst => .ok h
  | _ => do
    let h1 ← h.releaseS s
    h1.setKind s .lst []

/-- conduit_schema.cpp:854-870 `add_child(name)` for a name the schema does not have, and the part of `fetch(name)`
    (1098-1102) that makes a child. -/
def addChildS (h : Heap) (s : Nat) (name : Str) : Res (Heap × Nat) := do
  let h1 ← h.initObjectS s
  let o ← h1.getS s
  match o.kind with
  | .obj names =>
    let r := h1.newS ⟨.leaf {}, [], some s⟩
    .ok (r.1.putS s (some ⟨.obj (names ++ [name]), o.children ++ [r.2], o.parent⟩), r.2)
  | _ => .ub

/-- conduit_schema.cpp:1372-1380 `append`. -/
def appendS (h : Heap) (s : Nat) : Res Heap := do
  let h1 ← h.initListS s
  let o ← h1.getS s
  let r := h1.newS ⟨.leaf {}, [], some s⟩
  .ok (r.1.putS s (some ⟨o.kind, o.children ++ [r.2], o.parent⟩))

/-- conduit_schema.cpp:796-831 `remove(idx)`, also the end of 1346-1369 `remove_child`: the name and the pointer are
    erased, the child is deleted. -/
def removeS (h : Heap) (s : Nat) (idx : Nat) : Res Heap := do
  let o ← h.getS s
  match o.children[idx]? with
  | none => .error
  | some c => do
    let h1 ← delS h.nextS h c
    match o.kind with
    | .leaf _ => .error
    | .obj names => .ok (h1.putS s (some ⟨.obj (names.eraseIdx idx), o.children.eraseIdx idx, o.parent⟩))
    | .lst => .ok (h1.putS s (some ⟨.lst, o.children.eraseIdx idx, o.parent⟩))

/-- conduit_schema.cpp:1028-1074 `rename_child`. -/
def renameS (h : Heap) (s : Nat) (cur new : Str) : Res Heap := do
  let o ← h.getS s
  match o.kind with
  | .obj names =>
    match names.findIdx? (· == cur) with
    | none => .error
    | some i => (if new ∈ names then .error
      else .ok (h.putS s (some ⟨.obj (names.set i new), o.children, o.parent⟩)) : Res Heap)
  | _ => .error

mutual
/-- conduit_schema.cpp:111-148 `set(schema)` after `reset`, and the copy constructors of the children. -/
def fillS : Schema → Heap → Nat → Res Heap
  | .leaf d, h, s => h.setKind s (.leaf d) []
  | .obj es, h, s => do
    let r ← buildE es h s
    r.1.setKind s (.obj (es.map (·.1))) r.2
  | .lst cs, h, s => do
    let r ← buildL cs h s
    r.1.setKind s .lst r.2
def buildE : List (Str × Schema) → Heap → Nat → Res (Heap × List Nat)
  | [], h, _ => .ok (h, [])
  | (_, c) :: es, h, s => do
    let r := h.newS ⟨.leaf {}, [], some s⟩
    let h1 ← fillS c r.1 r.2
    let q ← buildE es h1 s
    .ok (q.1, r.2 :: q.2)
def buildL : List Schema → Heap → Nat → Res (Heap × List Nat)
  | [], h, _ => .ok (h, [])
  | c :: cs, h, s => do
    let r := h.newS ⟨.leaf {}, [], some s⟩
    let h1 ← fillS c r.1 r.2
    let q ← buildL cs h1 s
    .ok (q.1, r.2 :: q.2)
end

/-- conduit_schema.cpp:111-148 `set(schema)`. -/
def setS (h : Heap) (s : Nat) (t : Schema) : Res Heap := do
  let h1 ← h.releaseS s
  fillS t h1 s

/-! ### Node -/

/-- `delete node`: conduit_node.cpp:17343-17356 `cleanup` with 17306-17340 `release`: the children are deleted, the
    buffer is freed, and then the schema when the node owns it. -/
def delN : Nat → Heap → Nat → Res Heap
  | 0, _, _ => .ub
  | f + 1, h, n => do
    let o ← h.getN n
    let h1 ← o.children.foldlM (delN f) h
    let so ← h1.getS o.schema
    let m ← freeOwn o.info so.kind.isEmpty h1.mem
    let h2 ← (if o.owns then delS h1.nextS { h1 with mem := m } o.schema else .ok { h1 with mem := m } : Res Heap)
    .ok (h2.putN n none)

/-- `m_data`/`m_alloced` after `release` -/
def relInfo (x : Info) (empty : Bool) : Info := if x.alloced && x.data.isSome && !empty then {} else x

/-- conduit_node.cpp:17306-17340 `release`. -/
def releaseN (h : Heap) (n : Nat) : Res Heap := do
  let o ← h.getN n
  let h1 ← o.children.foldlM (delN h.nextN) h
  let so ← h1.getS o.schema
  let m ← freeOwn o.info so.kind.isEmpty h1.mem
  .ok ({ h1 with mem := m }.putN n (some { o with children := [], info := relInfo o.info so.kind.isEmpty }))

/-- conduit_node.cpp:122-127 `reset`. -/
def resetN (h : Heap) (n : Nat) : Res Heap := do
  let h1 ← h.releaseN n
  let o ← h1.getN n
  h1.setDtypeS o.schema {}

/-- conduit_node.cpp:103-106 and 17378-17395: the default constructor makes an empty schema that the node owns. -/
def newNode (h : Heap) : Heap × Nat :=
  let r := h.newS ⟨.leaf {}, [], none⟩
  r.1.newN ⟨r.2, true, none, [], {}⟩

/-- conduit_node.cpp:17024-17033 `set_schema_ptr`. -/
def setSchemaPtr (h : Heap) (n s : Nat) : Res Heap := do
  let o ← h.getN n
  let h1 ← (if o.owns then delS h.nextS h o.schema else .ok h : Res Heap)
  .ok (h1.putN n (some { o with schema := s, owns := false }))

/-- The lines that make a child node: `new Node()`, `set_schema_ptr`, `set_parent` (e.g. conduit_node.cpp:14273-14276). -/
def attach (h : Heap) (n s : Nat) : Res (Heap × Nat) := do
  let r := h.newNode
  let h1 ← r.1.setSchemaPtr r.2 s
  let o ← h1.getN r.2
  .ok (h1.putN r.2 (some { o with parent := some n }), r.2)

/-- `m_children.push_back(c)` -/
def pushChild (h : Heap) (n c : Nat) : Res Heap := do
  let o ← h.getN n
  .ok (h.putN n (some { o with children := o.children ++ [c] }))

/-- `m_data = data` -/
def setData (h : Heap) (n : Nat) (p : Option Ptr) : Res Heap := do
  let o ← h.getN n
  .ok (h.putN n (some { o with info := ⟨p, o.info.alloced⟩ }))

/-- conduit_node.cpp:17281-17290 `allocate(dsize)`. -/
def allocN (h : Heap) (n : Nat) (dsize : Int) : Res Heap := do
  let o ← h.getN n
  let a := allocate h.mem dsize
  .ok ({ h with mem := a.1 }.putN n (some { o with info := a.2 }))

/-- `dtype()` -/
def dtypeN (h : Heap) (n : Nat) : Res DataType := do
  let o ← h.getN n
  let so ← h.getS o.schema
  .ok so.kind.dtype

/-- conduit_node.cpp:17248-17270 `init(dtype)`. -/
def initN (h : Heap) (n : Nat) (d : DataType) : Res Heap := do
  let o ← h.getN n
  let cur ← h.dtypeN n
  if cur.compatible d then .ok h
  else do
    let h1 ← (if o.info.data.isSome || (cur.id == .object || cur.id == .list) then h.releaseN n else .ok h : Res Heap)
    let h2 ← (if d.id != .object && d.id != .list && d.id != .empty then h1.allocN n d.spannedBytes else .ok h1 : Res Heap)
    h2.setDtypeS o.schema d

/-- conduit_node.cpp:14263-14279 `add_child(name)`. -/
def addChildN (h : Heap) (n : Nat) (name : Str) : Res (Heap × Nat) := do
  let o ← h.getN n
  let so ← h.getS o.schema
  match so.kind.posOf name with
  | some i => do
    let c ← Res.ofIdx o.children i
    .ok (h, c)
  | none => do
    let r ← h.addChildS o.schema name
    let q ← r.1.attach n r.2
    let h2 ← q.1.pushChild n q.2
    .ok (h2, q.2)

/-- conduit_node.cpp:14416-14483 `fetch(path)`.  `none`: CONDUIT_ERROR was raised, the heap is as the call left it.
    The new child schema comes from `m_schema->fetch_ptr(name)`, which for one name makes a child like `add_child`. -/
def fetchN (h : Heap) (n : Nat) (path : Str) : Res (Heap × Option Nat) :=
  match h.dtypeN n with
  | .error => .error
  | .ub => .ub
  | .ok cur =>
    match (if cur.id = .object then Res.ok h else h.initN n { id := .object }) with
    | .error => .error
    | .ub => .ub
    | .ok h1 =>
      if path = [] then .ok (h1, none)
      else if he : (splitPath path).1 = [] then fetchN h1 n (splitPath path).2
      else if hd : (splitPath path).1 = ['.', '.'] then
        match h1.getN n with
        | .error => .error
        | .ub => .ub
        | .ok o => match o.parent with
          | none => .ok (h1, none)
          | some p => fetchN h1 p (splitPath path).2
      else match h1.addChildN n (splitPath path).1 with
        | .error => .error
        | .ub => .ub
        | .ok r => if hn : (splitPath path).2 = [] then .ok (r.1, some r.2) else fetchN r.1 r.2 (splitPath path).2
termination_by path.length
decreasing_by
  · rename_i hp
    by_cases hn : (splitPath path).2 = []
    · rw [hn]; cases path with
      | nil => exact absurd rfl hp
      | cons => simp
    · exact RSchema.split_next_lt hn
  · exact RSchema.split_dotdot_lt hd
  · exact RSchema.split_next_lt hn

/-- conduit_node.cpp:14626-14643 `append`. -/
def appendN (h : Heap) (n : Nat) : Res (Heap × Nat) := do
  let h1 ← h.initN n { id := .list }
  let o ← h1.getN n
  let h2 ← h1.appendS o.schema
  let so ← h2.getS o.schema
  let s ← Res.ofIdx so.children o.children.length
  let q ← h2.attach n s
  let h3 ← q.1.pushChild n q.2
  .ok (h3, q.2)

/-- conduit_node.cpp:14646-14658 `remove(idx)`: the node, then the schema, then the pointer. -/
def removeN (h : Heap) (n : Nat) (idx : Nat) : Res Heap := do
  let o ← h.getN n
  let c ← Res.ofIdx o.children idx
  let h1 ← delN h.nextN h c
  let h2 ← h1.removeS o.schema idx
  .ok (h2.putN n (some { o with children := o.children.eraseIdx idx }))

/-- conduit_node.cpp:14679-14689 `remove_child(name)`. -/
def removeChildN (h : Heap) (n : Nat) (name : Str) : Res Heap := do
  let o ← h.getN n
  let so ← h.getS o.schema
  match so.kind.posOf name with
  | none => .error
  | some i => h.removeN n i

/-- conduit_node.cpp:14661-14676 `remove(path)`. -/
def removePathN (h : Heap) (n : Nat) (path : Str) : Res Heap :=
  if hn : (splitPath path).2 = [] then h.removeChildN n (splitPath path).1
  else match h.getN n with
    | .error => .error
    | .ub => .ub
    | .ok o => match h.getS o.schema with
      | .error => .error
      | .ub => .ub
      | .ok so => match so.kind.posOf (splitPath path).1 with
        | none => .error
        | some i => match o.children[i]? with
          | none => .ub
          | some c => removePathN h c (splitPath path).2
termination_by path.length
decreasing_by exact RSchema.split_next_lt hn

/-- conduit_node.cpp:14692-14699 `rename_child`. -/
def renameN (h : Heap) (n : Nat) (cur new : Str) : Res Heap := do
  let o ← h.getN n
  h.renameS o.schema cur new

/-- conduit_node.cpp:17455-17494 `walk_schema(node, schema, data)`.  The children of an object are found
    by their own names. -/
def walkN (p : Option Ptr) : Nat → Heap → Nat → Nat → Res Heap
  | 0, _, _, _ => .ub
  | f + 1, h, n, s => do
    let h1 ← h.setData n p
    let so ← h1.getS s
    so.children.foldlM (fun g c => do
      let q ← g.attach n c
      let g1 ← walkN p f q.1 q.2 c
      g1.pushChild n q.2) h1

/-- conduit_node.cpp:540-552 `set_schema(schema)`. -/
def setSchemaN (h : Heap) (n : Nat) (s : Schema) : Res Heap := do
  let h1 ← h.releaseN n
  let o ← h1.getN n
  let h2 ← h1.setS o.schema s
  let h3 ← h2.allocN n s.spannedBytes
  let o3 ← h3.getN n
  walkN o3.info.data h3.nextS h3 n o.schema

/-- conduit_node.cpp:563-574 `set_data_using_schema(schema, data)`. -/
def setSchemaDataN (h : Heap) (n : Nat) (s : Schema) (data : Option Ptr) : Res Heap := do
  let h1 ← h.releaseN n
  let o ← h1.getN n
  let h2 ← h1.setS o.schema s
  let h3 ← h2.allocN n s.spannedBytes
  let o3 ← h3.getN n
  let m ← (if s.spannedBytes < 0 then .ub else h3.mem.memcpy o3.info.data 0 data 0 s.spannedBytes.toNat : Res Mem)
  walkN o3.info.data h3.nextS { h3 with mem := m } n o.schema

/-- conduit_node.cpp:4560-4567 `set_external(schema, data)`. -/
def setExternalSchemaN (h : Heap) (n : Nat) (s : Schema) (data : Option Ptr) : Res Heap := do
  let h1 ← h.resetN n
  let o ← h1.getN n
  let h2 ← h1.setS o.schema s
  walkN data h2.nextS h2 n o.schema

/-- conduit_node.cpp:4604-4618 `set_external(ptr, ...)`. -/
def setExternalPtrN (h : Heap) (n : Nat) (d : DataType) (data : Option Ptr) : Res Heap := do
  let h1 ← h.releaseN n
  let o ← h1.getN n
  let h2 ← h1.setDtypeS o.schema d
  h2.setData n data

/-- A node and its schema as a tree.  The first argument bounds the depth. -/
def readN : Nat → Heap → Nat → Res Node
  | 0, _, _ => .ub
  | f + 1, h, n => do
    let o ← h.getN n
    let so ← h.getS o.schema
    let cs ← o.children.mapM (readN f h)
    match so.kind with
    | .leaf d => .ok (.leaf o.info d)
    | .obj names => .ok (.obj o.info (names.zip cs))
    | .lst => .ok (.lst o.info cs)

mutual
/-- conduit_node.cpp:17497-17538 `mirror_node(node, schema, src)`. -/
def mirrorN : Node → Heap → Nat → Nat → Res Heap
  | .leaf x _, h, n, _ => h.setData n x.data
  | .obj x es, h, n, s => do
    let h1 ← h.setData n x.data
    let so ← h1.getS s
    mirrorEN es so.children h1 n
  | .lst x cs, h, n, s => do
    let h1 ← h.setData n x.data
    let so ← h1.getS s
    mirrorLN cs so.children h1 n
def mirrorEN : List (Str × Node) → List Nat → Heap → Nat → Res Heap
  | _, [], h, _ => .ok h
  | [], _ :: _, _, _ => .ub
  | (_, c) :: es, s :: ss, h, n => do
    let q ← h.attach n s
    let h1 ← mirrorN c q.1 q.2 s
    let h2 ← h1.pushChild n q.2
    mirrorEN es ss h2 n
def mirrorLN : List Node → List Nat → Heap → Nat → Res Heap
  | _, [], h, _ => .ok h
  | [], _ :: _, _, _ => .ub
  | c :: cs, s :: ss, h, n => do
    let q ← h.attach n s
    let h1 ← mirrorN c q.1 q.2 s
    let h2 ← h1.pushChild n q.2
    mirrorLN cs ss h2 n
end

/-- conduit_node.cpp:4544-4549 `set_external(node)`; `src`: what the source node holds. -/
def setExternalNodeN (src : Node) (h : Heap) (n : Nat) : Res Heap := do
  let h1 ← h.resetN n
  let o ← h1.getN n
  let h2 ← h1.setS o.schema src.schema
  mirrorN src h2 n o.schema

/-- conduit_node.cpp:8485-8502 `src.compact_to(n)`. -/
def compactToN (src : Node) (h : Heap) (n : Nat) : Res Heap := do
  let h1 ← h.resetN n
  let h2 ← (if src.schema.totalBytesCompact > 0 then h1.allocN n src.schema.totalBytesCompact else .ok h1 : Res Heap)
  let o ← h2.getN n
  let h3 ← fillS src.schema.compactTo h2 o.schema
  let m ← compactWrite o.info.data src 0 h3.mem
  walkN o.info.data h3.nextS { h3 with mem := m } n o.schema

/-- conduit_node.cpp:468-516 `set_node(node)`: the source is read while the destination is changed.  The loop
    over the children: `i` is the position of the child. -/
def setNodeN : Nat → Heap → Nat → Nat → Res Heap
  | 0, _, _, _ => .ub
  | f + 1, h, n, src => do
    let so ← h.getN src
    let ss ← h.getS so.schema
    match ss.kind with
    | .obj _ => do
      let h1 ← h.resetN n
      let h2 ← h1.initN n { id := .object }
      -- `node.child_names()`
      let so2 ← h2.getN src
      let ss2 ← h2.getS so2.schema
      match ss2.kind with
      | .obj names =>
        names.foldlM (fun g name => do
          let o ← g.getN n
          let r ← g.addChildS o.schema name
          let ks ← r.1.getS o.schema
          let q ← r.1.attach n r.2
          let sn ← q.1.getN src
          match ks.kind.posOf name with
          | none => .ub
          | some i => do
            let sc ← Res.ofIdx sn.children i
            let g1 ← setNodeN f q.1 q.2 sc
            g1.pushChild n q.2) h2
      | _ => .ok h2
    | .lst => do
      let h1 ← h.resetN n
      let h2 ← h1.initN n { id := .list }
      let so2 ← h2.getN src
      (List.range so2.children.length).foldlM (fun g i => do
          let o ← g.getN n
          let g0 ← g.appendS o.schema
          let ks ← g0.getS o.schema
          let s ← Res.ofIdx ks.children i
          let q ← g0.attach n s
          let sn ← q.1.getN src
          let sc ← Res.ofIdx sn.children i
          let g1 ← setNodeN f q.1 q.2 sc
          g1.pushChild n q.2) h2
    | .leaf d => if d.id = .empty then h.resetN n else compactToN (.leaf so.info d) h n

/-- conduit_node.cpp:8557-8577: the leaf part of `update`. -/
def updateLeafN (sx : Info) (s : DataType) (h : Heap) (n : Nat) : Res Heap :=
  if s.id = .empty then .ok h
  else do
    let o ← h.getN n
    let d ← h.dtypeN n
    if d.id = s.id ∧ d.n ≥ s.n then
      if s.n < 0 ∨ d.ele < 0 then .ub
      else do
        let m ← h.mem.stridedCopy o.info.data (d.elementIndex 0) s.n.toNat d.ele.toNat d.stride sx.data (s.elementIndex 0) s.stride
        .ok { h with mem := m }
    else compactToN (.leaf sx s) h n

mutual
/-- conduit_node.cpp:8509-8585 `update(n_src)`. -/
def updateN : Node → Heap → Nat → Res Heap
  | .obj _ es, h, n => updateEN es h n
  | .lst _ cs, h, n => do
    let d ← h.dtypeN n
    if d.id = .list then do
      let o ← h.getN n
      updateLN cs o.children h n
    else updateLN cs [] h n
  | .leaf x d, h, n => updateLeafN x d h n
def updateEN : List (Str × Node) → Heap → Nat → Res Heap
  | [], h, _ => .ok h
  | (name, c) :: es, h, n => do
    let r ← h.addChildN n name
    let h1 ← updateN c r.1 r.2
    updateEN es h1 n
/-- the second argument: the children the destination has at the beginning -/
def updateLN : List Node → List Nat → Heap → Nat → Res Heap
  | [], _, h, _ => .ok h
  | c :: cs, [], h, n => do
    let r ← h.appendN n
    let h1 ← updateN c r.1 r.2
    updateLN cs [] h1 n
  | c :: cs, d :: ds, h, n => do
    let h1 ← updateN c h d
    updateLN cs ds h1 n
end

/-- Setters of values: `init(dtype)`, then write into the buffer (see `Node.setScalar`, `setVector`, `setArray`,
    `setString`). -/
def setWith (d : DataType) (write : Info → DataType → Mem → Res Mem) (h : Heap) (n : Nat) : Res Heap := do
  let h1 ← h.initN n d
  let o ← h1.getN n
  let d1 ← h1.dtypeN n
  let m ← write o.info d1 h1.mem
  .ok { h1 with mem := m }

/-- `Schema::child_index(Schema *)`, conduit_schema.cpp:1642-1656: the first position; -1 (`error` in `swap`) if absent. -/
def replaceChild (h : Heap) (parent old new : Nat) : Res Heap := do
  let o ← h.getS parent
  match o.children.findIdx? (· == old) with
  | none => .error
  | some i => .ok (h.putS parent (some { o with children := o.children.set i new }))

/-- `schema->parent()` of a node with a parent is dereferenced: conduit_node.cpp:8721-8750. -/
def relink (h : Heap) (n old new : Nat) : Res Heap := do
  let o ← h.getN n
  match o.parent with
  | none => .ok h
  | some _ => do
    let so ← h.getS old
    match so.parent with
    | none => .ub
    | some p => h.replaceChild p old new

/-- conduit_node.cpp:8714-8776 `a.swap(b)`. -/
def swapN (h : Heap) (a b : Nat) : Res Heap := do
  let oa ← h.getN a
  let ob ← h.getN b
  let h1 ← h.relink a oa.schema ob.schema
  let h2 ← h1.relink b ob.schema oa.schema
  let sa ← h2.getS oa.schema
  let sb ← h2.getS ob.schema
  let h3 := (h2.putS oa.schema (some { sa with parent := sb.parent })).putS ob.schema (some { sb with parent := sa.parent })
  .ok ((h3.putN a (some { oa with schema := ob.schema, children := ob.children, info := ob.info })).putN b
    (some { ob with schema := oa.schema, children := oa.children, info := oa.info }))

/-- conduit_node.cpp:8705-8711 `a.move(b)`. -/
def moveN (h : Heap) (a b : Nat) : Res Heap := do
  let h1 ← h.resetN a
  h1.swapN a b

end Heap
end Conduit
