import Verif.Spec.NodeSync
/-
Histories of node operations (C33-C35).
-/
namespace Conduit
open Spec Node Heap

/-- One call.  Nodes are named by their numbers. -/
inductive Op where
  /-- `new Node` -/
  | new
  /-- `delete` of a node made by `new` -/
  | destroy (n : Nat)
  | reset (n : Nat)
  | setScalar (n : Nat) (t : TypeId) (bytes : List UInt8)
  | setVector (n : Nat) (t : TypeId) (elems : List (List UInt8))
  | setArray (n : Nat) (s : DataType) (src : Option Ptr)
  | setString (n : Nat) (text : List UInt8)
  | addChild (n : Nat) (name : Str)
  | append (n : Nat)
  | fetch (n : Nat) (path : Str)
  | remove (n idx : Nat)
  | removeChild (n : Nat) (name : Str)
  | removePath (n : Nat) (path : Str)
  | rename (n : Nat) (cur name : Str)
  | setSchema (n : Nat) (s : Schema)
  | setSchemaData (n : Nat) (s : Schema) (data : Option Ptr)
  | setExternalSchema (n : Nat) (s : Schema) (data : Option Ptr)
  | setExternalPtr (n : Nat) (d : DataType) (data : Option Ptr)
  | setExternalNode (n src : Nat)
  | compactTo (src n : Nat)
  | setNode (n src : Nat)
  | update (n src : Nat)
  | swap (a b : Nat)
  | move (a b : Nat)
  /-- the user allocates, frees, writes memory -/
  | userAlloc (size : Nat)
  | userFree (p : Ptr)
  | userWrite (p : Ptr) (bytes : List UInt8)

namespace Op

/-- CONDUIT_ERROR before anything was changed -/
def thrown (r : Res Heap) (h : Heap) : Res Heap :=
  match r with
  | .error => .ok h
  | x => x

/-- What a call does.  `remove(name)`, `remove(path)` and `rename_child` throw before they change anything. -/
def run (h : Heap) : Op → Res Heap
  | new => .ok h.newNode.1
  | destroy n => delN h.nextN h n
  | reset n => h.resetN n
  | setScalar n t bytes => setWith (DataType.ofId t 1) (fun x d m => m.store x.data (d.elementIndex 0) bytes) h n
  | setVector n t elems => setWith (DataType.ofId t elems.length) (fun x d m => m.store x.data (d.elementIndex 0) elems.flatten) h n
  | setArray n s src => setWith (DataType.ofId s.id s.n) (fun x d m =>
      if d.n < 0 ∨ d.ele < 0 then .ub
      else m.stridedCopy x.data (d.elementIndex 0) d.n.toNat d.ele.toNat d.stride src (s.elementIndex 0) s.stride) h n
  | setString n text => setWith (DataType.ofId .char8Str (text ++ [0]).length) (fun x d m =>
      if d.ele = 1 ∧ d.stride = 1 then m.store x.data (d.elementIndex 0) (text ++ [0])
      else if d.ele = 1 then storeElems x.data d.stride ((text ++ [0]).map (fun b => [b])) (d.elementIndex 0) m
      else .ub) h n
  | addChild n name => do let r ← h.addChildN n name; .ok r.1
  | append n => do let r ← h.appendN n; .ok r.1
  | fetch n path => do let r ← h.fetchN n path; .ok r.1
  | remove n idx => h.removeN n idx
  | removeChild n name => thrown (h.removeChildN n name) h
  | removePath n path => thrown (h.removePathN n path) h
  | rename n cur name => thrown (h.renameN n cur name) h
  | setSchema n s => h.setSchemaN n s
  | setSchemaData n s data => h.setSchemaDataN n s data
  | setExternalSchema n s data => h.setExternalSchemaN n s data
  | setExternalPtr n d data => h.setExternalPtrN n d data
  | setExternalNode n src => do let t ← readN h.nextN h src; setExternalNodeN t h n
  | compactTo src n => do let t ← readN h.nextN h src; compactToN t h n
  | setNode n src => setNodeN h.nextN h n src
  | update n src => do let t ← readN h.nextN h src; updateN t h n
  | swap a b => h.swapN a b
  | move a b => h.moveN a b
  | userAlloc z => .ok { h with mem := (h.mem.alloc z).1 }
  | userFree p => do let m ← h.mem.free p; .ok { h with mem := m }
  | userWrite p bytes => do let m ← h.mem.store (some p) 0 bytes; .ok { h with mem := m }

/-- the calls after which parent pointers are wrong (see `C34_swap_parent_false`) -/
def isSwap : Op → Bool
  | swap _ _ => true
  | move _ _ => true
  | _ => false

end Op

namespace Heap

/-- `m` is `n` or a node below it -/
inductive Below (h : Heap) : Nat → Nat → Prop
  | self (n : Nat) : Below h n n
  | child (n m c : Nat) (o : NObj) : h.nodes n = some o → c ∈ o.children → Below h c m → Below h n m

/-- none of the two inside the other -/
def Apart (h : Heap) (a b : Nat) : Prop := ¬ Below h a b ∧ ¬ Below h b a

/-- a list with children -/
def ListKids (h : Heap) (n : Nat) : Prop :=
  ∃ o so, h.nodes n = some o ∧ h.schemas o.schema = some so ∧ so.kind = .lst ∧ so.children ≠ []

/-- not both children of one node with `a` in front of `b` -/
def NotBefore (h : Heap) (a b : Nat) : Prop :=
  ∀ n o (i j : Nat), h.nodes n = some o → o.children[i]? = some a → o.children[j]? = some b → j < i

end Heap

/-- a schema that gives its node a buffer: the root is not an empty leaf, the size not negative -/
def Schema.Sized (s : Schema) : Prop := SchOK s ∧ (∀ d, s = .leaf d → d.id ≠ .empty) ∧ 0 ≤ s.spannedBytes

namespace Op

/-- The calls considered.  `U`: the blocks of the user.  Left out are the calls that break the data structure (see the witnesses in
    Props/NodeSync), deleting what was not made by `new`, freeing what the user did not allocate, and,
    because the model reads the source at once, sources inside the destination or around it. -/
def Allowed (U : List Nat) (h : Heap) : Op → Prop
  | destroy n => ∃ o, h.nodes n = some o ∧ o.owns = true
  | setArray _ s _ => 0 ≤ s.n
  | addChild n _ => ¬ ListKids h n
  | setSchema _ s => s.Sized
  | setSchemaData _ s _ => s.Sized
  | setExternalSchema _ s _ => SchOK s
  | setExternalNode n src => Apart h n src
  | compactTo src n => Apart h n src
  | update n src => Apart h n src ∧ ∀ s d, readN h.nextN h src = .ok s → readN h.nextN h n = .ok d → NoClash s d
  | swap a b => Apart h a b ∧ NotBefore h a b
  | move a b => Apart h a b ∧ NotBefore h a b
  | userFree p => p.blk ∈ U
  | _ => True

/-- the blocks of the user after a call -/
def user (h : Heap) (U : List Nat) : Op → List Nat
  | userAlloc z => (h.mem.alloc z).2.blk :: U
  | userFree p => U.erase p.blk
  | _ => U

end Op

/-- A history from `h` with user blocks `U` to `h'` with `U'`, all calls allowed. -/
inductive History : List Nat → Heap → List Op → List Nat → Heap → Prop
  | nil (U : List Nat) (h : Heap) : History U h [] U h
  | cons (U : List Nat) (h : Heap) (op : Op) (h1 : Heap) (ops : List Op) (U' : List Nat) (h' : Heap) :
      op.Allowed U h → op.run h = .ok h1 → History (op.user h U) h1 ops U' h' → History U h (op :: ops) U' h'

namespace Heap

/-- Nodes and schemas in lockstep: a live node has a live schema, one child node for each child of the schema, the i-th
    child node has the i-th child of the schema as its schema, and that schema knows its parent. -/
def Lockstep (h : Heap) : Prop :=
  ∀ n o, h.nodes n = some o → ∃ so, h.schemas o.schema = some so ∧ o.children.length = so.children.length ∧
    (∀ (i : Nat) (c : Nat), o.children[i]? = some c → ∃ oc soc, h.nodes c = some oc ∧ so.children[i]? = some oc.schema ∧
      h.schemas oc.schema = some soc ∧ soc.parent = some o.schema) ∧
    (∀ d, so.kind = .leaf d → o.children = []) ∧
    (∀ names, so.kind = .obj names → names.length = o.children.length ∧ names.Nodup)

/-- no node has two parents, no schema two nodes -/
def Disjoint (h : Heap) : Prop :=
  (∀ n m o p c (i j : Nat), h.nodes n = some o → h.nodes m = some p → o.children[i]? = some c → p.children[j]? = some c → n = m ∧ i = j) ∧
  (∀ n m o p, h.nodes n = some o → h.nodes m = some p → o.schema = p.schema → n = m)

/-- the parent pointers are right -/
def Linked (h : Heap) : Prop :=
  (∀ n o c oc, h.nodes n = some o → c ∈ o.children → h.nodes c = some oc → oc.parent = some n) ∧
  (∀ n o p, h.nodes n = some o → o.parent = some p → ∃ op, h.nodes p = some op ∧ n ∈ op.children)

/-- Node `n` owns block `b`. -/
def Owns (h : Heap) (n b : Nat) : Prop := ∃ o p, h.nodes n = some o ∧ o.info.alloced = true ∧ o.info.data = some p ∧ p.blk = b

/-- The blocks: what a node owns lives and is owned by this node only and not by the user; what lives is the user's or owned;
    what the user allocated lives. -/
structure Blocks (h : Heap) (U : List Nat) : Prop where
  live : ∀ n b, h.Owns n b → (h.blk b).isSome ∧ b ∉ U
  one : ∀ n m b, h.Owns n b → h.Owns m b → n = m
  start : ∀ n o, h.nodes n = some o → o.info.alloced = true → ∃ p, o.info.data = some p ∧ p.off = 0
  user : ∀ b ∈ U, (h.blk b).isSome
  noLeak : ∀ b, (h.blk b).isSome → b ∈ U ∨ ∃ n, h.Owns n b

end Heap

/-- the calls that neither read nor write elements, on nodes that are there -/
def Op.Plain (h : Heap) : Op → Prop
  | new => True
  | destroy n => (h.nodes n).isSome
  | reset n => (h.nodes n).isSome
  | addChild n _ => (h.nodes n).isSome
  | append n => (h.nodes n).isSome
  | remove n idx => ∃ o, h.nodes n = some o ∧ idx < o.children.length
  | removeChild n _ => (h.nodes n).isSome
  | removePath n _ => (h.nodes n).isSome
  | rename n _ _ => (h.nodes n).isSome
  | setSchema n _ => (h.nodes n).isSome
  | setExternalSchema n _ _ => (h.nodes n).isSome
  | setExternalPtr n _ _ => (h.nodes n).isSome
  | setExternalNode n src => (h.nodes n).isSome ∧ (h.nodes src).isSome
  | swap a b => (h.nodes a).isSome ∧ (h.nodes b).isSome
  | move a b => (h.nodes a).isSome ∧ (h.nodes b).isSome
  | userAlloc _ => True
  | userFree p => p.off = 0
  | _ => False

/-- nothing there -/
def Heap.init : Heap := ⟨fun _ => none, fun _ => none, 0, 0, []⟩

end Conduit
