import Verif.Model.NodeSync
/-
What it means that a heap of node and schema objects holds a tree (C33-C35).
-/
namespace Conduit

mutual
/-- A schema that objects can have: no name twice in an object; leaves are leaves. -/
def SchOK : Schema → Prop
  | .leaf d => d.id ≠ .object ∧ d.id ≠ .list
  | .obj es => (es.map (·.1)).Nodup ∧ SchOKE es
  | .lst cs => SchOKL cs
def SchOKE : List (Str × Schema) → Prop
  | [] => True
  | (_, c) :: es => SchOK c ∧ SchOKE es
def SchOKL : List Schema → Prop
  | [] => True
  | c :: cs => SchOK c ∧ SchOKL cs
end

mutual
/-- `dst.update(src)` never adds a named child to a list that has children. -/
def NoClash : Node → Node → Prop
  | .obj _ es, d => (es ≠ [] → ∀ x c cs, d ≠ .lst x (c :: cs)) ∧ NoClashE es d
  | .lst _ cs, .lst _ ds => NoClashL cs ds
  | .lst _ _, _ => True
  | .leaf _ _, _ => True
def NoClashE : List (Str × Node) → Node → Prop
  | [], _ => True
  | (name, c) :: es, d => (∀ x fs e, d = .obj x fs → (name, e) ∈ fs → NoClash c e) ∧ NoClashE es d
def NoClashL : List Node → List Node → Prop
  | c :: cs, d :: ds => NoClash c d ∧ NoClashL cs ds
  | _, _ => True
end

/-- A tree of objects: the numbers of the node and of its schema, the node's buffer, what the
    schema describes, the children. -/
inductive HT where
  | mk (n s : Nat) (x : Info) (k : Kind) (cs : List HT)

namespace HT
open Spec Node

def nid : HT → Nat
  | mk n _ _ _ _ => n
def sid : HT → Nat
  | mk _ s _ _ _ => s
def info : HT → Info
  | mk _ _ x _ _ => x
def kind : HT → Kind
  | mk _ _ _ k _ => k
def cs : HT → List HT
  | mk _ _ _ _ l => l

mutual
/-- the node objects of the tree -/
def nids : HT → List Nat
  | mk n _ _ _ cs => n :: nidsL cs
def nidsL : List HT → List Nat
  | [] => []
  | c :: cs => nids c ++ nidsL cs
end

mutual
/-- the schema objects of the tree -/
def sids : HT → List Nat
  | mk _ s _ _ cs => s :: sidsL cs
def sidsL : List HT → List Nat
  | [] => []
  | c :: cs => sids c ++ sidsL cs
end

mutual
/-- the tree without the numbers of its objects -/
def toNode : HT → Node
  | mk _ _ x (.leaf d) _ => .leaf x d
  | mk _ _ x (.obj names) cs => .obj x (names.zip (toNodeL cs))
  | mk _ _ x .lst cs => .lst x (toNodeL cs)
def toNodeL : List HT → List Node
  | [] => []
  | c :: cs => toNode c :: toNodeL cs
end

/-- a leaf has no children, an object one name for each child and no name twice -/
def KindOK (k : Kind) (cs : List HT) : Prop :=
  match k with
  | .leaf d => cs = [] ∧ d.id ≠ .object ∧ d.id ≠ .list
  | .obj names => names.length = cs.length ∧ names.Nodup
  | .lst => True

mutual
def Shape : HT → Prop
  | mk _ _ _ k cs => KindOK k cs ∧ ShapeL cs
def ShapeL : List HT → Prop
  | [] => True
  | c :: cs => Shape c ∧ ShapeL cs
end

mutual
/-- The schema objects: each one says what its tree says, points to the schemas of the children in their
    order, and back to its parent. -/
def HS (h : Heap) (ps : Option Nat) : HT → Prop
  | mk _ s _ k cs => h.schemas s = some ⟨k, cs.map sid, ps⟩ ∧ HSL h (some s) cs
def HSL (h : Heap) (ps : Option Nat) : List HT → Prop
  | [] => True
  | c :: cs => HS h ps c ∧ HSL h ps cs
end

mutual
/-- The node objects: each one points to its schema and to the child nodes in their order; only
    the root owns its schema and only the root has no parent.  If `L` holds, the parent pointers point to
    the parents. -/
def HN (h : Heap) (L : Prop) (pn : Option Nat) (own : Bool) : HT → Prop
  | mk n s x _ cs => (∃ q, h.nodes n = some ⟨s, own, q, cs.map nid, x⟩ ∧ q.isSome = !own ∧ (L → q = pn)) ∧
      HNL h L (some n) cs
def HNL (h : Heap) (L : Prop) (pn : Option Nat) : List HT → Prop
  | [] => True
  | c :: cs => HN h L pn false c ∧ HNL h L pn cs
end

/-- the block a node owns -/
def ownB (x : Info) : List Nat :=
  match x.alloced, x.data with
  | true, some p => [p.blk]
  | _, _ => []

mutual
/-- the blocks the nodes of the tree own -/
def blks : HT → List Nat
  | mk _ _ x _ cs => ownB x ++ blksL cs
def blksL : List HT → List Nat
  | [] => []
  | c :: cs => blks c ++ blksL cs
end

/-- a node that owns a buffer has the start of a block, and is not of the empty type -/
def CleanAt (x : Info) (k : Kind) : Prop :=
  x.alloced = true → ∃ p, x.data = some p ∧ p.off = 0 ∧ k.isEmpty = false

mutual
def Clean : HT → Prop
  | mk _ _ x k cs => CleanAt x k ∧ CleanL cs
def CleanL : List HT → Prop
  | [] => True
  | c :: cs => Clean c ∧ CleanL cs
end

mutual
/-- the tree and all its subtrees -/
def subs : HT → List HT
  | mk n s x k cs => mk n s x k cs :: subsL cs
def subsL : List HT → List HT
  | [] => []
  | c :: cs => subs c ++ subsL cs
end

mutual
/-- The contents of `A` and `B` exchanged: at the place of `A` the node of `A` with everything else of `B`, and the
    other way round. -/
def exch (A B : HT) : HT → HT
  | mk n s x k cs =>
    if n = A.nid then mk n B.sid B.info B.kind B.cs
    else if n = B.nid then mk n A.sid A.info A.kind A.cs
    else mk n s x k (exchL A B cs)
def exchL (A B : HT) : List HT → List HT
  | [] => []
  | c :: cs => exch A B c :: exchL A B cs
end

end HT

namespace Heap
/-- the size of a block, `none` when it was freed or never allocated -/
def blk (h : Heap) (b : Nat) : Option Nat :=
  match h.mem[b]? with
  | some (some bs) => some bs.length
  | _ => none

/-- numbers that were not given out are not in use -/
structure Bounded (h : Heap) : Prop where
  nodes : ∀ i, h.nextN ≤ i → h.nodes i = none
  schemas : ∀ i, h.nextS ≤ i → h.schemas i = none
end Heap

/-- The heap holds the trees `F`, the blocks `U` of the user, and nothing else. -/
structure Inv (L : Prop) (U : List Nat) (h : Heap) (F : List HT) : Prop where
  holdsN : ∀ t ∈ F, t.HN h L none true
  holdsS : ∀ t ∈ F, t.HS h none
  shape : ∀ t ∈ F, t.Shape
  clean : ∀ t ∈ F, t.Clean
  nodupN : (HT.nidsL F).Nodup
  nodupS : (HT.sidsL F).Nodup
  nodupB : (HT.blksL F ++ U).Nodup
  bounded : h.Bounded
  allN : ∀ i, (h.nodes i).isSome → i ∈ HT.nidsL F
  allS : ∀ i, (h.schemas i).isSome → i ∈ HT.sidsL F
  allB : ∀ i, (h.blk i).isSome ↔ i ∈ HT.blksL F ++ U

end Conduit
