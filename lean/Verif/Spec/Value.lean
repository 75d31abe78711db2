import Verif.Model.Node
/-
What a client sees of a node tree: names, nesting, and for every leaf its type,
byte order and the bytes of each element.  Used to state C21 - C32.
-/
namespace Conduit.Spec
open Conduit

/-- The observable value of a node. An element byte is `none` when reading it is
    not possible (freed or out of range). -/
inductive Val where
  | leaf (id : TypeId) (endian : Endian) (elems : List (List (Option UInt8)))
  | obj (es : List (Str × Val))
  | lst (cs : List Val)

/-- The elements of a leaf with type `d` at pointer `p`: element `i` is the natural
    number of bytes of the type at offset + i * stride. -/
def elems (m : Mem) (p : Option Ptr) (d : DataType) : List (List (Option UInt8)) :=
  (List.range d.n.toNat).map fun (i : Nat) =>
    (List.range d.id.bytes).map fun (k : Nat) => m.byteAt p (d.offset + d.stride * i + k)

mutual
def val (m : Mem) : Node → Val
  | .leaf x d => if d.id = .empty then .leaf .empty .default [] else .leaf d.id d.endian (elems m x.data d)
  | .obj _ es => .obj (valE m es)
  | .lst _ cs => .lst (valL m cs)
def valE (m : Mem) : List (Str × Node) → List (Str × Val)
  | [] => []
  | (n, c) :: es => (n, val m c) :: valE m es
def valL (m : Mem) : List Node → List Val
  | [] => []
  | c :: cs => val m c :: valL m cs
end

mutual
/-- The bytes of all elements one after the other, depth first. -/
def flat : Val → List (Option UInt8)
  | .leaf _ _ es => es.flatten
  | .obj es => flatE es
  | .lst cs => flatL cs
def flatE : List (Str × Val) → List (Option UInt8)
  | [] => []
  | (_, c) :: es => flat c ++ flatE es
def flatL : List Val → List (Option UInt8)
  | [] => []
  | c :: cs => flat c ++ flatL cs
end

mutual
/-- What a schema describes of the memory at `p`. -/
def view (m : Mem) (p : Option Ptr) : Schema → Val
  | .leaf d => if d.id = .empty then .leaf .empty .default [] else .leaf d.id d.endian (elems m p d)
  | .obj es => .obj (viewE m p es)
  | .lst cs => .lst (viewL m p cs)
def viewE (m : Mem) (p : Option Ptr) : List (Str × Schema) → List (Str × Val)
  | [] => []
  | (n, c) :: es => (n, view m p c) :: viewE m p es
def viewL (m : Mem) (p : Option Ptr) : List Schema → List Val
  | [] => []
  | c :: cs => view m p c :: viewL m p cs
end

mutual
/-- Every element of every leaf can be read, and counts are not negative: a node
    whose pointers are good. -/
def Readable (m : Mem) : Node → Prop
  | .leaf x d => d.id ≠ .object ∧ d.id ≠ .list ∧ 0 ≤ d.n ∧
      (d.id ≠ .empty → ∀ e ∈ elems m x.data d, ∀ b ∈ e, b.isSome)
  | .obj _ es => ReadableE m es
  | .lst _ cs => ReadableL m cs
def ReadableE (m : Mem) : List (Str × Node) → Prop
  | [] => True
  | (_, c) :: es => Readable m c ∧ ReadableE m es
def ReadableL (m : Mem) : List Node → Prop
  | [] => True
  | c :: cs => Readable m c ∧ ReadableL m cs
end

mutual
/-- The blocks that hold the elements of a tree (a leaf without elements holds none). -/
def blocks : Node → List Nat
  | .leaf x d => if d.id = .empty ∨ d.n ≤ 0 then [] else (x.data.map Ptr.blk).toList
  | .obj _ es => blocksE es
  | .lst _ cs => blocksL cs
def blocksE : List (Str × Node) → List Nat
  | [] => []
  | (_, c) :: es => blocks c ++ blocksE es
def blocksL : List Node → List Nat
  | [] => []
  | c :: cs => blocks c ++ blocksL cs
end

/-- The buffer a node owns itself. -/
def ownPtr (x : Info) : List Ptr := if x.alloced then x.data.toList else []

mutual
/-- The buffers the nodes of a tree own. -/
def owned : Node → List Ptr
  | .leaf x _ => ownPtr x
  | .obj x es => ownPtr x ++ ownedE es
  | .lst x cs => ownPtr x ++ ownedL cs
def ownedE : List (Str × Node) → List Ptr
  | [] => []
  | (_, c) :: es => owned c ++ ownedE es
def ownedL : List Node → List Ptr
  | [] => []
  | c :: cs => owned c ++ ownedL cs
end

/-- The block exists and has not been freed. -/
def Live (m : Mem) (b : Nat) : Prop := ∃ bs, m[b]? = some (some bs)

/-- Buffers that may be freed one after the other: starts of live blocks, no block
    twice. -/
def GoodOwners (m : Mem) (ps : List Ptr) : Prop :=
  (ps.map Ptr.blk).Nodup ∧ ∀ p ∈ ps, p.off = 0 ∧ Live m p.blk

/-- An owner has a buffer. -/
def CleanInfo (x : Info) : Prop := x.alloced = true → x.data.isSome

mutual
/-- Every node that claims ownership has a buffer, and no empty leaf claims it. -/
def Clean : Node → Prop
  | .leaf x d => CleanInfo x ∧ (d.id = .empty → x.alloced = false)
  | .obj x es => CleanInfo x ∧ CleanE es
  | .lst x cs => CleanInfo x ∧ CleanL cs
def CleanE : List (Str × Node) → Prop
  | [] => True
  | (_, c) :: es => Clean c ∧ CleanE es
def CleanL : List Node → Prop
  | [] => True
  | c :: cs => Clean c ∧ CleanL cs
end

end Conduit.Spec
