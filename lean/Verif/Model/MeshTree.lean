import Verif.Model.Res
import Verif.Model.Utils
/-
The trees given to the blueprint mesh functions, with typed leaves, and the search for the widest
leaf type.
Sources: /repo/src/libs/blueprint/conduit_blueprint_mesh_utils.cpp, conduit_blueprint_mesh_utils.hpp,
/repo/src/libs/conduit/conduit_node.cpp
-/
namespace Conduit.Mesh

/-- Element type of a leaf: an integer type, float32 / float64 (`wide`), or char8_str
    (conduit_bitwidth_style_types.h.in:184-201). -/
inductive ETy where
  | i (t : IntTy)
  | f (wide : Bool)
  | s
deriving DecidableEq, Repr

def int8 : IntTy := ⟨true, .w8⟩
def int32 : IntTy := ⟨true, .w32⟩
def int64 : IntTy := ⟨true, .w64⟩
def uint32 : IntTy := ⟨false, .w32⟩

/-- conduit_data_type.cpp:1219-1247 `default_bytes`. -/
def ETy.bytes : ETy → Nat
  | .i ⟨_, .w8⟩ => 1
  | .i ⟨_, .w16⟩ => 2
  | .i ⟨_, .w32⟩ => 4
  | .i ⟨_, .w64⟩ => 8
  | .f false => 4
  | .f true => 8
  | .s => 1

/-- A node of a mesh.  `F` is the set of float64 values; a float32 leaf holds values of `F` too
    (every float32 is a float64).
    Simplifications: a leaf is the list of its elements (its layout in memory is not kept);
    a node does not know its parent; names contain no `/`. -/
inductive BNode (F : Type) where
  | empty
  | ints (t : IntTy) (vals : List Int)
  | flts (wide : Bool) (vals : List F)
  | str (s : Str)
  | obj (kids : List (Str × BNode F))
  | list (kids : List (BNode F))
deriving Repr

/-- Arithmetic of the platform on floating point values. -/
structure Arith (F : Type) where
  /-- `0.0` -/
  zero : F
  /-- `1.0` -/
  one : F
  /-- `(float64) i` -/
  ofInt : Int → F
  /-- `(float32) i` -/
  ofInt32 : Int → F
  /-- `origin + d * spacing` -/
  lin : F → Int → F → F
  /-- `(float32) x` -/
  narrow : F → F
  /-- `(int64) x` -/
  trunc : F → Int

namespace BNode
variable {F : Type}

/-- The number of nodes of a tree (only for the termination of loops over it). -/
def size : BNode F → Nat
  | .obj kids => 1 + sizeO kids
  | .list kids => 1 + sizeL kids
  | _ => 1
where
  sizeO : List (Str × BNode F) → Nat
    | [] => 0
    | k :: ks => size k.2 + sizeO ks
  sizeL : List (BNode F) → Nat
    | [] => 0
    | k :: ks => size k + sizeL ks

/-- The named children of a node. -/
def kids : BNode F → List (Str × BNode F)
  | .obj ks => ks
  | _ => []

/-- conduit_node.cpp `has_child(name)`. -/
def hasChild (n : BNode F) (name : Str) : Bool := n.kids.any fun k => k.1 == name

/-- `n[name]` on a const node (conduit_node.cpp:12437-12459 `fetch_existing`): a missing child is an
    error. -/
def get (n : BNode F) (name : Str) : Res (BNode F) :=
  match n.kids.find? fun k => k.1 == name with
  | some k => .ok k.2
  | none => .error

/-- `as_string()`: a node of another type is an error (conduit_node.cpp:60-73, the default warning
    handler raises). -/
def asString : BNode F → Res Str
  | .str s => .ok s
  | _ => .error

/-- `dtype().number_of_elements()`.  A string counts its terminating zero; a tree has none. -/
def numElements : BNode F → Nat
  | .ints _ l => l.length
  | .flts _ l => l.length
  | .str s => s.length + 1
  | _ => 0

/-- `to_int64()`: conduit_node.cpp:8845-10200.  The first element; 0 for a node that holds no number.
    Simplification: a string is not parsed. -/
def toInt64 (A : Arith F) : BNode F → Res Int
  | .ints _ l => match l with | v :: _ => .ok (int64.cast v) | [] => .ub
  | .flts _ l => match l with | v :: _ => .ok (A.trunc v) | [] => .ub
  | _ => .ok 0

/-- `to_int()`: the same for the type `int` of 32 bits. -/
def toInt32 (A : Arith F) (n : BNode F) : Res Int := (n.toInt64 A).map' int32.cast

/-- `to_float64()`. -/
def toF64 (A : Arith F) : BNode F → Res F
  | .ints _ l => match l with | v :: _ => .ok (A.ofInt v) | [] => .ub
  | .flts _ l => match l with | v :: _ => .ok v | [] => .ub
  | _ => .ok A.zero

/-- `dtype()` as far as element types go. -/
def ety : BNode F → Option ETy
  | .ints t _ => some (.i t)
  | .flts w _ => some (.f w)
  | .str _ => some .s
  | _ => none

end BNode

/-- conduit_blueprint_mesh_utils.cpp:336-340: the two types are of one class (floating point, signed
    integer, unsigned integer, string). -/
def sameClass : ETy → ETy → Bool
  | .f _, .f _ => true
  | .i a, .i b => a.signed == b.signed
  | .s, .s => true
  | _, _ => false

/-- `widest_dtype.element_bytes()`; the initial one has zero bytes. -/
def widthOf : Option ETy → Nat
  | none => 0
  | some t => t.bytes

/-- conduit_blueprint_mesh_utils.cpp:333-345: a leaf of type `t` against every default type. -/
def widestLeaf (defs : List ETy) (w : Option ETy) (t : ETy) : Option ETy :=
  defs.foldl (fun w d => if sameClass t d && decide (widthOf w < t.bytes) then some t else w) w

theorem sizeL_append {F : Type} (a b : List (BNode F)) :
    BNode.size.sizeL (a ++ b) = BNode.size.sizeL a + BNode.size.sizeL b := by
  induction a with
  | nil => simp [BNode.size.sizeL]
  | cons x a ih => simp [BNode.size.sizeL, ih]; omega

theorem sizeL_reverse {F : Type} (a : List (BNode F)) :
    BNode.size.sizeL a.reverse = BNode.size.sizeL a := by
  induction a with
  | nil => rfl
  | cons x a ih => simp [BNode.size.sizeL, sizeL_append, ih]; omega

/-- The child nodes of an object, in order. -/
def childNodes {F : Type} (ks : List (Str × BNode F)) : List (BNode F) := ks.map (·.2)

theorem sizeL_map {F : Type} (a : List (Str × BNode F)) :
    BNode.size.sizeL (childNodes a) = BNode.size.sizeO a := by
  induction a with
  | nil => rfl
  | cons x a ih => simpa [childNodes, BNode.size.sizeL, BNode.size.sizeO] using ih

/-- conduit_blueprint_mesh_utils.cpp:317-346, the loop over `node_bag`; the head of the list is the
    back of the vector, so the last child is visited first. -/
def widestLoop {F : Type} (defs : List ETy) (bag : List (BNode F)) (w : Option ETy) : Option ETy :=
  match bag with
  | [] => w
  | .obj ks :: bag => widestLoop defs ((childNodes ks).reverse ++ bag) w
  | .list ks :: bag => widestLoop defs (ks.reverse ++ bag) w
  | .empty :: bag => widestLoop defs bag w
  | .ints t l :: bag => widestLoop defs bag (widestLeaf defs w (.i t))
  | .flts b l :: bag => widestLoop defs bag (widestLeaf defs w (.f b))
  | .str s :: bag => widestLoop defs bag (widestLeaf defs w .s)
termination_by BNode.size.sizeL bag
decreasing_by all_goals simp [BNode.size.sizeL, BNode.size, sizeL_append, sizeL_reverse, sizeL_map] <;> omega

/-- conduit_blueprint_mesh_utils.cpp:312-350 `find_widest_dtype`. -/
def findWidest {F : Type} (n : BNode F) (d : ETy) (defs : List ETy) : ETy :=
  match widestLoop (d :: defs) [n] none with
  | some t => t
  | none => d

/-- conduit_blueprint_mesh_utils.hpp:58-61, `DEFAULT_FLOAT_DTYPE`: float32. -/
def widestFloat {F : Type} (n : BNode F) : Bool :=
  match findWidest n (.f false) [] with
  | .f w => w
  | _ => false

/-- conduit_blueprint_mesh_utils.hpp:58-61, `DEFAULT_INT_DTYPES`: int32, uint32. -/
def widestInt {F : Type} (n : BNode F) : IntTy :=
  match findWidest n (.i int32) [.i uint32] with
  | .i t => t
  | _ => int32

end Conduit.Mesh
