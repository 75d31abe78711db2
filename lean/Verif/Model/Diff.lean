import Verif.Model.Array
import Verif.Model.Float
/-
Node::diff and Node::diff_compatible.
Sources: /repo/src/libs/conduit/conduit_node.cpp, conduit_data_array.cpp
The two functions have the same text except where `compat` is tested below; `compat = true` is
diff_compatible.  Simplification: only the returned verdict is modelled here, not the report left in
the info node.
-/
namespace Conduit
open Ieee

/-- What a call is made with: the machine's byte order and the arguments `epsilon`, `relaxint`. -/
structure DiffCfg where
  big : Bool
  eps : FVal
  relaxint : Bool

/-- the format of a floating point type -/
def TypeId.fmt : TypeId → Option Fmt
  | .float32 => some f32
  | .float64 => some f64
  | _ => none

/-- conduit_data_array.cpp:244: `(*this)[i] - array[i]` on integers.  `int32` and `int64` are not
    promoted: overflow is undefined behaviour. -/
def subInt (t : IntTy) (a b : Int) : Res Unit :=
  if t.signed ∧ (t.width = .w32 ∨ t.width = .w64) ∧ ¬ (t.minVal ≤ a - b ∧ a - b ≤ t.maxVal) then .ub else .ok ()

/-- conduit_data_array.cpp:244-252 (and 420-428): one step of the loop over the elements, whose
    bytes are `a` and `b`. -/
def elemDiff (k : DiffCfg) (id : TypeId) (a b : List UInt8) : Res Bool :=
  match id.intTy with
  | some t => do
    let va := t.cast (machineNat k.big a)
    let vb := t.cast (machineNat k.big b)
    let _ ← subInt t va vb
    .ok (decide (va ≠ vb))
  | none => match id.fmt with
    | some f => .ok (far f k.eps (decode f (machineNat k.big a)) (decode f (machineNat k.big b)))
    | none => .error

/-- conduit_data_array.cpp:242-253 (and 418-429): the loop, `k` elements to go, from element `i`. -/
def elemsDiff (c : DiffCfg) (m : Mem) (x : Info) (d : DataType) (y : Info) (e : DataType) : (k i : Nat) → Res Bool
  | 0, _ => .ok false
  | k + 1, i => do
    let a ← m.load x.data (d.elementIndex i) d.id.bytes
    let b ← m.load y.data (e.elementIndex i) d.id.bytes
    let r ← elemDiff c d.id a b
    let s ← elemsDiff c m x d y e k (i + 1)
    .ok (r || s)

/-- conduit_data_array.cpp:2030-2045 `compact_elements_to` of a string: one byte per element. -/
def loadChars (m : Mem) (x : Info) (d : DataType) : (k i : Nat) → Res (List UInt8)
  | 0, _ => .ok []
  | k + 1, i => do
    let a ← m.load x.data (d.elementIndex i) 1
    let s ← loadChars m x d k (i + 1)
    .ok (a ++ s)

/-- The C string that starts a buffer; no 0 in the buffer is undefined behaviour. -/
def cText (bs : List UInt8) : Res (List UInt8) := if 0 ∈ bs then .ok (bs.takeWhile (· ≠ 0)) else .ub

/-- conduit_data_array.cpp:147-160 and 162-174 (also 311-337): the string `t_data` / `o_data`
    points to, as `strcmp` and the message stream read it: the memory from element 0 on when the
    leaf is compact, else a compacted copy. -/
def leafText (m : Mem) (x : Info) (d : DataType) : Res (List UInt8) :=
  if d.isCompact then
    match x.data with
    | none => .ub
    | some q => match m[q.blk]? with
      | some (some bs) =>
        if q.off + d.elementIndex 0 < 0 then .ub else cText (bs.drop (q.off + d.elementIndex 0).toNat)
      | _ => .ub
  else do
    let bs ← loadChars m x d d.n.toNat 0
    cText bs

/-- `strstr(o, t)`: the first position of `t` in `o`. -/
def strstr (t : List UInt8) : List UInt8 → Option Nat
  | [] => if t = [] then some 0 else none
  | c :: o => if t.isPrefixOf (c :: o) then some 0 else (strstr t o).map (· + 1)

/-- conduit_data_array.cpp:215 `strcmp(t,o) != 0`, or 370-397: `strlen(t) > strlen(o)`, else the
    first occurrence of `t` in `o` is not at its start. -/
def textDiff (compat : Bool) (t o : List UInt8) : Bool :=
  if compat then
    if t.length > o.length then true else decide (strstr t o ≠ some 0)
  else decide (t ≠ o)

/-- conduit_data_array.cpp:125-227 (and 281-399): strings.  A negative count is not handled by the
    code (null pointers are used). -/
def stringDiff (compat : Bool) (m : Mem) (x : Info) (d : DataType) (y : Info) (e : DataType) : Res Bool :=
  if d.n < 0 ∨ e.n < 0 then .ub
  else if d.n = 0 ∧ e.n = 0 then .ok false
  else if d.n = 0 then do
    let _ ← leafText m y e
    .ok true
  else if e.n = 0 then do
    let _ ← leafText m x d
    .ok true
  else do
    let t ← leafText m x d
    let o ← leafText m y e
    .ok (textDiff compat t o)

/-- conduit_data_array.cpp:117-267 `DataArray::diff` and 272-442 `DataArray::diff_compatible`. -/
def arrayDiff (compat : Bool) (c : DiffCfg) (m : Mem) (x : Info) (d : DataType) (y : Info) (e : DataType) : Res Bool :=
  if d.id = .char8Str then stringDiff compat m x d y e
  else if (if compat then d.n > e.n else d.n ≠ e.n) then .ok true
  else elemsDiff c m x d y e d.n.toNat 0

namespace Node

/-- conduit_node.cpp:17847-17857: integers of different type with `relaxint`: only the first
    elements are compared. -/
def relaxedDiff (c : DiffCfg) (m : Mem) (x : Info) (d : DataType) (n : Node) : Res Bool :=
  match d.id.intTy, n.dtype.id.intTy with
  | some t, some u => do
    let as : IntTy := if t.signed = false ∧ u.signed = false then ⟨false, .w64⟩ else ⟨true, .w64⟩
    let a ← nodeToInt c.big as m x d
    let b ← nodeToInt c.big as m n.info n.dtype
    .ok (decide (a ≠ b))
  | _, _ => .ok true

/-- conduit_node.cpp:17842-17876 and 17930-18011 for a node that is not an object or list. -/
def leafDiff (compat : Bool) (c : DiffCfg) (m : Mem) (x : Info) (d : DataType) (n : Node) : Res Bool :=
  if d.id ≠ n.dtype.id then
    if c.relaxint then relaxedDiff c m x d n else .ok true
  else if d.id = .empty then .ok false
  else match n with
    | .leaf y e => arrayDiff compat c m x d y e
    | _ => .error

/-- conduit_node.cpp:17882-17901: the loop over this node's children, `fs` being their names and
    comparisons. -/
def diffThis (ns : List (Str × Node)) : List (Str × (Node → Res Bool)) → Res Bool
  | [] => .ok false
  | (name, f) :: fs => do
    let r ← (match posOf ns name with
      | none => .ok true
      | some i => match ns[i]? with
        | some (_, c) => f c
        | none => .ub : Res Bool)
    let s ← diffThis ns fs
    .ok (r || s)

/-- conduit_node.cpp:17903-17920: the loop over the other node's children. -/
def diffOther (fs : List (Str × (Node → Res Bool))) : List (Str × Node) → Res Bool
  | [] => .ok false
  | (name, c) :: ns => do
    let r ← (match fs.find? (fun e => e.1 == name) with
      | none => .ok true
      | some e => e.2 c : Res Bool)
    let s ← diffOther fs ns
    .ok (r || s)

/-- conduit_node.cpp:17931-17936: the loop over the children both lists have. -/
def diffZip : List (Node → Res Bool) → List Node → Res Bool
  | f :: fs, n :: ns => do
    let r ← f n
    let s ← diffZip fs ns
    .ok (r || s)
  | _, _ => .ok false

mutual
/-- conduit_node.cpp:17834-18018 `diff` (`compat = false`) and 18021-18186 `diff_compatible`
    (`compat = true`): the value returned. -/
def diff (compat : Bool) (c : DiffCfg) (m : Mem) : Node → Node → Res Bool
  | .leaf x d, n => leafDiff compat c m x d n
  | .obj _ es, n => match n with
    | .obj _ ns => do
      let r ← diffThis ns (diffE compat c m es)
      let s ← (if compat then .ok false else diffOther (diffE compat c m es) ns : Res Bool)
      .ok (r || s)
    | _ => .ok true
  | .lst _ cs, n => match n with
    | .lst _ ns => do
      let r ← diffZip (diffL compat c m cs) ns
      .ok (r || (if compat then decide (cs.length > ns.length) else decide (cs.length ≠ ns.length)))
    | _ => .ok true
/-- the children of an object with their comparison -/
def diffE (compat : Bool) (c : DiffCfg) (m : Mem) : List (Str × Node) → List (Str × (Node → Res Bool))
  | [] => []
  | (n, t) :: es => (n, fun o => diff compat c m t o) :: diffE compat c m es
def diffL (compat : Bool) (c : DiffCfg) (m : Mem) : List Node → List (Node → Res Bool)
  | [] => []
  | t :: cs => (fun o => diff compat c m t o) :: diffL compat c m cs
end

end Node
end Conduit
