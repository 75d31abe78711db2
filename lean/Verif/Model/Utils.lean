import Verif.Model.Str
/-
Model of small utilities: value_fits, factor, the allocator registry, protocol detection.
Sources: /repo/src/libs/conduit/conduit_utils.hpp, conduit_utils.cpp, conduit_node.cpp,
/repo/src/libs/relay/conduit_relay_io_identify_protocol.cpp
-/
namespace Conduit

/-- The widths of the bitwidth-style integer types, conduit_bitwidth_style_types.h.in. -/
inductive IntWidth where
  | w8 | w16 | w32 | w64
deriving DecidableEq, Repr

/-- Number of values of a width: 2 to the number of bits. -/
def IntWidth.card : IntWidth → Int
  | .w8 => 256
  | .w16 => 65536
  | .w32 => 4294967296
  | .w64 => 18446744073709551616

/-- A C++ integer type (int8 .. uint64). -/
structure IntTy where
  signed : Bool
  width : IntWidth
deriving DecidableEq, Repr

/-- `static_cast<T>(v)` from an integer: the value of `T` congruent to `v` modulo
    two to the number of bits (C++20; every compiler conduit supports).
    Used by conduit_utils.hpp:542-544 and the `(T)` casts of conduit_node.cpp:8845-10200,
    conduit_data_accessor.cpp:160-205. -/
def IntTy.cast (t : IntTy) (v : Int) : Int :=
  let r := v % t.width.card
  if t.signed ∧ t.width.card ≤ 2 * r then r - t.width.card else r

/-- conduit_utils.hpp:534-547 `value_fits<Src,Dst>(value)`.
    Simplification: integer types only (the floating point instances are not modelled;
    the code only uses `value_fits<index_t,int>`). -/
def valueFits (src dst : IntTy) (v : Int) : Bool :=
  if src = dst then true
  else (decide (v > src.cast 0) == decide (dst.cast v > dst.cast 0)) && src.cast (dst.cast v) == v

/-- The inner loop of conduit_utils.cpp:2030-2035: divide `n` by `f` while it divides,
    pushing `f` and multiplying `prod`.  State `(n, prod, factors)`.  The loop ends because
    `n` is at least 1 and `f` at least 2 there; the guard states this. -/
def factorInner (f : Nat) (n prod : Nat) (acc : List Nat) : Nat × Nat × List Nat :=
  if h : n % f = 0 ∧ 1 ≤ n ∧ 2 ≤ f then
    factorInner f (n / f) (prod * f) (acc ++ [f])
  else (n, prod, acc)
termination_by n
decreasing_by exact Nat.div_lt_self (by omega) (by omega)

/-- The outer loop of conduit_utils.cpp:2028-2036. -/
def factorOuter (num : Nat) (f n prod : Nat) (acc : List Nat) : List Nat :=
  if f ≤ num ∧ prod < num then
    let r := factorInner f n prod acc
    factorOuter num (f + 1) r.1 r.2.1 r.2.2
  else acc
termination_by num + 1 - f

/-- conduit_utils.cpp:2023-2044 `factor`.  `index_t` is an unbounded `Int`; the loop is not
    entered for a number below 2. -/
def factor (num : Int) : List Nat :=
  let fs := if num < 2 then [] else factorOuter num.toNat 2 num.toNat 1 []
  if fs = [] then (if num > 1 then [1, num.toNat] else [1]) else fs

/-- conduit_node.cpp:17404-17444 `Node::identify_protocol`: the protocol `Node::save` and
    `Node::load` use when none is given. -/
def nodeProtocol (path : Str) : Str :=
  let filePath := (splitFilePath path ':').1
  let ext := (rsplitString filePath '.').1
  if ext = chars! "json" then chars! "json"
  else if ext = chars! "conduit_json" then chars! "conduit_json"
  else if ext = chars! "conduit_base64_json" then chars! "conduit_base64_json"
  else if ext = chars! "yaml" then chars! "yaml"
  else chars! "conduit_bin"

/-- conduit_relay_io_identify_protocol.cpp:55-119 `relay::io::identify_protocol`. -/
def relayProtocol (path : Str) : Str :=
  let filePath := (splitFilePath path ':').1
  let ext := (rsplitString filePath '.').1
  if ext = chars! "hdf5" ∨ ext = chars! "h5" then chars! "hdf5"
  else if ext = chars! "silo" then chars! "conduit_silo"
  else if ext = chars! "json" then chars! "json"
  else if ext = chars! "conduit_json" then chars! "conduit_json"
  else if ext = chars! "conduit_base64_json" then chars! "conduit_base64_json"
  else if ext = chars! "yaml" then chars! "yaml"
  else if ext = chars! "bp" ∨ ext = chars! "adios" then chars! "adios"
  else if ext = chars! "csv" then chars! "csv"
  else chars! "conduit_bin"

/-- conduit_utils.cpp:171-234 `AllocManager`: the two maps and the next id.  `A` and `F` stand
    for the allocate and free function pointers. -/
structure AllocManager (A F : Type) where
  allocs : List (Int × A)
  frees : List (Int × F)
  next : Int

namespace AllocManager
variable {A F : Type}

/-- conduit_utils.cpp:213-224, the constructor: the default handlers under id 0. -/
def start (a0 : A) (f0 : F) : AllocManager A F := ⟨[(0, a0)], [(0, f0)], 1⟩

/-- `std::map::operator[]` assignment: insert or overwrite.  Used by conduit_utils.cpp:189-190. -/
def put {V : Type} (k : Int) (v : V) : List (Int × V) → List (Int × V)
  | [] => [(k, v)]
  | (k', v') :: m => if k' = k then (k, v) :: m else (k', v') :: put k v m

/-- `std::map::operator[]` lookup; `none`: no entry, the map inserts a null function pointer
    and the call through it is undefined behaviour.  Used by conduit_utils.cpp:199, 206. -/
def get {V : Type} (k : Int) (m : List (Int × V)) : Option V := (m.find? (·.1 == k)).map (·.2)

/-- conduit_utils.cpp:185-192 `register_allocator`. -/
def register (s : AllocManager A F) (a : A) (f : F) : AllocManager A F × Int :=
  (⟨put s.next a s.allocs, put s.next f s.frees, s.next + 1⟩, s.next)

/-- conduit_utils.cpp:194-200 `allocate`: the function that is called. -/
def allocFn (s : AllocManager A F) (id : Int) : Option A := get id s.allocs
/-- conduit_utils.cpp:202-207 `free`: the function that is called. -/
def freeFn (s : AllocManager A F) (id : Int) : Option F := get id s.frees

/-- A sequence of `register_allocator` calls; the ids returned, in order. -/
def registerAll (s : AllocManager A F) : List (A × F) → AllocManager A F × List Int
  | [] => (s, [])
  | (a, f) :: rest =>
    let r := s.register a f
    let q := registerAll r.1 rest
    (q.1, r.2 :: q.2)

end AllocManager
end Conduit
