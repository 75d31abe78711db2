import Verif.Spec.Value
/-
What it means that the data of a node form one range of addresses (C36).
-/
namespace Conduit.Spec
open Conduit

/-- Where the data of a leaf begin: the address of its first element (0 is NULL). -/
def leafAddr (base : Nat → Int) (x : Info) (d : DataType) : Int :=
  (x.data.elim 0 fun p => base p.blk + p.off) + d.offset

mutual
/-- The leaves that are not empty, depth first: address and number of bytes from the first
    to the end of the last element. -/
def ranges (base : Nat → Int) : Node → List (Int × Int)
  | .leaf x d => if d.id = .empty then [] else [(leafAddr base x d, d.stride * (d.n - 1) + d.ele)]
  | .obj _ es => rangesE base es
  | .lst _ cs => rangesL base cs
def rangesE (base : Nat → Int) : List (Str × Node) → List (Int × Int)
  | [] => []
  | (_, c) :: es => ranges base c ++ rangesE base es
def rangesL (base : Nat → Int) : List Node → List (Int × Int)
  | [] => []
  | c :: cs => ranges base c ++ rangesL base cs
end

/-- The ranges follow each other without gap, the first one begins at `a`. -/
def RunFrom (a : Int) : List (Int × Int) → Prop
  | [] => True
  | (b, len) :: rs => b = a ∧ RunFrom (b + len) rs

/-- The ranges follow each other without gap. -/
def Run : List (Int × Int) → Prop
  | [] => True
  | (b, len) :: rs => RunFrom (b + len) rs

/-- Where a run ends. -/
def endOf (a : Int) : List (Int × Int) → Int
  | [] => a
  | (b, len) :: rs => endOf (b + len) rs

/-- No leaf has a NULL pointer. -/
def NoNull (rs : List (Int × Int)) : Prop := ∀ r ∈ rs, r.1 ≠ 0

/-- Addresses and sizes are not negative. -/
def Placed (base : Nat → Int) (n : Node) : Prop := ∀ r ∈ ranges base n, 0 ≤ r.1 ∧ 0 ≤ r.2

mutual
/-- Going down from the first child to its first child and so on one comes to a leaf with data. -/
def DataFirst : Node → Prop
  | .leaf _ d => d.id ≠ .empty
  | .obj _ es => DataFirstE es
  | .lst _ cs => DataFirstL cs
def DataFirstE : List (Str × Node) → Prop
  | [] => False
  | (_, c) :: _ => DataFirst c
def DataFirstL : List Node → Prop
  | [] => False
  | c :: _ => DataFirst c
end

/-! ### bytes -/

/-- The addresses of the bytes of a leaf's elements, in order. -/
def leafBytes (base : Nat → Int) (x : Info) (d : DataType) : List Int :=
  (List.range d.n.toNat).flatMap fun (i : Nat) =>
    (List.range d.id.bytes).map fun (k : Nat) => leafAddr base x d + d.stride * i + k

mutual
/-- The addresses of the bytes of all elements, depth first. -/
def allBytes (base : Nat → Int) : Node → List Int
  | .leaf x d => if d.id = .empty then [] else leafBytes base x d
  | .obj _ es => allBytesE base es
  | .lst _ cs => allBytesL base cs
def allBytesE (base : Nat → Int) : List (Str × Node) → List Int
  | [] => []
  | (_, c) :: es => allBytes base c ++ allBytesE base es
def allBytesL (base : Nat → Int) : List Node → List Int
  | [] => []
  | c :: cs => allBytes base c ++ allBytesL base cs
end

/-- The addresses from `a` on. -/
def interval (a : Int) (len : Nat) : List Int := (List.range len).map fun (k : Nat) => a + k

mutual
/-- In every leaf the elements have the size of the type and follow each other. -/
def Dense : Node → Prop
  | .leaf _ d => d.id ≠ .empty → 0 ≤ d.n ∧ d.ele = d.id.bytes ∧ (d.stride = d.ele ∨ d.n = 1)
  | .obj _ es => DenseE es
  | .lst _ cs => DenseL cs
def DenseE : List (Str × Node) → Prop
  | [] => True
  | (_, c) :: es => Dense c ∧ DenseE es
def DenseL : List Node → Prop
  | [] => True
  | c :: cs => Dense c ∧ DenseL cs
end

/-- The machine's memory, address by address, shows the blocks of `m` at their addresses. -/
def Shows (base : Nat → Int) (flatMem : Int → Option UInt8) (m : Mem) : Prop :=
  ∀ b i v, m.byte b i = some v → flatMem (base b + i) = some v

end Conduit.Spec
