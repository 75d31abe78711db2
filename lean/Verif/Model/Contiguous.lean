import Verif.Model.Node
/-
Model of the contiguity queries of Node.
Source: /repo/src/libs/conduit/conduit_node.cpp:17672-17840.
Simplifications: an address is an integer (NULL is 0); `base b` is the address at
which block `b` of the memory begins; pointer arithmetic does not wrap around.
-/
namespace Conduit
namespace Node

/-- conduit_node.hpp:4167-4170 `element_ptr(0)`, as an address: `m_data + element_index(0)`
    (also computed when `m_data` is NULL). -/
def elementAddr (base : Nat → Int) (x : Info) (d : DataType) : Int :=
  (match x.data with
    | none => 0
    | some p => base p.blk + p.off) + d.elementIndex 0

mutual
/-- conduit_node.cpp:17717-17777 `contiguous_with(start_addy, end_addy)`: the result and the
    new value of `end_addy`. -/
def contig (base : Nat → Int) : Node → Int → Int → Bool × Int
  | .leaf x d, start, stop =>
    if d.id = .empty then (true, stop)
    else if start ≠ 0 then
      if elementAddr base x d ≠ 0 ∧ elementAddr base x d = start then (true, elementAddr base x d + d.stridedBytes)
      else (false, 0)
    else if elementAddr base x d ≠ 0 then (true, elementAddr base x d + d.stridedBytes)
    else (false, 0)
  | .obj _ es, start, stop => contigE base es start stop
  | .lst _ cs, start, stop => contigL base cs start stop
def contigE (base : Nat → Int) : List (Str × Node) → Int → Int → Bool × Int
  | [], _, stop => (true, stop)
  | (_, c) :: es, start, stop => match contig base c start stop with
    | (true, stop') => contigE base es stop' stop'
    | (false, stop') => (false, stop')
def contigL (base : Nat → Int) : List Node → Int → Int → Bool × Int
  | [], _, stop => (true, stop)
  | c :: cs, start, stop => match contig base c start stop with
    | (true, stop') => contigL base cs stop' stop'
    | (false, stop') => (false, stop')
end

/-- conduit_node.cpp:17672-17677 `is_contiguous`. -/
def isContiguous (base : Nat → Int) (n : Node) : Bool := (contig base n 0 0).1

/-- conduit_node.cpp:17680-17693 `contiguous_with(void *)`. -/
def contiguousWith (base : Nat → Int) (n : Node) (a : Int) : Bool :=
  if a = 0 then false else (contig base n a 0).1

/-- conduit_node.cpp:17697-17708 `contiguous_with(const Node &)`. -/
def contiguousAfter (base : Nat → Int) (this n : Node) : Bool :=
  (contig base n 0 0).1 && contiguousWith base this (contig base n 0 0).2

mutual
/-- conduit_node.cpp:17810-17838 `find_first_data_ptr`. -/
def firstData (base : Nat → Int) : Node → Int
  | .leaf x d => if d.id = .empty then 0 else elementAddr base x d
  | .obj _ es => firstDataE base es
  | .lst _ cs => firstDataL base cs
def firstDataE (base : Nat → Int) : List (Str × Node) → Int
  | [] => 0
  | (_, c) :: es => if firstData base c = 0 then firstDataE base es else firstData base c
def firstDataL (base : Nat → Int) : List Node → Int
  | [] => 0
  | c :: cs => if firstData base c = 0 then firstDataL base cs else firstData base c
end

/-- conduit_node.cpp:17781-17806 `contiguous_data_ptr`. -/
def contiguousDataPtr (base : Nat → Int) (n : Node) : Int :=
  if isContiguous base n then firstData base n else 0

end Node
end Conduit
