import Verif.Lemmas.NodeEndian
import Verif.Props.NodeExternal
/-
Property theorems C32: byte order conversion.  Specification: Verif/Spec/Endian.lean.
-/
namespace Conduit
open Spec Spec.Tree Schema Node

/-- C32: `endian_swap(e)` on a tree none of whose elements share bytes succeeds;
    every leaf is then declared in order `e` (`default` meaning the machine's), every
    element read in its declared order is the same number as before, and no byte
    outside the elements changes. -/
theorem C32_endian_swap_values (big : Bool) (e : Endian) (n : Node) (m : Mem) (hr : Readable m n) (hs : Separate n) :
    ∃ m' n', endianSwap big e n m = .ok (m', n') ∧
      numbers big (val m' n') = numbers big (val m n) ∧
      AllOrder big (if e = .default then machineDefault big else e) (val m' n') ∧
      Readable m' n' ∧ places n' = places n ∧
      ∀ b i, (∀ pl ∈ places n, ¬ pl.Has b i) → m'.byte b i = m.byte b i := by
  obtain ⟨m', h1, h2, h3, h4⟩ := endianSwap_spec big e n m hr hs
  refine ⟨m', _, h1, ?_, ?_, readable_relabel h2 _ n hr, places_relabel _ n, h4⟩
  · rw [val_relabel big e n h3, numbers_swapVal]
  · rw [val_relabel big e n h3]; exact allOrder_swapVal big e _

/-- C32: converting a tree whose leaves have order `e0` to any order and back to `e0`
    restores every byte of memory, and every leaf is in order `e0` again. -/
theorem C32_endian_swap_back (big : Bool) (e e0 : Endian) (n : Node) (m : Mem) (hr : Readable m n) (hs : Separate n)
    (ho : AllOrder big e0 (val m n)) :
    ∃ m' n' m'' n'', endianSwap big e n m = .ok (m', n') ∧ endianSwap big e0 n' m' = .ok (m'', n'') ∧
      ∀ b i, m''.byte b i = m.byte b i := by
  obtain ⟨m', n', m'', n'', h1, h2, h3, _⟩ := endianSwap_back big e e0 n m hr hs ho
  exact ⟨m', n', m'', n'', h1, h2, h3⟩

/-- two interleaved big endian arrays -/
def endianNode : Node :=
  .obj {} [(chars! "x", .leaf ⟨some ⟨0, 0⟩, false⟩ { ileaveX with endian := .big }),
           (chars! "y", .leaf ⟨some ⟨0, 0⟩, false⟩ { ileaveY with endian := .big })]

example : Readable ileaveMem endianNode ∧ Separate endianNode ∧ AllOrder false .big (val ileaveMem endianNode) := by
  refine ⟨?_, ?_, ?_⟩
  · simp only [endianNode, Readable, ReadableE]; decide
  · simp [Separate, endianNode, places, placesE, leafPlaces, ileaveX, ileaveY, TypeId.bytes, List.range_succ, Place.Apart]
  · simp [endianNode, val, valE, AllOrder, AllOrderE, ileaveX, ileaveY]

example : (endianSwap false .little endianNode ileaveMem) =
    .ok ([some [1, 0, 3, 2, 5, 4, 7, 6, 9, 8, 11, 10]], relabel .little endianNode) := rfl

/-- The claim needs `Separate`: when two leaves show the same memory (a tree with
    two `set_external` views of one array) the bytes are turned twice, and both
    leaves change their values. -/
theorem C32_shared_memory_false :
    ∃ (n n' : Node) (m m' : Mem), Readable m n ∧ endianSwap false .big n m = .ok (m', n') ∧
      numbers false (val m' n') ≠ numbers false (val m n) := by
  refine ⟨.lst {} [.leaf ⟨some ⟨0, 0⟩, false⟩ ileaveX, .leaf ⟨some ⟨0, 0⟩, false⟩ ileaveX], _, ileaveMem, ileaveMem,
    ?_, rfl, ?_⟩
  · simp only [Readable, ReadableL]; decide
  · intro h
    have h := congrArg (fun v => match v with
      | NumVal.lst (NumVal.leaf _ (x :: _) :: _) => x
      | _ => none) h
    revert h
    decide

/-! ### names of byte orders -/

/-- C32: byte order ids and names convert back and forth. -/
theorem C32_endian_names (e : Endian) : Endian.ofName e.name = e := by cases e <;> decide

end Conduit
