import Verif.Lemmas.NodeIO
import Verif.Props.NodeCopy
/-
Property theorems C22 (serialize) and C23 (binary save and load).
Specification: Verif/Spec/Value.lean: `flat (val m n)` is the bytes of all the
elements of `n`, one after the other, depth first.
-/
namespace Conduit
open Spec Spec.Tree Schema Node

/-! ### C22 -/

/-- C22: writing a node to a stream writes exactly the bytes of its elements, in
    order, whatever the layout of the leaves (elements of natural size). -/
theorem C22_serialize_stream (n : Node) (m : Mem) (hr : Readable m n) (hn : ∀ d ∈ n.schema.leaves, Natural d) :
    ∃ bs, serializeStream n m = .ok bs ∧ bs.map some = flat (val m n) :=
  serializeStream_spec n m hr hn

example : Readable copyMem copySrc ∧ (∀ d ∈ copySrc.schema.leaves, Natural d) ∧
    serializeStream copySrc copyMem = .ok [11, 12, 16, 17, 13, 14, 15] :=
  ⟨copy_call_ok.1, by simp [copySrc, schema, schemaE, schemaL, leaves, leavesE, leavesL, Natural, TypeId.bytes],
   by decide⟩

/-- C22 (partial): `serialize(vector)` gives the bytes of the elements in order and
    total_bytes_compact of them, PROVIDED that no child which is followed by a
    sibling takes more bytes in memory than it has data (`Aligned`).  Missing: the
    other trees, where the claim is false (next theorems). -/
theorem C22_serialize_vector_partial (n : Node) (m : Mem) (hr : Readable m n)
    (hn : ∀ d ∈ n.schema.leaves, Natural d) (ha : Aligned n) :
    ∃ bs, serializeVector n m = .ok bs ∧ bs.map some = flat (val m n) ∧
      (bs.length : Int) = n.schema.totalBytesCompact := by
  obtain ⟨bs, h1, h2, h3⟩ := serializeVector_spec n m hr hn ha
  have := total_nonneg _ (countsOK_of hr)
  exact ⟨bs, h1, h2, by omega⟩

/-- a packed leaf followed by a strided one -/
def serOK : Node :=
  .obj {} [(chars! "b", .leaf ⟨some ⟨0, 0⟩, false⟩ { id := .uint8, n := 3, offset := 3, stride := 1, ele := 1 }),
           (chars! "a", .leaf ⟨some ⟨0, 1⟩, false⟩ { id := .int16, n := 2, offset := 0, stride := 5, ele := 2 })]

example : Readable copyMem serOK ∧ (∀ d ∈ serOK.schema.leaves, Natural d) ∧ Aligned serOK ∧
    serializeVector serOK copyMem = .ok [13, 14, 15, 11, 12, 16, 17] := by
  refine ⟨by simp only [serOK, Readable, ReadableE]; decide, ?_, ?_, by decide⟩
  · simp [serOK, schema, schemaE, leaves, leavesE, Natural, TypeId.bytes]
  · simp only [serOK, Aligned, AlignedE]; decide

/-- the strided leaf first: two int16 at stride 5, then three uint8 -/
def serBad : Node :=
  .obj {} [(chars! "a", .leaf ⟨some ⟨0, 1⟩, false⟩ { id := .int16, n := 2, offset := 0, stride := 5, ele := 2 }),
           (chars! "b", .leaf ⟨some ⟨0, 0⟩, false⟩ { id := .uint8, n := 3, offset := 3, stride := 1, ele := 1 })]

/-- C22 fails: a strided leaf followed by a sibling makes `serialize(vector)` write
    outside the vector, although every element can be read. -/
theorem C22_serialize_vector_overflow :
    ∃ (n : Node) (m : Mem), Readable m n ∧ (∀ d ∈ n.schema.leaves, Natural d) ∧ serializeVector n m = .ub := by
  refine ⟨serBad, copyMem, by simp only [serBad, Readable, ReadableE]; decide, ?_, by decide⟩
  simp [serBad, schema, schemaE, leaves, leavesE, Natural, TypeId.bytes]

/-- C22 fails: a leaf without elements followed by a sibling leads to a write before the
    vector (an int8 leaf without elements and of stride 3 takes -2 bytes). -/
theorem C22_serialize_vector_underflow :
    ∃ (n : Node) (m : Mem), Readable m n ∧ (∀ d ∈ n.schema.leaves, Natural d) ∧ serializeVector n m = .ub := by
  refine ⟨.obj {} [(chars! "a", .leaf {} { id := .int8, n := 0, offset := 0, stride := 3, ele := 1 }),
      (chars! "b", .leaf ⟨some ⟨0, 0⟩, false⟩ (DataType.ofId .uint8 3))], copyMem,
    by simp only [Readable, ReadableE]; decide, ?_, by decide⟩
  simp [schema, schemaE, leaves, leavesE, Natural, TypeId.bytes, DataType.ofId]

/-- C22 fails silently: with a leaf that runs backwards (stride -1) the vector is
    long enough but the sibling's bytes overwrite the leaf's. -/
theorem C22_serialize_vector_misplaced :
    ∃ (n : Node) (m : Mem) (bs : List UInt8), Readable m n ∧ (∀ d ∈ n.schema.leaves, Natural d) ∧
      serializeVector n m = .ok bs ∧ bs.map some ≠ flat (val m n) := by
  refine ⟨.lst {} [.leaf ⟨some ⟨0, 0⟩, false⟩ { id := .int8, n := 2, offset := 3, stride := -1, ele := 1 },
      .leaf ⟨some ⟨0, 0⟩, false⟩ (DataType.ofId .uint8 3)], copyMem, [10, 11, 12, 0, 0],
    by simp only [Readable, ReadableL]; decide, ?_, by decide, by
      simp only [val, valL, flat, flatL]; decide⟩
  simp [schema, schemaL, leaves, leavesL, Natural, TypeId.bytes, DataType.ofId]

/-! ### C23 -/

/-- C23 (partial): saving a readable node in the binary protocol and loading the
    file (in any process, into any node `dest`) gives the same tree and values; the
    saved schema is the compacted one and the data file is exactly the element
    bytes.  Missing: the schema itself travels as JSON text (C20), here it is
    handed over as it is; file system errors are not modelled. -/
theorem C23_save_load_partial (n : Node) (m : Mem) (hr : Readable m n) :
    ∃ s bytes, saveBin n m = .ok (s, bytes) ∧ s = Schema.compactTo n.schema ∧ bytes.map some = flat (val m n) ∧
      ∀ (dest : Node) (m2 : Mem), GoodOwners m2 (owned dest) →
        ∃ m3 n3, loadBin s bytes dest m2 = .ok (m3, n3) ∧ val m3 n3 = val m n ∧ n3.schema = s ∧
          ∀ b, b < m2.length → b ∉ (owned dest).map Ptr.blk → ∀ i, m3.byte b i = m2.byte b i := by
  obtain ⟨bytes, h1, h2⟩ := saveBin_spec n m hr
  refine ⟨_, bytes, h1, rfl, h2, ?_⟩
  intro dest m2 hd
  obtain ⟨m3, n3, h3, h4, h5, h6⟩ := loadBin_spec n m hr bytes h2 dest m2 hd
  exact ⟨m3, n3, h3, h4, h5, fun b hb hn => (h6.2 b hb hn).2⟩

example : Readable copyMem copySrc ∧ GoodOwners copyMem (owned copyDest) ∧
    (saveBin copySrc copyMem).isOk = true := ⟨copy_call_ok.1, copy_call_ok.2, by decide⟩

end Conduit
