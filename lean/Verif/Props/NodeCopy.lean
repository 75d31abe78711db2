import Verif.Lemmas.Node
/-
Property theorems C21, C24, C25 (aliasing of whole trees): compact_to, set(node)
and set_external.  Specification: Verif/Spec/Value.lean.
-/
namespace Conduit
open Spec Spec.Tree Schema Node

/-- The situation of a call `dest.op(src)` between nodes of different trees: the
    source's elements can be read, the destination's own buffers may be freed, and
    none of them holds elements of the source. -/
structure CallOK (m : Mem) (src dest : Node) : Prop where
  src_readable : Readable m src
  dest_owners : GoodOwners m (owned dest)
  apart : ∀ p ∈ owned dest, p.blk ∉ blocks src

/-- a memory with a caller's buffer (block 0) and a buffer owned by a node (block 1) -/
def copyMem : Mem := [some [10, 11, 12, 13, 14, 15, 16, 17, 18, 19], some [1, 2, 3, 4]]

/-- an object over the caller's buffer: a strided two element leaf, a list of an
    empty leaf and a big endian leaf -/
def copySrc : Node :=
  .obj {} [(chars! "a", .leaf ⟨some ⟨0, 1⟩, false⟩ { id := .int16, n := 2, offset := 0, stride := 5, ele := 2 }),
           (chars! "b", .lst {} [.leaf {} {},
              .leaf ⟨some ⟨0, 0⟩, false⟩ { id := .uint8, n := 3, offset := 3, stride := 1, ele := 1, endian := .big }])]

/-- a node that owns block 1 -/
def copyDest : Node := .leaf ⟨some ⟨1, 0⟩, true⟩ (DataType.ofId .uint8 4)

theorem copy_call_ok : CallOK copyMem copySrc copyDest := by
  refine ⟨?_, ⟨by decide, ?_⟩, ?_⟩
  · simp only [copySrc, Readable, ReadableE, ReadableL]; decide
  · intro p hp
    simp [copyDest, owned, ownPtr] at hp; subst hp
    exact ⟨rfl, [1, 2, 3, 4], rfl⟩
  · simp [copyDest, copySrc, owned, ownPtr, blocks, blocksE, blocksL]

/-! ### C21 -/

/-- C21: `src.compact_to(dest)` succeeds, `dest` then has the names, nesting, types,
    byte orders and element bytes of `src`, its layout is that of the compacted
    schema, and no other memory changes except the buffers `dest` owned before. -/
theorem C21_compact_to_values (src dest : Node) (m : Mem) (h : CallOK m src dest) :
    ∃ m' n', compactTo src dest m = .ok (m', n') ∧ val m' n' = val m src ∧ Readable m' n' ∧
      n'.schema = Schema.compactTo src.schema ∧
      ∀ b, b < m.length → b ∉ (owned dest).map Ptr.blk → ∀ i, m'.byte b i = m.byte b i := by
  obtain ⟨m', n', h1, h2, h3⟩ := compactTo_copied src dest m h.1 h.2 h.3
  exact ⟨m', n', h1, h3.val, h3.readable, h2, fun b hb hn => (h3.frame.2 b hb hn).2⟩

/-- C21: if the source holds any data, the compacted node owns one new block of
    exactly total_bytes_compact bytes: the bytes of the source's elements one after
    the other.  Every leaf of `dest` lies in it (so it shares no memory with the
    source). -/
theorem C21_compact_to_block (src dest : Node) (m : Mem) (h : CallOK m src dest)
    (hpos : 0 < src.schema.totalBytesCompact) :
    ∃ m' n' bs, compactTo src dest m = .ok (m', n') ∧ owned n' = [⟨m.length, 0⟩] ∧
      (∀ b ∈ blocks n', b = m.length) ∧ m'[m.length]? = some (some bs) ∧
      bs.map some = flat (val m src) ∧ (bs.length : Int) = src.schema.totalBytesCompact := by
  obtain ⟨m', bs, h1, h2, h3, h4, _⟩ := compactTo_block src dest m h.1 h.2 h.3 hpos
  refine ⟨m', _, bs, h1, ?_, ?_, h2, h3, h4⟩
  · refine (walk_true _ _ ?_).2
    intro d hsd he
    have := total_compactAt src.schema 0
    rw [Schema.compactTo] at hsd
    rw [hsd, totalBytesCompact, if_pos he] at this
    omega
  · intro b hb; exact blocks_walk _ _ _ b hb

example : CallOK copyMem copySrc copyDest ∧ 0 < copySrc.schema.totalBytesCompact :=
  ⟨copy_call_ok, by decide⟩
example : (compactTo copySrc copyDest copyMem).isOk = true := by decide

/-! ### C24 -/

/-- C24: `dest.set(src)` succeeds; `dest` has the value of `src`; and from then on
    the two are independent: whatever happens to the memory that existed before
    the call (where all of `src` lives) `dest` keeps its value, and whatever
    happens to the memory allocated by the call (where all of `dest` lives) `src`
    keeps its value. -/
theorem C24_set_node_deep_copy (src dest : Node) (m : Mem) (h : CallOK m src dest) :
    ∃ m' n', setNode src dest m = .ok (m', n') ∧ val m' n' = val m src ∧ val m' src = val m src ∧
      Readable m' n' ∧
      (∀ b ∈ blocks n', m.length ≤ b) ∧ (∀ b ∈ blocks src, b < m.length) ∧
      (∀ m'', (∀ b i, m.length ≤ b → Mem.byte m'' b i = Mem.byte m' b i) → val m'' n' = val m src) ∧
      (∀ m'', (∀ b i, b < m.length → Mem.byte m'' b i = Mem.byte m' b i) → val m'' src = val m src) := by
  obtain ⟨m', n', h1, h2⟩ := setNode_copied src dest m h.1 h.2 h.3
  have hlt := blocks_lt src h.1
  have hsrc : val m' src = val m src := val_agree src (h2.frame.agree hlt h.3)
  refine ⟨m', n', h1, h2.val, hsrc, h2.readable, h2.blocks, hlt, ?_, ?_⟩
  · intro m'' hm
    rw [val_agree (m := m') n' (fun b hb i => hm b i (h2.blocks b hb)), h2.val]
  · intro m'' hm
    rw [val_agree (m := m') src (fun b hb i => hm b i (hlt b hb)), hsrc]

/-- C24: memory outside `dest`'s old buffers is not changed by `set`. -/
theorem C24_set_node_frame (src dest : Node) (m : Mem) (h : CallOK m src dest) :
    ∃ m' n', setNode src dest m = .ok (m', n') ∧
      ∀ b, b < m.length → b ∉ (owned dest).map Ptr.blk → ∀ i, m'.byte b i = m.byte b i := by
  obtain ⟨m', n', h1, h2⟩ := setNode_copied src dest m h.1 h.2 h.3
  exact ⟨m', n', h1, fun b hb hn => (h2.frame.2 b hb hn).2⟩

example : CallOK copyMem copySrc copyDest ∧ (setNode copySrc copyDest copyMem).isOk = true :=
  ⟨copy_call_ok, by decide⟩

end Conduit
