import Verif.Lemmas.SetSchema
import Verif.Props.NodeExternal
/-
Property theorems C60: setting a node from a schema, with and without data.
Specification: Verif/Spec/SetSchema.lean, Verif/Spec/Value.lean (`view`).
-/
namespace Conduit
open Spec Schema Node

/-- C60: after `n.set(schema)` the node has exactly that schema, every element is 0, the tree lives
    in one buffer of its own, and nothing but its old buffers has changed. -/
theorem C60_set_schema (s : Schema) (dest : Node) (m : Mem) (hs : Forward s) (h0 : 0 ≤ s.spannedBytes)
    (hd : GoodOwners m (owned dest)) :
    ∃ m' n', setSchema s dest m = .ok (m', n') ∧ n'.schema = s ∧ val m' n' = zeros s ∧
      (∀ b ∈ blocks n', b = m.length) ∧
      (∀ b, b < m.length → b ∉ (owned dest).map Ptr.blk → m'[b]? = m[b]?) := by
  obtain ⟨m1, a1, a2⟩ := releaseMem_spec dest m hd
  have hlen : m1.length = m.length := a2.1
  have hall : allocate m1 s.spannedBytes =
      ((m1.alloc s.spannedBytes.toNat).1, { data := some ⟨m1.length, 0⟩, alloced := true }) := by
    rw [allocate, if_neg (by omega)]; rfl
  refine ⟨(m1.alloc s.spannedBytes.toNat).1, walk (some ⟨m1.length, 0⟩) true s, ?_, schema_walk _ _ _, ?_, ?_, ?_⟩
  · rw [setSchema, a1, Res.bind_ok, hall]
  · rw [val_walk]
    apply view_zeros s hs
    intro i hi1 hi2
    simp only [Mem.byteAt]
    rw [Mem.byte_alloc_new, if_pos (by omega)]
  · intro b hb; rw [blocks_walk _ _ _ b hb]; exact hlen
  · intro b hb hb'
    rw [← a2.2 b hb']
    simp only [Mem.alloc]
    rw [List.getElem?_append_left (by omega)]

/-- C60: after `n.set(schema, data)` the node has that schema and, in a buffer of its own, the
    values the schema described at `data`; the caller's memory and everything else except the old
    buffers of `n` is unchanged, and later changes of it do not show in `n`. -/
theorem C60_set_schema_data (s : Schema) (q : Ptr) (dest : Node) (m : Mem) (hs : Forward s) (h0 : 0 ≤ s.spannedBytes)
    (hd : GoodOwners m (owned dest)) (hq : q.blk < m.length) (hqd : q.blk ∉ (owned dest).map Ptr.blk)
    (hr : ∀ k : Nat, (k : Int) < s.spannedBytes → (m.byteAt (some q) k).isSome) :
    ∃ m' n', setSchemaData s (some q) dest m = .ok (m', n') ∧ n'.schema = s ∧ val m' n' = view m (some q) s ∧
      (∀ b ∈ blocks n', b = m.length) ∧
      (∀ b, b < m.length → b ∉ (owned dest).map Ptr.blk → ∀ i, m'.byte b i = m.byte b i) ∧
      (∀ m2 : Mem, (∀ i, m2.byte m.length i = m'.byte m.length i) → val m2 n' = val m' n') := by
  obtain ⟨m1, a1, a2⟩ := releaseMem_spec dest m hd
  have hlen : m1.length = m.length := a2.1
  have hall : allocate m1 s.spannedBytes =
      ((m1.alloc s.spannedBytes.toNat).1, { data := some ⟨m1.length, 0⟩, alloced := true }) := by
    rw [allocate, if_neg (by omega)]; rfl
  have hbq : ∀ i, (m1.alloc s.spannedBytes.toNat).1.byte q.blk i = m.byte q.blk i := by
    intro i; rw [Mem.byte_alloc_old _ _ _ _ (by omega), a2.byte hqd]
  obtain ⟨m', c1, c2, c3⟩ := Mem.memcpy_spec (m := (m1.alloc s.spannedBytes.toNat).1) (p := ⟨m1.length, 0⟩) (q := q)
    (doff := 0) (soff := 0) (len := s.spannedBytes.toNat)
    (by
      intro k hk
      rw [hbq]
      have := hr k (by omega)
      simpa [Mem.byteAt] using this)
    (by
      intro k hk
      rw [Mem.byte_alloc_new, if_pos (by simp; omega)]; rfl)
    (.inr (.inl (by simp only [ne_eq]; omega)))
  refine ⟨m', walk (some ⟨m1.length, 0⟩) true s, ?_, schema_walk _ _ _, ?_, ?_, ?_, ?_⟩
  · rw [setSchemaData, a1, Res.bind_ok, hall]
    simp only
    rw [if_neg (by omega), c1, Res.bind_ok]
  · rw [val_walk]
    apply view_span s hs
    intro i hi1 hi2
    simp only [Mem.byteAt]
    rw [c3, if_pos (by simp; omega), hbq]
    congr 1; simp
  · intro b hb; rw [blocks_walk _ _ _ b hb]; exact hlen
  · intro b hb hb' i
    rw [c3, if_neg (by simp only [not_and]; omega), Mem.byte_alloc_old _ _ _ _ (by omega), a2.byte hb']
  · intro m2 h2
    rw [val_walk, val_walk]
    apply view_span s hs
    intro i _ _
    simp only [Mem.byteAt, hlen]
    exact h2 _

/-- a strided pair of interleaved arrays, into a node that holds something else -/
example : let s : Schema := .obj [(chars! "x", .leaf ileaveX), (chars! "y", .leaf ileaveY)]
    Forward s ∧ 0 ≤ s.spannedBytes ∧ GoodOwners (ileaveMem ++ [some [1, 2, 3, 4]]) (owned (.leaf ⟨some ⟨1, 0⟩, true⟩ (DataType.ofId .uint8 4))) ∧
    (∀ k : Nat, (k : Int) < s.spannedBytes → (Mem.byteAt (ileaveMem ++ [some [1, 2, 3, 4]]) (some ⟨0, 0⟩) k).isSome) := by
  refine ⟨?_, by decide, ⟨by decide, ?_⟩, ?_⟩
  · simp only [Forward, ForwardE, ileaveX, ileaveY]; decide
  · intro p hp
    simp only [owned, ownPtr, if_true, Option.toList, List.mem_singleton] at hp
    subst hp
    exact ⟨rfl, _, rfl⟩
  · intro k hk
    have : k < 12 := by
      have h : spannedBytes (.obj [(chars! "x", .leaf ileaveX), (chars! "y", .leaf ileaveY)]) = 12 := by decide
      rw [h] at hk; omega
    clear hk
    revert k; decide

/-- C60 (false for some leaf types): a leaf without elements whose stride is larger than its element
    size spans a negative number of bytes; `set(schema, data)` then copies a huge number of
    bytes to a null pointer. -/
theorem C60_negative_span_false :
    ∃ (s : Schema) (m : Mem) (q : Ptr), Forward s ∧ (∀ i : Nat, i < 8 → (m.byteAt (some q) i).isSome) ∧
      setSchemaData s (some q) (.leaf ⟨none, false⟩ {}) m = .ub :=
  ⟨.leaf ⟨.int8, 0, 0, 8, 1, .default⟩, [some [1, 2, 3, 4, 5, 6, 7, 8]], ⟨0, 0⟩, by simp only [Forward]; decide, by decide, rfl⟩

end Conduit
