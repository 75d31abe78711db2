import Verif.Lemmas.SchemaLayout
import Verif.Props.Schema
/-
Property theorems C16, C17: byte layout of schemas.
Specification: Verif/Spec/Layout.lean.
-/
namespace Conduit
open Spec Spec.Tree Schema

/-- a three-leaf schema with a strided, an oversized-offset and an empty leaf -/
def layoutExample : Schema :=
  .obj [(chars! "a", .leaf { id := .float64, n := 3, offset := 8, stride := 24, ele := 8 }),
        (chars! "b", .lst [.leaf {}, .leaf { id := .int32, n := 2, offset := 4, stride := 8, ele := 4, endian := .big }]),
        (chars! "c", .leaf (DataType.ofId .uint8 5))]

/-! ### C16 -/

/-- C16: listing every byte of every element of every leaf of the compacted schema,
    depth first, gives exactly the addresses 0, 1, ..., total_bytes_compact - 1:
    the leaves are consecutive, disjoint, without gaps, and start at 0. -/
theorem C16_compact_layout (s : Schema) (h : ∀ d ∈ s.leaves, 0 ≤ d.n) :
    (dataLeaves (compactTo s)).flatMap byteAddrs = Spec.run 0 (totalBytesCompact s).toNat ∧
    0 ≤ totalBytesCompact s := by
  refine ⟨?_, total_nonneg s h⟩
  exact addrs_compactAt s 0 h

/-- C16: names, nesting, types, counts and byte order of every leaf are kept. -/
theorem C16_compact_keeps_shape (s : Schema) : shape (compactTo s) = shape s := shape_compactAt s 0

/-- C16: the reported sizes of the compacted schema: same compact size, compact,
    and (unless it holds no bytes) spanning exactly its compact size. -/
theorem C16_compact_sizes (s : Schema) (h : ∀ d ∈ s.leaves, 0 ≤ d.n) :
    totalBytesCompact (compactTo s) = totalBytesCompact s ∧
    totalStridedBytes (compactTo s) = totalBytesCompact s ∧
    isCompact (compactTo s) = true ∧
    spannedBytes (compactTo s) ≤ totalBytesCompact s ∧
    (0 < totalBytesCompact s → spannedBytes (compactTo s) = totalBytesCompact s) := by
  have h1 := total_compactAt s 0
  have h2 := strided_compactAt s 0
  obtain ⟨h3, _, h4⟩ := span_compactAt s 0 h (by omega)
  refine ⟨h1, h2, by simp [isCompact, compactTo, h1, h2], by simpa [compactTo] using h3, fun hp => ?_⟩
  have := h4 hp; simpa [compactTo] using this

/-- C16: compacting twice changes nothing. -/
theorem C16_compact_idempotent (s : Schema) : compactTo (compactTo s) = compactTo s := compactAt_idem s 0 0

example : (∀ d ∈ layoutExample.leaves, 0 ≤ d.n) ∧ 0 < totalBytesCompact layoutExample ∧
    isCompact layoutExample = false := by decide

/-! ### C17 -/

/-- a leaf's elements are stored one after the other -/
def Packed (d : DataType) : Prop := byteAddrs d = Spec.run d.offset (d.n * d.ele).toNat

/-- the leaves for which `is_compact` is meaningful: natural element size, at
    least one element, elements not overlapping -/
def RegularLeaf (d : DataType) : Prop :=
  1 ≤ d.n ∧ d.ele = d.id.bytes ∧ 1 ≤ d.ele ∧ d.ele ≤ d.stride

theorem packed_iff (d : DataType) (h : RegularLeaf d) : Packed d ↔ d.stridedBytes = d.bytesCompact := by
  obtain ⟨h1, h2, h3, h4⟩ := h
  obtain ⟨n, hn⟩ := Int.eq_ofNat_of_zero_le (show 0 ≤ d.n by omega)
  obtain ⟨e, he⟩ := Int.eq_ofNat_of_zero_le (show 0 ≤ d.ele by omega)
  have hstr : d.stridedBytes = d.bytesCompact ↔ (d.n = 1 ∨ d.stride = d.ele) := by
    unfold DataType.stridedBytes DataType.bytesCompact
    rw [← h2]
    constructor
    · intro h
      have : (d.stride - d.ele) * (d.n - 1) = 0 := by grind
      rcases Int.mul_eq_zero.1 this with h | h <;> omega
    · rintro (h | h) <;> rw [h] <;> grind
  rw [hstr]
  unfold Packed byteAddrs
  constructor
  · intro hp
    by_cases hn1 : d.n = 1
    · exact Or.inl hn1
    · right
      -- compare the address at position `ele`
      have hn2 : 2 ≤ n := by omega
      have hlen : (d.n * d.ele).toNat = n * e := by
        rw [hn, he]
        show ((n : Int) * (e : Int)).toNat = n * e
        rw [← Int.natCast_mul, Int.toNat_natCast]
      have e1 : d.ele.toNat = e := by rw [he]; rfl
      have e2 : d.n.toNat = n := by rw [hn]; rfl
      rw [hlen, e2] at hp
      obtain ⟨m, rfl⟩ := Nat.exists_eq_add_of_le hn2
      have hpe := congrArg (fun l => l[e]?) hp
      rw [show 2 + m = (m + 1) + 1 by omega, List.range_succ_eq_map, List.flatMap_cons, List.flatMap_map] at hpe
      rw [List.range_succ_eq_map, List.flatMap_cons] at hpe
      simp only [elemBytes, e1] at hpe
      rw [List.getElem?_append_right (by simp)] at hpe
      have he0 : 0 < e := by omega
      simp only [List.length_map, List.length_range, Nat.sub_self] at hpe
      rw [List.getElem?_append_left (by simp; omega)] at hpe
      have hlt : e < (m + 1 + 1) * e := by
        have : (m + 1 + 1) * e = m * e + e + e := by grind
        have := Nat.zero_le (m * e); omega
      simp [Spec.run, he0, hlt] at hpe
      omega
  · intro h
    rcases h with h | h
    · rw [h]; simp [elemBytes, Spec.run]
    · simp only [funext (elemBytes_eq_run d), h]
      rw [show d.ele = ((d.ele.toNat : Nat) : Int) by omega]
      simp only [Int.toNat_natCast]
      rw [run_flat]
      congr 1
      rw [hn, he]
      show e * n = ((n : Int) * (e : Int)).toNat
      rw [← Int.natCast_mul, Int.toNat_natCast, Nat.mul_comm]

def padding (d : DataType) : Int := d.stridedBytes - d.bytesCompact
def paddings (l : List DataType) : Int := ((l.filter (fun d => d.id != .empty)).map padding).sum

theorem paddings_append (a b : List DataType) : paddings (a ++ b) = paddings a + paddings b := by
  simp [paddings]

mutual
theorem total_padding : ∀ s : Schema, totalStridedBytes s - totalBytesCompact s = paddings s.leaves
  | .leaf d => by
    by_cases h : d.id = .empty <;> simp [totalStridedBytes, totalBytesCompact, paddings, leaves, h, padding]
  | .obj es => total_paddingE es
  | .lst cs => total_paddingL cs
theorem total_paddingE : ∀ es : List (Str × Schema), totalStridedBytesE es - totalBytesCompactE es = paddings (leavesE es)
  | [] => rfl
  | (n, c) :: es => by
    have h1 := total_padding c
    have h2 := total_paddingE es
    rw [totalStridedBytesE, totalBytesCompactE, leavesE, paddings_append]; omega
theorem total_paddingL : ∀ es : List Schema, totalStridedBytesL es - totalBytesCompactL es = paddings (leavesL es)
  | [] => rfl
  | c :: es => by
    have h1 := total_padding c
    have h2 := total_paddingL es
    rw [totalStridedBytesL, totalBytesCompactL, leavesL, paddings_append]; omega
end

theorem padding_nonneg (d : DataType) (h : RegularLeaf d) : 0 ≤ padding d := by
  obtain ⟨h1, h2, h3, h4⟩ := h
  unfold padding DataType.stridedBytes DataType.bytesCompact
  rw [← h2]
  have : 0 ≤ (d.stride - d.ele) * (d.n - 1) := Int.mul_nonneg (by omega) (by omega)
  grind

theorem sum_zero_iff : ∀ (l : List DataType), (∀ d ∈ l, RegularLeaf d) →
    0 ≤ (l.map padding).sum ∧ ((l.map padding).sum = 0 ↔ ∀ d ∈ l, padding d = 0)
  | [], _ => by simp
  | d :: l, h => by
    have h1 := padding_nonneg d (h d (by simp))
    obtain ⟨h2, h3⟩ := sum_zero_iff l (fun x hx => h x (by simp [hx]))
    simp only [List.map_cons, List.sum_cons, List.mem_cons, forall_eq_or_imp]
    refine ⟨by omega, ?_⟩
    rw [← h3]; omega

/-- C17 (partial: only for trees whose data leaves are all regular): `is_compact`
    holds exactly when every leaf's elements are stored without gaps. -/
theorem C17_is_compact_partial (s : Schema) (h : ∀ d ∈ dataLeaves s, RegularLeaf d) :
    isCompact s = true ↔ ∀ d ∈ dataLeaves s, Packed d := by
  have h1 := total_padding s
  obtain ⟨_, h2⟩ := sum_zero_iff (dataLeaves s) h
  have h3 : isCompact s = true ↔ paddings s.leaves = 0 := by
    simp only [isCompact, beq_iff_eq]; omega
  rw [h3, show paddings s.leaves = ((dataLeaves s).map padding).sum from rfl, h2]
  apply forall_congr'; intro d
  apply forall_congr'; intro hd
  rw [packed_iff d (h d hd)]
  unfold padding; omega

example : (∀ d ∈ dataLeaves layoutExample, RegularLeaf d) ∧ isCompact layoutExample = false := by
  constructor
  · unfold RegularLeaf; decide
  · decide

/-- C17 fails in general: a length-0 leaf with a stride larger than its element
    hides the padding of a sibling (8 bytes each, opposite signs). -/
theorem C17_cancel_false :
    ∃ s : Schema, isCompact s = true ∧ ∃ d ∈ dataLeaves s, ¬ Packed d := by
  refine ⟨.obj [(chars! "a", .leaf { id := .float64, n := 0, offset := 0, stride := 16, ele := 8 }),
    (chars! "b", .leaf { id := .float64, n := 2, offset := 0, stride := 16, ele := 8 })], by decide,
    { id := .float64, n := 2, offset := 0, stride := 16, ele := 8 }, by decide, ?_⟩
  unfold Packed; decide

/-- C17 fails in general, other direction: a leaf without elements holds no bytes
    at all, yet with a non-natural stride the tree is reported as not compact. -/
theorem C17_empty_array_false :
    ∃ s : Schema, isCompact s = false ∧ ∀ d ∈ dataLeaves s, Packed d := by
  refine ⟨.leaf { id := .float64, n := 0, offset := 0, stride := 16, ele := 8 }, by decide, ?_⟩
  unfold Packed; decide

end Conduit
