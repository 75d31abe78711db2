import Verif.Model.DataType
/-
Property theorems C07 - C10 about leaf descriptions.
-/
namespace Conduit
open DataType

/-! ## C07 -/

/-- C07: names and ids are in bijection. -/
theorem C07_name_to_id_of_name (t : TypeId) : nameToId t.name = t := by
  cases t <;> decide

theorem C07_names_distinct (a b : TypeId) (h : a.name = b.name) : a = b := by
  rw [← C07_name_to_id_of_name a, ← C07_name_to_id_of_name b, h]

/-- C07: a string that is no type name maps to the empty id. -/
theorem C07_unknown_name (s : Str) (h : ∀ t : TypeId, s ≠ t.name) : nameToId s = .empty := by
  have h1 := h .empty; have h2 := h .object; have h3 := h .list
  have h4 := h .int8; have h5 := h .int16; have h6 := h .int32; have h7 := h .int64
  have h8 := h .uint8; have h9 := h .uint16; have h10 := h .uint32; have h11 := h .uint64
  have h12 := h .float32; have h13 := h .float64; have h14 := h .char8Str
  simp only [TypeId.name] at *
  simp only [nameToId, *, if_false]

example : ∀ t : TypeId, chars! "int7" ≠ t.name := by intro t; cases t <;> decide

/-- C07: `name_to_id` returns a non-empty id only for the exact name. -/
theorem C07_name_to_id_iff (s : Str) (t : TypeId) (ht : t ≠ .empty) :
    nameToId s = t ↔ s = t.name := by
  constructor
  · intro h
    by_cases hs : ∃ u : TypeId, s = u.name
    · obtain ⟨u, rfl⟩ := hs
      rw [C07_name_to_id_of_name] at h; rw [h]
    · have := C07_unknown_name s (fun u hu => hs ⟨u, hu⟩)
      rw [this] at h; exact absurd h.symm ht
  · rintro rfl; exact C07_name_to_id_of_name t

/-- The bit width written in a type name: its digits as a decimal number (0 without
    digits). -/
def bitsInName (s : Str) : Nat := (s.filter Char.isDigit).foldl (fun n c => 10 * n + (c.toNat - '0'.toNat)) 0

/-- C07: the element size of every type is the width its name states (`int32` has 32
    bits, `char8_str` 8, and types without a width have size 0). -/
theorem C07_default_bytes (t : TypeId) : 8 * t.bytes = bitsInName t.name := by
  cases t <;> decide

/-! ## C08 -/

/-- C08: every element lies between the offset and `spanned_bytes`. -/
theorem C08_element_in_span (d : DataType) (i : Int) (hs : 0 ≤ d.stride) (h0 : 0 ≤ i) (h1 : i < d.n) :
    d.offset ≤ d.elementIndex i ∧ d.elementIndex i + d.ele ≤ d.spannedBytes := by
  unfold elementIndex spannedBytes
  have a : 0 ≤ d.stride * i := Int.mul_nonneg hs h0
  have b : d.stride * i ≤ d.stride * (d.n - 1) := Int.mul_le_mul_of_nonneg_left (by omega) hs
  omega

example : (0 : Int) ≤ (DataType.mk .float64 5 16 24 8 .default).stride ∧
    (3 : Int) < (DataType.mk .float64 5 16 24 8 .default).n := by decide

/-- C08: `spanned_bytes` is the least bound: the last element ends exactly there. -/
theorem C08_span_least (d : DataType) (b : Int) (hn : 1 ≤ d.n)
    (hb : ∀ i, 0 ≤ i → i < d.n → d.elementIndex i + d.ele ≤ b) : d.spannedBytes ≤ b := by
  have := hb (d.n - 1) (by omega) (by omega)
  simpa [elementIndex, spannedBytes] using this

/-- C08: `strided_bytes` is the span without the offset. -/
theorem C08_strided (d : DataType) : d.spannedBytes = d.offset + d.stridedBytes := by
  unfold spannedBytes stridedBytes; omega

/-- C08: elements do not overlap when the stride is at least the element size. -/
theorem C08_elements_disjoint (d : DataType) (i j : Int) (hs : d.ele ≤ d.stride) (he : 0 ≤ d.ele)
    (hij : i < j) : d.elementIndex i + d.ele ≤ d.elementIndex j := by
  unfold elementIndex
  have : d.stride * (i + 1) ≤ d.stride * j := Int.mul_le_mul_of_nonneg_left (by omega) (by omega)
  rw [Int.mul_add] at this; omega

example : (DataType.mk .int16 4 0 6 2 .default).ele ≤ (DataType.mk .int16 4 0 6 2 .default).stride := by decide

/-- C08: with no elements the "span" need not bound anything and can be negative
    (it is then passed to the allocator as a byte count). -/
theorem C08_zero_elements_false :
    ¬ ∀ d : DataType, 0 ≤ d.n → 0 ≤ d.offset → d.ele ≤ d.stride → 0 ≤ d.ele → 0 ≤ d.spannedBytes := by
  intro h
  have := h ⟨.int8, 0, 0, 8, 1, .default⟩ (by decide) (by decide) (by decide) (by decide)
  revert this; decide

/-! ## C09 -/

/-- What "compact" means: element `i` starts at byte `i * size`, where `size`
    is the natural size of the type. -/
def PackedFromZero (d : DataType) : Prop :=
  ∀ i : Int, 0 ≤ i → i < d.n → d.elementIndex i = i * d.id.bytes

/-- C09 is false: a description whose three elements all alias byte 16 is
    reported as compact. -/
theorem C09_is_compact_false :
    ¬ ∀ d : DataType, 0 ≤ d.offset → 0 ≤ d.stride → d.ele = d.id.bytes → 1 ≤ d.n →
      (d.isCompact = true ↔ PackedFromZero d) := by
  intro h
  have := (h ⟨.float64, 3, 16, 0, 8, .default⟩ (by decide) (by decide) (by decide) (by decide)).1 (by decide)
  have h2 := this 0 (by decide) (by decide)
  revert h2; decide

/-- C09 (partial): for leaf types with non-overlapping elements of the natural
    size, `is_compact` means packed from offset zero.  Missing: descriptions
    with `stride < element_bytes`, where it is false. -/
theorem C09_is_compact_partial (d : DataType) (ho : 0 ≤ d.offset) (hs : d.ele ≤ d.stride)
    (he : d.ele = d.id.bytes) (hn : 1 ≤ d.n)
    (hid : d.id ≠ .empty ∧ d.id ≠ .object ∧ d.id ≠ .list) :
    d.isCompact = true ↔ PackedFromZero d := by
  have hb : (0:Int) < d.id.bytes := by
    obtain ⟨h1, h2, h3⟩ := hid
    cases h : d.id <;> simp_all [TypeId.bytes]
  have key : d.isCompact = true ↔ d.offset + d.stride * (d.n - 1) + d.ele = d.id.bytes * d.n := by
    simp [isCompact, hid.1, hid.2.1, hid.2.2, spannedBytes, bytesCompact]
  rw [key]
  have e1 : (d.id.bytes : Int) * d.n = d.id.bytes * (d.n - 1) + d.id.bytes := by
    rw [Int.mul_sub]; omega
  have e2 : (d.id.bytes : Int) * (d.n - 1) ≤ d.stride * (d.n - 1) :=
    Int.mul_le_mul_of_nonneg_right (by omega) (by omega)
  constructor
  · intro h i h0 h1
    have o0 : d.offset = 0 := by omega
    have es : d.stride * (d.n - 1) = d.id.bytes * (d.n - 1) := by omega
    unfold elementIndex
    by_cases hn1 : d.n = 1
    · have : i = 0 := by omega
      subst this; simp [o0]
    · have : d.stride = d.id.bytes := Int.eq_of_mul_eq_mul_right (by omega) es
      rw [o0, this, Int.mul_comm]; omega
  · intro h
    have h0 := h 0 (by omega) (by omega)
    have h1 := h (d.n - 1) (by omega) (by omega)
    unfold elementIndex at h0 h1
    simp at h0
    rw [Int.mul_comm (d.n - 1)] at h1
    omega

example : (DataType.mk .int32 4 0 4 4 .default).isCompact = true ∧
    (DataType.mk .int32 4 0 8 4 .default).isCompact = false := by decide

/-! ## C10 -/

/-- C10: compacting keeps type, count and byte order, uses the natural element
    size, takes `bytes_compact` bytes from offset 0, and packs the elements. -/
theorem C10_compact_to (d : DataType) :
    d.compactTo.id = d.id ∧ d.compactTo.n = d.n ∧ d.compactTo.endian = d.endian ∧
    d.compactTo.ele = d.id.bytes ∧ d.compactTo.spannedBytes = d.bytesCompact ∧
    PackedFromZero d.compactTo := by
  refine ⟨rfl, rfl, rfl, rfl, ?_, ?_⟩
  · simp only [spannedBytes, compactTo, bytesCompact]
    rw [Int.mul_sub]; omega
  · intro i _ _; simp [elementIndex, compactTo, Int.mul_comm]

/-- C10: for leaf types the result is reported compact. -/
theorem C10_compact_is_compact (d : DataType) (h : d.id ≠ .empty ∧ d.id ≠ .object ∧ d.id ≠ .list) :
    d.compactTo.isCompact = true := by
  have h1 := (C10_compact_to d).2.2.2.2.1
  simp [isCompact, h1, bytesCompact]
  simp [compactTo, h]

example : TypeId.int32 ≠ .empty ∧ TypeId.int32 ≠ .object ∧ TypeId.int32 ≠ .list := by decide

/-- C10: compacting twice is the same as once. -/
theorem C10_idempotent (d : DataType) : d.compactTo.compactTo = d.compactTo := rfl

end Conduit
