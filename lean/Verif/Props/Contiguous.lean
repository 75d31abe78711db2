import Verif.Lemmas.Contiguous
import Verif.Lemmas.TreeDec
/-
Property theorems C36 (contiguity queries).
Specification: Verif/Spec/Contiguous.lean: the ranges of addresses of the leaves in depth
first order, and the addresses of all bytes of all elements.
-/
namespace Conduit
open Spec Node

/-- a caller's array of 12 bytes at address 1000, shown by three leaves -/
def conBase : Nat → Int := fun b => 1000 + 100 * b
def conNode : Node :=
  .obj {} [(chars! "a", .leaf ⟨some ⟨0, 0⟩, false⟩ (DataType.ofId .int16 2)),
           (chars! "b", .lst {} [.leaf {} {}, .leaf ⟨some ⟨0, 0⟩, false⟩ { DataType.ofId .uint8 3 with offset := 4 }]),
           (chars! "c", .leaf ⟨some ⟨0, 7⟩, false⟩ (DataType.ofId .uint8 5))]
def conMem : Mem := [some [1, 2, 3, 4, 5, 6, 7, 8, 9, 10, 11, 12]]
/-- the same with an empty leaf first -/
def conLate : Node := .lst {} [.leaf {} {}, conNode]

/-- C36: `is_contiguous` holds exactly when no leaf has a NULL pointer and every leaf begins where
    the leaf before it ends. -/
theorem C36_is_contiguous (base : Nat → Int) (n : Node) (hp : Placed base n) :
    isContiguous base n = true ↔ NoNull (ranges base n) ∧ Run (ranges base n) := by
  rw [isContiguous, contig_same]
  have := fun e => goR_zero (ranges base n) e hp
  cases hg : goR 0 (ranges base n) with
  | none =>
    simp only [pairOf, Bool.false_eq_true, false_iff]
    rintro ⟨h1, h2⟩
    have h3 := (this _).2 ⟨h1, h2, rfl⟩
    rw [hg] at h3; simp at h3
  | some e =>
    have := (this e).1 hg
    simp only [pairOf, true_iff]
    exact ⟨this.1, this.2.1⟩

example : Placed conBase conNode ∧ isContiguous conBase conNode = true ∧ ranges conBase conNode = [(1000, 4), (1004, 3), (1007, 5)] := by
  refine ⟨?_, by decide +kernel, by decide +kernel⟩
  have : ranges conBase conNode = [(1000, 4), (1004, 3), (1007, 5)] := by decide +kernel
  intro r hr
  rw [this] at hr
  revert r
  decide +kernel

/-- C36 (partial): `contiguous_with(p)` holds exactly when `p` is not NULL and the leaves form a
    gap-free range beginning at `p`, PROVIDED that the path of first children leads to a leaf with
    data (or there are no data at all).  Missing: trees that begin with an empty leaf, object or
    list, for which the claim is false (next theorems). -/
theorem C36_contiguous_with_partial (base : Nat → Int) (n : Node) (p : Int) (hp : Placed base n)
    (hd : DataFirst n ∨ ranges base n = []) :
    contiguousWith base n p = true ↔ p ≠ 0 ∧ NoNull (ranges base n) ∧ RunFrom p (ranges base n) := by
  unfold contiguousWith
  by_cases h0 : p = 0
  · simp [h0]
  · rw [if_neg h0]
    have key : contig base n p 0 = pairOf (goR p (ranges base n)) ∨ (ranges base n = [] ∧ (contig base n p 0).1 = true) := by
      rcases hd with hd | hd
      · exact Or.inl ((contig_eq base n p 0).1 hd)
      · by_cases hd' : DataFirst n
        · exact Or.inl ((contig_eq base n p 0).1 hd')
        · refine Or.inr ⟨hd, ?_⟩
          rw [(contig_eq base n p 0).2 hd', hd]; rfl
    rcases key with key | ⟨k1, k2⟩
    · rw [key]
      have := fun e => goR_from (ranges base n) p e hp h0
      cases hg : goR p (ranges base n) with
      | none =>
        simp only [pairOf, Bool.false_eq_true, false_iff]
        rintro ⟨_, h1, h2⟩
        have h3 := (this _).2 ⟨h1, h2, rfl⟩
        rw [hg] at h3; simp at h3
      | some e =>
        have := (this e).1 hg
        simp only [pairOf, true_iff]
        exact ⟨h0, this.1, this.2.1⟩
    · rw [k1, k2]
      simp [h0, NoNull, RunFrom]

example : DataFirst conNode ∧ contiguousWith conBase conNode 1000 = true ∧ contiguousWith conBase conNode 1001 = false :=
  ⟨by simp [conNode, DataFirst, DataFirstE, DataType.ofId], by decide +kernel, by decide +kernel⟩

/-- C36, the remaining trees: when they begin with an empty leaf, object or list, `contiguous_with`
    ignores the address and answers as `is_contiguous`. -/
theorem C36_contiguous_with_empty_first (base : Nat → Int) (n : Node) (p : Int) (hd : ¬ DataFirst n) :
    contiguousWith base n p = true ↔ p ≠ 0 ∧ isContiguous base n = true := by
  unfold contiguousWith isContiguous
  by_cases h0 : p = 0
  · simp [h0]
  · rw [if_neg h0, contig_same, (contig_eq base n p 0).2 hd]
    simp [h0]

/-- C36 fails: `contiguous_with(p)` answers true for a range that begins at another address. -/
theorem C36_contiguous_with_false :
    ∃ (base : Nat → Int) (n : Node) (p : Int), (∃ a, RunFrom a (ranges base n) ∧ a ≠ p ∧ ranges base n ≠ []) ∧
      contiguousWith base n p = true := by
  have h : ranges conBase conLate = [(1000, 4), (1004, 3), (1007, 5)] := by decide +kernel
  refine ⟨conBase, conLate, 77, ⟨1000, ?_, by decide, by simp [h]⟩, by decide +kernel⟩
  rw [h]
  simp [RunFrom]

/-- C36: `a.contiguous_with(b)`, the node version: `b` is contiguous, has data, and the leaves of
    `a` go on where `b` ends. -/
theorem C36_contiguous_after_partial (base : Nat → Int) (a b : Node) (ha : Placed base a) (hb : Placed base b)
    (hd : DataFirst a ∨ ranges base a = []) :
    contiguousAfter base a b = true ↔
      ranges base b ≠ [] ∧ NoNull (ranges base b) ∧ Run (ranges base b) ∧
      NoNull (ranges base a) ∧ RunFrom (endOf 0 (ranges base b)) (ranges base a) := by
  unfold contiguousAfter
  rw [contig_same, Bool.and_eq_true, C36_contiguous_with_partial base a _ ha hd]
  have hz := fun e => goR_zero (ranges base b) e hb
  cases hg : goR 0 (ranges base b) with
  | none =>
    simp only [pairOf, Bool.false_eq_true, false_and, false_iff]
    rintro ⟨_, h1, h2, _⟩
    have h3 := (hz _).2 ⟨h1, h2, rfl⟩
    rw [hg] at h3; simp at h3
  | some e =>
    obtain ⟨h1, h2, h3⟩ := (hz e).1 hg
    simp only [pairOf, true_and, h1, h2, h3]
    refine and_congr_left fun _ => ?_
    rcases goR_pos _ _ _ hb hg with ⟨g1, g2⟩ | ⟨g1, g2⟩
    · simp [g1, endOf]
    · rw [← h3]; simp only [ne_eq, g1, not_false_eq_true, iff_true]; omega

example : contiguousAfter conBase (.leaf ⟨some ⟨0, 4⟩, false⟩ (DataType.ofId .uint8 3))
    (.leaf ⟨some ⟨0, 0⟩, false⟩ (DataType.ofId .int16 2)) = true := by decide +kernel

/-- C36: `contiguous_data_ptr` is the address of the first leaf with data when the node is
    contiguous, else NULL. -/
theorem C36_contiguous_data_ptr (base : Nat → Int) (n : Node) (hp : Placed base n) :
    (NoNull (ranges base n) ∧ Run (ranges base n) →
      contiguousDataPtr base n = ((ranges base n).head?.map Prod.fst).getD 0) ∧
    (¬ (NoNull (ranges base n) ∧ Run (ranges base n)) → contiguousDataPtr base n = 0) := by
  unfold contiguousDataPtr
  rw [← C36_is_contiguous base n hp]
  refine ⟨fun h => ?_, fun h => by rw [if_neg h]⟩
  rw [if_pos h]
  exact firstData_eq base n ((C36_is_contiguous base n hp).1 h).1

theorem run_from_head {rs : List (Int × Int)} (h : Run rs) : RunFrom ((rs.head?.map Prod.fst).getD 0) rs := by
  cases rs with
  | nil => trivial
  | cons r rs => exact ⟨rfl, h⟩

/-- C36 (bytes): when a node whose leaves have no gaps between elements is contiguous, the addresses
    of all its bytes, in depth first order, are consecutive from `contiguous_data_ptr` on. -/
theorem C36_bytes_consecutive (base : Nat → Int) (n : Node) (hd : Dense n) (ha : ∀ r ∈ ranges base n, 0 ≤ r.1)
    (hc : isContiguous base n = true) :
    allBytes base n = interval (contiguousDataPtr base n) (allBytes base n).length := by
  have h1 := allBytes_dense base n hd
  have hp : Placed base n := fun r hr => ⟨ha r hr, h1.2 r hr⟩
  have h2 := (C36_is_contiguous base n hp).1 hc
  rw [(C36_contiguous_data_ptr base n hp).1 h2, h1.1]
  exact rangeBytes_run _ _ h1.2 (run_from_head h2.2)

/-- C36 (bytes), converse: when the bytes are consecutive, no leaf is without bytes and none has a
    NULL pointer, the node is contiguous. -/
theorem C36_contiguous_of_bytes (base : Nat → Int) (n : Node) (hd : Dense n) (ha : ∀ r ∈ ranges base n, 0 < r.1 ∧ 0 < r.2)
    (a : Int) (k : Nat) (hb : allBytes base n = interval a k) : isContiguous base n = true := by
  have h1 := allBytes_dense base n hd
  have hp : Placed base n := fun r hr => by have := ha r hr; omega
  rw [C36_is_contiguous base n hp]
  have h2 := run_of_bytes (ranges base n) a (fun r hr => (ha r hr).2) ⟨k, by rw [← h1.1]; exact hb⟩
  refine ⟨fun r hr => by have := (ha r hr).1; omega, ?_⟩
  cases hr : ranges base n with
  | nil => trivial
  | cons r rs =>
    rw [hr] at h2
    exact h2.2

/-- C36 (contents): the bytes found one after the other from `contiguous_data_ptr` on are the bytes
    of all elements in order. -/
theorem C36_contents (base : Nat → Int) (flatMem : Int → Option UInt8) (m : Mem) (n : Node) (hs : Shows base flatMem m)
    (hr : Readable m n) (hd : Dense n) (ha : ∀ r ∈ ranges base n, 0 ≤ r.1) (hc : isContiguous base n = true) :
    flat (val m n) = (interval (contiguousDataPtr base n) (flat (val m n)).length).map flatMem := by
  have h1 := flat_bytes hs n hr
  have h2 := C36_bytes_consecutive base n hd ha hc
  have hl : (flat (val m n)).length = (allBytes base n).length := by rw [h1]; simp
  rw [hl, ← h2]
  exact h1

/-- the machine's memory for the example -/
def conFlat : Int → Option UInt8 := fun a => if 1000 ≤ a ∧ a < 1012 then some (UInt8.ofNat (a - 999).toNat) else none

example : Readable conMem conNode ∧ Dense conNode ∧ isContiguous conBase conNode = true ∧
    (interval (contiguousDataPtr conBase conNode) 12).map conFlat = (List.range 12).map (fun i => some (UInt8.ofNat (i + 1))) := by
  refine ⟨?_, ?_, by decide +kernel, by decide +kernel⟩
  · simp only [conNode, Readable, ReadableE, ReadableL]; decide +kernel
  · simp [conNode, Dense, DenseE, DenseL, DataType.ofId, TypeId.bytes]

/-- C36 fails on the byte level for leaves with gaps: a strided leaf counts as gap-free, its range
    includes the bytes between the elements. -/
theorem C36_strided_false :
    ∃ (base : Nat → Int) (n : Node), Placed base n ∧ isContiguous base n = true ∧
      ¬ ∃ a k, allBytes base n = interval a k := by
  refine ⟨conBase, .leaf ⟨some ⟨0, 0⟩, false⟩ { id := .uint8, n := 2, offset := 0, stride := 3, ele := 1 }, ?_, by decide +kernel, ?_⟩
  · intro r hr
    simp only [ranges, reduceCtorEq, if_false, List.mem_singleton] at hr
    subst hr
    exact ⟨by decide +kernel, by decide +kernel⟩
  · rintro ⟨a, k, h⟩
    have hb : allBytes conBase (.leaf ⟨some ⟨0, 0⟩, false⟩ { id := .uint8, n := 2, offset := 0, stride := 3, ele := 1 }) = [1000, 1003] := by
      decide +kernel
    rw [hb] at h
    have hk : k = 2 := by
      have := congrArg List.length h
      simp [interval] at this
      omega
    subst hk
    simp [interval, List.range_succ] at h
    omega

end Conduit
