import Verif.Lemmas.Reduce
import Verif.Props.PlainMsg
/-
C103: leaves reduced with `reduce` and `all_reduce`.
-/
namespace Conduit
open Spec Schema Node Relay

/-- What `reduce` and `all_reduce` need of a rank's node: it is a leaf of this type with these elements, and if its elements follow each
    other, they have the size of the type and begin at the data pointer. -/
structure Reducible (id : TypeId) (r : Node × Mem) (els : List (List UInt8)) : Prop where
  value : ∃ e, val r.2 r.1 = .leaf id e (els.map fun x => x.map some)
  readable : Readable r.2 r.1
  start : r.1.schema.isCompact = true → r.1.dtype.ele = id.bytes ∧ r.1.dtype.offset = 0

/-- The elements `R` are what `f` makes of the elements of all ranks at each place. -/
def ReducedEls (f : List (List UInt8) → List UInt8) (els : List (List (List UInt8))) (num : Nat) (R : List (List UInt8)) : Prop :=
  R.length = num ∧ ∀ i, i < num → R[i]? = some (f (els.map fun x => x.getD i []))

/-- What a receiver has then: a leaf of the type with at least as many elements has `R` at its start and keeps its other elements and its byte
    order; any other node is a leaf with the elements `R` in the byte order `e`.  No memory but that of the node is changed. -/
structure HasReduced (id : TypeId) (e : Endian) (R : List (List UInt8)) (dest : Node) (m : Mem) (r : Mem × Node) : Prop where
  value : val r.1 r.2 = overLeaf id (R.map fun x => x.map some) (val m dest) (.leaf id e (R.map fun x => x.map some))
  ok : DestOK r.1 r.2
  rest : ∀ b i, b < m.length → b ∉ (owned dest).map Ptr.blk → (∀ pl ∈ places dest, ¬ pl.Has b i) → r.1.byte b i = m.byte b i

theorem reducible_leaf {id : TypeId} (hid : id ≠ .empty) {n : Node} {m : Mem} {els : List (List UInt8)} (h : Reducible id (n, m) els) :
    ∃ x d, n = .leaf x d ∧ d.id = id ∧ elems m x.data d = els.map (fun y => y.map some) := by
  obtain ⟨e, h1⟩ := h.value
  cases n with
  | leaf x d =>
    simp only [val] at h1
    split at h1
    · injection h1 with h1; exact absurd h1.symm hid
    · injection h1 with a b c
      exact ⟨x, d, rfl, a, c⟩
  | obj x es => simp [val] at h1
  | lst x es => simp [val] at h1

theorem reducible_send {id : TypeId} (hid : id ≠ .empty) {num : Nat} (hnum : num < 2 ^ 31) {r : Node × Mem} {els : List (List UInt8)}
    (h : Reducible id r els) (hl : els.length = num) : reduceSend r.1 r.2 = .ok (id, els) := by
  obtain ⟨n, m⟩ := r
  obtain ⟨x, d, rfl, rfl, h2⟩ := reducible_leaf hid h
  have hlen : d.n.toNat = num := by rw [← elems_length m x.data d, h2, List.length_map, hl]
  have hr := h.readable
  obtain ⟨els', s1, s2⟩ := reduceSend_ok hr (by
      have h1 := hr.1; have h2 := hr.2.1
      simp [hasMpiType, hid, h1, h2]) (by
    intro hc
    refine h.start ?_
    simp only [Node.schema, isCompact, totalBytesCompact, totalStridedBytes, hid, if_false, beq_iff_eq]
    exact hc) (by omega)
  have : els' = els := by
    rw [h2] at s2
    exact List.map_injective_iff.2 (List.map_injective_iff.2 (Option.some_injective _)) s2
  rw [← this]
  exact s1

theorem reduced_ok {op : MpiOp} {id : TypeId} {f : List (List UInt8) → List UInt8} (hop : op id = some f) (hf : ∀ l, (f l).length = id.bytes)
    {num : Nat} {els : List (List (List UInt8))} (hl : ∀ x ∈ els, x.length = num) :
    ∃ R, mpiReduce op (els.map fun x => (id, x)) id num = .ok R ∧ ReducedEls f els num R ∧ ∀ y ∈ R, y.length = id.bytes := by
  refine ⟨(List.range num).map fun i => f (els.map fun p => p.getD i []), ?_, ⟨by simp, fun i hi => ?_⟩, fun y hy => ?_⟩
  · unfold mpiReduce
    rw [if_neg, hop]
    · simp [List.map_map, Function.comp_def]
    · simp only [List.any_map, List.any_eq_true, not_exists, not_and]
      intro x hx
      simp [hl x hx]
  · rw [List.getElem?_map, List.getElem?_range hi]; rfl
  · obtain ⟨i, _, rfl⟩ := List.mem_map.1 hy
    exact hf _

theorem reduced_recv {id : TypeId} (hid : id ≠ .empty) {own : Node × Mem} {x : List (List UInt8)} (h : Reducible id own x)
    {R : List (List UInt8)} (hR : R.length = x.length) (hs : ∀ y ∈ R, y.length = id.bytes) (base : Nat → Int) {dest : Node} {m : Mem} (hd : DestOK m dest) :
    ∃ r, reduceRecv base own.1 R dest m = .ok r ∧ HasReduced id own.1.dtype.endian R dest m r := by
  obtain ⟨n, mo⟩ := own
  obtain ⟨xo, d, rfl, rfl, h2⟩ := reducible_leaf hid h
  have hr := h.readable
  have hn : 0 ≤ d.n := hr.2.2.1
  have hlen : d.n.toNat = x.length := by rw [← elems_length mo xo.data d, h2, List.length_map]
  obtain ⟨r, r1, r2⟩ := reduceRecv_ok (base := base) (own := .leaf xo d) rfl ⟨hn, hr.1, hr.2.1⟩ hid (by omega) hs
    ⟨hd.readable, hd.separate, hd.size, hd.clean, hd.owners, hd.tidy⟩ hd.names
  have hv : val r.1 r.2 = overLeaf d.id (R.map fun x => x.map some) (val m dest) (.leaf d.id d.endian (R.map fun x => x.map some)) := by
    rw [r2.value, merge, if_neg hid]
  refine ⟨r, r1, hv, ⟨r2.ready.readable, ?_, r2.ready.sep, r2.ready.nat, r2.ready.good, r2.ready.clean, r2.ready.tidy⟩, r2.rest⟩
  rw [hv]
  unfold overLeaf
  split
  · split <;> trivial
  · trivial

/-- C103: `all_reduce` of leaves of one type and number of elements, however they lie in memory: every rank has at each place what the
    operation makes of the elements of all ranks at this place, in the order of the ranks. -/
theorem C103_all_reduce (op : MpiOp) (id : TypeId) (hid : id ≠ .empty) (f : List (List UInt8) → List UInt8) (hop : op id = some f)
    (hf : ∀ l, (f l).length = id.bytes) (num : Nat) (hnum : num < 2 ^ 31)
    (ranks : List ((Node × Mem) × (Nat → Int) × Node × Mem)) (els : List (List (List UInt8)))
    (h : List.Forall₂ (fun (r : (Node × Mem) × (Nat → Int) × Node × Mem) x => Reducible id r.1 x ∧ x.length = num) ranks els)
    (hd : ∀ r ∈ ranks, DestOK r.2.2.2 r.2.2.1) :
    ∃ rs R, allReduce op ranks = .ok rs ∧ ReducedEls f els num R ∧
      List.Forall₂ (fun (r : (Node × Mem) × (Nat → Int) × Node × Mem) (r' : Mem × Node) =>
        HasReduced id r.1.1.dtype.endian R r.2.2.1 r.2.2.2 r') ranks rs := by
  have hall : ∀ x ∈ els, x.length = num := by
    intro x hx
    obtain ⟨i, hi, rfl⟩ := List.mem_iff_getElem.1 hx
    exact ((List.forall₂_iff_get.1 h).2 i (by rw [h.length_eq]; exact hi) hi).2
  have hsend : ranks.mapM (fun (r : (Node × Mem) × (Nat → Int) × Node × Mem) => reduceSend r.1.1 r.1.2) = .ok (els.map fun x => (id, x)) := by
    clear hall hd
    induction h with
    | nil => rfl
    | cons a _ ih => rw [List.mapM_cons, reducible_send hid hnum a.1 a.2, bind_ok, ih, bind_ok]; rfl
  obtain ⟨R, m1, m2, m3⟩ := reduced_ok hop hf hall
  have hrecv : ∃ rs, (ranks.zip (els.map fun x => (id, x))).mapM (fun (r : ((Node × Mem) × (Nat → Int) × Node × Mem) × TypeId × List (List UInt8)) => do
        let e ← mpiReduce op (els.map fun x => (id, x)) r.2.1 r.2.2.length
        reduceRecv r.1.2.1 r.1.1.1 e r.1.2.2.1 r.1.2.2.2) = .ok rs ∧
      List.Forall₂ (fun (r : (Node × Mem) × (Nat → Int) × Node × Mem) (r' : Mem × Node) =>
        HasReduced id r.1.1.dtype.endian R r.2.2.1 r.2.2.2 r') ranks rs := by
    have : ∀ parts, mpiReduce op parts id num = .ok R → ∀ (ranks : List ((Node × Mem) × (Nat → Int) × Node × Mem)) (els : List (List (List UInt8))),
        List.Forall₂ (fun (r : (Node × Mem) × (Nat → Int) × Node × Mem) x => Reducible id r.1 x ∧ x.length = num) ranks els →
        (∀ r ∈ ranks, DestOK r.2.2.2 r.2.2.1) →
        ∃ rs, (ranks.zip (els.map fun x => (id, x))).mapM (fun (r : ((Node × Mem) × (Nat → Int) × Node × Mem) × TypeId × List (List UInt8)) => do
            let e ← mpiReduce op parts r.2.1 r.2.2.length
            reduceRecv r.1.2.1 r.1.1.1 e r.1.2.2.1 r.1.2.2.2) = .ok rs ∧
          List.Forall₂ (fun (r : (Node × Mem) × (Nat → Int) × Node × Mem) (r' : Mem × Node) =>
            HasReduced id r.1.1.dtype.endian R r.2.2.1 r.2.2.2 r') ranks rs := by
      intro parts m1 ranks els h hd
      induction h with
      | nil => exact ⟨[], rfl, .nil⟩
      | @cons r x ranks els a _ ih =>
        obtain ⟨rs, i1, i2⟩ := ih (fun r' hr' => hd r' (List.mem_cons_of_mem _ hr'))
        obtain ⟨r', r1, r2⟩ := reduced_recv hid a.1 (by rw [m2.1, a.2]) m3 r.2.1 (hd r (by simp))
        refine ⟨r' :: rs, ?_, .cons r2 i2⟩
        rw [List.map_cons, List.zip_cons_cons, List.mapM_cons]
        simp only [a.2]
        rw [m1, bind_ok, r1, bind_ok, i1, bind_ok]
        rfl
    exact this _ m1 ranks els h hd
  obtain ⟨rs, q1, q2⟩ := hrecv
  refine ⟨rs, R, ?_, m2, q2⟩
  unfold allReduce
  rw [hsend, bind_ok, q1]

/-- C103: `reduce` gives the root the same. -/
theorem C103_reduce (op : MpiOp) (id : TypeId) (hid : id ≠ .empty) (f : List (List UInt8) → List UInt8) (hop : op id = some f)
    (hf : ∀ l, (f l).length = id.bytes) (num : Nat) (hnum : num < 2 ^ 31)
    (ranks : List (Node × Mem)) (els : List (List (List UInt8)))
    (h : List.Forall₂ (fun r x => Reducible id r x ∧ x.length = num) ranks els)
    (root : Nat) (own : Node × Mem) (ho : ranks[root]? = some own) (base : Nat → Int) (dest : Node) (m : Mem) (hd : DestOK m dest) :
    ∃ r R, reduce op ranks root base dest m = .ok r ∧ ReducedEls f els num R ∧ HasReduced id own.1.dtype.endian R dest m r := by
  have hget := (List.forall₂_iff_get.1 h).2
  have hall : ∀ x ∈ els, x.length = num := by
    intro x hx
    obtain ⟨i, hi, rfl⟩ := List.mem_iff_getElem.1 hx
    exact (hget i (by rw [h.length_eq]; exact hi) hi).2
  have hsend : ranks.mapM (fun (r : Node × Mem) => reduceSend r.1 r.2) = .ok (els.map fun x => (id, x)) := by
    clear hall hget ho
    induction h with
    | nil => rfl
    | cons a _ ih => rw [List.mapM_cons, reducible_send hid hnum a.1 a.2, bind_ok, ih, bind_ok]; rfl
  obtain ⟨hi, ho'⟩ := List.getElem?_eq_some_iff.1 ho
  have hi' : root < els.length := by rw [← h.length_eq]; exact hi
  have hown := hget root hi hi'
  simp only [List.get_eq_getElem] at hown
  rw [ho'] at hown
  obtain ⟨R, m1, m2, m3⟩ := reduced_ok hop hf hall
  obtain ⟨r, r1, r2⟩ := reduced_recv hid hown.1 (by rw [m2.1, hown.2]) m3 base hd
  refine ⟨r, R, ?_, m2, r2⟩
  unfold reduce
  rw [hsend, bind_ok, ho, List.getElem?_map, List.getElem?_eq_getElem hi', Option.map_some]
  simp only [hown.2]
  rw [m1, bind_ok, r1]

/-! ### cases that meet the hypotheses -/

/-- `MPI_SUM` for bytes and for 16-bit integers of a little-endian machine -/
def sumOp : MpiOp
  | .uint8 => some fun l => [l.foldl (fun a b => a + b.headD 0) 0]
  | .int16 => some fun l =>
    let s := (l.map fun b => (b.getD 0 0).toNat + 256 * (b.getD 1 0).toNat).sum
    [UInt8.ofNat s, UInt8.ofNat (s / 256)]
  | _ => none

/-- a longer leaf to receive into -/
def longLeaf : Node := .leaf ⟨some ⟨0, 0⟩, true⟩ { DataType.ofId .uint8 3 with endian := .big }
def longMem : Mem := [some [9, 9, 7]]

theorem longLeaf_ok : DestOK longMem longLeaf := by
  refine ⟨?_, trivial, ?_, ?_, ⟨by decide, ?_⟩, ?_, ?_⟩
  · simp only [longLeaf, Readable]; decide
  · simp only [longLeaf, places, leafPlaces, DataType.ofId, TypeId.bytes]
    simp [List.range_succ, NoShare, Place.Has]
    refine ⟨⟨?_, ?_⟩, ?_⟩ <;> intros <;> omega
  · simp [longLeaf, NatSize, DataType.ofId, TypeId.bytes]
  · intro p hp
    simp [longLeaf, owned, ownPtr] at hp
    subst hp
    exact ⟨rfl, [9, 9, 7], rfl⟩
  · simp [longLeaf, Clean, CleanInfo, DataType.ofId]
  · simp [longLeaf, Tidy]

/-- two ranks: a compact leaf that is received into a longer one, a strided leaf that is received into an object -/
def reduceRanks : List ((Node × Mem) × (Nat → Int) × Node × Mem) :=
  [((.leaf ⟨some ⟨0, 0⟩, true⟩ (DataType.ofId .uint8 2), [some [1, 2]]), conBase, longLeaf, longMem),
   ((.leaf ⟨some ⟨0, 0⟩, false⟩ { DataType.ofId .uint8 2 with offset := 1, stride := 2 }, [some [0, 3, 0, 4]]), conBase, plainDest, plainMem)]

theorem reduceRanks_ok : List.Forall₂ (fun (r : (Node × Mem) × (Nat → Int) × Node × Mem) x => Reducible .uint8 r.1 x ∧ x.length = 2)
    reduceRanks [[[1], [2]], [[3], [4]]] ∧ ∀ r ∈ reduceRanks, DestOK r.2.2.2 r.2.2.1 := by
  refine ⟨.cons ⟨⟨⟨.default, by decide +kernel⟩, ?_, fun _ => by decide⟩, rfl⟩ (.cons ⟨⟨⟨.default, by decide +kernel⟩, ?_, fun h => absurd h (by decide +kernel)⟩, rfl⟩ .nil), ?_⟩
  · simp only [Readable]; decide
  · simp only [Readable]; decide
  · intro r hr
    simp only [reduceRanks, List.mem_cons, List.not_mem_nil, or_false] at hr
    rcases hr with rfl | rfl
    · exact longLeaf_ok
    · exact plainDest_ok.1

theorem C103_example :
    (allReduce sumOp reduceRanks).bind (fun rs => .ok (rs.map fun r => val r.1 r.2)) =
      .ok [.leaf .uint8 .big [[some 4], [some 6], [some 7]], .leaf .uint8 .default [[some 4], [some 6]]] ∧
    (reduce sumOp (reduceRanks.map Prod.fst) 1 conBase new []).bind (fun r => .ok (val r.1 r.2)) =
      .ok (.leaf .uint8 .default [[some 4], [some 6]]) := by
  constructor <;> decide +kernel

/-! ### where more than this would be false -/

/-- C103 needs compact leaves to begin at their data pointer: of the elements 2, 3 at offset 1 (as a leaf of a compact tree has), the bytes from
    offset 0 are reduced. -/
theorem C103_offset_false :
    val [some [1, 2, 3]] (.leaf ⟨some ⟨0, 0⟩, false⟩ { DataType.ofId .uint8 2 with offset := 1 }) = .leaf .uint8 .default [[some 2], [some 3]] ∧
    (reduce sumOp [(.leaf ⟨some ⟨0, 0⟩, false⟩ { DataType.ofId .uint8 2 with offset := 1 }, [some [1, 2, 3]])] 0 conBase new []).bind
      (fun r => .ok (val r.1 r.2)) = .ok (.leaf .uint8 .default [[some 1], [some 2]]) := by
  constructor <;> decide +kernel

/-- The operation is done on bytes in the order of the machine: of numbers declared to be big-endian, 200 and 100, the
    sum is 44. -/
theorem C103_byte_order_false :
    (reduce sumOp [(.leaf ⟨some ⟨0, 0⟩, true⟩ { DataType.ofId .int16 1 with endian := .big }, [some [0, 200]]),
      (.leaf ⟨some ⟨0, 0⟩, true⟩ { DataType.ofId .int16 1 with endian := .big }, [some [0, 100]])] 0 conBase new []).bind
      (fun r => .ok (val r.1 r.2)) = .ok (.leaf .int16 .big [[some 0, some 44]]) := by
  decide +kernel

end Conduit
