import Verif.Lemmas.Isend
import Verif.Props.Irecv
/-
C106: the data of a node sent with `isend` and `wait`.
-/
namespace Conduit
open Spec Schema Node Relay

/-- Memory some time after `isend` (which made `m1` of `m`): the program does not touch what `isend` allocated, and if MPI sends from the node itself
    (it is compact and contiguous), it does not write the node's elements. -/
structure WhileSending (base : Nat → Int) (n : Node) (m m1 m' : Mem) : Prop where
  request : ∀ b, m.length ≤ b → b < m1.length → m'[b]? = m1[b]?
  node : n.schema.isCompact = false ∨ isContiguous base n = false ∨ ∀ pl ∈ places n, ∀ b i, pl.Has b i → m'.byte b i = m.byte b i

/-- C106: whenever between `isend` and the end of `wait` MPI reads the message, it is the bytes of the elements that the node had when `isend` was called, in
    order; a node that is not compact may be written meanwhile.  Neither `isend` nor `wait` changes memory of the program, and
    what `isend` allocated is freed. -/
theorem C106_isend (base : Nat → Int) (n : Node) (m : Mem) (hr : Readable m n) (ht : Transferable base n) :
    ∃ m1 r, isend base n m = .ok (m1, r) ∧ (∀ b i, b < m.length → m1.byte b i = m.byte b i) ∧
      ∀ m', WhileSending base n m m1 m' →
        (∃ msg, inFlight r m' = .ok msg ∧ msg.map some = flat (val m n)) ∧
        ∃ m2, waitSend r m' = .ok m2 ∧ (∀ b, b < m.length ∨ m1.length ≤ b → m2[b]? = m'[b]?) ∧
          ∀ b, m.length ≤ b → b < m1.length → ¬ Live m2 b := by
  obtain ⟨m1, r, t, i1, i2, i3, i4⟩ := isend_ok hr ht.run ht.size
  refine ⟨m1, r, i1, i2.keep, fun m' hw => ⟨sending_load i2 ?_, ?_⟩⟩
  · intro pl hpl b i hh
    cases ho : ownData base n with
    | some x =>
      obtain ⟨c1, c2, _⟩ := own_some ho
      have htn := i3 (by rw [ho]; rfl)
      subst htn
      have hb := blocks_lt t hr b (has_blocks t pl hpl b i hh)
      rcases hw.node with h | h | h
      · rw [c1] at h; cases h
      · rw [c2] at h; cases h
      · rw [h pl hpl b i hh, i2.keep b i hb]
    | none =>
      have hbt := has_blocks t pl hpl b i hh
      have h1 := i4 ho b hbt
      have h2 := blocks_lt t i2.rd b hbt
      unfold Mem.byte
      rw [hw.request b h1 h2]
  · have hin : ∀ q ∈ owned r.buf, m.length ≤ q.blk ∧ q.blk < m1.length := fun q hq => ⟨i2.new q hq, owned_lt i2.good q hq⟩
    have hgood : GoodOwners m' (owned r.buf) := by
      refine ⟨i2.good.1, fun q hq => ⟨(i2.good.2 q hq).1, ?_⟩⟩
      obtain ⟨bs, hbs⟩ := (i2.good.2 q hq).2
      exact ⟨bs, by rw [hw.request _ (hin q hq).1 (hin q hq).2]; exact hbs⟩
    obtain ⟨m2, r1, r2⟩ := reset_spec r.buf m' hgood
    refine ⟨m2, by unfold waitSend; rw [r1, bind_ok], fun b hb => r2.2 b (fun hm => ?_), i2.freed _ _ _ r1⟩
    obtain ⟨q, hq, rfl⟩ := List.mem_map.1 hm
    have := hin q hq
    omega

/-- C106: a node sent with `isend` and received with `irecv` and `wait` into a node of the same tree, names, types, byte orders and numbers of elements
    has the value that was sent, however the two lie in memory. -/
theorem C106_isend_irecv (base base' : Nat → Int) (n d : Node) (m md : Mem) (hr : Readable m n) (ht : Transferable base n)
    (hd : DestOK md d) (ht' : Transferable base' d) (hb : blank (val md d) = blank (val m n)) :
    ∃ m1 r md1 rd, isend base n m = .ok (m1, r) ∧ irecv base' d md = .ok (md1, rd) ∧
      ∀ m' more, WhileSending base n m m1 m' →
        ∃ msg md2 d2, inFlight r m' = .ok msg ∧ wait rd msg d (md1 ++ more) = .ok (md2, d2) ∧ val md2 d2 = val m n := by
  obtain ⟨m1, r, i1, _, i3⟩ := C106_isend base n m hr ht
  obtain ⟨md1, rd, j1, _, j3⟩ := C104_irecv_wait base' d md hd ht'
  refine ⟨m1, r, md1, rd, i1, j1, fun m' more hw => ?_⟩
  obtain ⟨⟨msg, k1, k2⟩, _⟩ := i3 m' hw
  have hl : (msg.length : Int) ≤ d.schema.totalBytesCompact := by
    have h1 : msg.length = (flat (val md d)).length := by
      have := congrArg List.length k2
      rw [List.length_map] at this
      rw [this, flat_blank_len, ← hb, ← flat_blank_len]
    rw [h1, flat_total hd.readable]
  obtain ⟨md2, d2, l1, l2, _⟩ := j3 more msg hl
  exact ⟨msg, md2, d2, k1, l1, l2.value _ hb.symm k2.symm⟩

/-! ### a case -/

/-- the sub-node of C100 is sent from its place, the strided node is sent from a copy -/
example : Readable sendMem subNode ∧ Transferable conBase subNode ∧ DestOK plainMem plainDest ∧ Transferable conBase plainDest ∧
    blank (val plainMem plainDest) = blank (val sendMem subNode) :=
  ⟨C46_subnode_false.1, subNode_transferable, plainDest_ok.1, plainDest_ok.2.1, plainDest_ok.2.2.1⟩

/-- a strided node that is written after `isend` -/
theorem C106_written_strided :
    ((isend conBase (.leaf ⟨some ⟨0, 0⟩, false⟩ { DataType.ofId .uint8 2 with stride := 2 }) [some [7, 8, 9]]).bind fun r =>
      (r.1.store (some ⟨0, 0⟩) 0 [55]).bind fun m1 => (inFlight r.2 m1).bind fun msg => (waitSend r.2 m1).bind fun m2 => .ok (msg, m2)) =
      .ok ([7, 9], [some [55, 8, 9], none]) := by decide +kernel

/-! ### where more than this would be false -/

/-- C106 needs a compact node not to be written before `wait`: what was written is sent. -/
theorem C106_written_compact_false :
    ((isend conBase (.leaf ⟨some ⟨0, 0⟩, false⟩ (DataType.ofId .uint8 3)) [some [7, 8, 9]]).bind fun r =>
      (r.1.store (some ⟨0, 0⟩) 0 [55]).bind fun m1 => inFlight r.2 m1) = .ok [55, 8, 9] := by decide +kernel

end Conduit
