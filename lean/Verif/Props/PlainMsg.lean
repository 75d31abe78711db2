import Verif.Lemmas.PlainMsg2
import Verif.Props.Bcast
/-
C100: the data of a node sent with `send` and received with `recv`, or given to all ranks with `broadcast`.
-/
namespace Conduit
open Spec Schema Node Relay

/-- What `send`, `recv` and `broadcast` need of a node: its data are smaller than 2 GiB, and if it is compact and contiguous,
    it is one run in one block of memory. -/
structure Transferable (base : Nat → Int) (n : Node) : Prop where
  run : n.schema.isCompact = true → isContiguous base n = true → OneRun base n
  size : n.schema.totalBytesCompact < 2 ^ 31

/-- C100: `send` makes a message of the bytes of all elements in order.  Every node of the same total
    size (in another process) that receives it with `recv` has these bytes in its elements, in order, with its tree, names, types, byte orders and
    numbers of elements as before; no other memory is changed.  If the receiver's node is of the same tree, names, types, byte orders and
    numbers of elements as the sender's, however the two lie in memory, it has the sender's values. -/
theorem C100_send_recv (base : Nat → Int) (n : Node) (m : Mem) (hr : Readable m n) (ht : Transferable base n) :
    ∃ msg, plainSend base n m = .ok msg ∧ msg.map some = flat (val m n) ∧
      ∀ (base' : Nat → Int) (dest : Node) (m2 : Mem), DestOK m2 dest → Transferable base' dest →
        dest.schema.totalBytesCompact = n.schema.totalBytesCompact →
        ∃ m3 n3, plainRecv base' msg dest m2 = .ok (m3, n3) ∧ flat (val m3 n3) = flat (val m n) ∧
          blank (val m3 n3) = blank (val m2 dest) ∧ DestOK m3 n3 ∧
          (blank (val m2 dest) = blank (val m n) → val m3 n3 = val m n) ∧
          (∀ b i, b < m2.length → b ∉ (owned dest).map Ptr.blk → (∀ pl ∈ places dest, ¬ pl.Has b i) →
            m3.byte b i = m2.byte b i) := by
  obtain ⟨msg, s1, s2, s3⟩ := plainSend_ok hr ht.run ht.size
  refine ⟨msg, s1, s2, fun base' dest m2 hd ht' hl => ?_⟩
  obtain ⟨⟨m3, n3⟩, r1, r2⟩ := plainRecv_ok (msg := msg) ⟨hd.readable, hd.separate, hd.size, hd.clean, hd.owners, hd.tidy⟩ hd.names
    ht'.run ht'.size (by rw [s3, hl])
  have hf : flat (val m3 n3) = flat (val m n) := by rw [r2.bytes, s2]
  refine ⟨m3, n3, r1, hf, r2.tree, ⟨r2.ready.readable, ?_, r2.ready.sep, r2.ready.nat, r2.ready.good, r2.ready.clean, r2.ready.tidy⟩, ?_, r2.rest⟩
  · rw [← distinct_blank, r2.tree, distinct_blank]; exact hd.names
  · intro hb
    exact blank_flat_inj _ _ (r2.tree.trans hb) hf

/-- C100: after `broadcast` every rank whose node is of the same tree, names, types, byte orders and numbers of elements as the
    root's has the root's values, however the nodes lie in memory. -/
theorem C100_broadcast (base : Nat → Int) (n : Node) (m : Mem) (hr : Readable m n) (ht : Transferable base n)
    (others : List ((Nat → Int) × Node × Mem)) (hd : ∀ r ∈ others, DestOK r.2.2 r.2.1) (ho : ∀ r ∈ others, Transferable r.1 r.2.1)
    (hl : ∀ r ∈ others, r.2.1.schema.totalBytesCompact = n.schema.totalBytesCompact) :
    ∃ rs, plainBroadcast base n m others = .ok rs ∧
      List.Forall₂ (fun (r : (Nat → Int) × Node × Mem) (r' : Mem × Node) =>
        flat (val r'.1 r'.2) = flat (val m n) ∧ blank (val r'.1 r'.2) = blank (val r.2.2 r.2.1) ∧
        (blank (val r.2.2 r.2.1) = blank (val m n) → val r'.1 r'.2 = val m n) ∧
        (∀ b i, b < r.2.2.length → b ∉ (owned r.2.1).map Ptr.blk → (∀ pl ∈ places r.2.1, ¬ pl.Has b i) →
          r'.1.byte b i = r.2.2.byte b i)) others rs := by
  obtain ⟨msg, s1, s2, s3⟩ := plainSend_ok hr ht.run ht.size
  obtain ⟨rs, q1, q2⟩ := Mesh.mapM_res (fun (r : (Nat → Int) × Node × Mem) =>
      if castInt r.2.1.schema.totalBytesCompact ≠ msg.length then .ub else plainRecv r.1 msg r.2.1 r.2.2)
    (fun (r : (Nat → Int) × Node × Mem) (r' : Mem × Node) =>
        flat (val r'.1 r'.2) = flat (val m n) ∧ blank (val r'.1 r'.2) = blank (val r.2.2 r.2.1) ∧
        (blank (val r.2.2 r.2.1) = blank (val m n) → val r'.1 r'.2 = val m n) ∧
        (∀ b i, b < r.2.2.length → b ∉ (owned r.2.1).map Ptr.blk → (∀ pl ∈ places r.2.1, ¬ pl.Has b i) →
          r'.1.byte b i = r.2.2.byte b i)) others (by
    intro r hm
    have d := hd r hm
    have hll := hl r hm
    have hsz := ht.size
    obtain ⟨r', r1, r2⟩ := plainRecv_ok (msg := msg) ⟨d.readable, d.separate, d.size, d.clean, d.owners, d.tidy⟩ d.names
      (ho r hm).run (ho r hm).size (by rw [s3, hll])
    have hf : flat (val r'.1 r'.2) = flat (val m n) := by rw [r2.bytes, s2]
    refine ⟨r', ?_, hf, r2.tree, fun hb => blank_flat_inj _ _ (r2.tree.trans hb) hf, r2.rest⟩
    rw [hll, ← s3, castInt_small (by omega) (by omega), if_neg (by simp)]
    exact r1)
  refine ⟨rs, ?_, q2⟩
  unfold plainBroadcast
  rw [s1, bind_ok, q1]

/-! ### cases that meet the hypotheses -/

/-- the sub-node `{u, v}` of a compact tree, which is one run -/
theorem subNode_transferable : Transferable conBase subNode := by
  have hr : ranges conBase subNode = [(1001, 2), (1003, 1)] := by decide +kernel
  refine ⟨fun _ _ => ⟨⟨0, ?_⟩, ?_, ?_⟩, by decide +kernel⟩
  · simp [subNode, InBlock, InBlockE]
  · simp [subNode, Dense, DenseE, DataType.ofId, TypeId.bytes]
  · rw [hr]; decide

/-- a receiver of the same tree: a strided leaf and one apart from it -/
def plainDest : Node :=
  .obj {} [(chars! "u", .leaf ⟨some ⟨0, 0⟩, false⟩ { DataType.ofId .uint8 2 with stride := 2 }),
    (chars! "v", .leaf ⟨some ⟨1, 0⟩, true⟩ (DataType.ofId .uint8 1))]
def plainMem : Mem := [some [9, 9, 9, 9], some [9]]

theorem plainDest_ok : DestOK plainMem plainDest ∧ Transferable conBase plainDest ∧
    blank (val plainMem plainDest) = blank (val sendMem subNode) ∧
    plainDest.schema.totalBytesCompact = subNode.schema.totalBytesCompact := by
  refine ⟨⟨?_, ?_, ?_, ?_, ⟨by decide, ?_⟩, ?_, ?_⟩, ⟨fun h => absurd h (by decide +kernel), by decide +kernel⟩, by decide +kernel, by decide +kernel⟩
  · simp only [plainDest, Readable, ReadableE]; decide
  · simp [plainDest, val, valE, DistinctV, DistinctVE, DataType.ofId]
  · simp only [plainDest, places, placesE, leafPlaces, DataType.ofId, TypeId.bytes]
    simp [List.range_succ, NoShare, Place.Has]
    refine ⟨⟨?_, ?_⟩, ?_⟩ <;> intros <;> omega
  · simp [plainDest, NatSize, NatSizeE, DataType.ofId, TypeId.bytes]
  · intro p hp
    simp [plainDest, owned, ownedE, ownPtr] at hp
    subst hp
    exact ⟨rfl, [9], rfl⟩
  · simp [plainDest, Clean, CleanE, CleanInfo, DataType.ofId]
  · simp [plainDest, Tidy, TidyE, Cross, owned, ownPtr, blocks, DataType.ofId]

example : Readable sendMem subNode ∧ Transferable conBase subNode ∧ DestOK plainMem plainDest ∧ Transferable conBase plainDest :=
  ⟨C46_subnode_false.1, subNode_transferable, plainDest_ok.1, plainDest_ok.2.1⟩

/-- the sub-node that `send_using_schema` and `broadcast_using_schema` give wrongly (C46, C99) is given rightly; the bytes between the
    receiver's elements stay -/
theorem C100_subnode :
    (plainBroadcast conBase subNode sendMem [(conBase, plainDest, plainMem)]).bind (fun rs => .ok (rs.map fun r => (val r.1 r.2, r.1[0]?))) =
      .ok [(val sendMem subNode, some (some [2, 9, 3, 9]))] := by decide +kernel

/-! ### where more than this would be false -/

/-- C100 needs equal sizes: a shorter message received into a strided leaf sets the elements it does not have to zero; received into a
    compact leaf it leaves them. -/
theorem C100_short_message_false :
    (plainRecv conBase [1] (.leaf ⟨some ⟨0, 0⟩, false⟩ { DataType.ofId .uint8 2 with stride := 2 }) [some [7, 8, 9]]).bind
        (fun r => .ok (val r.1 r.2)) = .ok (.leaf .uint8 .default [[some 1], [some 0]]) ∧
      (plainRecv conBase [1] (.leaf ⟨some ⟨0, 0⟩, false⟩ (DataType.ofId .uint8 2)) [some [7, 8, 9]]).bind
        (fun r => .ok (val r.1 r.2)) = .ok (.leaf .uint8 .default [[some 1], [some 8]]) := by
  constructor <;> decide +kernel

/-- C100 needs equal byte orders: bytes are sent, not numbers. -/
theorem C100_byte_order_false :
    (plainBroadcast conBase bcastLeaf sendMem
      [(conBase, .leaf ⟨some ⟨0, 0⟩, true⟩ { DataType.ofId .int16 2 with endian := .big }, [some [0, 0, 0, 0]])]).bind
        (fun rs => .ok (rs.map fun r => val r.1 r.2)) = .ok [.leaf .int16 .big [[some 1, some 2], [some 3, some 4]]] := by
  decide +kernel

end Conduit
