import Verif.Lemmas.Irecv
import Verif.Props.PlainMsg
/-
C104: the data of nodes received with `irecv` and `wait` or `wait_all`.
-/
namespace Conduit
open Spec Schema Node Relay

/-- What a node `d` is after it received a message: its elements have the bytes of the message in order, those after the end of the message stay;
    its tree, names, types, byte orders and numbers of elements stay.  So if the message is of a value of the same tree, names, types, byte orders and numbers
    of elements, it has this value. -/
structure Received (m : Mem) (d : Node) (msg : List UInt8) (m2 : Mem) (n : Node) : Prop where
  bytes : flat (val m2 n) = msg.map some ++ (flat (val m d)).drop msg.length
  tree : blank (val m2 n) = blank (val m d)
  value : ∀ v, blank v = blank (val m d) → flat v = msg.map some → val m2 n = v
  ok : DestOK m2 n

theorem received_of {m m1 m2 : Mem} {d n t : Node} {msg : List UInt8} (hdd : DistinctV (val m d))
    (hb : flat (val m1 t) = msg.map some ++ (flat (val m d)).drop msg.length) (hs : blankS t.schema = blankS d.schema)
    (hv : val m2 n = val m1 t) (hr : Ready m2 n) : Received m d msg m2 n := by
  have htree : blank (val m2 n) = blank (val m d) := by rw [hv, blank_val, hs, blank_val]
  refine ⟨by rw [hv, hb], htree, fun v h1 h2 => ?_, ⟨hr.readable, ?_, hr.sep, hr.nat, hr.good, hr.clean, hr.tidy⟩⟩
  · apply blank_flat_inj _ _ (htree.trans h1.symm)
    rw [hv, hb, h2, List.drop_eq_nil_of_le, List.append_nil]
    have := congrArg List.length h2
    rw [List.length_map] at this
    rw [← this, flat_blank_len, ← h1, ← flat_blank_len]
  · rw [← distinct_blank, htree, distinct_blank]; exact hdd

/-- C104: a node that received with `irecv` and `wait` has the bytes of the message, however it lies in memory and whatever other memory was
    allocated between; no other memory is changed, and what `irecv` allocated is freed. -/
theorem C104_irecv_wait (base : Nat → Int) (d : Node) (m : Mem) (hd : DestOK m d) (ht : Transferable base d) :
    ∃ m1 r, irecv base d m = .ok (m1, r) ∧ val m1 d = val m d ∧
      ∀ (more : Mem) (msg : List UInt8), (msg.length : Int) ≤ d.schema.totalBytesCompact →
        ∃ m2 n, wait r msg d (m1 ++ more) = .ok (m2, n) ∧ Received m d msg m2 n ∧
          (∀ b i, b < m.length → b ∉ (owned d).map Ptr.blk → (∀ pl ∈ places d, ¬ pl.Has b i) → m2.byte b i = m.byte b i) ∧
          ∀ b i, m.length ≤ b → b < m1.length → m2.byte b i = none := by
  have hready : Ready m d := ⟨hd.readable, hd.separate, hd.size, hd.clean, hd.owners, hd.tidy⟩
  obtain ⟨m1, r, i1, i2, i3, i4, i5, i6⟩ := irecv_ok hready hd.names ht.run ht.size
  refine ⟨m1, r, i1, (keep_ready i2 (by simp) hready).2, fun more msg hl => ?_⟩
  have hmore := within_more m1 more
  obtain ⟨k1, k2⟩ := keep_item hmore (y := ⟨r, d⟩) (by simp) i3
  obtain ⟨m2, d1, d2, d3, d4⟩ := deliver_ok k1 hl
  obtain ⟨m3, n, f1, f2⟩ := finish_ok d3
  refine ⟨m3, n, ?_, received_of hd.names (t := tgt ⟨r, d⟩) (m1 := m2) (by rw [d4, k2, i4]) i3.shape f2.value f2.ready, ?_, fun b i hb1 hb2 => ?_⟩
  · unfold wait
    rw [d1, bind_ok, f1]
  · intro b i hb ho hp
    have hall := (i2.trans hmore (zs := []) (by simp) (by simp)).trans (d2.trans f2.within (zs := [⟨r, d⟩]) (by simp) (by simp))
      (zs := [⟨r, d⟩]) (by simp) (by simp)
    refine hall.keep b i hb (fun x hx => ?_)
    rw [List.mem_singleton] at hx
    subst hx
    refine ⟨?_, fun hf => by have := i5 b i hf; omega⟩
    rintro (h | ⟨pl, h1, h2⟩)
    · exact ho h
    · exact hp pl h1 h2
  · obtain ⟨q, hq, rfl⟩ := i6 b hb1 hb2
    exact f2.dead q hq i

/-- C104: the same for any number of receives that are waited for with `wait_all`: every node has the bytes of its message.  The nodes have to be apart from each other
    as the children of a list are. -/
theorem C104_irecv_wait_all (base : Nat → Int) (ds : List Node) (m : Mem) (hd : DestOK m (.lst {} ds)) (ht : ∀ d ∈ ds, Transferable base d) :
    ∃ m1 rs, irecvAll base ds m = .ok (m1, rs) ∧ rs.length = ds.length ∧
      ∀ (more : Mem) (msgs : List (List UInt8)),
        List.Forall₂ (fun (d : Node) (msg : List UInt8) => (msg.length : Int) ≤ d.schema.totalBytesCompact) ds msgs →
        ∃ m2 ns, waitAll (rs.zip (msgs.zip ds)) (m1 ++ more) = .ok (m2, ns) ∧
          List.Forall₂ (fun (x : Node × List UInt8) n => Received m x.1 x.2 m2 n) (ds.zip msgs) ns ∧
          (∀ b i, b < m.length → (∀ d ∈ ds, b ∉ (owned d).map Ptr.blk ∧ ∀ pl ∈ places d, ¬ pl.Has b i) → m2.byte b i = m.byte b i) ∧
          ∀ b i, m.length ≤ b → b < m1.length → m2.byte b i = none := by
  have hready : Ready m (.lst {} ds) := ⟨hd.readable, hd.separate, hd.size, hd.clean, hd.owners, hd.tidy⟩
  obtain ⟨hown, hall, hpair⟩ := ready_lst.1 hready
  have hnames := distinct_children hd.names
  obtain ⟨m1, rs, i1, i2⟩ := irecvAll_ok ds m (fun d h => ⟨hall d h, hnames d h, (ht d h).run, (ht d h).size⟩) hpair
  refine ⟨m1, rs, i1, i2.len, fun more msgs hm => ?_⟩
  have hmore := within_more m1 more
  let l := (Relay.items rs ds).zip msgs
  have hlen : (Relay.items rs ds).length = msgs.length := by
    rw [Relay.items, List.length_map, List.length_zip, i2.len, Nat.min_self, hm.length_eq]
  have hfst : l.map Prod.fst = Relay.items rs ds := List.map_fst_zip (by omega)
  have hpack : pack l = rs.zip (msgs.zip ds) := pack_items rs ds msgs
  have hdest : l.map (fun x => (x.1.dest, x.2)) = ds.zip msgs := dest_items rs ds msgs i2.len
  have hin : ∀ x ∈ l, x.1 ∈ Relay.items rs ds := fun x hx => by rw [← hfst]; exact List.mem_map.2 ⟨x, hx, rfl⟩
  have hk : ∀ x ∈ l, Posted (m1 ++ more) x.1 ∧ val (m1 ++ more) (tgt x.1) = val m1 (tgt x.1) := fun x hx =>
    keep_item hmore (by simp) (i2.posted x.1 (hin x hx)).1
  obtain ⟨m2, d1, d2, d3⟩ := deliverAll_ok l (m1 ++ more) (fun x hx => (hk x hx).1) (by rw [hfst]; exact i2.sep) (by
    intro x hx
    have : (x.1.dest, x.2) ∈ ds.zip msgs := by rw [← hdest]; exact List.mem_map.2 ⟨x, hx, rfl⟩
    exact (List.forall₂_iff_zip.1 hm).2 this)
  obtain ⟨m3, ns, f1, f2, f3, f4⟩ := finishAll_ok l m2 (fun x hx => (d3 x hx).1) (by rw [hfst]; exact i2.sep)
  refine ⟨m3, ns, ?_, ?_, ?_, fun b i hb1 hb2 => ?_⟩
  · unfold waitAll
    rw [← hpack, d1, bind_ok, f1]
  · rw [← hdest, List.forall₂_map_left_iff]
    refine forall₂_mem f3 (fun x hx n h => ?_)
    obtain ⟨p1, p2, p3, p4⟩ := i2.posted x.1 (hin x hx)
    exact received_of (hnames _ p2) (t := tgt x.1) (m1 := m2) (by rw [(d3 x hx).2, (hk x hx).2, p3]) p1.shape h.1 h.2
  · intro b i hb hno
    have hw := (i2.within.trans hmore (zs := []) (by simp) (by simp)).trans (d2.trans f2 (zs := Relay.items rs ds) (by rw [hfst]; exact fun _ h => h) (by rw [hfst]; exact fun _ h => h))
      (zs := Relay.items rs ds) (by simp) (fun _ h => h)
    refine hw.keep b i hb (fun x hx => ?_)
    obtain ⟨p1, p2, p3, p4⟩ := i2.posted x hx
    refine ⟨?_, fun hf => by have := p4 b i hf; omega⟩
    rintro (h | ⟨pl, h1, h2⟩)
    · exact (hno _ p2).1 h
    · exact (hno _ p2).2 pl h1 h2
  · obtain ⟨x, hx, q, hq, rfl⟩ := i2.cover b hb1 hb2
    rw [← hfst] at hx
    obtain ⟨y, hy, rfl⟩ := List.mem_map.1 hx
    exact f4 y hy q hq i

/-! ### a case -/

/-- a node that is compact, beside `plainDest`, which is not -/
def irecvLeaf : Node := .leaf ⟨some ⟨2, 0⟩, true⟩ (DataType.ofId .uint8 3)
def irecvMem : Mem := [some [9, 9, 9, 9], some [9], some [5, 6, 7]]

theorem irecvDests_ok : DestOK irecvMem (.lst {} [plainDest, irecvLeaf]) ∧ ∀ d ∈ [plainDest, irecvLeaf], Transferable conBase d := by
  refine ⟨⟨?_, ?_, ?_, ?_, ⟨by decide, ?_⟩, ?_, ?_⟩, ?_⟩
  · simp only [plainDest, irecvLeaf, Readable, ReadableE, ReadableL]; decide
  · simp [plainDest, irecvLeaf, val, valE, valL, DistinctV, DistinctVE, DistinctVL, DataType.ofId]
  · simp only [plainDest, irecvLeaf, places, placesE, placesL, leafPlaces, DataType.ofId, TypeId.bytes]
    simp [List.range_succ, NoShare, Place.Has]
    refine ⟨⟨?_, ?_, ?_, ?_, ?_⟩, ⟨?_, ?_, ?_, ?_⟩, ⟨?_, ?_, ?_⟩, ⟨?_, ?_⟩, ?_⟩ <;> intros <;> omega
  · simp [plainDest, irecvLeaf, NatSize, NatSizeE, NatSizeL, DataType.ofId, TypeId.bytes]
  · intro p hp
    simp [plainDest, irecvLeaf, owned, ownedE, ownedL, ownPtr] at hp
    rcases hp with rfl | rfl
    · exact ⟨rfl, [9], rfl⟩
    · exact ⟨rfl, [5, 6, 7], rfl⟩
  · simp [plainDest, irecvLeaf, Clean, CleanE, CleanL, CleanInfo, DataType.ofId]
  · simp [plainDest, irecvLeaf, Tidy, TidyE, TidyL, Cross, owned, ownedE, ownPtr, blocks, blocksE, DataType.ofId]
  · intro d hd
    simp only [List.mem_cons, List.not_mem_nil, or_false] at hd
    rcases hd with rfl | rfl
    · exact plainDest_ok.2.1
    · have hr : ranges conBase irecvLeaf = [(conBase 2, 3)] := by decide +kernel
      refine ⟨fun _ _ => ⟨⟨2, ?_⟩, ?_, ?_⟩, by decide +kernel⟩
      · simp [irecvLeaf, InBlock]
      · simp [irecvLeaf, Dense, DataType.ofId, TypeId.bytes]
      · rw [hr]; decide

/-- both nodes receive, one of them a short message -/
theorem C104_two :
    ((irecvAll conBase [plainDest, irecvLeaf] irecvMem).bind fun r =>
      (waitAll (r.2.zip ([[1, 2, 3], [4]].zip [plainDest, irecvLeaf])) r.1).bind fun u => .ok (u.2.map (fun n => flat (val u.1 n)), u.1.take 3)) =
      .ok ([[some 1, some 2, some 3], [some 4, some 6, some 7]], [some [1, 9, 2, 9], some [3], some [4, 6, 7]]) := by decide +kernel

/-! ### where more than this would be false -/

/-- A short message received with `irecv` leaves the elements it does not have, where `recv` sets them to zero (`C100_short_message_false`). -/
theorem C104_short_message :
    ((irecv conBase (.leaf ⟨some ⟨0, 0⟩, false⟩ { DataType.ofId .uint8 2 with stride := 2 }) [some [7, 8, 9]]).bind fun r =>
      (wait r.2 [1] (.leaf ⟨some ⟨0, 0⟩, false⟩ { DataType.ofId .uint8 2 with stride := 2 }) r.1).bind fun u => .ok (val u.1 u.2)) =
      .ok (.leaf .uint8 .default [[some 1], [some 9]]) := by decide +kernel

/-- C104 needs memory that was there before `irecv` to be as it was: what the program writes into a strided node after `irecv` is undone by `wait`
    where the message is shorter, since the whole copy is written back. -/
theorem C104_written_between_false :
    ((irecv conBase (.leaf ⟨some ⟨0, 0⟩, false⟩ { DataType.ofId .uint8 2 with stride := 2 }) [some [7, 8, 9]]).bind fun r =>
      (r.1.store (some ⟨0, 0⟩) 2 [55]).bind fun m1 =>
      (wait r.2 [1] (.leaf ⟨some ⟨0, 0⟩, false⟩ { DataType.ofId .uint8 2 with stride := 2 }) m1).bind fun u => .ok (val u.1 u.2)) =
      .ok (.leaf .uint8 .default [[some 1], [some 9]]) := by decide +kernel

end Conduit
