import Verif.Lemmas.ListOf
import Verif.Props.PlainMsg
import Verif.Props.NodeSync
/-
C101: lists of entries of one schema (`list_of`, `list_of_external`).
C102: nodes of one schema gathered with `gather` and `all_gather`.
-/
namespace Conduit
open Spec Spec.Tree Schema Node Relay

/-! ### C101 -/

/-- the leaves of a schema have no negative number of elements and their types' sizes, and none is an object or list -/
def Entry (s : Schema) : Prop := ∀ d ∈ s.leaves, LeafOK d

/-- C101: `list_of` makes any node a list of the given number of entries of the compacted schema.  Whatever the memory holds later, the
    bytes of all elements of all entries are those of the node's one new buffer, in order, without gap; they are zero at first.
    Memory other than the old buffers of the node is unchanged. -/
theorem C101_list_of (s : Schema) (hs : Entry s) (k : Nat) (dest : Node) (m : Mem) (hd : GoodOwners m (owned dest)) :
    ∃ m' n', listOf s k dest m = .ok (m', n') ∧ n'.schema = .lst (List.replicate k s.compactTo) ∧
      (∀ m2, flat (val m2 n') = (List.range (k * s.totalBytesCompact.toNat)).map fun (j : Nat) => m2.byte m.length j) ∧
      flat (val m' n') = List.replicate (k * s.totalBytesCompact.toNat) (some 0) ∧
      Readable m' n' ∧ owned n' = [⟨m.length, 0⟩] ∧ GoodOwners m' (owned n') ∧
      (∀ b, b < m.length → b ∉ (owned dest).map Ptr.blk → ∀ i, m'.byte b i = m.byte b i) := by
  have hc : CountsOK s := fun d h => (hs d h).1
  obtain ⟨T, hT⟩ := Int.eq_ofNat_of_zero_le (total_nonneg _ hc)
  have hT' : totalBytesCompact s = (T : Int) := hT
  obtain ⟨m1, a1, a2, a3, a4⟩ := listOf_ok hT' k hd
  have hn : s.totalBytesCompact.toNat = T := by omega
  rw [hn]
  have hf : ∀ m2, flat (val m2 (.lst ⟨some ⟨m.length, 0⟩, true⟩ (listEntries (some ⟨m.length, 0⟩) s.compactTo k))) =
      (List.range (k * T)).map fun (j : Nat) => m2.byte m.length j := by
    intro m2
    rw [val, flat, flat_entries m2 ⟨m.length, 0⟩ s T hc hT']
    simp only [Int.zero_add]
  have hz : ∀ j : Nat, j < k * T → (m1.alloc (k * T)).1.byte m.length j = some 0 := by
    intro j hj
    rw [← a2, Mem.byte_alloc_new, if_pos (by omega)]
  refine ⟨_, _, a4, ?_, hf, ?_, ?_, ?_, ?_, ?_⟩
  · rw [schema, schema_entries]
  · rw [hf]
    apply List.ext_getElem?
    intro i
    simp only [List.getElem?_map, List.getElem?_replicate]
    by_cases h : i < k * T
    · rw [List.getElem?_range h, if_pos h, Option.map_some, hz i h]
    · rw [List.getElem?_eq_none (by rw [List.length_range]; omega), if_neg h]; rfl
  · refine readable_entries hs hT' ?_
    intro j hj
    simp only [Int.zero_add]
    rw [hz j hj]; rfl
  · rw [owned, owned_entries]; simp [ownPtr]
  · rw [owned, owned_entries]
    refine ⟨by simp [ownPtr], fun p hp => ?_⟩
    simp only [ownPtr, if_true, List.append_nil, Option.toList, List.mem_singleton] at hp
    subst hp
    refine ⟨rfl, live_iff.2 ?_⟩
    rw [← a2]
    simp [Mem.size, Mem.alloc]
  · intro b hb hb' i
    rw [Mem.byte_alloc_old _ _ _ _ (by omega)]
    unfold Mem.byte
    rw [a3 b hb']

/-- C101: `list_of_external` makes a node that is not a list with entries a list whose elements are the bytes at `data`, in order, without
    gap; nothing is copied, the node owns nothing, and no byte is changed. -/
theorem C101_list_of_external (q : Ptr) (s : Schema) (hs : Entry s) (k : Nat) (dest : Node) (m : Mem) (hd : GoodOwners m (owned dest))
    (hcl : Clean dest) (hl : ∀ x c cs, dest ≠ .lst x (c :: cs)) :
    ∃ m' n', listOfExternal (some q) s k dest m = .ok (m', n') ∧ n'.schema = .lst (List.replicate k s.compactTo) ∧
      (∀ m2, flat (val m2 n') = (List.range (k * s.totalBytesCompact.toNat)).map fun (j : Nat) => m2.byte q.blk (q.off + j)) ∧
      owned n' = [] ∧ (∀ b, b ∉ (owned dest).map Ptr.blk → ∀ i, m'.byte b i = m.byte b i) ∧
      (q.blk ∉ (owned dest).map Ptr.blk → (∀ j : Nat, j < k * s.totalBytesCompact.toNat → (m.byte q.blk (q.off + j)).isSome) →
        Readable m' n') := by
  have hc : CountsOK s := fun d h => (hs d h).1
  obtain ⟨T, hT⟩ := Int.eq_ofNat_of_zero_le (total_nonneg _ hc)
  have hT' : totalBytesCompact s = (T : Int) := hT
  have hn : s.totalBytesCompact.toNat = T := by omega
  obtain ⟨m1, a1, a2⟩ := releaseMem_spec dest m hd
  have hal : dest.releasedInfo.alloced = false := by
    unfold releasedInfo
    split
    · rfl
    · rename_i h
      cases dest with
      | leaf x d =>
        by_cases he : d.id = .empty
        · exact hcl.2 he
        · cases hx : x.alloced with
          | false => exact hx
          | true => exact absurd (by simp [info, dtype, hx, hcl.1 hx, he]) h
      | obj x es =>
        cases hx : x.alloced with
        | false => exact hx
        | true => exact absurd (by simp [info, dtype, hx, hcl.1 hx]) h
      | lst x es =>
        cases hx : x.alloced with
        | false => exact hx
        | true => exact absurd (by simp [info, dtype, hx, hcl.1 hx]) h
  have hb : ∀ b, b ∉ (owned dest).map Ptr.blk → ∀ i, m1.byte b i = m.byte b i := by
    intro b hb i
    unfold Mem.byte
    rw [a2.2 b hb]
  refine ⟨m1, .lst ⟨some q, false⟩ (listEntries (some q) s.compactTo k), ?_, ?_, ?_, ?_, hb, ?_⟩
  · unfold listOfExternal
    rw [a1, bind_ok]
    split
    · rename_i x c cs
      exact absurd rfl (hl x c cs)
    · rw [hal]
  · rw [schema, schema_entries]
  · intro m2
    rw [hn, val, flat, flat_entries m2 q s T hc hT']
  · rw [owned, owned_entries]; simp [ownPtr]
  · intro h1 h2
    rw [hn] at h2
    refine readable_entries hs hT' fun j hj => ?_
    rw [hb _ h1]
    exact h2 j hj

/-- a strided pair of leaves: its entries are compact -/
def entryS : Schema := .obj [(chars! "a", .leaf { DataType.ofId .int16 2 with stride := 4, offset := 3 }), (chars! "b", .leaf (DataType.ofId .uint8 1))]
theorem entryS_ok : Entry entryS := by
  intro d hd
  simp [entryS, leaves, leavesE] at hd
  rcases hd with rfl | rfl <;> refine ⟨?_, ?_, ?_⟩ <;> decide
example : GoodOwners sendMem (owned new) ∧ Clean new := ⟨good_nil _, by simp [new, Clean, CleanInfo]⟩

/-- three entries of five bytes each; the second one is the bytes 5 to 9 -/
theorem C101_example : (listOfExternal (some ⟨0, 1⟩) entryS 3 new [some [0, 1, 2, 3, 4, 5, 6, 7, 8, 9, 10, 11, 12, 13, 14, 15]]).bind
      (fun r => .ok (val r.1 r.2)) =
    .ok (.lst ((List.range 3).map fun i => .obj [(chars! "a", .leaf .int16 .default [[some (UInt8.ofNat (5 * i + 1)), some (UInt8.ofNat (5 * i + 2))],
        [some (UInt8.ofNat (5 * i + 3)), some (UInt8.ofNat (5 * i + 4))]]), (chars! "b", .leaf .uint8 .default [[some (UInt8.ofNat (5 * i + 5))]])])) := by
  decide +kernel

/-- C101 is false for `list_of_external` on a list with entries: the old schemas stay.  After a list of two entries was made twice, the
    node has two children and its schema four, so `number_of_children()`, which asks the schema, is four. -/
theorem C101_list_of_external_twice_false : ∃ h,
    ((((Heap.init.newNode.1.listOfExternalN 0 (some ⟨0, 0⟩) (.leaf (DataType.ofId .uint8 1)) 2).bind
      fun g => g.listOfExternalN 0 (some ⟨0, 0⟩) (.leaf (DataType.ofId .uint8 1)) 2)) = .ok h) ∧
    (h.nodes 0).map (fun o => o.children.length) = some 2 ∧ (h.schemas 0).map (fun o => o.children.length) = some 4 ∧ ¬ Heap.Lockstep h := by
  refine ⟨_, Res.good_eq Heap.init (by decide +kernel), by decide +kernel, by decide +kernel, ?_⟩
  exact not_lockstep (n := 0) (s := 0) (k := [3, 4]) (l := [1, 3, 5, 7]) (by decide +kernel) (by decide +kernel) (by decide)

/-! ### C102 -/

/-- The nodes that the ranks send: readable, of one total size. -/
structure OneSize (ranks : List ((Nat → Int) × Node × Mem)) : Prop where
  readable : ∀ r ∈ ranks, Readable r.2.2 r.2.1
  transferable : ∀ r ∈ ranks, Transferable r.1 r.2.1
  size : ∀ r ∈ ranks, ∀ r' ∈ ranks, r.2.1.schema.totalBytesCompact = r'.2.1.schema.totalBytesCompact

/-- What a rank has after it gathered: the list of what the ranks sent, in the order of the ranks, seen with the rank's own tree, names, types and byte orders;
    it is in one new buffer; memory other than the old buffers of `recv_node` is unchanged. -/
structure Gathered (ranks : List ((Nat → Int) × Node × Mem)) (own : (Nat → Int) × Node × Mem) (dest : Node) (m : Mem) (r : Mem × Node) : Prop where
  bytes : flat (val r.1 r.2) = (ranks.map fun x => flat (val x.2.2 x.2.1)).flatten
  tree : blank (val r.1 r.2) = .lst (List.replicate ranks.length (blank (val own.2.2 own.2.1)))
  same : (∀ x ∈ ranks, blank (val x.2.2 x.2.1) = blank (val own.2.2 own.2.1)) → val r.1 r.2 = .lst (ranks.map fun x => val x.2.2 x.2.1)
  readable : Readable r.1 r.2
  owned : owned r.2 = [⟨m.length, 0⟩]
  good : GoodOwners r.1 (Spec.owned r.2)
  rest : ∀ b, b < m.length → b ∉ (Spec.owned dest).map Ptr.blk → ∀ i, r.1.byte b i = m.byte b i

theorem flatL_flatten : ∀ l : List Val, flatL l = (l.map flat).flatten
  | [] => rfl
  | v :: l => by rw [flatL, flatL_flatten l]; rfl
theorem blankL_map : ∀ l : List Val, blankL l = l.map blank
  | [] => rfl
  | v :: l => by rw [blankL, blankL_map l]; rfl

theorem gathered_ok {ranks : List ((Nat → Int) × Node × Mem)} (h : OneSize ranks) {own : (Nat → Int) × Node × Mem} (ho : own ∈ ranks)
    {parts : List (List UInt8)} (hp : List.Forall₂ (fun (r : (Nat → Int) × Node × Mem) (x : List UInt8) =>
      x.map some = flat (val r.2.2 r.2.1) ∧ (x.length : Int) = r.2.1.schema.totalBytesCompact) ranks parts)
    {dest : Node} {m : Mem} (hd : GoodOwners m (owned dest)) :
    ∃ r, gatherList own.2.1 parts dest m = .ok r ∧ Gathered ranks own dest m r := by
  have hlen := hp.length_eq
  obtain ⟨m', n', g1, g2, g3, g4, g5, g6, g7⟩ := gatherList_ok (h.readable own ho) (h.transferable own ho).size (parts := parts) (by
    intro x hx
    obtain ⟨i, hi, rfl⟩ := List.getElem_of_mem hx
    have := List.forall₂_iff_get.1 hp
    have q := (this.2 i (by omega) hi).2
    simp only [List.get_eq_getElem] at q
    rw [q]
    exact h.size _ (List.getElem_mem _) _ ho) hd
  have hb : parts.flatten.map some = (ranks.map fun x => flat (val x.2.2 x.2.1)).flatten := by
    clear g1 g2 g3 hlen h ho
    induction hp with
    | nil => rfl
    | cons h1 _ ih => rw [List.flatten_cons, List.map_append, h1.1, ih, List.map_cons, List.flatten_cons]
  refine ⟨(m', n'), g1, by rw [g2, hb], by rw [g3, hlen], ?_, g4, g5, g6, g7⟩
  intro hs
  apply blank_flat_inj
  · rw [g3, blank, blankL_map, List.map_map, ← hlen]
    congr 1
    symm
    rw [List.eq_replicate_iff]
    refine ⟨by simp, fun b hb => ?_⟩
    obtain ⟨x, hx, rfl⟩ := List.mem_map.1 hb
    exact hs x hx
  · rw [g2, hb, flat, flatL_flatten, List.map_map]; rfl

/-- C102: `all_gather` gives every rank, in its `recv_node`, the list of the nodes of all ranks in order: the same bytes in all elements, and, if the
    nodes have the same tree, names, types, byte orders and numbers of elements, the same values, however each of them lies in memory. -/
theorem C102_all_gather (ranks : List (((Nat → Int) × Node × Mem) × Node × Mem)) (h : OneSize (ranks.map (·.1)))
    (hd : ∀ r ∈ ranks, GoodOwners r.2.2 (owned r.2.1)) :
    ∃ rs, allGather ranks = .ok rs ∧ List.Forall₂ (fun (r : ((Nat → Int) × Node × Mem) × Node × Mem) (x : Mem × Node) =>
      Gathered (ranks.map (·.1)) r.1 r.2.1 r.2.2 x) ranks rs := by
  obtain ⟨parts, p1, p2⟩ := Mesh.mapM_res (fun (r : ((Nat → Int) × Node × Mem) × Node × Mem) => plainSend r.1.1 r.1.2.1 r.1.2.2)
    (fun (r : ((Nat → Int) × Node × Mem) × Node × Mem) (x : List UInt8) =>
      x.map some = flat (val r.1.2.2 r.1.2.1) ∧ (x.length : Int) = r.1.2.1.schema.totalBytesCompact) ranks (by
    intro r hr
    have hm := List.mem_map_of_mem (f := fun (x : ((Nat → Int) × Node × Mem) × Node × Mem) => x.1) hr
    exact plainSend_ok (h.readable _ hm) (h.transferable _ hm).run (h.transferable _ hm).size)
  obtain ⟨rs, q1, q2⟩ := Mesh.mapM_res (fun (r : ((Nat → Int) × Node × Mem) × Node × Mem) => gatherList r.1.2.1 parts r.2.1 r.2.2)
    (fun (r : ((Nat → Int) × Node × Mem) × Node × Mem) (x : Mem × Node) => Gathered (ranks.map (·.1)) r.1 r.2.1 r.2.2 x) ranks (by
    intro r hr
    exact gathered_ok h (List.mem_map_of_mem (f := fun (x : ((Nat → Int) × Node × Mem) × Node × Mem) => x.1) hr)
      (List.forall₂_map_left_iff.2 p2) (hd r hr))
  refine ⟨rs, ?_, q2⟩
  unfold allGather
  rw [p1, bind_ok, q1]

/-- a node that is sent from its own memory begins at its data pointer -/
def AtStart (base : Nat → Int) (n : Node) : Prop :=
  ∀ p o, ownData base n = some (p, o) → ∃ q q' : Ptr, p = some q ∧ n.info.data = some q' ∧ q.blk = q'.blk ∧ q.off + o = q'.off

/-- C102: `gather` gives the root this list, if every node that is compact and contiguous begins at its own data pointer. -/
theorem C102_gather (ranks : List ((Nat → Int) × Node × Mem)) (h : OneSize ranks) (hs : ∀ r ∈ ranks, AtStart r.1 r.2.1)
    (root : Nat) (own : (Nat → Int) × Node × Mem) (ho : ranks[root]? = some own) (dest : Node) (m : Mem) (hd : GoodOwners m (owned dest)) :
    ∃ r, gather ranks root dest m = .ok r ∧ Gathered ranks own dest m r := by
  obtain ⟨parts, p1, p2⟩ := Mesh.mapM_res (fun (r : (Nat → Int) × Node × Mem) => gatherData r.1 r.2.1 r.2.2)
    (fun (r : (Nat → Int) × Node × Mem) (x : List UInt8) =>
      x.map some = flat (val r.2.2 r.2.1) ∧ (x.length : Int) = r.2.1.schema.totalBytesCompact) ranks (by
    intro r hr
    rw [gatherData_eq (hs r hr)]
    exact plainSend_ok (h.readable _ hr) (h.transferable _ hr).run (h.transferable _ hr).size)
  obtain ⟨r, g1, g2⟩ := gathered_ok h (List.mem_of_getElem? ho) p2 hd
  refine ⟨r, ?_, g2⟩
  unfold gather
  rw [p1, bind_ok, ho]
  exact g1

/-! ### cases that meet the hypotheses -/

/-- two ranks with nodes of one tree: a sub-node in one run, and a strided leaf with one apart from it -/
def listRanks : List ((Nat → Int) × Node × Mem) := [(conBase, subNode, sendMem), (conBase, plainDest, plainMem)]

theorem listRanks_ok : OneSize listRanks := by
  obtain ⟨d1, d2, _, d4⟩ := plainDest_ok
  refine ⟨?_, ?_, ?_⟩
  · intro r hr
    simp only [listRanks, List.mem_cons, List.not_mem_nil, or_false] at hr
    rcases hr with rfl | rfl
    · exact C46_subnode_false.1
    · exact d1.readable
  · intro r hr
    simp only [listRanks, List.mem_cons, List.not_mem_nil, or_false] at hr
    rcases hr with rfl | rfl
    · exact subNode_transferable
    · exact d2
  · intro r hr r' hr'
    simp only [listRanks, List.mem_cons, List.not_mem_nil, or_false] at hr hr'
    rcases hr with rfl | rfl <;> rcases hr' with rfl | rfl <;> simp only [d4]

example : OneSize ((listRanks.map fun r => (r, new, ([] : Mem))).map (·.1)) ∧
    ∀ r ∈ listRanks.map fun r => (r, new, ([] : Mem)), GoodOwners r.2.2 (owned r.2.1) := by
  refine ⟨listRanks_ok, ?_⟩
  intro r hr
  obtain ⟨x, _, rfl⟩ := List.mem_map.1 hr
  exact good_nil _

theorem C102_example : (allGather (listRanks.map fun r => (r, new, ([] : Mem)))).bind (fun rs => .ok (rs.map fun r => val r.1 r.2)) =
    .ok (List.replicate 2 (.lst [val sendMem subNode, val plainMem plainDest])) := by decide +kernel

/-- a strided node is copied first, so it meets the hypothesis of `gather` -/
example : AtStart conBase plainDest := by
  intro p o h
  have : ownData conBase plainDest = none := by decide +kernel
  rw [this] at h; cases h

/-! ### where `gather` fails -/

/-- `gather` of an object with one leaf that was set in the usual way: the object is compact and contiguous, but has no data
    pointer of its own, so a null pointer is given to MPI. -/
theorem C102_gather_object_false :
    val [some [7]] (.obj {} [(chars! "a", .leaf ⟨some ⟨0, 0⟩, true⟩ (DataType.ofId .uint8 1))]) = .obj [(chars! "a", .leaf .uint8 .default [[some 7]])] ∧
    (match gather [(conBase, .obj {} [(chars! "a", .leaf ⟨some ⟨0, 0⟩, true⟩ (DataType.ofId .uint8 1))], [some [7]])] 0 new [] with
      | .ub => true | _ => false) = true := by
  constructor <;> decide +kernel

/-- `gather` of a leaf with an offset sends the bytes from the beginning of its memory; `all_gather` sends the leaf's. -/
theorem C102_gather_offset_false :
    (gather [(conBase, .leaf ⟨some ⟨0, 0⟩, false⟩ { DataType.ofId .uint8 1 with offset := 1 }, [some [7, 8]])] 0 new []).bind
      (fun r => .ok (val r.1 r.2)) = .ok (.lst [.leaf .uint8 .default [[some 7]]]) ∧
    (allGather [((conBase, .leaf ⟨some ⟨0, 0⟩, false⟩ { DataType.ofId .uint8 1 with offset := 1 }, [some [7, 8]]), new, [])]).bind
      (fun rs => .ok (rs.map fun r => val r.1 r.2)) = .ok [.lst [.leaf .uint8 .default [[some 8]]]] := by
  constructor <;> decide +kernel

end Conduit
