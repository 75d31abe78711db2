import Verif.Lemmas.Gather
import Verif.Props.Relay
/-
C98: nodes of different shapes gathered with `gather_using_schema` and `all_gather_using_schema`.
-/
namespace Conduit
open Spec Schema Node Relay

/-- What can be gathered: nodes that can be read, with names as in C20, made of bytes; all schema
    texts (each with the 0 behind it) together and all data together are smaller than 2 GiB. -/
structure Gatherable (big : Bool) (ranks : List (Node × Mem)) : Prop where
  readable : ∀ r ∈ ranks, Readable r.2 r.1
  names : ∀ r ∈ ranks, NamesOK r.1.schema
  bytes : ∀ r ∈ ranks, ByteNames r.1.schema
  texts : (ranks.map fun r => ((schemaText big r.1.schema.compactTo).length : Int) + 1).sum < 2 ^ 31
  data : (ranks.map fun r => r.1.schema.totalBytesCompact).sum < 2 ^ 31

theorem mem_le_sum {l : List Int} (h : ∀ x ∈ l, 0 ≤ x) : ∀ x ∈ l, x ≤ l.sum := by
  induction l with
  | nil => intro x hx; cases hx
  | cons a l ih =>
    have hs : 0 ≤ l.sum := by
      clear ih
      induction l with
      | nil => simp
      | cons b l ih2 =>
        rw [List.sum_cons]
        have := h b (by simp)
        have := ih2 (fun x hx => h x (by rcases List.mem_cons.1 hx with rfl | hx <;> simp [*]))
        omega
    intro x hx
    rw [List.sum_cons]
    have ha := h a (by simp)
    rcases List.mem_cons.1 hx with rfl | hx
    · omega
    · have := ih (fun x hx => h x (by simp [hx])) x hx
      omega

theorem sum_texts {big : Bool} {ranks : List (Node × Mem)} {parts : List (List UInt8 × List UInt8)}
    (h : List.Forall₂ (Part big) ranks parts) :
    ((parts.map (·.1)).flatten.length : Int) = (ranks.map fun r => ((schemaText big r.1.schema.compactTo).length : Int) + 1).sum := by
  induction h with
  | nil => rfl
  | @cons r x ranks parts hp _ ih =>
    simp only [List.map_cons, List.sum_cons]
    rw [← ih, List.flatten_cons, List.length_append, hp.text]
    simp only [List.length_append, List.length_map, List.length_cons, List.length_nil]
    omega

theorem sum_data {big : Bool} {ranks : List (Node × Mem)} {parts : List (List UInt8 × List UInt8)}
    (h : List.Forall₂ (Part big) ranks parts) :
    ((parts.map (·.2)).flatten.length : Int) = (ranks.map fun r => r.1.schema.totalBytesCompact).sum := by
  induction h with
  | nil => rfl
  | @cons r x ranks parts hp _ ih =>
    simp only [List.map_cons, List.sum_cons]
    rw [← ih, List.flatten_cons, List.length_append, ← hp.len]
    omega

theorem gather_parts {big : Bool} {ranks : List (Node × Mem)} (h : Gatherable big ranks) :
    ∃ parts, (ranks.mapM fun (r : Node × Mem) => gatherSend big r.1 r.2) = .ok parts ∧ List.Forall₂ (Part big) ranks parts ∧
      (∀ r ∈ ranks, Sends big r) ∧ (∀ r ∈ ranks, totalBytesCompact r.1.schema < 2 ^ 31) := by
  have hd : ∀ r ∈ ranks, totalBytesCompact r.1.schema < 2 ^ 31 := by
    intro r hr
    have := mem_le_sum (l := ranks.map fun r => r.1.schema.totalBytesCompact) (by
      intro x hx
      obtain ⟨r, hr, rfl⟩ := List.mem_map.1 hx
      exact total_nonneg _ (countsOK_of (h.readable r hr))) _ (List.mem_map.2 ⟨r, hr, rfl⟩)
    have := h.data
    omega
  have ht : ∀ r ∈ ranks, ((schemaText big r.1.schema.compactTo).length : Int) + 1 < 2 ^ 31 := by
    intro r hr
    have := mem_le_sum (l := ranks.map fun r => ((schemaText big r.1.schema.compactTo).length : Int) + 1) (by
      intro x hx
      obtain ⟨r, hr, rfl⟩ := List.mem_map.1 hx
      show (0 : Int) ≤ _
      omega) _ (List.mem_map.2 ⟨r, hr, rfl⟩)
    have := h.texts
    omega
  obtain ⟨parts, p1, p2⟩ := Mesh.mapM_res (fun (r : Node × Mem) => gatherSend big r.1 r.2) (Part big) ranks
    (fun r hr => gatherSend_ok big r.1 r.2 (h.readable r hr) (ht r hr) (hd r hr))
  exact ⟨parts, p1, p2, fun r hr => ⟨h.readable r hr, h.names r hr, h.bytes r hr⟩, hd⟩

/-- C98: on the root, `gather_using_schema` makes `recv_node` the list of what the ranks sent, in the order of
    the ranks: the same trees (also childless objects and lists) with the same values; the default byte order has become
    the machine's.  The list is compact, in one new buffer of its own; memory other than the old buffers of
    `recv_node` is unchanged. -/
theorem C98_gather (big : Bool) (ranks : List (Node × Mem)) (h : Gatherable big ranks) (dest : Node) (m : Mem)
    (hd : GoodOwners m (owned dest)) :
    ∃ m' n', gatherUsingSchema big ranks dest m = .ok (m', n') ∧
      val m' n' = .lst (ranks.map fun r => named big (val r.2 r.1)) ∧
      numbers big (val m' n') = .lst (ranks.map fun r => numbers big (val r.2 r.1)) ∧
      Readable m' n' ∧ (∀ b ∈ blocks n', b = m.length) ∧ n'.info = ⟨some ⟨m.length, 0⟩, true⟩ ∧
      (∀ b, b < m.length → b ∉ (owned dest).map Ptr.blk → ∀ i, m'.byte b i = m.byte b i) := by
  obtain ⟨parts, p1, p2, p3, p4⟩ := gather_parts h
  obtain ⟨m', n', r1, r2, r3, r4, r5, r6⟩ := gatherRecv_ok big p2 p3 (by rw [sum_texts p2]; exact h.texts)
    (by rw [sum_data p2]; exact h.data) p4 dest m hd
  refine ⟨m', n', ?_, r2, ?_, r3, r4, r5, r6⟩
  · unfold gatherUsingSchema
    rw [p1, bind_ok, r1]
  · rw [r2, numbers]
    congr 1
    clear p1 p2 p3 p4 r1 r2 h
    induction ranks with
    | nil => rfl
    | cons r ranks ih => rw [List.map_cons, List.map_cons, numbersL, numbers_named, ih]

/-- C98: `all_gather_using_schema` gives every rank that list. -/
theorem C98_all_gather (big : Bool) (ranks : List (Node × Mem)) (h : Gatherable big ranks) (dests : List (Node × Mem))
    (hd : ∀ d ∈ dests, GoodOwners d.2 (owned d.1)) :
    ∃ rs, allGatherUsingSchema big ranks dests = .ok rs ∧
      List.Forall₂ (fun (d : Node × Mem) (r : Mem × Node) =>
        val r.1 r.2 = .lst (ranks.map fun r => named big (val r.2 r.1)) ∧ Readable r.1 r.2 ∧
        (∀ b ∈ blocks r.2, b = d.2.length) ∧ r.2.info = ⟨some ⟨d.2.length, 0⟩, true⟩ ∧
        (∀ b, b < d.2.length → b ∉ (owned d.1).map Ptr.blk → ∀ i, r.1.byte b i = d.2.byte b i)) dests rs := by
  obtain ⟨parts, p1, p2, p3, p4⟩ := gather_parts h
  obtain ⟨rs, q1, q2⟩ := Mesh.mapM_res (fun (d : Node × Mem) => gatherRecv parts d.1 d.2) (fun (d : Node × Mem) (r : Mem × Node) =>
        val r.1 r.2 = .lst (ranks.map fun r => named big (val r.2 r.1)) ∧ Readable r.1 r.2 ∧
        (∀ b ∈ blocks r.2, b = d.2.length) ∧ r.2.info = ⟨some ⟨d.2.length, 0⟩, true⟩ ∧
        (∀ b, b < d.2.length → b ∉ (owned d.1).map Ptr.blk → ∀ i, r.1.byte b i = d.2.byte b i)) dests (by
    intro d hdm
    obtain ⟨m', n', r1, r⟩ := gatherRecv_ok big p2 p3 (by rw [sum_texts p2]; exact h.texts)
      (by rw [sum_data p2]; exact h.data) p4 d.1 d.2 (hd d hdm)
    exact ⟨(m', n'), r1, r⟩)
  refine ⟨rs, ?_, q2⟩
  unfold allGatherUsingSchema
  rw [p1, bind_ok, q1]

/-! ### a case that meets the hypotheses -/

/-- three ranks: a tree of strided and external leaves, a compact sub-node, and a node without data (an object with a childless
    object in it) -/
def gatherRanks : List (Node × Mem) :=
  [(copySrc, copyMem), (subNode, sendMem), (.obj {} [(chars! "e", .obj {} [])], [])]

theorem gatherRanks_ok : Gatherable false gatherRanks := by
  refine ⟨?_, ?_, ?_, by decide +kernel, by decide +kernel⟩
  · intro r hr
    simp only [gatherRanks, List.mem_cons, List.not_mem_nil, or_false] at hr
    rcases hr with rfl | rfl | rfl
    · exact (copySrc_sendable conBase).readable
    · exact C46_subnode_false.1
    · simp [Readable, ReadableE]
  · intro r hr
    simp only [gatherRanks, List.mem_cons, List.not_mem_nil, or_false] at hr
    rcases hr with rfl | rfl | rfl
    · exact (copySrc_sendable conBase).names
    · simp only [subNode, schema, schemaE, NamesOK, NamesOKE, CleanName]; decide
    · simp only [schema, schemaE, NamesOK, NamesOKE, CleanName]; decide
  · intro r hr
    simp only [gatherRanks, List.mem_cons, List.not_mem_nil, or_false] at hr
    rcases hr with rfl | rfl | rfl
    · exact (copySrc_sendable conBase).bytes
    · simp only [subNode, schema, schemaE, ByteNames, ByteNamesE]; decide
    · simp only [schema, schemaE, ByteNames, ByteNamesE]; decide

example : Gatherable false gatherRanks ∧ GoodOwners updMem (owned updDest) := ⟨gatherRanks_ok, upd_ok.dest_owners⟩

/-- the sub-node that `send_using_schema` cannot send (C46_subnode_false) and an external leaf are gathered with their values -/
theorem C98_subnode :
    (gatherUsingSchema false [(subNode, sendMem), (.leaf ⟨some ⟨0, 1⟩, false⟩ (DataType.ofId .uint8 2), sendMem)] new []).bind
        (fun r => .ok (val r.1 r.2)) =
      .ok (.lst [.obj [(chars! "u", .leaf .uint8 .little [[some 2], [some 3]]), (chars! "v", .leaf .uint8 .little [[some 4]])],
        .leaf .uint8 .little [[some 2], [some 3]]]) := by decide +kernel

/-! ### where the claim fails -/

/-- C98 is false from 2 GiB on: the sum of the counts is computed in an `int`; two contributions of 1 GiB overflow it. -/
theorem C98_sum_overflows_false (a b : List UInt8) (ha : a.length = 2 ^ 30) (hb : b.length = 2 ^ 30) :
    displs 0 [a, b] = .ub := by
  rw [displs, if_pos (by rw [ha]; decide), displs, if_neg (by rw [ha, hb]; decide)]
  rfl

end Conduit
