import Verif.Lemmas.Bcast2
import Verif.Props.Gather
/-
C99: a node broadcast with `broadcast_using_schema`.
-/
namespace Conduit
open Spec Schema Node Relay

/-- What the root can broadcast. -/
structure Broadcastable (base : Nat → Int) (big : Bool) (m : Mem) (n : Node) : Prop where
  readable : Readable m n
  /-- names as in C20, made of bytes -/
  names : NamesOK n.schema
  bytes : ByteNames n.schema
  /-- if the node is compact and its elements are one run of memory, then it describes one buffer from its start
      (not a part of a larger tree), or has no leaf with an address -/
  alone : n.schema.isCompact = true → isContiguous base n = true →
    (∃ (p : Ptr) (al : Bool), n = walk (some p) al n.schema.compactTo ∧ 0 < base p.blk + p.off) ∨ firstElem base n = none
  /-- the text of the schema and the data are each smaller than 2 GiB -/
  text : ((schemaText big n.schema.compactTo).length : Int) + 1 < 2 ^ 31
  size : n.schema.totalBytesCompact < 2 ^ 31

/-- C99: after `broadcast_using_schema` the node of every other rank shows the root's tree and values, whatever it held before
    (its elements readable and apart, its buffers its own, and no leaf of the sent type with more elements); a leaf of
    the sent type and length is kept, with its declared byte order.  Memory other than the old
    node's is unchanged on every rank. -/
theorem C99_broadcast (base : Nat → Int) (big : Bool) (n : Node) (m : Mem) (h : Broadcastable base big m n)
    (others : List ((Nat → Int) × Node × Mem)) (hd : ∀ r ∈ others, DestOK r.2.2 r.2.1)
    (hl : ∀ r ∈ others, NotLonger (val m n) (val r.2.2 r.2.1)) :
    ∃ rs, broadcastUsingSchema base big n m others = .ok rs ∧
      List.Forall₂ (fun (r : (Nat → Int) × Node × Mem) (r' : Mem × Node) =>
        val r'.1 r'.2 = received (named big (val m n)) (val r.2.2 r.2.1) ∧ Readable r'.1 r'.2 ∧
        (∀ b i, b < r.2.2.length → b ∉ (owned r.2.1).map Ptr.blk → (∀ pl ∈ places r.2.1, ¬ pl.Has b i) →
          r'.1.byte b i = r.2.2.byte b i)) others rs := by
  obtain ⟨X, s1, s2⟩ := bcastSend_ok base big n m h.readable h.alone h.text h.size
  obtain ⟨rs, q1, q2⟩ := Mesh.mapM_res (fun (r : (Nat → Int) × Node × Mem) => bcastRecv r.1 X r.2.1 r.2.2)
    (fun (r : (Nat → Int) × Node × Mem) (r' : Mem × Node) =>
        val r'.1 r'.2 = received (named big (val m n)) (val r.2.2 r.2.1) ∧ Readable r'.1 r'.2 ∧
        (∀ b i, b < r.2.2.length → b ∉ (owned r.2.1).map Ptr.blk → (∀ pl ∈ places r.2.1, ¬ pl.Has b i) →
          r'.1.byte b i = r.2.2.byte b i)) others (by
    intro r hr
    have d := hd r hr
    obtain ⟨m', n', a1, a2⟩ := bcastRecv_ok s2 ⟨h.readable, h.names, h.bytes⟩ h.size r.1 r.2.1 r.2.2
      ⟨d.readable, d.separate, d.size, d.clean, d.owners, d.tidy⟩ (hl r hr)
    exact ⟨(m', n'), a1, a2⟩)
  refine ⟨rs, ?_, q2⟩
  unfold broadcastUsingSchema
  rw [s1, bind_ok, q1]

/-- C99: if no other rank has a leaf of the sent type (for instance if all have new nodes, or the root sends an object or a list),
    every rank has the root's values. -/
theorem C99_same_numbers (base : Nat → Int) (big : Bool) (n : Node) (m : Mem) (h : Broadcastable base big m n)
    (others : List ((Nat → Int) × Node × Mem)) (hd : ∀ r ∈ others, DestOK r.2.2 r.2.1)
    (hl : ∀ id e es, val m n = .leaf id e es → ∀ r ∈ others, ∀ e' es', val r.2.2 r.2.1 ≠ .leaf id e' es') :
    ∃ rs, broadcastUsingSchema base big n m others = .ok rs ∧ rs.length = others.length ∧
      ∀ r' ∈ rs, val r'.1 r'.2 = named big (val m n) ∧ numbers big (val r'.1 r'.2) = numbers big (val m n) := by
  obtain ⟨rs, q1, q2⟩ := C99_broadcast base big n m h others hd (by
    intro r hr
    cases hv : val m n with
    | obj _ => simp [NotLonger]
    | lst _ => simp [NotLonger]
    | leaf id e es =>
      cases hw : val r.2.2 r.2.1 with
      | obj _ => simp [NotLonger]
      | lst _ => simp [NotLonger]
      | leaf id' e' es' =>
        intro hid
        subst hid
        exact absurd hw (hl _ e es hv r hr e' es'))
  refine ⟨rs, q1, q2.length_eq.symm, ?_⟩
  have key : ∀ r ∈ others, received (named big (val m n)) (val r.2.2 r.2.1) = named big (val m n) := by
    intro r hr
    cases hv : val m n with
    | obj _ => simp [named, received]
    | lst _ => simp [named, received]
    | leaf id e es =>
      have hne := hl id e es hv r hr
      have : ∃ e', named big (.leaf id e es) = .leaf id e' es := by
        rw [named]; split <;> exact ⟨_, rfl⟩
      obtain ⟨e', he'⟩ := this
      rw [he']
      cases hw : val r.2.2 r.2.1 with
      | obj _ => simp [received]
      | lst _ => simp [received]
      | leaf id' e2 es2 =>
        rw [received, if_neg]
        rintro ⟨_, h3, _⟩
        exact hne e2 es2 (by rw [hw, h3])
  clear q1 hl hd
  induction q2 with
  | nil => intro r' hr'; cases hr'
  | @cons r r' _ _ h1 _ ih =>
    intro y hy
    rcases List.mem_cons.1 hy with rfl | hy
    · have := h1.1
      rw [key r (by simp)] at this
      exact ⟨this, by rw [this, numbers_named]⟩
    · exact ih (fun r hr => key r (by simp [hr])) y hy

/-! ### cases that meet the hypotheses -/

theorem destOK_new (m : Mem) : DestOK m new := by
  have hnew := ready_new m
  exact ⟨hnew.readable, trivial, hnew.sep, hnew.nat, hnew.good, hnew.clean, hnew.tidy⟩

theorem copySrc_broadcastable (base : Nat → Int) : Broadcastable base false copyMem copySrc := by
  have h := copySrc_sendable base
  exact ⟨h.readable, h.names, h.bytes, fun h => absurd h (by decide +kernel), by decide +kernel, by decide +kernel⟩

/-- strided and external leaves sent from buffers, into a node with two leaves and a new node -/
example : Broadcastable conBase false copyMem copySrc ∧
    (∀ r ∈ [(conBase, updDest, updMem), (conBase, new, [])], DestOK r.2.2 r.2.1) ∧
    (∀ id e es, val copyMem copySrc = .leaf id e es → ∀ r ∈ [(conBase, updDest, updMem), (conBase, new, [])], ∀ e' es',
      val r.2.2 r.2.1 ≠ .leaf id e' es') := by
  refine ⟨copySrc_broadcastable _, ?_, by intro id e es h; simp [copySrc, val] at h⟩
  intro r hr
  simp only [List.mem_cons, List.not_mem_nil, or_false] at hr
  rcases hr with rfl | rfl
  · exact ⟨upd_ok.dest_readable, upd_ok.dest_names, upd_ok.dest_separate, upd_ok.dest_size, upd_ok.dest_owners, upd_ok.dest_clean,
      upd_ok.dest_tidy⟩
  · exact destOK_new _

/-- a compact tree in its buffer is sent from there -/
example : Broadcastable conBase false sendMem aloneNode ∧ (ownData conBase aloneNode).isSome = true := by
  refine ⟨⟨?_, ?_, ?_, fun _ _ => .inl ⟨⟨0, 0⟩, true, by decide +kernel, by decide +kernel⟩, by decide +kernel, by decide +kernel⟩,
    by decide +kernel⟩
  · simp only [aloneNode, Readable, ReadableE]; decide
  · simp only [aloneNode, schema, schemaE, NamesOK, NamesOKE, CleanName]; decide
  · simp only [aloneNode, schema, schemaE, ByteNames, ByteNamesE]; decide

/-- one leaf of two 16 bit integers -/
def bcastLeaf : Node := .leaf ⟨some ⟨0, 0⟩, true⟩ (DataType.ofId .int16 2)

/-- a strided leaf (every other `int16`) and a compact leaf with an offset, external -/
def bcastStrided : Node := .leaf ⟨some ⟨0, 0⟩, false⟩ { DataType.ofId .int16 2 with stride := 4 }
def bcastOffset : Node := .leaf ⟨some ⟨0, 1⟩, false⟩ { DataType.ofId .int16 2 with offset := 1 }
def bcastMem : Mem := [some [0, 0, 0, 0, 0, 0, 7, 7]]

theorem bcast_leaf_ok : Broadcastable conBase false sendMem bcastLeaf ∧
    (∀ r ∈ [(conBase, bcastStrided, bcastMem), (conBase, bcastOffset, bcastMem)], DestOK r.2.2 r.2.1) ∧
    ∀ r ∈ [(conBase, bcastStrided, bcastMem), (conBase, bcastOffset, bcastMem)], NotLonger (val sendMem bcastLeaf) (val r.2.2 r.2.1) := by
  refine ⟨⟨?_, ?_, ?_, fun _ _ => .inl ⟨⟨0, 0⟩, true, by decide +kernel, by decide +kernel⟩, by decide +kernel, by decide +kernel⟩, ?_, ?_⟩
  · simp only [bcastLeaf, Readable]; decide
  · simp only [bcastLeaf, schema, NamesOK]
  · simp only [bcastLeaf, schema, ByteNames]
  · intro r hr
    simp only [List.mem_cons, List.not_mem_nil, or_false] at hr
    rcases hr with rfl | rfl
    all_goals
      refine ⟨?_, ?_, ?_, ?_, ⟨by decide, ?_⟩, ?_, ?_⟩
      · simp only [bcastStrided, bcastOffset, Readable]; decide
      · simp [bcastStrided, bcastOffset, val, DistinctV, DataType.ofId]
      · simp only [bcastStrided, bcastOffset, places, leafPlaces, DataType.ofId, TypeId.bytes]
        simp [List.range_succ, NoShare, Place.Has]
        all_goals omega
      · simp [bcastStrided, bcastOffset, NatSize, DataType.ofId, TypeId.bytes]
      · intro p hp; simp [bcastStrided, bcastOffset, owned, ownPtr] at hp
      · simp [bcastStrided, bcastOffset, Clean, CleanInfo]
      · simp [bcastStrided, bcastOffset, Tidy]
  · intro r hr
    simp only [List.mem_cons, List.not_mem_nil, or_false] at hr
    rcases hr with rfl | rfl <;> simp [bcastLeaf, bcastStrided, bcastOffset, val, DataType.ofId, NotLonger, elems_length]

/-- both are filled where they are: the strided one through a copy, with the bytes between its elements unchanged -/
theorem C99_in_place :
    broadcastUsingSchema conBase false bcastLeaf sendMem [(conBase, bcastStrided, bcastMem), (conBase, bcastOffset, bcastMem)] =
      .ok [([some [1, 2, 0, 0, 3, 4, 7, 7], none], bcastStrided), ([some [0, 0, 1, 2, 3, 4, 7, 7]], bcastOffset)] := by
  decide +kernel

/-! ### where the claim fails -/

/-- C99 is false: a rank that has a leaf of the sent type with more elements takes part in the broadcast with its own size, not with
    the root's (the sizes must be equal). -/
theorem C99_longer_leaf_false :
    broadcastUsingSchema conBase false bcastLeaf sendMem
      [(conBase, .leaf ⟨some ⟨0, 0⟩, true⟩ (DataType.ofId .int16 3), [some [0, 0, 0, 0, 0, 0]])] = .ub := by decide +kernel

/-- C99 is false: a rank that has a leaf of the sent type and length with another declared byte order keeps that byte order
    and gets the root's bytes: the numbers 513, 1027 are received as 258, 772. -/
theorem C99_byte_order_false :
    (broadcastUsingSchema conBase false bcastLeaf sendMem
      [(conBase, .leaf ⟨some ⟨0, 0⟩, true⟩ { DataType.ofId .int16 2 with endian := .big }, [some [0, 0, 0, 0]])]).bind
        (fun rs => .ok (rs.map fun r => val r.1 r.2)) = .ok [.leaf .int16 .big [[some 1, some 2], [some 3, some 4]]] ∧
      numbers false (.leaf .int16 .big [[some 1, some 2], [some 3, some 4]]) ≠ numbers false (val sendMem bcastLeaf) := by
  refine ⟨by decide +kernel, ?_⟩
  have : val sendMem bcastLeaf = .leaf .int16 .default [[some 1, some 2], [some 3, some 4]] := by decide +kernel
  rw [this]
  intro h
  rw [numbers, numbers] at h
  injection h with _ h
  exact absurd h (by decide +kernel)

/-- C99 is false: as in C46, the sub-node of a compact tree is sent with the offsets it has in the larger tree and
    the data from its own start; `u` = 2, 3 and `v` = 4 are received as 3, 4 and a byte that was not sent. -/
theorem C99_subnode_false :
    (broadcastUsingSchema conBase false subNode sendMem [(conBase, new, [])]).bind (fun rs => .ok (rs.map fun r => val r.1 r.2)) =
        .ok [.obj [(chars! "u", .leaf .uint8 .little [[some 3], [some 4]]), (chars! "v", .leaf .uint8 .little [[some 0]])]] ∧
      val sendMem subNode =
        .obj [(chars! "u", .leaf .uint8 .default [[some 2], [some 3]]), (chars! "v", .leaf .uint8 .default [[some 4]])] := by
  constructor <;> decide +kernel

/-- C99 is false: two external leaves next to each other in memory are sent with their own offsets 0, so that a receiver's new buffer
    has 2 bytes; 4 bytes are received into it. -/
theorem C99_external_leaves_false :
    broadcastUsingSchema conBase false halves sendMem [(conBase, new, [])] = .ub := by
  decide +kernel

end Conduit
