import Verif.Lemmas.Relay
import Verif.Lemmas.TreeDec
import Verif.Props.NodeUpdate
import Verif.Props.Contiguous
/-
C46: a node sent with `send_using_schema` is received unchanged.
-/
namespace Conduit
open Spec Schema Node Relay

/-- What can be sent. -/
structure Sendable (base : Nat → Int) (big : Bool) (m : Mem) (n : Node) : Prop where
  readable : Readable m n
  /-- names as in C20, made of bytes -/
  names : NamesOK n.schema
  bytes : ByteNames n.schema
  /-- if the node is compact and its elements are one run of memory, then its schema has the
      offsets of a compact tree that stands alone -/
  alone : n.schema.isCompact = true → isContiguous base n = true → n.schema.compactTo = n.schema
  /-- the message is smaller than 2 GiB -/
  size : (9 + (schemaText big n.schema.compactTo).length : Int) + n.schema.totalBytesCompact < 2 ^ 31

/-- The node a message is received into: elements readable and not overlapping, buffers its own (as in
    C26). -/
structure DestOK (m : Mem) (dest : Node) : Prop where
  readable : Readable m dest
  names : DistinctV (val m dest)
  separate : (places dest).Pairwise NoShare
  size : NatSize dest
  owners : GoodOwners m (owned dest)
  clean : Clean dest
  tidy : Tidy dest

theorem sent_alone {base : Nat → Int} {big : Bool} {m : Mem} {n : Node} (h : Sendable base big m n) :
    sentSchema base n = n.schema.compactTo := by
  unfold sentSchema
  split
  · rename_i hc
    rw [Bool.and_eq_true] at hc
    exact (h.alone hc.1 hc.2).symm
  · rfl

/-- C46 (partial): the message of `send_using_schema` exists, and whatever node and memory it is
    received into (in another process of the same byte order), `recv_using_schema` succeeds, leaves that node with the merge of
    what was sent into what it had (as `update`, C26), and changes no other memory.
    Missing, because false there: sub-nodes and nodes with external leaves
    whose elements happen to be one run of memory (`C46_subnode_false`, `C46_external_leaves_false`),
    names as in C20, messages of 2 GiB and more. -/
theorem C46_send_recv_merges_partial (base : Nat → Int) (big : Bool) (n : Node) (m : Mem) (h : Sendable base big m n) :
    ∃ msg, sendUsingSchema base big n m = .ok msg ∧
      ∀ (dest : Node) (m2 : Mem), DestOK m2 dest → Fits (named big (val m n)) (val m2 dest) →
        ∃ m3 n3, recvUsingSchema msg dest m2 = .ok (m3, n3) ∧ val m3 n3 = merge (named big (val m n)) (val m2 dest) ∧
          DestOK m3 n3 ∧
          (∀ b i, b < m2.length → b ∉ (owned dest).map Ptr.blk → (∀ pl ∈ places dest, ¬ pl.Has b i) →
            m3.byte b i = m2.byte b i) := by
  obtain ⟨msg, h1, h2⟩ := send_recv h.readable h.names h.bytes (sent_alone h) h.size
  refine ⟨msg, h1, fun dest m2 hd hf => ?_⟩
  obtain ⟨m3, n3, r1, r2, r3, r4⟩ := h2 dest m2 ⟨hd.readable, hd.separate, hd.size, hd.clean, hd.owners, hd.tidy⟩ hd.names hf
  refine ⟨m3, n3, r1, r2, ⟨r3.readable, ?_, r3.sep, r3.nat, r3.good, r3.clean, r3.tidy⟩, r4.keep⟩
  rw [r2]
  exact distinct_merge _ _ (distinct_named big _ (distinct_val m n h.names)) hd.names

/-- C46 (partial): received into a new node, a tree without childless objects and lists is the tree
    that was sent, with the same values; the default byte order has become the machine's. -/
theorem C46_send_recv_partial (base : Nat → Int) (big : Bool) (n : Node) (m : Mem) (h : Sendable base big m n)
    (hf : Full (val m n)) :
    ∃ msg, sendUsingSchema base big n m = .ok msg ∧
      ∀ m2 : Mem, ∃ m3 n3, recvUsingSchema msg new m2 = .ok (m3, n3) ∧ val m3 n3 = named big (val m n) ∧
        numbers big (val m3 n3) = numbers big (val m n) ∧ ∀ b i, b < m2.length → m3.byte b i = m2.byte b i := by
  obtain ⟨msg, h1, h2⟩ := C46_send_recv_merges_partial base big n m h
  refine ⟨msg, h1, fun m2 => ?_⟩
  have hnew := ready_new m2
  obtain ⟨m3, n3, r1, r2, _, r4⟩ := h2 new m2 ⟨hnew.readable, trivial, hnew.sep, hnew.nat, hnew.good, hnew.clean, hnew.tidy⟩
    (fits_empty _)
  have hv : val m3 n3 = named big (val m n) := by
    rw [r2, val_new, merge_empty _ (full_named big _ hf) (proper_named big m n) (distinct_named big _ (distinct_val m n h.names))]
  exact ⟨m3, n3, r1, hv, by rw [hv, numbers_named], fun b i hb => r4 b i hb (by simp [owned_new]) (by simp [places_new])⟩

/-- the caller's strided and external leaves of C24: not compact -/
theorem copySrc_sendable (base : Nat → Int) : Sendable base false copyMem copySrc := by
  refine ⟨copy_call_ok.1, ?_, ?_, ?_, ?_⟩
  · simp only [copySrc, schema, schemaE, schemaL, NamesOK, NamesOKE, NamesOKL, CleanName]; decide
  · simp only [copySrc, schema, schemaE, schemaL, ByteNames, ByteNamesE, ByteNamesL]; decide
  · intro h; exact absurd h (by decide +kernel)
  · decide +kernel

example : Sendable conBase false copyMem copySrc ∧ Full (val copyMem copySrc) :=
  ⟨copySrc_sendable _, by simp [copySrc, val, valE, valL, Full, FullE, FullL]⟩

/-- a compact tree in one block that it describes alone -/
def aloneNode : Node :=
  .obj ⟨some ⟨0, 0⟩, true⟩ [(chars! "x", .leaf ⟨some ⟨0, 0⟩, false⟩ (DataType.ofId .uint8 2)),
    (chars! "y", .leaf ⟨some ⟨0, 0⟩, false⟩ { DataType.ofId .int16 1 with offset := 2 })]
def sendMem : Mem := [some [1, 2, 3, 4]]

example : Sendable conBase false sendMem aloneNode ∧ aloneNode.schema.isCompact = true ∧ isContiguous conBase aloneNode = true := by
  refine ⟨⟨?_, ?_, ?_, fun _ _ => by decide +kernel, by decide +kernel⟩, by decide +kernel, by decide +kernel⟩
  · simp only [aloneNode, Readable, ReadableE]; decide
  · simp only [aloneNode, schema, schemaE, NamesOK, NamesOKE, CleanName]; decide
  · simp only [aloneNode, schema, schemaE, ByteNames, ByteNamesE]; decide

/-- `DestOK` and `Fits` of the destination of C26 -/
example : DestOK updMem updDest ∧ Fits (named false (val copyMem copySrc)) (val updMem updDest) :=
  ⟨⟨upd_ok.dest_readable, upd_ok.dest_names, upd_ok.dest_separate, upd_ok.dest_size, upd_ok.dest_owners, upd_ok.dest_clean,
    upd_ok.dest_tidy⟩, by
    simp [copySrc, updDest, val, valE, valL, named, namedE, namedL, Fits, FitsE, FitsL, items, entries, entry, DataType.ofId]⟩

/-! ### where the claim fails -/

/-- send, and receive into a new node of an empty process -/
def transfer (n : Node) (m : Mem) : Res Val :=
  (sendUsingSchema conBase false n m).bind fun msg => (recvUsingSchema msg new []).bind fun r => .ok (val r.1 r.2)

/-- `y` of a compact tree `{x, y: {u, v}}` -/
def subNode : Node :=
  .obj ⟨some ⟨0, 0⟩, false⟩ [(chars! "u", .leaf ⟨some ⟨0, 0⟩, false⟩ { DataType.ofId .uint8 2 with offset := 1 }),
    (chars! "v", .leaf ⟨some ⟨0, 0⟩, false⟩ { DataType.ofId .uint8 1 with offset := 3 })]

/-- C46 is false: the sub-node of a compact tree is compact and one run of memory, so its schema is sent with the
    offsets it has in the larger tree, but the data are sent from the start of the sub-node; the receiver reads behind the end of the
    message. -/
theorem C46_subnode_false :
    Readable sendMem subNode ∧ (sendUsingSchema conBase false subNode sendMem).isOk = true ∧
      transfer subNode sendMem = .ub := by
  refine ⟨?_, by decide +kernel, by decide +kernel⟩
  simp only [subNode, Readable, ReadableE]; decide

/-- two leaves set external to two halves of one array -/
def halves : Node :=
  .obj {} [(chars! "x", .leaf ⟨some ⟨0, 0⟩, false⟩ (DataType.ofId .uint8 2)),
    (chars! "y", .leaf ⟨some ⟨0, 2⟩, false⟩ (DataType.ofId .uint8 2))]

/-- C46 is false: two external leaves next to each other in memory are sent with their own offsets 0; the
    second one is received with the data of the first one. -/
theorem C46_external_leaves_false :
    Readable sendMem halves ∧
      val sendMem halves = .obj [(chars! "x", .leaf .uint8 .default [[some 1], [some 2]]), (chars! "y", .leaf .uint8 .default [[some 3], [some 4]])] ∧
      transfer halves sendMem =
        .ok (.obj [(chars! "x", .leaf .uint8 .little [[some 1], [some 2]]), (chars! "y", .leaf .uint8 .little [[some 1], [some 2]])]) := by
  refine ⟨?_, by decide +kernel, by decide +kernel⟩
  simp only [halves, Readable, ReadableE]; decide

/-- C46 is false: an object without children arrives as an empty node (`update` from it does nothing). -/
theorem C46_empty_object_false :
    transfer (.obj {} [(chars! "x", .obj {} [])]) [] = .ok (.obj [(chars! "x", .leaf .empty .default [])]) := by decide +kernel

/-- C46 is false: the size of the message goes to `MPI_Send` as an `int`; 4 GiB and 5 bytes are sent as 5 bytes, and from
    2 GiB to 4 GiB the count is negative. -/
theorem C46_size_wraps_false (bytes : List UInt8) (h : bytes.length = 2 ^ 32 + 5) :
    mpiSend bytes bytes.length = .ok (bytes.take 5) ∧ ∀ size : Int, 2 ^ 31 ≤ size → size < 2 ^ 32 → mpiSend bytes size = .error := by
  constructor
  · have : castInt bytes.length = 5 := by rw [h]; decide
    unfold mpiSend
    rw [this, if_neg (by decide), if_pos (by rw [h]; decide)]
    rfl
  · intro size h1 h2
    unfold mpiSend castInt
    rw [if_pos]
    omega

end Conduit
