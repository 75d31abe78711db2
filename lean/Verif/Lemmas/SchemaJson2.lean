import Verif.Lemmas.SchemaJson
import Verif.Lemmas.NodeIO
namespace Conduit
open Spec Spec.Tree Schema

theorem resolve_idem (big : Bool) (e : Endian) : Node.resolve big (Node.resolve big e) = Node.resolve big e := by
  cases big <;> cases e <;> rfl

mutual
theorem view_readBack (big : Bool) (m : Mem) (p : Option Ptr) : ∀ (s : Schema) (off : Int),
    view m p (readBack big s off) = named big (view m p s)
  | .leaf d, off => by
    rw [readBack]
    split
    · rename_i h; simp [view, h, named]
    · rename_i h; simp [view, h, named, elems]
  | .obj es, off => by rw [readBack, view, view, named, viewE_readBack]
  | .lst cs, off => by rw [readBack, view, view, named, viewL_readBack]
theorem viewE_readBack (big : Bool) (m : Mem) (p : Option Ptr) : ∀ (es : List (Str × Schema)) (off : Int),
    viewE m p (readBackE big es off) = namedE big (viewE m p es)
  | [], off => rfl
  | (n, c) :: es, off => by rw [readBackE, viewE, viewE, namedE, view_readBack, viewE_readBack]
theorem viewL_readBack (big : Bool) (m : Mem) (p : Option Ptr) : ∀ (es : List Schema) (off : Int),
    viewL m p (readBackL big es off) = namedL big (viewL m p es)
  | [], off => rfl
  | c :: es, off => by rw [readBackL, viewL, viewL, namedL, view_readBack, viewL_readBack]
end

theorem number_resolve (big : Bool) (e : Endian) : number big (Node.resolve big e) = number big e := by
  funext bs
  cases big <;> cases e <;> simp [number, Node.resolve, machineDefault]

mutual
theorem numbers_named (big : Bool) : ∀ v : Val, numbers big (named big v) = numbers big v
  | .leaf id e es => by
    rw [named]; split
    · rfl
    · rw [numbers, numbers, number_resolve]
  | .obj es => by rw [named, numbers, numbers, numbersE_named]
  | .lst cs => by rw [named, numbers, numbers, numbersL_named]
theorem numbersE_named (big : Bool) : ∀ es : List (Str × Val), numbersE big (namedE big es) = numbersE big es
  | [] => rfl
  | (n, c) :: es => by rw [namedE, numbersE, numbersE, numbers_named, numbersE_named]
theorem numbersL_named (big : Bool) : ∀ es : List Val, numbersL big (namedL big es) = numbersL big es
  | [] => rfl
  | c :: es => by rw [namedL, numbersL, numbersL, numbers_named, numbersL_named]
end

/-! ### the compacted schema read back -/

mutual
theorem strided_readBack (big : Bool) : ∀ (s : Schema) (off o : Int),
    totalStridedBytes (readBack big (compactAt s off) o) = totalBytesCompact s
  | .leaf d, off, o => by
    rw [compactAt]; split
    · rename_i h; simp [readBack, totalStridedBytes, totalBytesCompact, h]
    · rename_i h
      simp only [readBack, totalStridedBytes, totalBytesCompact, h, DataType.compactTo, if_false, DataType.stridedBytes,
        DataType.bytesCompact, Int.mul_sub, Int.mul_one]
      omega
  | .obj es, off, o => by rw [compactAt, readBack, totalStridedBytes, totalBytesCompact, strided_readBackE]
  | .lst cs, off, o => by rw [compactAt, readBack, totalStridedBytes, totalBytesCompact, strided_readBackL]
theorem strided_readBackE (big : Bool) : ∀ (es : List (Str × Schema)) (off o : Int),
    totalStridedBytesE (readBackE big (compactAtE es off) o) = totalBytesCompactE es
  | [], _, _ => rfl
  | (n, c) :: es, off, o => by
    rw [compactAtE, readBackE, totalStridedBytesE, totalBytesCompactE, strided_readBack, strided_readBackE]
theorem strided_readBackL (big : Bool) : ∀ (es : List Schema) (off o : Int),
    totalStridedBytesL (readBackL big (compactAtL es off) o) = totalBytesCompactL es
  | [], _, _ => rfl
  | c :: es, off, o => by
    rw [compactAtL, readBackL, totalStridedBytesL, totalBytesCompactL, strided_readBack, strided_readBackL]
end

mutual
theorem span_readBack (big : Bool) : ∀ (s : Schema) (off : Int), CountsOK s → 0 ≤ off →
    spannedBytes (compactAt s off) ≤ spannedBytes (readBack big (compactAt s off) off) ∧
    spannedBytes (readBack big (compactAt s off) off) ≤ off + totalBytesCompact s
  | .leaf d, off, h, h0 => by
    have hn : 0 ≤ d.n := h d (by simp [leaves])
    rw [compactAt]; split
    · rename_i he; simp [readBack, spannedBytes, DataType.spannedBytes, totalBytesCompact, he, h0]
    · rename_i he
      have hm : 0 ≤ (d.id.bytes : Int) * d.n := Int.mul_nonneg (by omega) hn
      simp only [readBack, spannedBytes, DataType.spannedBytes, totalBytesCompact, he, if_false, DataType.compactTo,
        DataType.bytesCompact, Int.mul_sub, Int.mul_one]
      omega
  | .obj es, off, h, h0 => by
    rw [compactAt, readBack, spannedBytes, spannedBytes, totalBytesCompact]
    exact span_readBackE big es off 0 0 h h0 (by omega) (by omega)
  | .lst cs, off, h, h0 => by
    rw [compactAt, readBack, spannedBytes, spannedBytes, totalBytesCompact]
    exact span_readBackL big cs off 0 0 h h0 (by omega) (by omega)
theorem span_readBackE (big : Bool) : ∀ (es : List (Str × Schema)) (off r r' : Int), CountsOK (.obj es) → 0 ≤ off →
    r ≤ r' → r' ≤ off →
    spannedBytesE r (compactAtE es off) ≤ spannedBytesE r' (readBackE big (compactAtE es off) off) ∧
    spannedBytesE r' (readBackE big (compactAtE es off) off) ≤ off + totalBytesCompactE es
  | [], off, r, r', _, h0, hr, hr' => by simp [compactAtE, readBackE, spannedBytesE, totalBytesCompactE, hr, hr']
  | (n, c) :: es, off, r, r', h, h0, hr, hr' => by
    have hc := countsE h
    have t1 := total_nonneg c hc.1
    obtain ⟨a1, a2⟩ := span_readBack big c off hc.1 h0
    rw [compactAtE, readBackE, spannedBytesE, spannedBytesE, totalBytesCompactE, total_compactAt, strided_readBack]
    have := span_readBackE big es (off + totalBytesCompact c)
      (if spannedBytes (compactAt c off) > r then spannedBytes (compactAt c off) else r)
      (if spannedBytes (readBack big (compactAt c off) off) > r' then spannedBytes (readBack big (compactAt c off) off) else r')
      hc.2 (by omega) (by split <;> split <;> omega) (by split <;> omega)
    exact ⟨this.1, by have := this.2; omega⟩
theorem span_readBackL (big : Bool) : ∀ (es : List Schema) (off r r' : Int), CountsOK (.lst es) → 0 ≤ off →
    r ≤ r' → r' ≤ off →
    spannedBytesL r (compactAtL es off) ≤ spannedBytesL r' (readBackL big (compactAtL es off) off) ∧
    spannedBytesL r' (readBackL big (compactAtL es off) off) ≤ off + totalBytesCompactL es
  | [], off, r, r', _, h0, hr, hr' => by simp [compactAtL, readBackL, spannedBytesL, totalBytesCompactL, hr, hr']
  | c :: es, off, r, r', h, h0, hr, hr' => by
    have hc := countsL h
    have t1 := total_nonneg c hc.1
    obtain ⟨a1, a2⟩ := span_readBack big c off hc.1 h0
    rw [compactAtL, readBackL, spannedBytesL, spannedBytesL, totalBytesCompactL, total_compactAt, strided_readBack]
    have := span_readBackL big es (off + totalBytesCompact c)
      (if spannedBytes (compactAt c off) > r then spannedBytes (compactAt c off) else r)
      (if spannedBytes (readBack big (compactAt c off) off) > r' then spannedBytes (readBack big (compactAt c off) off) else r')
      hc.2 (by omega) (by split <;> split <;> omega) (by split <;> omega)
    exact ⟨this.1, by have := this.2; omega⟩
end

theorem span_readBack_compact (big : Bool) (s : Schema) (h : CountsOK s) :
    spannedBytes (readBack big (Schema.compactTo s) 0) = totalBytesCompact s := by
  have t := total_nonneg _ h
  obtain ⟨s1, s2, s3⟩ := span_compactAt s 0 h (Int.le_refl 0)
  obtain ⟨a1, a2⟩ := span_readBack big s 0 h (Int.le_refl 0)
  rw [Schema.compactTo]
  rcases Int.lt_or_eq_of_le t with h | h
  · have := s3 h; omega
  · omega

theorem bytes_pos {id : TypeId} (h : id ≠ .empty) (h1 : id ≠ .object) (h2 : id ≠ .list) : 1 ≤ id.bytes := by
  cases id <;> first | contradiction | decide

mutual
theorem printable_compactAt : ∀ (s : Schema) (off : Int), NamesOK s → CountsOK s →
    (∀ d ∈ s.leaves, d.id ≠ .object ∧ d.id ≠ .list) → 0 ≤ off → off + totalBytesCompact s < 2 ^ 63 →
    Printable (compactAt s off)
  | .leaf d, off, _, h, hl, h0, ht => by
    have hn : 0 ≤ d.n := h d (by simp [leaves])
    have hd := hl d (by simp [leaves])
    rw [compactAt]; split
    · simp [Printable]
    · rename_i he
      have hb := bytes_pos he hd.1 hd.2
      have hb8 : d.id.bytes ≤ 8 := by cases d.id <;> decide
      have hm : d.n ≤ (d.id.bytes : Int) * d.n := by
        have := Int.mul_le_mul_of_nonneg_right (show (1 : Int) ≤ d.id.bytes by omega) hn
        omega
      simp only [totalBytesCompact, he, if_false, DataType.bytesCompact] at ht
      refine ⟨hd.1, hd.2, fun _ => ?_⟩
      simp only [DataType.compactTo, Index]
      omega
  | .obj es, off, hn, h, hl, h0, ht => by
    rw [compactAt]
    refine ⟨?_, printable_compactAtE es off hn.2 h hl h0 ht⟩
    have : ∀ (es : List (Str × Schema)) (off : Int), (compactAtE es off).map (·.1) = es.map (·.1) := by
      intro es; induction es with
      | nil => intro _; rfl
      | cons e es ih => intro off; simp [compactAtE, ih]
    rw [this]; exact hn.1
  | .lst cs, off, hn, h, hl, h0, ht => printable_compactAtL cs off hn h hl h0 ht
theorem printable_compactAtE : ∀ (es : List (Str × Schema)) (off : Int), NamesOKE es → CountsOK (.obj es) →
    (∀ d ∈ leavesE es, d.id ≠ .object ∧ d.id ≠ .list) → 0 ≤ off → off + totalBytesCompactE es < 2 ^ 63 →
    PrintableE (compactAtE es off)
  | [], _, _, _, _, _, _ => trivial
  | (n, c) :: es, off, hn, h, hl, h0, ht => by
    have hc := countsE h
    have t1 := total_nonneg c hc.1
    have t2 := total_nonnegE es hc.2
    rw [totalBytesCompactE] at ht
    rw [compactAtE, total_compactAt]
    simp only [leavesE, List.mem_append] at hl
    exact ⟨hn.1, hn.2.1, printable_compactAt c off hn.2.2.1 hc.1 (fun d hd => hl d (.inl hd)) h0 (by omega),
      printable_compactAtE es _ hn.2.2.2 hc.2 (fun d hd => hl d (.inr hd)) (by omega) (by omega)⟩
theorem printable_compactAtL : ∀ (es : List Schema) (off : Int), NamesOKL es → CountsOK (.lst es) →
    (∀ d ∈ leavesL es, d.id ≠ .object ∧ d.id ≠ .list) → 0 ≤ off → off + totalBytesCompactL es < 2 ^ 63 →
    PrintableL (compactAtL es off)
  | [], _, _, _, _, _, _ => trivial
  | c :: es, off, hn, h, hl, h0, ht => by
    have hc := countsL h
    have t1 := total_nonneg c hc.1
    have t2 := total_nonnegL es hc.2
    rw [totalBytesCompactL] at ht
    rw [compactAtL, total_compactAt]
    simp only [leavesL, List.mem_append] at hl
    exact ⟨printable_compactAt c off hn.1 hc.1 (fun d hd => hl d (.inl hd)) h0 (by omega),
      printable_compactAtL es _ hn.2 hc.2 (fun d hd => hl d (.inr hd)) (by omega) (by omega)⟩
end

namespace Node

/-- loading a data file with any schema that spans exactly the file -/
theorem loadBin_bytes (s : Schema) (bytes : List UInt8) (hs : s.spannedBytes = bytes.length) (dest : Node) (m2 : Mem)
    (hd : GoodOwners m2 (owned dest)) :
    ∃ m3 p, loadBin s bytes dest m2 = .ok (m3, walk (some p) true s) ∧
      (∀ i : Nat, i < bytes.length → m3.byteAt (some p) i = bytes[i]?) ∧ Frame m2 m3 (owned dest) := by
  obtain ⟨m1, a1, a2⟩ := reset_spec dest m2 hd
  have hlen : m1.length = m2.length := a2.1
  have hall : allocate m1 (spannedBytes s) =
      ((m1.alloc bytes.length).1, { data := some ⟨m1.length, 0⟩, alloced := true }) := by
    rw [hs, allocate, if_neg (by omega)]; rfl
  have htake : bytes.take (spannedBytes s).toNat = bytes := by
    rw [hs]; simp
  obtain ⟨m3, c1, c2, c3, c4⟩ := Mem.store_spec (m := (m1.alloc bytes.length).1) (q := ⟨m1.length, 0⟩) (off := 0)
    (xs := bytes) (by
      intro k hk
      rw [Mem.byte_alloc_new, if_pos (by simp; omega)]; rfl)
  refine ⟨m3, ⟨m1.length, 0⟩, ?_, ?_, ?_, ?_⟩
  · rw [loadBin, a1, Res.bind_ok]
    simp only
    rw [hall]
    simp only
    rw [htake, c1, Res.bind_ok]
  · intro i hi
    simp only [Mem.byteAt]
    rw [c4, if_pos (by simp; omega)]
    simp
  · rw [c2]; simp [Mem.alloc, hlen]
  · intro b hb1 hb2
    refine ⟨?_, fun i => ?_⟩
    · rw [c3, Mem.size_alloc_old _ _ _ (by omega), a2.size hb2]
    · rw [c4, if_neg (by simp; omega), Mem.byte_alloc_old _ _ _ _ (by omega), a2.byte hb2]

/-- the compact schema describes the element bytes of the node wherever these lie in order -/
theorem view_flat (n : Node) (m : Mem) (hr : Readable m n) (bytes : List UInt8)
    (hb : bytes.map some = flat (val m n)) (m3 : Mem) (p3 : Option Ptr)
    (h3 : ∀ i : Nat, i < bytes.length → m3.byteAt p3 i = bytes[i]?) :
    view m3 p3 n.schema.compactTo = val m n ∧ (bytes.length : Int) = n.schema.totalBytesCompact := by
  obtain ⟨m', n', h1, h2, _, _⟩ := compactTo_spec n new m hr (good_nil m) (by simp [new, owned, ownPtr])
  obtain ⟨p, al, hw⟩ := compactTo_walk _ _ _ _ _ h1
  have hc := countsOK_of hr
  have t := total_nonneg _ hc
  have hfl := flat_walk_compact m' p al n.schema 0 hc
  rw [show walk p al (compactAt n.schema 0) = n' from hw.symm, h2, ← hb] at hfl
  have hbl : bytes.length = n.schema.totalBytesCompact.toNat := by
    have := congrArg List.length hfl; simpa [Spec.run] using this
  have hbyte : ∀ i : Nat, i < bytes.length → m'.byteAt p i = bytes[i]? := by
    intro i hi
    have := congrArg (fun l => l[i]?) hfl
    simp only [List.getElem?_map, Spec.run] at this
    rw [List.getElem?_range (by omega), List.getElem?_eq_getElem hi] at this
    simp only [Option.map_some, Int.zero_add, Option.some.injEq] at this
    rw [← this, List.getElem?_eq_getElem hi]
  refine ⟨?_, by omega⟩
  rw [← h2, hw, val_walk, Schema.compactTo]
  apply view_compact _ _ _ _ hc
  intro i h0 hi
  have hi' : i.toNat < bytes.length := by omega
  have h4 := hbyte i.toNat hi'
  have h5 := h3 i.toNat hi'
  rw [show ((i.toNat : Nat) : Int) = i by omega] at h4 h5
  rw [h4, h5]

theorem readable_ids (n : Node) {m : Mem} (hr : Readable m n) : ∀ d ∈ n.schema.leaves, d.id ≠ .object ∧ d.id ≠ .list :=
  fun d hd => ⟨(readable_leaves n hr d hd).2.1, (readable_leaves n hr d hd).2.2⟩

end Node
end Conduit
