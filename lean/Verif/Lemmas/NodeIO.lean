import Verif.Model.NodeIO
import Verif.Lemmas.Node
namespace Conduit
open Spec Spec.Tree Schema
namespace Node

/-- for elements of natural size, `is_compact` of a leaf means packed -/
theorem compact_cases {d : DataType} (hn : 0 ≤ d.n) (he : d.ele = d.id.bytes)
    (hc : d.bytesCompact = d.stridedBytes) : d.n = 0 ∨ d.n = 1 ∨ d.stride = d.id.bytes := by
  unfold DataType.bytesCompact DataType.stridedBytes at hc
  rw [he] at hc
  have : (d.stride - d.id.bytes) * (d.n - 1) = 0 := by grind
  rcases Int.mul_eq_zero.1 this with h | h <;> omega

theorem leaf_isCompact {d : DataType} (he : d.id ≠ .empty) :
    Schema.isCompact (.leaf d) = true ↔ d.bytesCompact = d.stridedBytes := by
  simp [Schema.isCompact, totalBytesCompact, totalStridedBytes, he]

theorem toNat_mul (a : Nat) (n : Int) (h : 0 ≤ n) : ((a : Int) * n).toNat = a * n.toNat := by
  obtain ⟨k, hk⟩ := Int.eq_ofNat_of_zero_le h
  rw [hk, Int.toNat_natCast, ← Int.natCast_mul, Int.toNat_natCast]

/-- both branches of `serialize` write the same bytes -/
theorem serializeLeaf_eq (x : Info) (d : DataType) (dst : Option Ptr) (off : Int) (m : Mem)
    (hd : LeafOK d) (hn : Natural d) : serializeLeaf x d dst off m = compactElements x d dst off m := by
  unfold serializeLeaf
  by_cases he : d.id = .empty
  · have : Schema.isCompact (.leaf d) = true := by simp [Schema.isCompact, totalBytesCompact, totalStridedBytes, he]
    rw [if_pos this]
    simp [totalBytesCompact, he, Mem.memcpy_zero, compactElements]
  · have hele : d.ele = d.id.bytes := hn.resolve_left he
    split
    · rename_i hc
      rw [leaf_isCompact he] at hc
      have htot : totalBytesCompact (.leaf d) = d.id.bytes * d.n := by
        simp [totalBytesCompact, he, DataType.bytesCompact]
      have hnn : 0 ≤ (d.id.bytes : Int) * d.n := Int.mul_nonneg (by omega) hd.1
      rw [htot, if_neg (by omega), toNat_mul _ _ hd.1]
      have hce : compactElements x d dst off m =
          m.stridedCopy dst off d.n.toNat d.id.bytes d.id.bytes x.data (d.elementIndex 0) d.stride := by
        simp [compactElements, he, hd.2.1, hd.2.2]; intro h; have := hd.1; omega
      rw [hce]
      rcases compact_cases hd.1 hele hc with h | h | h
      · have h0 : d.n.toNat = 0 := by omega
        rw [h0, Nat.mul_zero, Mem.memcpy_zero]
        simp [Mem.stridedCopy, Mem.copyLoop, Mem.memcpy_zero]
      · rw [h]
        simp only [Mem.stridedCopy]
        split
        · rfl
        · simp only [Int.toNat_one, Nat.mul_one, Mem.copyLoop]
          cases m.memcpy dst off x.data (d.elementIndex 0) d.id.bytes <;> rfl
      · simp [Mem.stridedCopy, h]
    · rfl

mutual
/-- No child but the last of its parent takes more (or fewer) bytes in memory than
    it has data: the condition under which the running offset of `serialize` is
    right. -/
def Aligned : Node → Prop
  | .leaf _ _ => True
  | .obj _ es => AlignedE es
  | .lst _ cs => AlignedL cs
def AlignedE : List (Str × Node) → Prop
  | [] => True
  | (_, c) :: es => Aligned c ∧ (es = [] ∨ c.schema.totalStridedBytes = c.schema.totalBytesCompact) ∧ AlignedE es
def AlignedL : List Node → Prop
  | [] => True
  | c :: cs => Aligned c ∧ (cs = [] ∨ c.schema.totalStridedBytes = c.schema.totalBytesCompact) ∧ AlignedL cs
end

mutual
theorem serializeMem_eq (dst : Option Ptr) : ∀ (n : Node) (off : Int) (m : Mem),
    (∀ d ∈ n.schema.leaves, LeafOK d ∧ Natural d) → Aligned n → serializeMem dst n off m = compactWrite dst n off m
  | .leaf x d, off, m, h, _ => by
    have := h d (by simp [schema, leaves])
    exact serializeLeaf_eq x d dst off m this.1 this.2
  | .obj x es, off, m, h, ha => serializeMemE_eq dst es off m h ha
  | .lst x es, off, m, h, ha => serializeMemL_eq dst es off m h ha
theorem serializeMemE_eq (dst : Option Ptr) : ∀ (es : List (Str × Node)) (off : Int) (m : Mem),
    (∀ d ∈ leavesE (schemaE es), LeafOK d ∧ Natural d) → AlignedE es →
    serializeMemE dst es off m = compactWriteE dst es off m
  | [], off, m, _, _ => rfl
  | (n, c) :: es, off, m, h, ha => by
    rw [serializeMemE, compactWriteE,
      serializeMem_eq dst c off m (fun d hd => h d (by simp [schemaE, leavesE, hd])) ha.1]
    rcases ha.2.1 with he | he
    · subst he; rfl
    · rw [he]
      cases hc : compactWrite dst c off m with
      | ok m1 =>
        simp only [Res.bind_ok]
        exact serializeMemE_eq dst es _ m1 (fun d hd => h d (by simp [schemaE, leavesE, hd])) ha.2.2
      | error => rfl
      | ub => rfl
theorem serializeMemL_eq (dst : Option Ptr) : ∀ (es : List Node) (off : Int) (m : Mem),
    (∀ d ∈ leavesL (schemaL es), LeafOK d ∧ Natural d) → AlignedL es →
    serializeMemL dst es off m = compactWriteL dst es off m
  | [], off, m, _, _ => rfl
  | c :: es, off, m, h, ha => by
    rw [serializeMemL, compactWriteL,
      serializeMem_eq dst c off m (fun d hd => h d (by simp [schemaL, leavesL, hd])) ha.1]
    rcases ha.2.1 with he | he
    · subst he; rfl
    · rw [he]
      cases hc : compactWrite dst c off m with
      | ok m1 =>
        simp only [Res.bind_ok]
        exact serializeMemL_eq dst es _ m1 (fun d hd => h d (by simp [schemaL, leavesL, hd])) ha.2.2
      | error => rfl
      | ub => rfl
end

/-- compacting into a fresh buffer and reading it back -/
theorem compactWrite_fresh (n : Node) (m : Mem) (hr : Readable m n) :
    ∃ m' bs, compactWrite (some (m.alloc n.schema.totalBytesCompact.toNat).2) n 0 (m.alloc n.schema.totalBytesCompact.toNat).1 = .ok m' ∧
      m'.load (some (m.alloc n.schema.totalBytesCompact.toNat).2) 0 n.schema.totalBytesCompact.toNat = .ok bs ∧
      bs.map some = flat (val m n) ∧ bs.length = n.schema.totalBytesCompact.toNat := by
  have t := total_nonneg _ (countsOK_of hr)
  have hlt := blocks_lt n hr
  have agA : Agree m (m.alloc n.schema.totalBytesCompact.toNat).1 (blocks n) :=
    fun b hb i => Mem.byte_alloc_old _ _ _ _ (hlt b hb)
  obtain ⟨m2, b1, b2, b3⟩ := compactWrite_spec (m.alloc n.schema.totalBytesCompact.toNat).2 true n 0
    (m.alloc n.schema.totalBytesCompact.toNat).1
    ((readable_agree n agA).2 hr)
    (fun h => by have := hlt _ h; simp [Mem.alloc] at this)
    (fun i h1 h2 => by
      simp only [Mem.byteAt, Mem.alloc, Int.zero_add]
      have := Mem.byte_alloc_new m n.schema.totalBytesCompact.toNat i
      simp only [Mem.alloc] at this
      rw [this, if_pos (by omega)]; rfl)
  have hsz : m2.size m.length = some n.schema.totalBytesCompact.toNat := by
    rw [b2.1.2]; exact size_alloc_new _ _
  obtain ⟨bs0, hbs0⟩ := live_of_size hsz
  have hbl : bs0.length = n.schema.totalBytesCompact.toNat := by simpa [Mem.size, hbs0] using hsz
  have hfl := flat_walk_compact m2 (some (m.alloc n.schema.totalBytesCompact.toNat).2) true n.schema 0 (countsOK_of hr)
  rw [b3, val_agree n agA] at hfl
  refine ⟨m2, bs0, b1, ?_, ?_, hbl⟩
  · unfold Mem.load
    simp only [Mem.alloc, hbs0]
    split
    · rename_i h0
      rw [h0] at hbl
      simp [List.length_eq_zero_iff] at hbl; rw [hbl]
    · have hg : 0 ≤ (0:Int) + 0 ∧ ((0:Int) + 0).toNat + n.schema.totalBytesCompact.toNat ≤ bs0.length := by omega
      refine (if_pos hg).trans ?_
      simp [← hbl]
  · rw [hfl, ← run_bytes m2 m.length bs0 hbs0, hbl]
    rfl

theorem serializeVector_spec (n : Node) (m : Mem) (hr : Readable m n) (hn : ∀ d ∈ n.schema.leaves, Natural d)
    (ha : Aligned n) :
    ∃ bs, serializeVector n m = .ok bs ∧ bs.map some = flat (val m n) ∧ bs.length = n.schema.totalBytesCompact.toNat := by
  have t := total_nonneg _ (countsOK_of hr)
  obtain ⟨m', bs, h1, h2, h3, h4⟩ := compactWrite_fresh n m hr
  refine ⟨bs, ?_, h3, h4⟩
  unfold serializeVector
  rw [if_neg (by omega)]
  simp only
  rw [serializeMem_eq _ _ _ _ (fun d hd => ⟨readable_leaves n hr d hd, hn d hd⟩) ha, h1, Res.bind_ok, h2]

/-! ### the stream form -/

theorem byteAddrs_packed {d : DataType} (hn : 0 ≤ d.n) (he : d.ele = d.id.bytes)
    (hc : d.n = 0 ∨ d.n = 1 ∨ d.stride = d.id.bytes) :
    byteAddrs d = Spec.run d.offset (d.id.bytes * d.n.toNat) := by
  unfold byteAddrs
  rcases hc with h | h | h
  · rw [h]; simp [Spec.run]
  · rw [h]; simp [elemBytes, Spec.run, he]
  · simp only [funext (elemBytes_eq_run d), h, he, Int.toNat_natCast]
    exact run_flat _ _ _

theorem streamLeaf_spec (x : Info) (d : DataType) (m : Mem) (hr : Readable m (.leaf x d)) (hn : Natural d) :
    ∃ bs, streamLeaf x d m = .ok bs ∧ bs.map some = flat (val m (.leaf x d)) := by
  unfold streamLeaf
  by_cases he : d.id = .empty
  · exact ⟨[], by simp [he], by simp [val, he, flat]⟩
  · rw [if_neg he]
    have hele : d.ele = d.id.bytes := hn.resolve_left he
    have htot : totalBytesCompact (.leaf d) = d.id.bytes * d.n := by
      simp [totalBytesCompact, he, DataType.bytesCompact]
    have hnn : 0 ≤ (d.id.bytes : Int) * d.n := Int.mul_nonneg (by omega) hr.2.2.1
    split
    · rename_i hc
      rw [leaf_isCompact he] at hc
      have hts : totalStridedBytes (.leaf d) = d.id.bytes * d.n := by
        simp [totalStridedBytes, he, ← hc, DataType.bytesCompact]
      rw [hts, if_neg (by omega), toNat_mul _ _ hr.2.2.1]
      have hcc := compact_cases hr.2.2.1 hele hc
      have hpk := byteAddrs_packed hr.2.2.1 hele hcc
      have hfl : flat (val m (.leaf x d)) = (Spec.run d.offset (d.id.bytes * d.n.toNat)).map (m.byteAt x.data) := by
        simp only [val, he, if_false, flat]
        rw [flatten_elems m x.data d hele, hpk]
      have hall : ∀ b ∈ flat (val m (.leaf x d)), b.isSome := by
        intro b hb
        simp only [val, he, if_false, flat, List.mem_flatten] at hb
        obtain ⟨e, h1, h2⟩ := hb
        exact hr.2.2.2 he e h1 b h2
      by_cases h0 : d.id.bytes * d.n.toNat = 0
      · refine ⟨[], ?_, by rw [hfl, h0]; rfl⟩
        simp [Mem.load, h0]
      · have hsome : ∀ k : Nat, k < d.id.bytes * d.n.toNat → (m.byteAt x.data (d.offset + k)).isSome := by
          intro k hk
          apply hall
          rw [hfl]
          refine List.mem_map.2 ⟨d.offset + k, ?_, rfl⟩
          exact List.mem_map.2 ⟨k, List.mem_range.2 hk, rfl⟩
        cases hx : x.data with
        | none => have := hsome 0 (by omega); simp [hx, Mem.byteAt] at this
        | some q =>
          obtain ⟨bs, h1, h2, h3⟩ := Mem.load_ok (m := m) (q := q) (off := d.elementIndex 0) (len := d.id.bytes * d.n.toNat) (by
            intro k hk
            have := hsome k hk
            simp only [hx, Mem.byteAt] at this
            rw [show q.off + d.elementIndex 0 + (k : Int) = q.off + (d.offset + k) by
              simp only [DataType.elementIndex, Int.mul_zero]; omega]
            exact this)
          refine ⟨bs, h1, ?_⟩
          rw [hfl, hx]
          apply List.ext_getElem
          · simp [h2, Spec.run]
          · intro k hk1 hk2
            simp at hk1
            have := h3 k (by omega)
            rw [List.getElem?_eq_getElem hk1] at this
            simp only [List.getElem_map, Spec.run, List.getElem_range, Mem.byteAt]
            rw [this]
            congr 1
            simp only [DataType.elementIndex, Int.mul_zero]; omega
    · rw [htot, if_neg (by omega)]
      obtain ⟨m', bs, h1, h2, h3, h4⟩ := compactWrite_fresh (.leaf x d) m hr
      simp only [schema, htot, compactWrite] at h1 h2
      refine ⟨bs, ?_, h3⟩
      show (compactElements x d (some (m.alloc _).2) 0 (m.alloc _).1 >>= _) = _
      rw [h1, Res.bind_ok, h2]

mutual
theorem serializeStream_spec : ∀ (n : Node) (m : Mem), Readable m n → (∀ d ∈ n.schema.leaves, Natural d) →
    ∃ bs, serializeStream n m = .ok bs ∧ bs.map some = flat (val m n)
  | .leaf x d, m, hr, hn => streamLeaf_spec x d m hr (hn d (by simp [schema, leaves]))
  | .obj x es, m, hr, hn => by
    obtain ⟨bs, h1, h2⟩ := serializeStreamE_spec es m hr hn
    exact ⟨bs, h1, by simp only [val, flat, h2]⟩
  | .lst x es, m, hr, hn => by
    obtain ⟨bs, h1, h2⟩ := serializeStreamL_spec es m hr hn
    exact ⟨bs, h1, by simp only [val, flat, h2]⟩
theorem serializeStreamE_spec : ∀ (es : List (Str × Node)) (m : Mem), ReadableE m es →
    (∀ d ∈ leavesE (schemaE es), Natural d) →
    ∃ bs, serializeStreamE es m = .ok bs ∧ bs.map some = flatE (valE m es)
  | [], m, _, _ => ⟨[], rfl, rfl⟩
  | (n, c) :: es, m, hr, hn => by
    obtain ⟨a, h1, h2⟩ := serializeStream_spec c m hr.1 (fun d hd => hn d (by simp [schemaE, leavesE, hd]))
    obtain ⟨b, h3, h4⟩ := serializeStreamE_spec es m hr.2 (fun d hd => hn d (by simp [schemaE, leavesE, hd]))
    exact ⟨a ++ b, by rw [serializeStreamE, h1, Res.bind_ok, h3, Res.bind_ok], by simp [valE, flatE, h2, h4]⟩
theorem serializeStreamL_spec : ∀ (es : List Node) (m : Mem), ReadableL m es →
    (∀ d ∈ leavesL (schemaL es), Natural d) →
    ∃ bs, serializeStreamL es m = .ok bs ∧ bs.map some = flatL (valL m es)
  | [], m, _, _ => ⟨[], rfl, rfl⟩
  | c :: es, m, hr, hn => by
    obtain ⟨a, h1, h2⟩ := serializeStream_spec c m hr.1 (fun d hd => hn d (by simp [schemaL, leavesL, hd]))
    obtain ⟨b, h3, h4⟩ := serializeStreamL_spec es m hr.2 (fun d hd => hn d (by simp [schemaL, leavesL, hd]))
    exact ⟨a ++ b, by rw [serializeStreamL, h1, Res.bind_ok, h3, Res.bind_ok], by simp [valL, flatL, h2, h4]⟩
end

/-! ### what a compact schema describes depends only on its byte range -/

mutual
theorem view_compact {m m' : Mem} (p p' : Option Ptr) : ∀ (s : Schema) (off : Int), CountsOK s →
    (∀ i, off ≤ i → i < off + totalBytesCompact s → m'.byteAt p' i = m.byteAt p i) →
    view m' p' (compactAt s off) = view m p (compactAt s off)
  | .leaf d, off, hc, h => by
    have hn : 0 ≤ d.n := hc d (by simp [leaves])
    rw [compactAt]
    split
    · simp [view]
    · rename_i he
      simp only [view, DataType.compactTo, he, if_false]
      congr 1
      apply elems_congr rfl rfl
      intro i k hi hk
      simp only at hi hk ⊢
      apply h
      · have : 0 ≤ (d.id.bytes : Int) * i := Int.mul_nonneg (by omega) (by omega)
        omega
      · simp only [totalBytesCompact, he, if_false, DataType.bytesCompact]
        have : (d.id.bytes : Int) * (i + 1) ≤ d.id.bytes * d.n := Int.mul_le_mul_of_nonneg_left (by omega) (by omega)
        rw [Int.mul_add] at this
        omega
  | .obj es, off, hc, h => by
    simp only [compactAt, view]
    rw [viewE_compact p p' es off hc h]
  | .lst cs, off, hc, h => by
    simp only [compactAt, view]
    rw [viewL_compact p p' cs off hc h]
theorem viewE_compact {m m' : Mem} (p p' : Option Ptr) : ∀ (es : List (Str × Schema)) (off : Int), CountsOK (.obj es) →
    (∀ i, off ≤ i → i < off + totalBytesCompactE es → m'.byteAt p' i = m.byteAt p i) →
    viewE m' p' (compactAtE es off) = viewE m p (compactAtE es off)
  | [], _, _, _ => rfl
  | (n, c) :: es, off, hc, h => by
    have hc' := countsE hc
    have t1 := total_nonneg c hc'.1
    have t2 := total_nonnegE es hc'.2
    simp only [totalBytesCompactE] at h
    simp only [compactAtE, viewE, total_compactAt]
    rw [view_compact p p' c off hc'.1 (fun i h1 h2 => h i h1 (by omega)),
      viewE_compact p p' es _ hc'.2 (fun i h1 h2 => h i (by omega) (by omega))]
theorem viewL_compact {m m' : Mem} (p p' : Option Ptr) : ∀ (es : List Schema) (off : Int), CountsOK (.lst es) →
    (∀ i, off ≤ i → i < off + totalBytesCompactL es → m'.byteAt p' i = m.byteAt p i) →
    viewL m' p' (compactAtL es off) = viewL m p (compactAtL es off)
  | [], _, _, _ => rfl
  | c :: es, off, hc, h => by
    have hc' := countsL hc
    have t1 := total_nonneg c hc'.1
    have t2 := total_nonnegL es hc'.2
    simp only [totalBytesCompactL] at h
    simp only [compactAtL, viewL, total_compactAt]
    rw [view_compact p p' c off hc'.1 (fun i h1 h2 => h i h1 (by omega)),
      viewL_compact p p' es _ hc'.2 (fun i h1 h2 => h i (by omega) (by omega))]
end

/-- a compacted tree of a readable node is a walk of the compacted schema -/
theorem compactTo_walk (src dest : Node) (m m' : Mem) (n' : Node) (h : compactTo src dest m = .ok (m', n')) :
    ∃ p al, n' = walk p al src.schema.compactTo := by
  unfold compactTo at h
  cases hr : dest.reset m with
  | ok r =>
    rw [hr, Res.bind_ok] at h
    simp only at h
    generalize hc : compactWrite _ _ _ _ = w at h
    cases w with
    | ok m2 =>
      simp only [Res.bind_ok, Res.ok.injEq, Prod.mk.injEq] at h
      exact ⟨_, _, h.2.symm⟩
    | error => simp [bind, Res.bind] at h
    | ub => simp [bind, Res.bind] at h
  | error => rw [hr] at h; simp [bind, Res.bind] at h
  | ub => rw [hr] at h; simp [bind, Res.bind] at h

theorem saveBin_spec (n : Node) (m : Mem) (hr : Readable m n) :
    ∃ bytes, saveBin n m = .ok (n.schema.compactTo, bytes) ∧ bytes.map some = flat (val m n) := by
  obtain ⟨m', n', h1, h2, h3, _⟩ := compactTo_spec n new m hr (good_nil m) (by simp [new, owned, ownPtr])
  have hrd : Readable m' n' := by
    refine readable_of_val n' n ?_ h2 hr
    rw [h3]; exact leavesOK_compactAt _ _ (readable_leaves n hr)
  obtain ⟨bytes, h4, h5⟩ := serializeStream_spec n' m' hrd (by rw [h3]; exact natural_compactAt _ _)
  refine ⟨bytes, ?_, by rw [h5, h2]⟩
  rw [saveBin, h1, Res.bind_ok]
  simp only
  rw [h4, Res.bind_ok, h3]

theorem loadBin_spec (n : Node) (m : Mem) (hr : Readable m n) (bytes : List UInt8)
    (hb : bytes.map some = flat (val m n)) (dest : Node) (m2 : Mem) (hd : GoodOwners m2 (owned dest)) :
    ∃ m3 n3, loadBin n.schema.compactTo bytes dest m2 = .ok (m3, n3) ∧ val m3 n3 = val m n ∧
      n3.schema = n.schema.compactTo ∧ Frame m2 m3 (owned dest) := by
  obtain ⟨m', n', h1, h2, h3, _⟩ := compactTo_spec n new m hr (good_nil m) (by simp [new, owned, ownPtr])
  obtain ⟨p, al, hw⟩ := compactTo_walk _ _ _ _ _ h1
  have hc := countsOK_of hr
  have t := total_nonneg _ hc
  obtain ⟨s1, s2, s3⟩ := span_compactAt n.schema 0 hc (Int.le_refl 0)
  obtain ⟨m1, a1, a2⟩ := reset_spec dest m2 hd
  have hlen : m1.length = m2.length := a2.1
  -- bytes of the saved file
  have hfl := flat_walk_compact m' p al n.schema 0 hc
  rw [show walk p al (compactAt n.schema 0) = n' from hw.symm, h2, ← hb] at hfl
  have hbl : bytes.length = n.schema.totalBytesCompact.toNat := by
    have := congrArg List.length hfl; simpa [Spec.run] using this
  have hbyte : ∀ i : Nat, i < bytes.length → m'.byteAt p i = bytes[i]? := by
    intro i hi
    have := congrArg (fun l => l[i]?) hfl
    simp only [List.getElem?_map, Spec.run] at this
    rw [List.getElem?_range (by omega), List.getElem?_eq_getElem hi] at this
    simp only [Option.map_some, Int.zero_add, Option.some.injEq] at this
    rw [← this, List.getElem?_eq_getElem hi]
  -- spanned bytes
  have hsp : spannedBytes (compactAt n.schema 0) = n.schema.totalBytesCompact := by
    rcases Int.lt_or_eq_of_le t with h | h
    · have := s3 h; omega
    · omega
  have hall : allocate m1 (spannedBytes (n.schema.compactTo)) =
      ((m1.alloc bytes.length).1, { data := some ⟨m1.length, 0⟩, alloced := true }) := by
    rw [Schema.compactTo, hsp, allocate, if_neg (by omega), hbl]; rfl
  have htake : bytes.take (spannedBytes n.schema.compactTo).toNat = bytes := by
    rw [Schema.compactTo, hsp, ← hbl, List.take_length]
  obtain ⟨m3, c1, c2, c3, c4⟩ := Mem.store_spec (m := (m1.alloc bytes.length).1) (q := ⟨m1.length, 0⟩) (off := 0)
    (xs := bytes) (by
      intro k hk
      rw [Mem.byte_alloc_new, if_pos (by simp; omega)]; rfl)
  refine ⟨m3, walk (some ⟨m1.length, 0⟩) true n.schema.compactTo, ?_, ?_, schema_walk _ _ _, ?_, ?_⟩
  · rw [loadBin, a1, Res.bind_ok]
    simp only
    rw [hall]
    simp only
    rw [htake, c1, Res.bind_ok]
  · rw [← h2, hw, val_walk, val_walk, Schema.compactTo]
    apply view_compact _ _ _ _ hc
    intro i h0 hi
    have hi' : i.toNat < bytes.length := by omega
    have := hbyte i.toNat hi'
    rw [show ((i.toNat : Nat) : Int) = i by omega] at this
    rw [this]
    simp only [Mem.byteAt]
    rw [c4, if_pos (by simp; omega)]
    simp
  · rw [c2]; simp [Mem.alloc, hlen]
  · intro b hb1 hb2
    refine ⟨?_, fun i => ?_⟩
    · rw [c3, Mem.size_alloc_old _ _ _ (by omega), a2.size hb2]
    · rw [c4, if_neg (by simp; omega), Mem.byte_alloc_old _ _ _ _ (by omega), a2.byte hb2]

end Node
end Conduit
