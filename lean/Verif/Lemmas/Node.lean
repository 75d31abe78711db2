import Verif.Lemmas.Mem
import Verif.Lemmas.SchemaLayout
import Verif.Spec.Value
namespace Conduit
open Spec Spec.Tree Schema

namespace Node

/-! ### element lists -/

theorem elems_congr {m m' : Mem} {p p' : Option Ptr} {d d' : DataType} (hn : d'.n = d.n) (hi : d'.id = d.id)
    (h : ∀ i k : Nat, (i : Int) < d.n → k < d.id.bytes →
      m'.byteAt p' (d'.offset + d'.stride * i + k) = m.byteAt p (d.offset + d.stride * i + k)) :
    elems m' p' d' = elems m p d := by
  unfold elems
  rw [hn, hi]
  apply List.map_congr_left
  intro i hi
  apply List.map_congr_left
  intro k hk
  rw [List.mem_range] at hi hk
  exact h i k (by omega) hk

theorem elems_nil {m : Mem} {p : Option Ptr} {d : DataType} (h : d.n ≤ 0) : elems m p d = [] := by
  unfold elems
  rw [show d.n.toNat = 0 by omega]; rfl

theorem elems_isSome {m : Mem} {p : Option Ptr} {d : DataType} :
    (∀ e ∈ elems m p d, ∀ b ∈ e, b.isSome) ↔
    ∀ i k : Nat, (i : Int) < d.n → k < d.id.bytes → (m.byteAt p (d.offset + d.stride * i + k)).isSome := by
  unfold elems
  constructor
  · intro h i k hi hk
    apply h _ (List.mem_map.2 ⟨i, List.mem_range.2 (by omega), rfl⟩)
    exact List.mem_map.2 ⟨k, List.mem_range.2 hk, rfl⟩
  · intro h e he b hb
    obtain ⟨i, hi, rfl⟩ := List.mem_map.1 he
    obtain ⟨k, hk, rfl⟩ := List.mem_map.1 hb
    rw [List.mem_range] at hi hk
    exact h i k (by omega) hk

/-! ### frame: a value depends only on the blocks pointed to -/

def Agree (m m' : Mem) (bs : List Nat) : Prop := ∀ b ∈ bs, ∀ i, m'.byte b i = m.byte b i

theorem Agree.mono {m m' : Mem} {bs cs : List Nat} (h : Agree m m' bs) (hs : ∀ b ∈ cs, b ∈ bs) : Agree m m' cs :=
  fun b hb => h b (hs b hb)

theorem byteAt_agree {m m' : Mem} {p : Option Ptr} (h : Agree m m' (p.map Ptr.blk).toList) (i : Int) :
    m'.byteAt p i = m.byteAt p i := by
  cases p with
  | none => rfl
  | some q => exact h q.blk (by simp) _

theorem elems_agree {m m' : Mem} {x : Info} (d : DataType) (he : d.id ≠ .empty)
    (h : Agree m m' (blocks (.leaf x d))) : elems m' x.data d = elems m x.data d := by
  by_cases hn : d.n ≤ 0
  · rw [elems_nil hn, elems_nil hn]
  · refine elems_congr rfl rfl (fun _ _ _ _ => byteAt_agree ?_ _)
    simpa [blocks, he, hn] using h

mutual
theorem val_agree {m m' : Mem} : ∀ n : Node, Agree m m' (blocks n) → val m' n = val m n
  | .leaf x d, h => by
    simp only [val]
    split
    · rfl
    · rename_i he
      rw [elems_agree d he h]
  | .obj x es, h => by
    simp only [val]
    rw [valE_agree es (h.mono (by intro b hb; simpa [blocks] using hb))]
  | .lst x cs, h => by
    simp only [val]
    rw [valL_agree cs (h.mono (by intro b hb; simpa [blocks] using hb))]
theorem valE_agree {m m' : Mem} : ∀ es : List (Str × Node), Agree m m' (blocksE es) → valE m' es = valE m es
  | [], _ => rfl
  | (n, c) :: es, h => by
    simp only [valE]
    rw [val_agree c (h.mono (by intro b hb; simp [blocksE, hb])),
      valE_agree es (h.mono (by intro b hb; simp [blocksE, hb]))]
theorem valL_agree {m m' : Mem} : ∀ es : List Node, Agree m m' (blocksL es) → valL m' es = valL m es
  | [], _ => rfl
  | c :: es, h => by
    simp only [valL]
    rw [val_agree c (h.mono (by intro b hb; simp [blocksL, hb])),
      valL_agree es (h.mono (by intro b hb; simp [blocksL, hb]))]
end

mutual
theorem readable_agree {m m' : Mem} : ∀ n : Node, Agree m m' (blocks n) → (Readable m' n ↔ Readable m n)
  | .leaf x d, h => by
    simp only [Readable]
    by_cases he : d.id = .empty
    · simp [he]
    · rw [elems_agree d he h]
  | .obj x es, h => by
    simp only [Readable]
    rw [readableE_agree es (h.mono (by intro b hb; simpa [blocks] using hb))]
  | .lst x cs, h => by
    simp only [Readable]
    rw [readableL_agree cs (h.mono (by intro b hb; simpa [blocks] using hb))]
theorem readableE_agree {m m' : Mem} : ∀ es : List (Str × Node), Agree m m' (blocksE es) →
    (ReadableE m' es ↔ ReadableE m es)
  | [], _ => Iff.rfl
  | (n, c) :: es, h => by
    simp only [ReadableE]
    rw [readable_agree c (h.mono (by intro b hb; simp [blocksE, hb])),
      readableE_agree es (h.mono (by intro b hb; simp [blocksE, hb]))]
theorem readableL_agree {m m' : Mem} : ∀ es : List Node, Agree m m' (blocksL es) →
    (ReadableL m' es ↔ ReadableL m es)
  | [], _ => Iff.rfl
  | c :: es, h => by
    simp only [ReadableL]
    rw [readable_agree c (h.mono (by intro b hb; simp [blocksL, hb])),
      readableL_agree es (h.mono (by intro b hb; simp [blocksL, hb]))]
end

/-! ### compact_to(data, offset) -/

theorem bytes_pos {t : TypeId} (h : t ≠ .empty) (h1 : t ≠ .object) (h2 : t ≠ .list) : 0 < t.bytes := by
  cases t <;> simp_all [TypeId.bytes]

/-- what `compact_to` guarantees for one subtree -/
def CW (p : Ptr) (m m' : Mem) (off total : Int) : Prop :=
  Mem.SameShape m m' ∧
  ∀ b i, ¬ (b = p.blk ∧ p.off + off ≤ i ∧ i < p.off + off + total) → m'.byte b i = m.byte b i

mutual
/-- the value of a walked compact schema depends only on its byte range -/
theorem val_walk_compact {m m' : Mem} (p : Ptr) (al al' : Bool) : ∀ (s : Schema) (off : Int), CountsOK s →
    (∀ i, off ≤ i → i < off + totalBytesCompact s → m'.byteAt (some p) i = m.byteAt (some p) i) →
    val m' (walk (some p) al' (compactAt s off)) = val m (walk (some p) al (compactAt s off))
  | .leaf d, off, hc, h => by
    have hn : 0 ≤ d.n := hc d (by simp [leaves])
    rw [compactAt]
    split
    · simp [walk, val]
    · rename_i he
      simp only [walk, val, DataType.compactTo, he, if_false]
      congr 1
      apply elems_congr rfl rfl
      intro i k hi hk
      simp only at hi hk ⊢
      apply h
      · have : 0 ≤ (d.id.bytes : Int) * i := Int.mul_nonneg (by omega) (by omega)
        omega
      · simp only [totalBytesCompact, he, if_false, DataType.bytesCompact]
        have : (d.id.bytes : Int) * (i + 1) ≤ d.id.bytes * d.n := Int.mul_le_mul_of_nonneg_left (by omega) (by omega)
        rw [Int.mul_add] at this
        omega
  | .obj es, off, hc, h => by
    simp only [compactAt, walk, val]
    rw [valE_walk_compact p es off hc h]
  | .lst cs, off, hc, h => by
    simp only [compactAt, walk, val]
    rw [valL_walk_compact p cs off hc h]
theorem valE_walk_compact {m m' : Mem} (p : Ptr) : ∀ (es : List (Str × Schema)) (off : Int), CountsOK (.obj es) →
    (∀ i, off ≤ i → i < off + totalBytesCompactE es → m'.byteAt (some p) i = m.byteAt (some p) i) →
    valE m' (walkE (some p) (compactAtE es off)) = valE m (walkE (some p) (compactAtE es off))
  | [], _, _, _ => rfl
  | (n, c) :: es, off, hc, h => by
    have hc' := countsE hc
    have t1 := total_nonneg c hc'.1
    have t2 := total_nonnegE es hc'.2
    simp only [totalBytesCompactE] at h
    simp only [compactAtE, walkE, valE, total_compactAt]
    rw [val_walk_compact p false false c off hc'.1
        (fun i h1 h2 => h i h1 (by omega)),
      valE_walk_compact p es _ hc'.2
        (fun i h1 h2 => h i (by omega) (by omega))]
theorem valL_walk_compact {m m' : Mem} (p : Ptr) : ∀ (es : List Schema) (off : Int), CountsOK (.lst es) →
    (∀ i, off ≤ i → i < off + totalBytesCompactL es → m'.byteAt (some p) i = m.byteAt (some p) i) →
    valL m' (walkL (some p) (compactAtL es off)) = valL m (walkL (some p) (compactAtL es off))
  | [], _, _, _ => rfl
  | c :: es, off, hc, h => by
    have hc' := countsL hc
    have t1 := total_nonneg c hc'.1
    have t2 := total_nonnegL es hc'.2
    simp only [totalBytesCompactL] at h
    simp only [compactAtL, walkL, valL, total_compactAt]
    rw [val_walk_compact p false false c off hc'.1
        (fun i h1 h2 => h i h1 (by omega)),
      valL_walk_compact p es _ hc'.2
        (fun i h1 h2 => h i (by omega) (by omega))]
end


/-! ### leaves of a readable node -/

def LeafOK (d : DataType) : Prop := 0 ≤ d.n ∧ d.id ≠ .object ∧ d.id ≠ .list

mutual
theorem readable_leaves {m : Mem} : ∀ n : Node, Readable m n → ∀ d ∈ n.schema.leaves, LeafOK d
  | .leaf x d, h, d', hd => by
    simp only [schema, leaves, List.mem_singleton] at hd; subst hd
    exact ⟨h.2.2.1, h.1, h.2.1⟩
  | .obj x es, h, d', hd => by
    simp only [schema, leaves] at hd; exact readable_leavesE es h d' hd
  | .lst x cs, h, d', hd => by
    simp only [schema, leaves] at hd; exact readable_leavesL cs h d' hd
theorem readable_leavesE {m : Mem} : ∀ es : List (Str × Node), ReadableE m es →
    ∀ d ∈ leavesE (schemaE es), LeafOK d
  | [], _, d', hd => by simp [schemaE, leavesE] at hd
  | (n, c) :: es, h, d', hd => by
    simp only [schemaE, leavesE, List.mem_append] at hd
    rcases hd with hd | hd
    · exact readable_leaves c h.1 d' hd
    · exact readable_leavesE es h.2 d' hd
theorem readable_leavesL {m : Mem} : ∀ es : List Node, ReadableL m es →
    ∀ d ∈ leavesL (schemaL es), LeafOK d
  | [], _, d', hd => by simp [schemaL, leavesL] at hd
  | c :: es, h, d', hd => by
    simp only [schemaL, leavesL, List.mem_append] at hd
    rcases hd with hd | hd
    · exact readable_leaves c h.1 d' hd
    · exact readable_leavesL es h.2 d' hd
end

theorem countsOK_of {m : Mem} {n : Node} (h : Readable m n) : CountsOK n.schema :=
  fun d hd => (readable_leaves n h d hd).1
theorem countsOK_ofE {m : Mem} {es : List (Str × Node)} (h : ReadableE m es) : CountsOK (.obj (schemaE es)) :=
  fun d hd => (readable_leavesE es h d hd).1
theorem countsOK_ofL {m : Mem} {es : List Node} (h : ReadableL m es) : CountsOK (.lst (schemaL es)) :=
  fun d hd => (readable_leavesL es h d hd).1

/-! ### compact_to(data, offset): the copy -/

theorem CW.agree {p : Ptr} {m m' : Mem} {off t : Int} (h : CW p m m' off t) {bs : List Nat} (hb : p.blk ∉ bs) :
    Agree m m' bs := by
  intro b hb' i
  apply h.2
  rintro ⟨rfl, _⟩
  exact hb hb'

theorem CW.trans {p : Ptr} {a b c : Mem} {off t u : Int} (h : CW p a b off t) (h' : CW p b c (off + t) u)
    (ht : 0 ≤ t) (hu : 0 ≤ u) : CW p a c off (t + u) := by
  refine ⟨h.1.trans h'.1, fun x i hx => ?_⟩
  rw [h'.2 x i (fun hh => hx ⟨hh.1, by omega, by omega⟩), h.2 x i (fun hh => hx ⟨hh.1, by omega, by omega⟩)]

theorem bind_ok {α β : Type} (a : α) (f : α → Res β) : (Res.ok a >>= f) = f a := rfl

mutual
theorem compactWrite_spec (p : Ptr) (al : Bool) : ∀ (n : Node) (off : Int) (m : Mem), Readable m n →
    p.blk ∉ blocks n →
    (∀ i, off ≤ i → i < off + n.schema.totalBytesCompact → (m.byteAt (some p) i).isSome) →
    ∃ m', compactWrite (some p) n off m = .ok m' ∧ CW p m m' off n.schema.totalBytesCompact ∧
      val m' (walk (some p) al (compactAt n.schema off)) = val m n
  | .leaf x d, off, m, hr, hb, ht => by
    simp only [Readable] at hr
    obtain ⟨h1, h2, hn, h3⟩ := hr
    by_cases he : d.id = .empty
    · refine ⟨m, ?_, ⟨Mem.SameShape.refl m, fun _ _ _ => rfl⟩, ?_⟩
      · simp [compactWrite, compactElements, he]
      · simp [schema, compactAt, he, walk, val]
    · have hbp := bytes_pos he h1 h2
      simp only [schema, totalBytesCompact, he, if_false, DataType.bytesCompact] at ht ⊢
      simp only [compactWrite, compactElements, he, h1, h2, beq_iff_eq, Bool.or_false, Bool.false_eq_true,
        Bool.or_eq_true, or_self, if_false, if_neg (show ¬ d.n < 0 by omega)]
      have hle : ∀ e k : Nat, e < d.n.toNat → k < d.id.bytes →
          (d.id.bytes : Int) * e + k < d.id.bytes * d.n := by
        intro e k he' hk
        have : (d.id.bytes : Int) * (e + 1) ≤ d.id.bytes * d.n :=
          Int.mul_le_mul_of_nonneg_left (by omega) (by omega)
        rw [Int.mul_add] at this
        omega
      have hge : ∀ e : Nat, 0 ≤ (d.id.bytes : Int) * e := fun e => Int.mul_nonneg (by omega) (by omega)
      by_cases h0 : d.n = 0
      · refine ⟨m, ?_, ⟨Mem.SameShape.refl m, fun _ _ _ => rfl⟩, ?_⟩
        · exact Mem.stridedCopy_zero _ _ _ _ _ _ _ _ _ (Or.inl (by omega))
        · simp only [compactAt, he, if_false, walk, val, DataType.compactTo]
          rw [elems_nil (by simp; omega), elems_nil (by omega)]
      · have hel := elems_isSome.1 (h3 he)
        obtain ⟨q, hq⟩ : ∃ q, x.data = some q := by
          cases hx : x.data with
          | some q => exact ⟨q, rfl⟩
          | none =>
            have := hel 0 0 (by omega) hbp
            simp [hx, Mem.byteAt] at this
        have hblk : p.blk ≠ q.blk := by
          intro hh; apply hb; simp [blocks, hq, hh, he]; omega
        rw [hq]
        obtain ⟨m', g1, g2, g3, g4⟩ := Mem.stridedCopy_spec p q d.id.bytes d.id.bytes d.stride d.n.toNat m off (d.elementIndex 0)
          (by
            intro e k he' hk
            have := hel e k (by omega) hk
            rw [hq] at this
            simp only [Mem.byteAt] at this
            rw [show q.off + d.elementIndex 0 + d.stride * e + k = q.off + (d.offset + d.stride * e + k) by
              simp only [DataType.elementIndex, Int.mul_zero]; omega]
            exact this)
          (by
            intro e k he' hk
            have := ht (off + d.id.bytes * e + k) (by have := hge e; omega) (by have := hle e k he' hk; omega)
            simp only [Mem.byteAt] at this
            rw [show p.off + off + (d.id.bytes : Int) * e + k = p.off + (off + d.id.bytes * e + k) by omega]
            exact this)
          (fun h => absurd h hblk)
          (Mem.apart_of_le (Int.le_refl _))
        refine ⟨m', g1, ⟨g2, ?_⟩, ?_⟩
        · intro b i hbi
          apply g3
          rintro rfl ⟨e, he', h5, h6⟩
          apply hbi
          have := hle e (d.id.bytes - 1) he' (by omega)
          have := hge e
          exact ⟨rfl, by omega, by omega⟩
        · simp only [compactAt, he, if_false, walk, val, DataType.compactTo]
          congr 1
          refine elems_congr (by rfl) (by rfl) ?_
          intro e k he' hk
          simp only at he' hk ⊢
          have := g4 e k (by omega) hk
          rw [hq]
          simp only [Mem.byteAt]
          rw [show p.off + (off + (d.id.bytes : Int) * e + k) = p.off + off + d.id.bytes * e + k by omega, this]
          congr 1
          simp only [DataType.elementIndex, Int.mul_zero]; omega
  | .obj x es, off, m, hr, hb, ht => by
    obtain ⟨m', h1, h2, h3⟩ := compactWriteE_spec p es off m hr (by simpa [blocks] using hb) ht
    refine ⟨m', h1, h2, ?_⟩
    simp only [schema, compactAt, walk, val, h3]
  | .lst x cs, off, m, hr, hb, ht => by
    obtain ⟨m', h1, h2, h3⟩ := compactWriteL_spec p cs off m hr (by simpa [blocks] using hb) ht
    refine ⟨m', h1, h2, ?_⟩
    simp only [schema, compactAt, walk, val, h3]
theorem compactWriteE_spec (p : Ptr) : ∀ (es : List (Str × Node)) (off : Int) (m : Mem), ReadableE m es →
    p.blk ∉ blocksE es →
    (∀ i, off ≤ i → i < off + totalBytesCompactE (schemaE es) → (m.byteAt (some p) i).isSome) →
    ∃ m', compactWriteE (some p) es off m = .ok m' ∧ CW p m m' off (totalBytesCompactE (schemaE es)) ∧
      valE m' (walkE (some p) (compactAtE (schemaE es) off)) = valE m es
  | [], off, m, _, _, _ => ⟨m, rfl, ⟨Mem.SameShape.refl m, fun _ _ _ => rfl⟩, rfl⟩
  | (n, c) :: es, off, m, hr, hb, ht => by
    simp only [blocksE, List.mem_append, not_or] at hb
    simp only [schemaE, totalBytesCompactE] at ht ⊢
    have t1 := total_nonneg _ (countsOK_of hr.1)
    have t2 := total_nonnegE _ (countsOK_ofE hr.2)
    obtain ⟨m1, a1, a2, a3⟩ := compactWrite_spec p false c off m hr.1 hb.1 (fun i h1 h2 => ht i h1 (by omega))
    have ag := a2.agree hb.2
    obtain ⟨m2, b1, b2, b3⟩ := compactWriteE_spec p es (off + c.schema.totalBytesCompact) m1
      ((readableE_agree es ag).2 hr.2) hb.2 (fun i h1 h2 => by
        have := ht i (by omega) (by omega)
        simp only [Mem.byteAt] at this ⊢
        exact (a2.1.isSome _ _).2 this)
    refine ⟨m2, ?_, a2.trans b2 t1 t2, ?_⟩
    · rw [compactWriteE, a1, bind_ok]; exact b1
    · simp only [compactAtE, walkE, valE, total_compactAt]
      rw [b3, valE_agree es ag, val_walk_compact p false false c.schema off (countsOK_of hr.1) (m := m1), a3]
      intro i h1 h2
      simp only [Mem.byteAt]
      apply b2.2
      omega
theorem compactWriteL_spec (p : Ptr) : ∀ (es : List Node) (off : Int) (m : Mem), ReadableL m es →
    p.blk ∉ blocksL es →
    (∀ i, off ≤ i → i < off + totalBytesCompactL (schemaL es) → (m.byteAt (some p) i).isSome) →
    ∃ m', compactWriteL (some p) es off m = .ok m' ∧ CW p m m' off (totalBytesCompactL (schemaL es)) ∧
      valL m' (walkL (some p) (compactAtL (schemaL es) off)) = valL m es
  | [], off, m, _, _, _ => ⟨m, rfl, ⟨Mem.SameShape.refl m, fun _ _ _ => rfl⟩, rfl⟩
  | c :: es, off, m, hr, hb, ht => by
    simp only [blocksL, List.mem_append, not_or] at hb
    simp only [schemaL, totalBytesCompactL] at ht ⊢
    have t1 := total_nonneg _ (countsOK_of hr.1)
    have t2 := total_nonnegL _ (countsOK_ofL hr.2)
    obtain ⟨m1, a1, a2, a3⟩ := compactWrite_spec p false c off m hr.1 hb.1 (fun i h1 h2 => ht i h1 (by omega))
    have ag := a2.agree hb.2
    obtain ⟨m2, b1, b2, b3⟩ := compactWriteL_spec p es (off + c.schema.totalBytesCompact) m1
      ((readableL_agree es ag).2 hr.2) hb.2 (fun i h1 h2 => by
        have := ht i (by omega) (by omega)
        simp only [Mem.byteAt] at this ⊢
        exact (a2.1.isSome _ _).2 this)
    refine ⟨m2, ?_, a2.trans b2 t1 t2, ?_⟩
    · rw [compactWriteL, a1, bind_ok]; exact b1
    · simp only [compactAtL, walkL, valL, total_compactAt]
      rw [b3, valL_agree es ag, val_walk_compact p false false c.schema off (countsOK_of hr.1) (m := m1), a3]
      intro i h1 h2
      simp only [Mem.byteAt]
      apply b2.2
      omega
end

/-! ### release -/

theorem ownPtr_some {x : Info} {p : Ptr} (h : p ∈ ownPtr x) : x.alloced = true ∧ x.data = some p := by
  unfold ownPtr at h
  split at h
  · rename_i ha
    exact ⟨ha, by cases hx : x.data <;> simp_all⟩
  · simp at h

theorem GoodOwners.app {m : Mem} {ps qs : List Ptr} (h : GoodOwners m (ps ++ qs)) :
    GoodOwners m ps ∧ GoodOwners m qs ∧ (∀ p ∈ ps, ∀ q ∈ qs, p.blk ≠ q.blk) := by
  obtain ⟨h1, h2⟩ := h
  rw [List.map_append, List.nodup_append] at h1
  refine ⟨⟨h1.1, fun p hp => h2 p (by simp [hp])⟩, ⟨h1.2.1, fun p hp => h2 p (by simp [hp])⟩, ?_⟩
  intro p hp q hq
  exact h1.2.2 p.blk (List.mem_map.2 ⟨p, hp, rfl⟩) q.blk (List.mem_map.2 ⟨q, hq, rfl⟩)

/-- what `release` does to memory: only blocks in `ps` change -/
def Rel (m m' : Mem) (ps : List Ptr) : Prop :=
  m'.length = m.length ∧ ∀ b, b ∉ ps.map Ptr.blk → m'[b]? = m[b]?

theorem Rel.refl (m : Mem) (ps : List Ptr) : Rel m m ps := ⟨rfl, fun _ _ => rfl⟩

theorem Rel.app {a b c : Mem} {ps qs : List Ptr} (h : Rel a b ps) (h' : Rel b c qs) : Rel a c (ps ++ qs) := by
  refine ⟨h'.1.trans h.1, fun x hx => ?_⟩
  simp only [List.map_append, List.mem_append, not_or] at hx
  rw [h'.2 x hx.2, h.2 x hx.1]

theorem Rel.good {m m' : Mem} {ps qs : List Ptr} (h : Rel m m' ps) (hq : GoodOwners m qs)
    (hd : ∀ p ∈ ps, ∀ q ∈ qs, p.blk ≠ q.blk) : GoodOwners m' qs := by
  refine ⟨hq.1, fun q hqq => ⟨(hq.2 q hqq).1, ?_⟩⟩
  obtain ⟨bs, hbs⟩ := (hq.2 q hqq).2
  refine ⟨bs, ?_⟩
  rw [h.2, hbs]
  intro hm
  obtain ⟨p, hp, hpb⟩ := List.mem_map.1 hm
  exact hd p hp q hqq hpb

theorem Rel.comm {m m' : Mem} {ps qs : List Ptr} (h : Rel m m' (ps ++ qs)) : Rel m m' (qs ++ ps) :=
  ⟨h.1, fun b hb => h.2 b (by simpa [or_comm, and_comm] using hb)⟩

theorem free_ok {m : Mem} {p : Ptr} (h0 : p.off = 0) (hl : Live m p.blk) :
    m.free p = .ok (m.set p.blk none) := by
  obtain ⟨bs, hbs⟩ := hl
  simp [Mem.free, h0, hbs]

theorem freeOwn_spec {m : Mem} {x : Info} (e : Bool) (h : GoodOwners m (ownPtr x)) :
    ∃ m', freeOwn x e m = .ok m' ∧ Rel m m' (ownPtr x) := by
  unfold freeOwn
  split
  · rename_i hc
    split
    · rename_i p hp
      have ha : x.alloced = true := by simp at hc; exact hc.1
      have hm : p ∈ ownPtr x := by simp [ownPtr, ha, hp]
      obtain ⟨h1, h2⟩ := h.2 p hm
      refine ⟨_, free_ok h1 h2, by simp, ?_⟩
      intro b hb
      rw [List.getElem?_set_ne]
      rintro rfl
      exact hb (List.mem_map.2 ⟨p, hm, rfl⟩)
    · exact ⟨m, rfl, Rel.refl _ _⟩
  · exact ⟨m, rfl, Rel.refl _ _⟩

mutual
theorem releaseMem_spec : ∀ (n : Node) (m : Mem), GoodOwners m (owned n) →
    ∃ m', releaseMem n m = .ok m' ∧ Rel m m' (owned n)
  | .leaf x d, m, h => freeOwn_spec _ h
  | .obj x es, m, h => by
    obtain ⟨h1, h2, h3⟩ := GoodOwners.app h
    obtain ⟨m1, a1, a2⟩ := releaseE_spec es m h2
    obtain ⟨m2, b1, b2⟩ := freeOwn_spec false (a2.good h1 (fun p hp q hq => (h3 q hq p hp).symm))
    exact ⟨m2, by rw [releaseMem, a1, bind_ok]; exact b1, (a2.app b2).comm⟩
  | .lst x es, m, h => by
    obtain ⟨h1, h2, h3⟩ := GoodOwners.app h
    obtain ⟨m1, a1, a2⟩ := releaseL_spec es m h2
    obtain ⟨m2, b1, b2⟩ := freeOwn_spec false (a2.good h1 (fun p hp q hq => (h3 q hq p hp).symm))
    exact ⟨m2, by rw [releaseMem, a1, bind_ok]; exact b1, (a2.app b2).comm⟩
theorem releaseE_spec : ∀ (es : List (Str × Node)) (m : Mem), GoodOwners m (ownedE es) →
    ∃ m', releaseE es m = .ok m' ∧ Rel m m' (ownedE es)
  | [], m, h => ⟨m, rfl, Rel.refl _ _⟩
  | (n, c) :: es, m, h => by
    obtain ⟨h1, h2, h3⟩ := GoodOwners.app h
    obtain ⟨m1, a1, a2⟩ := releaseMem_spec c m h1
    obtain ⟨m2, b1, b2⟩ := releaseE_spec es m1 (a2.good h2 h3)
    exact ⟨m2, by rw [releaseE, a1, bind_ok]; exact b1, a2.app b2⟩
theorem releaseL_spec : ∀ (es : List Node) (m : Mem), GoodOwners m (ownedL es) →
    ∃ m', releaseL es m = .ok m' ∧ Rel m m' (ownedL es)
  | [], m, h => ⟨m, rfl, Rel.refl _ _⟩
  | c :: es, m, h => by
    obtain ⟨h1, h2, h3⟩ := GoodOwners.app h
    obtain ⟨m1, a1, a2⟩ := releaseMem_spec c m h1
    obtain ⟨m2, b1, b2⟩ := releaseL_spec es m1 (a2.good h2 h3)
    exact ⟨m2, by rw [releaseL, a1, bind_ok]; exact b1, a2.app b2⟩
end

theorem Rel.byte {m m' : Mem} {ps : List Ptr} (h : Rel m m' ps) {b : Nat} (hb : b ∉ ps.map Ptr.blk) (i : Int) :
    m'.byte b i = m.byte b i := by
  unfold Mem.byte; rw [h.2 b hb]

theorem Rel.size {m m' : Mem} {ps : List Ptr} (h : Rel m m' ps) {b : Nat} (hb : b ∉ ps.map Ptr.blk) :
    m'.size b = m.size b := by
  unfold Mem.size; rw [h.2 b hb]

theorem reset_spec (n : Node) (m : Mem) (h : GoodOwners m (owned n)) :
    ∃ m', n.reset m = .ok (m', .leaf n.releasedInfo {}) ∧ Rel m m' (owned n) := by
  obtain ⟨m', h1, h2⟩ := releaseMem_spec n m h
  exact ⟨m', by rw [reset, h1, bind_ok], h2⟩

/-! ### compact_to(node) -/

mutual
theorem blocks_lt {m : Mem} : ∀ n : Node, Readable m n → ∀ b ∈ blocks n, b < m.length
  | .leaf x d, h, b, hb => by
    simp only [blocks] at hb
    split at hb
    · simp at hb
    · rename_i hc
      rw [not_or] at hc
      cases hx : x.data with
      | none => simp [hx] at hb
      | some q =>
        simp [hx] at hb; subst hb
        have := elems_isSome.1 (h.2.2.2 hc.1) 0 0 (by omega) (bytes_pos hc.1 h.1 h.2.1)
        rw [hx] at this
        exact Mem.byte_lt this
  | .obj x es, h, b, hb => blocksE_lt es h b hb
  | .lst x es, h, b, hb => blocksL_lt es h b hb
theorem blocksE_lt {m : Mem} : ∀ es : List (Str × Node), ReadableE m es → ∀ b ∈ blocksE es, b < m.length
  | [], _, b, hb => by simp [blocksE] at hb
  | (n, c) :: es, h, b, hb => by
    simp only [blocksE, List.mem_append] at hb
    rcases hb with hb | hb
    · exact blocks_lt c h.1 b hb
    · exact blocksE_lt es h.2 b hb
theorem blocksL_lt {m : Mem} : ∀ es : List Node, ReadableL m es → ∀ b ∈ blocksL es, b < m.length
  | [], _, b, hb => by simp [blocksL] at hb
  | c :: es, h, b, hb => by
    simp only [blocksL, List.mem_append] at hb
    rcases hb with hb | hb
    · exact blocks_lt c h.1 b hb
    · exact blocksL_lt es h.2 b hb
end

mutual
/-- nothing to copy: no element anywhere -/
theorem compactWrite_zero (p : Option Ptr) (al : Bool) : ∀ (n : Node) (off : Int) (m : Mem), Readable m n →
    n.schema.totalBytesCompact = 0 →
    compactWrite p n off m = .ok m ∧ val m (walk p al (compactAt n.schema off)) = val m n ∧
      blocks (walk p al (compactAt n.schema off)) = []
  | .leaf x d, off, m, hr, ht => by
    obtain ⟨h1, h2, hn, h3⟩ := hr
    by_cases he : d.id = .empty
    · refine ⟨?_, ?_, ?_⟩
      · simp [compactWrite, compactElements, he]
      · simp [schema, compactAt, he, walk, val]
      · simp [schema, compactAt, he, walk, blocks]
    · have hbp := bytes_pos he h1 h2
      simp only [schema, totalBytesCompact, he, if_false, DataType.bytesCompact] at ht
      have h0 : d.n = 0 := by
        rcases Int.mul_eq_zero.1 ht with h | h <;> omega
      refine ⟨?_, ?_, ?_⟩
      · simp only [compactWrite, compactElements, he, h1, h2, beq_iff_eq, Bool.or_false, Bool.false_eq_true,
          Bool.or_eq_true, or_self, if_false, if_neg (show ¬ d.n < 0 by omega)]
        exact Mem.stridedCopy_zero _ _ _ _ _ _ _ _ _ (Or.inl (by omega))
      · simp only [schema, compactAt, he, if_false, walk, val, DataType.compactTo]
        rw [elems_nil (by simp; omega), elems_nil (by omega)]
      · simp [schema, compactAt, he, walk, blocks, DataType.compactTo, h0]
  | .obj x es, off, m, hr, ht => by
    obtain ⟨h1, h2, h3⟩ := compactWriteE_zero p es off m hr ht
    exact ⟨h1, by simp only [schema, compactAt, walk, val, h2], by simp only [schema, compactAt, walk, blocks, h3]⟩
  | .lst x es, off, m, hr, ht => by
    obtain ⟨h1, h2, h3⟩ := compactWriteL_zero p es off m hr ht
    exact ⟨h1, by simp only [schema, compactAt, walk, val, h2], by simp only [schema, compactAt, walk, blocks, h3]⟩
theorem compactWriteE_zero (p : Option Ptr) : ∀ (es : List (Str × Node)) (off : Int) (m : Mem), ReadableE m es →
    totalBytesCompactE (schemaE es) = 0 →
    compactWriteE p es off m = .ok m ∧ valE m (walkE p (compactAtE (schemaE es) off)) = valE m es ∧
      blocksE (walkE p (compactAtE (schemaE es) off)) = []
  | [], off, m, _, _ => ⟨rfl, rfl, rfl⟩
  | (n, c) :: es, off, m, hr, ht => by
    have t1 := total_nonneg _ (countsOK_of hr.1)
    have t2 := total_nonnegE _ (countsOK_ofE hr.2)
    simp only [schemaE, totalBytesCompactE] at ht
    obtain ⟨a1, a2, a3⟩ := compactWrite_zero p false c off m hr.1 (by omega)
    obtain ⟨b1, b2, b3⟩ := compactWriteE_zero p es (off + c.schema.totalBytesCompact) m hr.2 (by omega)
    refine ⟨by rw [compactWriteE, a1, bind_ok]; exact b1, ?_, ?_⟩
    · simp only [schemaE, compactAtE, walkE, valE, total_compactAt, a2, b2]
    · simp only [schemaE, compactAtE, walkE, blocksE, total_compactAt, a3, b3, List.append_nil]
theorem compactWriteL_zero (p : Option Ptr) : ∀ (es : List Node) (off : Int) (m : Mem), ReadableL m es →
    totalBytesCompactL (schemaL es) = 0 →
    compactWriteL p es off m = .ok m ∧ valL m (walkL p (compactAtL (schemaL es) off)) = valL m es ∧
      blocksL (walkL p (compactAtL (schemaL es) off)) = []
  | [], off, m, _, _ => ⟨rfl, rfl, rfl⟩
  | c :: es, off, m, hr, ht => by
    have t1 := total_nonneg _ (countsOK_of hr.1)
    have t2 := total_nonnegL _ (countsOK_ofL hr.2)
    simp only [schemaL, totalBytesCompactL] at ht
    obtain ⟨a1, a2, a3⟩ := compactWrite_zero p false c off m hr.1 (by omega)
    obtain ⟨b1, b2, b3⟩ := compactWriteL_zero p es (off + c.schema.totalBytesCompact) m hr.2 (by omega)
    refine ⟨by rw [compactWriteL, a1, bind_ok]; exact b1, ?_, ?_⟩
    · simp only [schemaL, compactAtL, walkL, valL, total_compactAt, a2, b2]
    · simp only [schemaL, compactAtL, walkL, blocksL, total_compactAt, a3, b3, List.append_nil]
end

mutual
theorem schema_walk (p : Option Ptr) (al : Bool) : ∀ s : Schema, (walk p al s).schema = s
  | .leaf d => rfl
  | .obj es => by simp only [walk, schema, schemaE_walk p es]
  | .lst es => by simp only [walk, schema, schemaL_walk p es]
theorem schemaE_walk (p : Option Ptr) : ∀ es : List (Str × Schema), schemaE (walkE p es) = es
  | [] => rfl
  | (n, c) :: es => by simp only [walkE, schemaE, schema_walk p false c, schemaE_walk p es]
theorem schemaL_walk (p : Option Ptr) : ∀ es : List Schema, schemaL (walkL p es) = es
  | [] => rfl
  | c :: es => by simp only [walkL, schemaL, schema_walk p false c, schemaL_walk p es]
end

mutual
theorem blocks_walk (q : Ptr) (al : Bool) : ∀ s : Schema, ∀ b ∈ blocks (walk (some q) al s), b = q.blk
  | .leaf d, b, hb => by
    simp only [walk, blocks] at hb
    split at hb
    · simp at hb
    · simpa using hb
  | .obj es, b, hb => blocksE_walk q es b hb
  | .lst es, b, hb => blocksL_walk q es b hb
theorem blocksE_walk (q : Ptr) : ∀ es : List (Str × Schema), ∀ b ∈ blocksE (walkE (some q) es), b = q.blk
  | [], b, hb => by simp [walkE, blocksE] at hb
  | (n, c) :: es, b, hb => by
    simp only [walkE, blocksE, List.mem_append] at hb
    rcases hb with hb | hb
    · exact blocks_walk q false c b hb
    · exact blocksE_walk q es b hb
theorem blocksL_walk (q : Ptr) : ∀ es : List Schema, ∀ b ∈ blocksL (walkL (some q) es), b = q.blk
  | [], b, hb => by simp [walkL, blocksL] at hb
  | c :: es, b, hb => by
    simp only [walkL, blocksL, List.mem_append] at hb
    rcases hb with hb | hb
    · exact blocks_walk q false c b hb
    · exact blocksL_walk q es b hb
end

theorem Rel.agree {m m' : Mem} {ps : List Ptr} (h : Rel m m' ps) {bs : List Nat}
    (hd : ∀ p ∈ ps, p.blk ∉ bs) : Agree m m' bs := by
  intro b hb i
  apply h.byte
  intro hm
  obtain ⟨p, hp, rfl⟩ := List.mem_map.1 hm
  exact hd p hp hb

theorem Agree.trans {a b c : Mem} {bs : List Nat} (h : Agree a b bs) (h' : Agree b c bs) : Agree a c bs :=
  fun x hx i => (h' x hx i).trans (h x hx i)

/-- the blocks of `m` outside `ps` are as before -/
def Frame (m m' : Mem) (ps : List Ptr) : Prop :=
  m.length ≤ m'.length ∧ ∀ b, b < m.length → b ∉ ps.map Ptr.blk →
    m'.size b = m.size b ∧ ∀ i, m'.byte b i = m.byte b i

/-- A node whose buffers are all fresh and its own. -/
def Fresh (m m' : Mem) (n : Node) : Prop :=
  Clean n ∧ GoodOwners m' (owned n) ∧ ∀ p ∈ owned n, m.length ≤ p.blk

theorem releasedInfo_clean {n : Node} (h : Clean n) : n.releasedInfo.alloced = false := by
  unfold releasedInfo
  split
  · rfl
  · rename_i hc
    cases n with
    | leaf x d =>
      simp only [info, dtype] at hc ⊢
      cases hx : x.alloced with
      | false => rfl
      | true =>
        have h1 := h.1 hx
        have h2 : d.id ≠ .empty := fun h' => by have := h.2 h'; simp [hx] at this
        simp [hx, h1, h2] at hc
    | obj x es =>
      simp only [info, dtype] at hc ⊢
      cases hx : x.alloced with
      | false => rfl
      | true => have h1 := h.1 hx; simp [hx, h1] at hc
    | lst x es =>
      simp only [info, dtype] at hc ⊢
      cases hx : x.alloced with
      | false => rfl
      | true => have h1 := h.1 hx; simp [hx, h1] at hc

mutual
theorem walk_false (p : Option Ptr) : ∀ s : Schema, Clean (walk p false s) ∧ owned (walk p false s) = []
  | .leaf d => ⟨⟨by simp [CleanInfo], by simp⟩, by simp [walk, owned, ownPtr]⟩
  | .obj es => by
    obtain ⟨h1, h2⟩ := walkE_false p es
    exact ⟨⟨by simp [CleanInfo], h1⟩, by simp [walk, owned, ownPtr, h2]⟩
  | .lst es => by
    obtain ⟨h1, h2⟩ := walkL_false p es
    exact ⟨⟨by simp [CleanInfo], h1⟩, by simp [walk, owned, ownPtr, h2]⟩
theorem walkE_false (p : Option Ptr) : ∀ es : List (Str × Schema), CleanE (walkE p es) ∧ ownedE (walkE p es) = []
  | [] => ⟨trivial, rfl⟩
  | (n, c) :: es => by
    obtain ⟨h1, h2⟩ := walk_false p c
    obtain ⟨h3, h4⟩ := walkE_false p es
    exact ⟨⟨h1, h3⟩, by simp [walkE, ownedE, h2, h4]⟩
theorem walkL_false (p : Option Ptr) : ∀ es : List Schema, CleanL (walkL p es) ∧ ownedL (walkL p es) = []
  | [] => ⟨trivial, rfl⟩
  | c :: es => by
    obtain ⟨h1, h2⟩ := walk_false p c
    obtain ⟨h3, h4⟩ := walkL_false p es
    exact ⟨⟨h1, h3⟩, by simp [walkL, ownedL, h2, h4]⟩
end

theorem walk_true (q : Ptr) (s : Schema) (h : ∀ d, s = .leaf d → d.id ≠ .empty) :
    Clean (walk (some q) true s) ∧ owned (walk (some q) true s) = [q] := by
  cases s with
  | leaf d => exact ⟨⟨by simp [CleanInfo], fun he => absurd he (h d rfl)⟩, by simp [walk, owned, ownPtr]⟩
  | obj es =>
    obtain ⟨h1, h2⟩ := walkE_false (some q) es
    exact ⟨⟨by simp [CleanInfo], h1⟩, by simp [walk, owned, ownPtr, h2]⟩
  | lst es =>
    obtain ⟨h1, h2⟩ := walkL_false (some q) es
    exact ⟨⟨by simp [CleanInfo], h1⟩, by simp [walk, owned, ownPtr, h2]⟩

theorem fresh_walk_false (m m' : Mem) (p : Option Ptr) (s : Schema) : Fresh m m' (walk p false s) := by
  obtain ⟨h1, h2⟩ := walk_false p s
  exact ⟨h1, by rw [h2]; exact ⟨List.nodup_nil, by simp⟩, by rw [h2]; simp⟩

theorem live_of_size {m : Mem} {b k : Nat} (h : m.size b = some k) : Live m b := by
  unfold Mem.size at h
  split at h
  · rename_i bs hb; exact ⟨bs, hb⟩
  · cases h

theorem size_alloc_new (m : Mem) (k : Nat) : (m.alloc k).1.size m.length = some k := by
  simp [Mem.size, Mem.alloc]

theorem compactTo_spec (src dest : Node) (m : Mem) (hs : Readable m src) (hd : GoodOwners m (owned dest))
    (hdis : ∀ p ∈ owned dest, p.blk ∉ blocks src) :
    ∃ m' n', compactTo src dest m = .ok (m', n') ∧ val m' n' = val m src ∧
      n'.schema = src.schema.compactTo ∧ (∀ b ∈ blocks n', m.length ≤ b) ∧ Frame m m' (owned dest) ∧
      (Clean dest → Fresh m m' n') := by
  obtain ⟨m1, a1, a2⟩ := reset_spec dest m hd
  have ag := a2.agree hdis
  have hs1 := (readable_agree src ag).2 hs
  have t := total_nonneg _ (countsOK_of hs)
  by_cases h0 : src.schema.totalBytesCompact = 0
  · obtain ⟨b1, b2, b3⟩ := compactWrite_zero dest.releasedInfo.data dest.releasedInfo.alloced src 0 m1 hs1 h0
    refine ⟨m1, walk dest.releasedInfo.data dest.releasedInfo.alloced src.schema.compactTo, ?_, ?_, ?_, ?_, ⟨?_, ?_⟩, ?_⟩
    · simp only [compactTo, a1, bind_ok, if_neg (show ¬ src.schema.totalBytesCompact > 0 by omega), info, b1]
    · rw [Schema.compactTo, b2, val_agree src ag]
    · exact schema_walk _ _ _
    · rw [Schema.compactTo, b3]; simp
    · rw [a2.1]; exact Nat.le_refl _
    · intro b _ hb; exact ⟨a2.size hb, fun i => a2.byte hb i⟩
    · intro hc; rw [releasedInfo_clean hc]; exact fresh_walk_false _ _ _ _
  · have hlen : m1.length = m.length := a2.1
    have hlt : ∀ b ∈ blocks src, b < m1.length := blocks_lt src hs1
    let q : Ptr := ⟨m1.length, 0⟩
    let c := src.schema.totalBytesCompact
    have agA : Agree m1 (m1.alloc c.toNat).1 (blocks src) := fun b hb i => Mem.byte_alloc_old _ _ _ _ (hlt b hb)
    obtain ⟨m2, b1, b2, b3⟩ := compactWrite_spec q true src 0 (m1.alloc c.toNat).1
      ((readable_agree src agA).2 hs1)
      (fun h => by have := hlt _ h; simp [q] at this)
      (fun i h1 h2 => by
        simp only [Mem.byteAt, q, Int.zero_add]
        rw [Mem.byte_alloc_new, if_pos (by simp only [c] at *; omega)]; rfl)
    refine ⟨m2, walk (some q) true src.schema.compactTo, ?_, ?_, schema_walk _ _ _, ?_, ⟨?_, ?_⟩, ?_⟩
    · simp only [compactTo, a1, bind_ok, if_pos (show src.schema.totalBytesCompact > 0 by omega), allocate,
        if_neg (show ¬ src.schema.totalBytesCompact < 0 by omega)]
      simp only [Mem.alloc] at b1 ⊢
      simp only [q, c] at b1
      rw [b1, bind_ok]
    · rw [Schema.compactTo, b3, val_agree src agA, val_agree src ag]
    · intro b hb
      rw [blocks_walk q true _ b hb]; simp [q, hlen]
    · rw [b2.1.1]; simp [Mem.alloc, hlen]
    · intro b hb1 hb
      refine ⟨?_, fun i => ?_⟩
      · rw [b2.1.2, Mem.size_alloc_old _ _ _ (by omega), a2.size hb]
      · rw [b2.2, Mem.byte_alloc_old _ _ _ _ (by omega), a2.byte hb]
        simp [q]; omega
    · intro _
      obtain ⟨w1, w2⟩ := walk_true q src.schema.compactTo (by
        intro d hsd he
        cases hsrc : src with
        | leaf x d' =>
          rw [hsrc] at hsd h0
          simp only [Schema.compactTo, schema, compactAt, totalBytesCompact] at hsd h0
          split at hsd
          · rename_i h; simp [h] at h0
          · rename_i h; injection hsd with hsd; subst hsd; exact h he
        | obj x es => rw [hsrc] at hsd; simp [Schema.compactTo, schema, compactAt] at hsd
        | lst x es => rw [hsrc] at hsd; simp [Schema.compactTo, schema, compactAt] at hsd)
      refine ⟨w1, ?_, ?_⟩
      · rw [w2]
        refine ⟨by simp, fun p hp => ?_⟩
        simp at hp; subst hp
        exact ⟨rfl, live_of_size (by rw [b2.1.2]; exact size_alloc_new _ _)⟩
      · rw [w2]; intro p hp; simp at hp; subst hp; simp [q, hlen]

/-! ### a node with the same value as a readable one is readable -/

mutual
theorem leavesOK_compactAt : ∀ (s : Schema) (off : Int), (∀ d ∈ s.leaves, LeafOK d) →
    ∀ d ∈ (compactAt s off).leaves, LeafOK d
  | .leaf d, off, h, d', hd => by
    have := h d (by simp [leaves])
    simp only [compactAt] at hd
    split at hd
    · simp [leaves] at hd; subst hd; exact ⟨by simp, by simp, by simp⟩
    · simp [leaves] at hd; subst hd; exact this
  | .obj es, off, h, d', hd => leavesOK_compactAtE es off h d' hd
  | .lst es, off, h, d', hd => leavesOK_compactAtL es off h d' hd
theorem leavesOK_compactAtE : ∀ (s : List (Str × Schema)) (off : Int), (∀ d ∈ leavesE s, LeafOK d) →
    ∀ d ∈ leavesE (compactAtE s off), LeafOK d
  | [], off, h, d', hd => by simp [compactAtE, leavesE] at hd
  | (n, c) :: es, off, h, d', hd => by
    simp only [compactAtE, leavesE, List.mem_append] at hd
    rcases hd with hd | hd
    · exact leavesOK_compactAt c off (fun d hd => h d (by simp [leavesE, hd])) d' hd
    · exact leavesOK_compactAtE es _ (fun d hd => h d (by simp [leavesE, hd])) d' hd
theorem leavesOK_compactAtL : ∀ (s : List Schema) (off : Int), (∀ d ∈ leavesL s, LeafOK d) →
    ∀ d ∈ leavesL (compactAtL s off), LeafOK d
  | [], off, h, d', hd => by simp [compactAtL, leavesL] at hd
  | c :: es, off, h, d', hd => by
    simp only [compactAtL, leavesL, List.mem_append] at hd
    rcases hd with hd | hd
    · exact leavesOK_compactAt c off (fun d hd => h d (by simp [leavesL, hd])) d' hd
    · exact leavesOK_compactAtL es _ (fun d hd => h d (by simp [leavesL, hd])) d' hd
end

mutual
theorem readable_of_val {m m' : Mem} : ∀ (n' n : Node), (∀ d ∈ n'.schema.leaves, LeafOK d) →
    val m' n' = val m n → Readable m n → Readable m' n'
  | .leaf x' d', n, hl, hv, hr => by
    have hl := hl d' (by simp [schema, leaves])
    refine ⟨hl.2.1, hl.2.2, hl.1, fun he => ?_⟩
    cases n with
    | leaf x d =>
      simp only [val, he, if_false] at hv
      by_cases hd : d.id = .empty
      · simp only [hd, if_true] at hv; injection hv with h1; exact absurd h1 he
      · simp only [hd, if_false] at hv
        injection hv with h1 h2 h3
        rw [h3]; exact hr.2.2.2 hd
    | obj x es => simp only [val, he, if_false] at hv; cases hv
    | lst x es => simp only [val, he, if_false] at hv; cases hv
  | .obj x' es', n, hl, hv, hr => by
    cases n with
    | leaf x d => simp only [val] at hv; split at hv <;> cases hv
    | obj x es =>
      simp only [val] at hv; injection hv with hv
      exact readableE_of_val es' es hl hv hr
    | lst x es => simp only [val] at hv; cases hv
  | .lst x' es', n, hl, hv, hr => by
    cases n with
    | leaf x d => simp only [val] at hv; split at hv <;> cases hv
    | lst x es =>
      simp only [val] at hv; injection hv with hv
      exact readableL_of_val es' es hl hv hr
    | obj x es => simp only [val] at hv; cases hv
theorem readableE_of_val {m m' : Mem} : ∀ (es' es : List (Str × Node)), (∀ d ∈ leavesE (schemaE es'), LeafOK d) →
    valE m' es' = valE m es → ReadableE m es → ReadableE m' es'
  | [], es, hl, hv, hr => trivial
  | (n', c') :: es', es, hl, hv, hr => by
    cases es with
    | nil => simp [valE] at hv
    | cons e es =>
      obtain ⟨n, c⟩ := e
      simp only [valE, List.cons.injEq, Prod.mk.injEq] at hv
      exact ⟨readable_of_val c' c (fun d hd => hl d (by simp [schemaE, leavesE, hd])) hv.1.2 hr.1,
        readableE_of_val es' es (fun d hd => hl d (by simp [schemaE, leavesE, hd])) hv.2 hr.2⟩
theorem readableL_of_val {m m' : Mem} : ∀ (es' es : List Node), (∀ d ∈ leavesL (schemaL es'), LeafOK d) →
    valL m' es' = valL m es → ReadableL m es → ReadableL m' es'
  | [], es, hl, hv, hr => trivial
  | c' :: es', es, hl, hv, hr => by
    cases es with
    | nil => simp [valL] at hv
    | cons c es =>
      simp only [valL, List.cons.injEq] at hv
      exact ⟨readable_of_val c' c (fun d hd => hl d (by simp [schemaL, leavesL, hd])) hv.1 hr.1,
        readableL_of_val es' es (fun d hd => hl d (by simp [schemaL, leavesL, hd])) hv.2 hr.2⟩
end

/-! ### set(node) -/

/-- result of a copying operation started in `m` -/
structure Copied (m m' : Mem) (src dest n' : Node) : Prop where
  val : val m' n' = val m src
  readable : Readable m' n'
  blocks : ∀ b ∈ blocks n', m.length ≤ b
  frame : Frame m m' (owned dest)
  fresh : Clean dest → Fresh m m' n'

theorem compactTo_copied (src dest : Node) (m : Mem) (hs : Readable m src) (hd : GoodOwners m (owned dest))
    (hdis : ∀ p ∈ owned dest, p.blk ∉ blocks src) :
    ∃ m' n', compactTo src dest m = .ok (m', n') ∧ n'.schema = src.schema.compactTo ∧ Copied m m' src dest n' := by
  obtain ⟨m', n', h1, h2, h3, h4, h5, h6⟩ := compactTo_spec src dest m hs hd hdis
  refine ⟨m', n', h1, h3, h2, ?_, h4, h5, h6⟩
  apply readable_of_val n' src _ h2 hs
  rw [h3]
  exact leavesOK_compactAt _ _ (readable_leaves src hs)

theorem good_nil (m : Mem) : GoodOwners m [] := ⟨List.nodup_nil, by simp⟩

theorem clean_new : Clean new := ⟨by simp [CleanInfo], by simp⟩

theorem Frame.trans {a b c : Mem} {ps : List Ptr} (h : Frame a b ps) (h' : Frame b c []) : Frame a c ps := by
  refine ⟨Nat.le_trans h.1 h'.1, fun x h1 h2 => ?_⟩
  obtain ⟨a1, a2⟩ := h'.2 x (by have := h.1; omega) (by simp)
  obtain ⟨b1, b2⟩ := h.2 x h1 h2
  exact ⟨a1.trans b1, fun i => (a2 i).trans (b2 i)⟩

theorem Frame.agree {m m' : Mem} {ps : List Ptr} (h : Frame m m' ps) {bs : List Nat} (hl : ∀ b ∈ bs, b < m.length)
    (hd : ∀ p ∈ ps, p.blk ∉ bs) : Agree m m' bs := by
  intro b hb i
  refine (h.2 b (hl b hb) ?_).2 i
  intro hm
  obtain ⟨p, hp, rfl⟩ := List.mem_map.1 hm
  exact hd p hp hb

theorem Rel.frame {m m' : Mem} {ps : List Ptr} (h : Rel m m' ps) : Frame m m' ps :=
  ⟨by rw [h.1]; exact Nat.le_refl _, fun _ _ hb => ⟨h.size hb, fun i => h.byte hb i⟩⟩

theorem live_lt {m : Mem} {b : Nat} (h : Live m b) : b < m.length := by
  obtain ⟨bs, hb⟩ := h; exact (List.getElem?_eq_some_iff.1 hb).1

theorem live_iff {m : Mem} {b : Nat} : Live m b ↔ (m.size b).isSome := by
  constructor
  · rintro ⟨bs, h⟩; simp [Mem.size, h]
  · intro h; rw [Option.isSome_iff_exists] at h; obtain ⟨k, hk⟩ := h; exact live_of_size hk

theorem Frame.good {m m' : Mem} {ps qs : List Ptr} (h : Frame m m' ps) (hq : GoodOwners m qs)
    (hd : ∀ p ∈ ps, ∀ q ∈ qs, p.blk ≠ q.blk) : GoodOwners m' qs := by
  refine ⟨hq.1, fun q hqq => ⟨(hq.2 q hqq).1, ?_⟩⟩
  have hl := (hq.2 q hqq).2
  rw [live_iff, (h.2 q.blk (live_lt hl) ?_).1, ← live_iff]
  · exact hl
  · intro hm
    obtain ⟨p, hp, hpb⟩ := List.mem_map.1 hm
    exact hd p hp q hqq hpb

theorem good_append {m : Mem} {ps qs : List Ptr} (hp : GoodOwners m ps) (hq : GoodOwners m qs)
    (hd : ∀ p ∈ ps, ∀ q ∈ qs, p.blk ≠ q.blk) : GoodOwners m (ps ++ qs) := by
  refine ⟨?_, ?_⟩
  · rw [List.map_append, List.nodup_append]
    refine ⟨hp.1, hq.1, ?_⟩
    intro a ha b hb
    obtain ⟨p, hp', rfl⟩ := List.mem_map.1 ha
    obtain ⟨q, hq', rfl⟩ := List.mem_map.1 hb
    exact hd p hp' q hq'
  · intro p h
    rcases List.mem_append.1 h with h | h
    · exact hp.2 p h
    · exact hq.2 p h

mutual
theorem setNode_copied : ∀ (src dest : Node) (m : Mem), Readable m src → GoodOwners m (owned dest) →
    (∀ p ∈ owned dest, p.blk ∉ blocks src) →
    ∃ m' n', setNode src dest m = .ok (m', n') ∧ Copied m m' src dest n'
  | .leaf x d, dest, m, hs, hd, hdis => by
    by_cases he : d.id = .empty
    · obtain ⟨m1, a1, a2⟩ := reset_spec dest m hd
      refine ⟨m1, _, by rw [setNode, if_pos he, a1], ?_, ?_, ?_, a2.frame, ?_⟩
      · simp [val, he]
      · exact ⟨by simp, by simp, by simp, by simp⟩
      · simp [blocks]
      · intro hc
        have := releasedInfo_clean hc
        refine ⟨⟨by simp [CleanInfo, this], fun _ => this⟩, ?_, ?_⟩
        · simp only [owned, ownPtr, this]; exact good_nil _
        · simp [owned, ownPtr, this]
    · obtain ⟨m', n', h1, _, h2⟩ := compactTo_copied (.leaf x d) dest m hs hd hdis
      exact ⟨m', n', by rw [setNode, if_neg he, h1], h2⟩
  | .obj x es, dest, m, hs, hd, hdis => by
    obtain ⟨m1, a1, a2⟩ := reset_spec dest m hd
    have ag := a2.agree hdis
    obtain ⟨m2, es', b1, b2, b3, b4, b5, b6, b7, b8⟩ := setNodeE_copied es m1 ((readableE_agree es ag).2 hs)
    refine ⟨m2, .obj dest.releasedInfo es', by rw [setNode, a1, bind_ok, b1, bind_ok]; rfl, ?_, b3, ?_, ?_, ?_⟩
    · simp only [val, b2, valE_agree es ag]
    · intro b hb; have := b4 b hb; rw [a2.1] at this; exact this
    · exact a2.frame.trans b5
    · intro hc
      have hr := releasedInfo_clean hc
      refine ⟨⟨by simp [CleanInfo, hr], b6⟩, ?_, ?_⟩
      · simpa [owned, ownPtr, hr] using b7
      · intro p hp; simp only [owned, ownPtr, hr] at hp
        have := b8 p (by simpa using hp); rw [a2.1] at this; exact this
  | .lst x es, dest, m, hs, hd, hdis => by
    obtain ⟨m1, a1, a2⟩ := reset_spec dest m hd
    have ag := a2.agree hdis
    obtain ⟨m2, es', b1, b2, b3, b4, b5, b6, b7, b8⟩ := setNodeL_copied es m1 ((readableL_agree es ag).2 hs)
    refine ⟨m2, .lst dest.releasedInfo es', by rw [setNode, a1, bind_ok, b1, bind_ok]; rfl, ?_, b3, ?_, ?_, ?_⟩
    · simp only [val, b2, valL_agree es ag]
    · intro b hb; have := b4 b hb; rw [a2.1] at this; exact this
    · exact a2.frame.trans b5
    · intro hc
      have hr := releasedInfo_clean hc
      refine ⟨⟨by simp [CleanInfo, hr], b6⟩, ?_, ?_⟩
      · simpa [owned, ownPtr, hr] using b7
      · intro p hp; simp only [owned, ownPtr, hr] at hp
        have := b8 p (by simpa using hp); rw [a2.1] at this; exact this
theorem setNodeE_copied : ∀ (es : List (Str × Node)) (m : Mem), ReadableE m es →
    ∃ m' es', setNodeE es m = .ok (m', es') ∧ valE m' es' = valE m es ∧ ReadableE m' es' ∧
      (∀ b ∈ blocksE es', m.length ≤ b) ∧ Frame m m' [] ∧ CleanE es' ∧ GoodOwners m' (ownedE es') ∧
      ∀ p ∈ ownedE es', m.length ≤ p.blk
  | [], m, _ => ⟨m, [], rfl, rfl, trivial, by simp [blocksE], (Rel.refl m []).frame, trivial, good_nil m, by simp [ownedE]⟩
  | (n, c) :: es, m, hs => by
    obtain ⟨m1, c', a1, a2⟩ := setNode_copied c new m hs.1 (good_nil m) (by simp [owned, new, ownPtr])
    have hf1 : Frame m m1 [] := a2.frame
    have ag := hf1.agree (blocksE_lt es hs.2) (by simp)
    obtain ⟨m2, es', b1, b2, b3, b4, b5, b6, b7, b8⟩ := setNodeE_copied es m1 ((readableE_agree es ag).2 hs.2)
    have ag2 := b5.agree (blocks_lt c' a2.readable) (by simp)
    obtain ⟨f1, f2, f3⟩ := a2.fresh clean_new
    refine ⟨m2, (n, c') :: es', by rw [setNodeE, a1, bind_ok, b1, bind_ok], ?_, ?_, ?_, hf1.trans b5, ⟨f1, b6⟩, ?_, ?_⟩
    · simp only [valE, b2, valE_agree es ag, val_agree c' ag2, a2.val]
    · exact ⟨(readable_agree c' ag2).2 a2.readable, b3⟩
    · intro b hb
      simp only [blocksE, List.mem_append] at hb
      rcases hb with hb | hb
      · exact a2.blocks b hb
      · have := b4 b hb; have := hf1.1; omega
    · refine good_append (b5.good f2 (by simp)) b7 ?_
      intro p hp q hq
      have h1 := live_lt (f2.2 p hp).2
      have h2 := b8 q hq
      omega
    · intro p hp
      rcases List.mem_append.1 hp with hp | hp
      · exact f3 p hp
      · have := b8 p hp; have := hf1.1; omega
theorem setNodeL_copied : ∀ (es : List Node) (m : Mem), ReadableL m es →
    ∃ m' es', setNodeL es m = .ok (m', es') ∧ valL m' es' = valL m es ∧ ReadableL m' es' ∧
      (∀ b ∈ blocksL es', m.length ≤ b) ∧ Frame m m' [] ∧ CleanL es' ∧ GoodOwners m' (ownedL es') ∧
      ∀ p ∈ ownedL es', m.length ≤ p.blk
  | [], m, _ => ⟨m, [], rfl, rfl, trivial, by simp [blocksL], (Rel.refl m []).frame, trivial, good_nil m, by simp [ownedL]⟩
  | c :: es, m, hs => by
    obtain ⟨m1, c', a1, a2⟩ := setNode_copied c new m hs.1 (good_nil m) (by simp [owned, new, ownPtr])
    have hf1 : Frame m m1 [] := a2.frame
    have ag := hf1.agree (blocksL_lt es hs.2) (by simp)
    obtain ⟨m2, es', b1, b2, b3, b4, b5, b6, b7, b8⟩ := setNodeL_copied es m1 ((readableL_agree es ag).2 hs.2)
    have ag2 := b5.agree (blocks_lt c' a2.readable) (by simp)
    obtain ⟨f1, f2, f3⟩ := a2.fresh clean_new
    refine ⟨m2, c' :: es', by rw [setNodeL, a1, bind_ok, b1, bind_ok], ?_, ?_, ?_, hf1.trans b5, ⟨f1, b6⟩, ?_, ?_⟩
    · simp only [valL, b2, valL_agree es ag, val_agree c' ag2, a2.val]
    · exact ⟨(readable_agree c' ag2).2 a2.readable, b3⟩
    · intro b hb
      simp only [blocksL, List.mem_append] at hb
      rcases hb with hb | hb
      · exact a2.blocks b hb
      · have := b4 b hb; have := hf1.1; omega
    · refine good_append (b5.good f2 (by simp)) b7 ?_
      intro p hp q hq
      have h1 := live_lt (f2.2 p hp).2
      have h2 := b8 q hq
      omega
    · intro p hp
      rcases List.mem_append.1 hp with hp | hp
      · exact f3 p hp
      · have := b8 p hp; have := hf1.1; omega
end

/-! ### bytes in order -/

mutual
theorem val_walk (m : Mem) (p : Option Ptr) (al : Bool) : ∀ s : Schema, val m (walk p al s) = view m p s
  | .leaf d => rfl
  | .obj es => by simp only [walk, val, view, valE_walk m p es]
  | .lst es => by simp only [walk, val, view, valL_walk m p es]
theorem valE_walk (m : Mem) (p : Option Ptr) : ∀ es : List (Str × Schema), valE m (walkE p es) = viewE m p es
  | [] => rfl
  | (n, c) :: es => by simp only [walkE, valE, viewE, val_walk m p false c, valE_walk m p es]
theorem valL_walk (m : Mem) (p : Option Ptr) : ∀ es : List Schema, valL m (walkL p es) = viewL m p es
  | [] => rfl
  | c :: es => by simp only [walkL, valL, viewL, val_walk m p false c, valL_walk m p es]
end

theorem flatten_elems (m : Mem) (p : Option Ptr) (d : DataType) (h : d.ele = d.id.bytes) :
    (elems m p d).flatten = (byteAddrs d).map (m.byteAt p) := by
  unfold elems byteAddrs elemBytes
  rw [List.flatMap_def, List.map_flatten, List.map_map, h]
  congr 1
  apply List.map_congr_left
  intro i _
  simp

def Natural (d : DataType) : Prop := d.id = .empty ∨ d.ele = d.id.bytes

theorem addrs_cons (d : DataType) (ds : List DataType) : addrs (d :: ds) = addrs [d] ++ addrs ds :=
  addrs_append [d] ds

mutual
theorem flat_view (m : Mem) (p : Option Ptr) : ∀ s : Schema, (∀ d ∈ s.leaves, Natural d) →
    flat (view m p s) = (addrs s.leaves).map (m.byteAt p)
  | .leaf d, h => by
    simp only [view, leaves, addrs]
    by_cases he : d.id = .empty
    · simp [he, flat]
    · have hd : d.ele = d.id.bytes := (h d (by simp [leaves])).resolve_left he
      simp [he, flat, flatten_elems m p d hd]
  | .obj es, h => by simp only [view, flat, leaves]; exact flatE_view m p es h
  | .lst es, h => by simp only [view, flat, leaves]; exact flatL_view m p es h
theorem flatE_view (m : Mem) (p : Option Ptr) : ∀ es : List (Str × Schema), (∀ d ∈ leavesE es, Natural d) →
    flatE (viewE m p es) = (addrs (leavesE es)).map (m.byteAt p)
  | [], _ => rfl
  | (n, c) :: es, h => by
    simp only [viewE, flatE, leavesE, addrs_append, List.map_append]
    rw [flat_view m p c (fun d hd => h d (by simp [leavesE, hd])),
      flatE_view m p es (fun d hd => h d (by simp [leavesE, hd]))]
theorem flatL_view (m : Mem) (p : Option Ptr) : ∀ es : List Schema, (∀ d ∈ leavesL es, Natural d) →
    flatL (viewL m p es) = (addrs (leavesL es)).map (m.byteAt p)
  | [], _ => rfl
  | c :: es, h => by
    simp only [viewL, flatL, leavesL, addrs_append, List.map_append]
    rw [flat_view m p c (fun d hd => h d (by simp [leavesL, hd])),
      flatL_view m p es (fun d hd => h d (by simp [leavesL, hd]))]
end

mutual
theorem natural_compactAt : ∀ (s : Schema) (off : Int), ∀ d ∈ (compactAt s off).leaves, Natural d
  | .leaf d, off, d', hd => by
    simp only [compactAt] at hd
    split at hd
    · simp [leaves] at hd; subst hd; exact Or.inl rfl
    · simp [leaves] at hd; subst hd; exact Or.inr rfl
  | .obj es, off, d', hd => natural_compactAtE es off d' hd
  | .lst es, off, d', hd => natural_compactAtL es off d' hd
theorem natural_compactAtE : ∀ (s : List (Str × Schema)) (off : Int), ∀ d ∈ leavesE (compactAtE s off), Natural d
  | [], off, d', hd => by simp [compactAtE, leavesE] at hd
  | (n, c) :: es, off, d', hd => by
    simp only [compactAtE, leavesE, List.mem_append] at hd
    rcases hd with hd | hd
    · exact natural_compactAt c off d' hd
    · exact natural_compactAtE es _ d' hd
theorem natural_compactAtL : ∀ (s : List Schema) (off : Int), ∀ d ∈ leavesL (compactAtL s off), Natural d
  | [], off, d', hd => by simp [compactAtL, leavesL] at hd
  | c :: es, off, d', hd => by
    simp only [compactAtL, leavesL, List.mem_append] at hd
    rcases hd with hd | hd
    · exact natural_compactAt c off d' hd
    · exact natural_compactAtL es _ d' hd
end

/-- the bytes of a compacted node, in order, are one run of memory -/
theorem flat_walk_compact (m : Mem) (p : Option Ptr) (al : Bool) (s : Schema) (off : Int) (h : CountsOK s) :
    flat (val m (walk p al (compactAt s off))) = (Spec.run off (totalBytesCompact s).toNat).map (m.byteAt p) := by
  rw [val_walk, flat_view _ _ _ (natural_compactAt s off), addrs_compactAt s off h]

theorem run_bytes (m : Mem) (b : Nat) (bs : List UInt8) (h : m[b]? = some (some bs)) :
    (Spec.run 0 bs.length).map (m.byteAt (some ⟨b, 0⟩)) = bs.map some := by
  unfold Spec.run
  rw [List.map_map]
  apply List.ext_getElem
  · simp
  · intro i h1 h2
    simp at h1
    simp [Mem.byteAt, Mem.byte, h, h1]

/-- `compact_to(node)` when there is something to copy: one new block with
    exactly the bytes of the source's elements, in order -/
theorem compactTo_block (src dest : Node) (m : Mem) (hs : Readable m src) (hd : GoodOwners m (owned dest))
    (hdis : ∀ p ∈ owned dest, p.blk ∉ blocks src) (hpos : 0 < src.schema.totalBytesCompact) :
    ∃ m' bs, compactTo src dest m = .ok (m', walk (some ⟨m.length, 0⟩) true src.schema.compactTo) ∧
      m'[m.length]? = some (some bs) ∧ bs.map some = flat (val m src) ∧
      (bs.length : Int) = src.schema.totalBytesCompact ∧ m'.length = m.length + 1 := by
  obtain ⟨m1, a1, a2⟩ := reset_spec dest m hd
  have ag := a2.agree hdis
  have hs1 := (readable_agree src ag).2 hs
  have hlen : m1.length = m.length := a2.1
  have hlt : ∀ b ∈ blocks src, b < m1.length := blocks_lt src hs1
  let q : Ptr := ⟨m1.length, 0⟩
  let c := src.schema.totalBytesCompact
  have agA : Agree m1 (m1.alloc c.toNat).1 (blocks src) := fun b hb i => Mem.byte_alloc_old _ _ _ _ (hlt b hb)
  obtain ⟨m2, b1, b2, b3⟩ := compactWrite_spec q true src 0 (m1.alloc c.toNat).1
    ((readable_agree src agA).2 hs1)
    (fun h => by have := hlt _ h; simp [q] at this)
    (fun i h1 h2 => by
      simp only [Mem.byteAt, q, Int.zero_add]
      rw [Mem.byte_alloc_new, if_pos (by simp only [c] at *; omega)]; rfl)
  have hsz : m2.size m1.length = some c.toNat := by rw [b2.1.2]; exact size_alloc_new _ _
  obtain ⟨bs, hbs⟩ := live_of_size hsz
  have hbl : bs.length = c.toNat := by simpa [Mem.size, hbs] using hsz
  refine ⟨m2, bs, ?_, by rw [← hlen]; exact hbs, ?_, by simp only [c] at hbl; omega, ?_⟩
  · simp only [compactTo, a1, bind_ok, if_pos hpos, allocate,
      if_neg (show ¬ src.schema.totalBytesCompact < 0 by omega)]
    simp only [Mem.alloc] at b1 ⊢
    simp only [q, c] at b1
    rw [b1, bind_ok, hlen]
  · have := flat_walk_compact m2 (some q) true src.schema 0 (countsOK_of hs)
    rw [b3, val_agree src agA, val_agree src ag] at this
    rw [this, ← run_bytes m2 m1.length bs hbs, hbl]
  · rw [b2.1.1]; simp [Mem.alloc, hlen]

end Node
end Conduit
