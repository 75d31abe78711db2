import Verif.Model.Schema
import Verif.Spec.Layout
namespace Conduit
open Spec

theorem Tree.ind {P : Tree → Prop} (hleaf : ∀ d, P (.leaf d))
    (hobj : ∀ es, (∀ e ∈ es, P e.2) → P (.obj es)) (hlst : ∀ cs, (∀ c ∈ cs, P c) → P (.lst cs)) :
    ∀ t, P t := by
  intro t
  induction h : sizeOf t using Nat.strongRecOn generalizing t with
  | ind n ih =>
    cases t with
    | leaf d => exact hleaf d
    | obj es =>
      apply hobj
      intro e he
      have := Schema.sizeOf_mem he
      simp at h
      exact ih (sizeOf e.2) (by omega) e.2 rfl
    | lst cs =>
      apply hlst
      intro c hc
      have := List.sizeOf_lt_of_mem hc
      simp at h
      exact ih (sizeOf c) (by omega) c rfl

theorem run_zero (off : Int) : Spec.run off 0 = [] := rfl

theorem run_add (off : Int) (a b : Nat) : Spec.run off (a + b) = Spec.run off a ++ Spec.run (off + a) b := by
  unfold Spec.run
  rw [List.range_add, List.map_append, List.map_map]
  congr 1
  apply List.map_congr_left
  intro x _
  simp; omega

theorem run_flat (off : Int) (b n : Nat) :
    (List.range n).flatMap (fun (i : Nat) => Spec.run (off + (b : Int) * i) b) = Spec.run off (b * n) := by
  induction n with
  | zero => simp [Spec.run]
  | succ n ih =>
    rw [List.range_succ, List.flatMap_append, ih, Nat.mul_succ, run_add]
    simp

theorem elemBytes_eq_run (d : DataType) (i : Nat) :
    elemBytes d i = Spec.run (d.offset + d.stride * i) d.ele.toNat := rfl

theorem byteAddrs_compact (d : DataType) (off : Int) (_h : 0 ≤ d.n) :
    byteAddrs { d.compactTo with offset := off } = Spec.run off (d.bytesCompact.toNat) := by
  unfold byteAddrs DataType.compactTo DataType.bytesCompact
  simp only [funext (elemBytes_eq_run _), Int.toNat_natCast]
  rw [run_flat]
  congr 1
  obtain ⟨n, hn⟩ := Int.eq_ofNat_of_zero_le _h
  rw [hn]
  simp only [Int.toNat_natCast]
  have : (d.id.bytes : Int) * (n : Int) = ((d.id.bytes * n : Nat) : Int) := by simp
  rw [this, Int.toNat_natCast]

namespace Schema
open Spec.Tree

theorem leavesE_eq (es : List (Str × Tree)) : leavesE es = es.flatMap (fun e => e.2.leaves) := by
  induction es with
  | nil => rfl
  | cons e es ih => obtain ⟨n, c⟩ := e; simp [leavesE, ih]

theorem leavesL_eq (cs : List Tree) : leavesL cs = cs.flatMap leaves := by
  induction cs with
  | nil => rfl
  | cons e es ih => simp [leavesL, ih]

mutual
theorem total_compactAt : ∀ (s : Schema) (off : Int), totalBytesCompact (compactAt s off) = totalBytesCompact s
  | .leaf d, off => by
    rw [compactAt]; split
    · simp [totalBytesCompact, *]
    · rename_i h; simp [totalBytesCompact, DataType.compactTo, DataType.bytesCompact, h]
  | .obj es, off => by rw [compactAt, totalBytesCompact, totalBytesCompact, total_compactAtE es off]
  | .lst cs, off => by rw [compactAt, totalBytesCompact, totalBytesCompact, total_compactAtL cs off]
theorem total_compactAtE : ∀ (es : List (Str × Schema)) (off : Int),
    totalBytesCompactE (compactAtE es off) = totalBytesCompactE es
  | [], off => rfl
  | (n, c) :: es, off => by
    rw [compactAtE, totalBytesCompactE, totalBytesCompactE, total_compactAt c off, total_compactAtE es]
theorem total_compactAtL : ∀ (es : List Schema) (off : Int),
    totalBytesCompactL (compactAtL es off) = totalBytesCompactL es
  | [], off => rfl
  | c :: es, off => by
    rw [compactAtL, totalBytesCompactL, totalBytesCompactL, total_compactAt c off, total_compactAtL es]
end

/-- every leaf count is non-negative -/
def CountsOK (s : Schema) : Prop := ∀ d ∈ s.leaves, 0 ≤ d.n

theorem countsE {n : Str} {c : Schema} {es} (h : CountsOK (.obj ((n, c) :: es))) : CountsOK c ∧ CountsOK (.obj es) := by
  constructor
  · intro d hd; apply h; simp [leaves, leavesE, hd]
  · intro d hd; apply h; simp only [leaves, leavesE] at hd ⊢; simp [hd]

theorem countsL {c : Schema} {es} (h : CountsOK (.lst (c :: es))) : CountsOK c ∧ CountsOK (.lst es) := by
  constructor
  · intro d hd; apply h; simp [leaves, leavesL, hd]
  · intro d hd; apply h; simp only [leaves, leavesL] at hd ⊢; simp [hd]

mutual
theorem total_nonneg : ∀ (s : Schema), CountsOK s → 0 ≤ totalBytesCompact s
  | .leaf d, h => by
    have : 0 ≤ d.n := h d (by simp [leaves])
    rw [totalBytesCompact]; split
    · omega
    · exact Int.mul_nonneg (by omega) this
  | .obj es, h => by rw [totalBytesCompact]; exact total_nonnegE es h
  | .lst cs, h => by rw [totalBytesCompact]; exact total_nonnegL cs h
theorem total_nonnegE : ∀ (es : List (Str × Schema)), CountsOK (.obj es) → 0 ≤ totalBytesCompactE es
  | [], _ => by simp [totalBytesCompactE]
  | (n, c) :: es, h => by
    have := countsE h
    have h1 := total_nonneg c this.1
    have h2 := total_nonnegE es this.2
    rw [totalBytesCompactE]; omega
theorem total_nonnegL : ∀ (es : List Schema), CountsOK (.lst es) → 0 ≤ totalBytesCompactL es
  | [], _ => by simp [totalBytesCompactL]
  | c :: es, h => by
    have := countsL h
    have h1 := total_nonneg c this.1
    have h2 := total_nonnegL es this.2
    rw [totalBytesCompactL]; omega
end

def addrs (ds : List DataType) : List Int := (ds.filter (fun d => d.id != .empty)).flatMap byteAddrs

theorem addrs_append (a b : List DataType) : addrs (a ++ b) = addrs a ++ addrs b := by
  simp [addrs]

mutual
theorem addrs_compactAt : ∀ (s : Schema) (off : Int), CountsOK s →
    addrs (leaves (compactAt s off)) = Spec.run off (totalBytesCompact s).toNat
  | .leaf d, off, h => by
    have hn : 0 ≤ d.n := h d (by simp [leaves])
    rw [compactAt, totalBytesCompact]
    split
    · simp [leaves, addrs, run_zero]
    · rename_i hd
      simp only [leaves, addrs, List.filter_cons]
      rw [if_pos (by simpa [DataType.compactTo] using hd)]
      simp [byteAddrs_compact d off hn]
  | .obj es, off, h => by
    rw [compactAt, totalBytesCompact, leaves]; exact addrs_compactAtE es off h
  | .lst cs, off, h => by
    rw [compactAt, totalBytesCompact, leaves]; exact addrs_compactAtL cs off h
theorem addrs_compactAtE : ∀ (es : List (Str × Schema)) (off : Int), CountsOK (.obj es) →
    addrs (leavesE (compactAtE es off)) = Spec.run off (totalBytesCompactE es).toNat
  | [], off, _ => by simp [compactAtE, leavesE, addrs, totalBytesCompactE, run_zero]
  | (n, c) :: es, off, h => by
    have hc := countsE h
    have h1 := total_nonneg c hc.1
    have h2 := total_nonnegE es hc.2
    rw [compactAtE, leavesE, addrs_append, addrs_compactAt c off hc.1, total_compactAt,
      addrs_compactAtE es _ hc.2, totalBytesCompactE]
    rw [show (totalBytesCompact c + totalBytesCompactE es).toNat =
      (totalBytesCompact c).toNat + (totalBytesCompactE es).toNat by omega, run_add]
    rw [Int.toNat_of_nonneg h1]
theorem addrs_compactAtL : ∀ (es : List Schema) (off : Int), CountsOK (.lst es) →
    addrs (leavesL (compactAtL es off)) = Spec.run off (totalBytesCompactL es).toNat
  | [], off, _ => by simp [compactAtL, leavesL, addrs, totalBytesCompactL, run_zero]
  | c :: es, off, h => by
    have hc := countsL h
    have h1 := total_nonneg c hc.1
    have h2 := total_nonnegL es hc.2
    rw [compactAtL, leavesL, addrs_append, addrs_compactAt c off hc.1, total_compactAt,
      addrs_compactAtL es _ hc.2, totalBytesCompactL]
    rw [show (totalBytesCompact c + totalBytesCompactL es).toNat =
      (totalBytesCompact c).toNat + (totalBytesCompactL es).toNat by omega, run_add]
    rw [Int.toNat_of_nonneg h1]
end

mutual
theorem shape_compactAt : ∀ (s : Schema) (off : Int), shape (compactAt s off) = shape s
  | .leaf d, off => by
    rw [compactAt]; split
    · rename_i h; simp [shape, h]
    · rename_i h; simp [shape, DataType.compactTo, h]
  | .obj es, off => by rw [compactAt, shape, shape, shape_compactAtE es off]
  | .lst cs, off => by rw [compactAt, shape, shape, shape_compactAtL cs off]
theorem shape_compactAtE : ∀ (es : List (Str × Schema)) (off : Int),
    shapeE (compactAtE es off) = shapeE es
  | [], off => rfl
  | (n, c) :: es, off => by rw [compactAtE, shapeE, shapeE, shape_compactAt c off, shape_compactAtE es]
theorem shape_compactAtL : ∀ (es : List Schema) (off : Int), shapeL (compactAtL es off) = shapeL es
  | [], off => rfl
  | c :: es, off => by rw [compactAtL, shapeL, shapeL, shape_compactAt c off, shape_compactAtL es]
end

mutual
theorem strided_compactAt : ∀ (s : Schema) (off : Int), totalStridedBytes (compactAt s off) = totalBytesCompact s
  | .leaf d, off => by
    rw [compactAt]; split
    · rename_i h; simp [totalStridedBytes, totalBytesCompact, h]
    · rename_i h
      simp [totalStridedBytes, totalBytesCompact, DataType.compactTo, h, DataType.stridedBytes, DataType.bytesCompact,
        Int.mul_sub]
  | .obj es, off => by rw [compactAt, totalStridedBytes, totalBytesCompact, strided_compactAtE es off]
  | .lst cs, off => by rw [compactAt, totalStridedBytes, totalBytesCompact, strided_compactAtL cs off]
theorem strided_compactAtE : ∀ (es : List (Str × Schema)) (off : Int),
    totalStridedBytesE (compactAtE es off) = totalBytesCompactE es
  | [], off => rfl
  | (n, c) :: es, off => by
    rw [compactAtE, totalStridedBytesE, totalBytesCompactE, strided_compactAt c off, strided_compactAtE es]
theorem strided_compactAtL : ∀ (es : List Schema) (off : Int),
    totalStridedBytesL (compactAtL es off) = totalBytesCompactL es
  | [], off => rfl
  | c :: es, off => by
    rw [compactAtL, totalStridedBytesL, totalBytesCompactL, strided_compactAt c off, strided_compactAtL es]
end

mutual
theorem compactAt_idem : ∀ (s : Schema) (off off' : Int), compactAt (compactAt s off) off' = compactAt s off'
  | .leaf d, off, off' => by
    rw [compactAt]; split
    · rename_i h; simp [compactAt, h]
    · rename_i h; simp [compactAt, DataType.compactTo, h]
  | .obj es, off, off' => by rw [compactAt, compactAt, compactAt, compactAt_idemE es off off']
  | .lst cs, off, off' => by rw [compactAt, compactAt, compactAt, compactAt_idemL cs off off']
theorem compactAt_idemE : ∀ (es : List (Str × Schema)) (off off' : Int),
    compactAtE (compactAtE es off) off' = compactAtE es off'
  | [], off, _ => rfl
  | (n, c) :: es, off, off' => by
    rw [compactAtE, compactAtE, compactAtE, compactAt_idem c off off', compactAt_idemE es]
theorem compactAt_idemL : ∀ (es : List Schema) (off off' : Int),
    compactAtL (compactAtL es off) off' = compactAtL es off'
  | [], off, _ => rfl
  | c :: es, off, off' => by
    rw [compactAtL, compactAtL, compactAtL, compactAt_idem c off off', compactAt_idemL es]
end

/-- spanned bytes of a compacted subtree placed at `off`: nothing lies beyond
    `off + total`, and a non-empty subtree reaches exactly that -/
theorem spanL_max (cs : List Schema) (r : Int) : spannedBytesL r cs = (cs.map spannedBytes).foldl max r := by
  induction cs generalizing r with
  | nil => rfl
  | cons c cs ih => rw [spannedBytesL, ih]; simp only [List.map_cons, List.foldl_cons]; congr 1; omega

theorem spanE_max (cs : List (Str × Schema)) (r : Int) :
    spannedBytesE r cs = (cs.map (fun e => spannedBytes e.2)).foldl max r := by
  induction cs generalizing r with
  | nil => rfl
  | cons c cs ih =>
    obtain ⟨n, c⟩ := c
    rw [spannedBytesE, ih]; simp only [List.map_cons, List.foldl_cons]; congr 1; omega

mutual
theorem span_compactAt : ∀ (s : Schema) (off : Int), CountsOK s → 0 ≤ off →
    spannedBytes (compactAt s off) ≤ off + totalBytesCompact s ∧
    0 ≤ spannedBytes (compactAt s off) ∧
    (0 < totalBytesCompact s → spannedBytes (compactAt s off) = off + totalBytesCompact s)
  | .leaf d, off, h, h0 => by
    have hn : 0 ≤ d.n := h d (by simp [leaves])
    rw [compactAt]; split
    · rename_i he; simp [spannedBytes, DataType.spannedBytes, totalBytesCompact, he, h0]
    · rename_i he
      have hm : 0 ≤ (d.id.bytes : Int) * d.n := Int.mul_nonneg (by omega) hn
      simp only [spannedBytes, DataType.spannedBytes, totalBytesCompact, he, if_false, DataType.compactTo,
        DataType.bytesCompact, Int.mul_sub, Int.mul_one]
      omega
  | .obj es, off, h, h0 => by
    rw [compactAt, spannedBytes, totalBytesCompact]
    have := span_compactAtE es off 0 h h0 (by omega) (by omega)
    exact this
  | .lst cs, off, h, h0 => by
    rw [compactAt, spannedBytes, totalBytesCompact]
    have := span_compactAtL cs off 0 h h0 (by omega) (by omega)
    exact this
theorem span_compactAtE : ∀ (es : List (Str × Schema)) (off r : Int), CountsOK (.obj es) → 0 ≤ off → r ≤ off → 0 ≤ r →
    spannedBytesE r (compactAtE es off) ≤ off + totalBytesCompactE es ∧
    0 ≤ spannedBytesE r (compactAtE es off) ∧
    (0 < totalBytesCompactE es → spannedBytesE r (compactAtE es off) = off + totalBytesCompactE es)
  | [], off, r, _, h0, hr, h0r => by simp [compactAtE, spannedBytesE, totalBytesCompactE, hr, h0r]
  | (n, c) :: es, off, r, h, h0, hr, h0r => by
    have hc := countsE h
    have t1 := total_nonneg c hc.1
    have t2 := total_nonnegE es hc.2
    obtain ⟨a1, a2, a3⟩ := span_compactAt c off hc.1 h0
    rw [compactAtE, spannedBytesE, totalBytesCompactE, total_compactAt]
    have hr' : (if spannedBytes (compactAt c off) > r then spannedBytes (compactAt c off) else r)
        ≤ off + totalBytesCompact c := by split <;> omega
    have hr0 : 0 ≤ (if spannedBytes (compactAt c off) > r then spannedBytes (compactAt c off) else r) := by
      split <;> omega
    obtain ⟨b1, b2, b3⟩ := span_compactAtE es (off + totalBytesCompact c) _ hc.2 (by omega) hr' hr0
    refine ⟨by omega, b2, fun hpos => ?_⟩
    by_cases ht : 0 < totalBytesCompactE es
    · rw [b3 ht]; omega
    · have ht0 : totalBytesCompactE es = 0 := by omega
      have hge : ∀ (l : List (Str × Schema)) (r : Int), r ≤ spannedBytesE r l := by
        intro l
        induction l with
        | nil => intro r; simp [spannedBytesE]
        | cons e l ih =>
          intro r; obtain ⟨k, x⟩ := e
          rw [spannedBytesE]
          have := ih (if spannedBytes x > r then spannedBytes x else r)
          split at this <;> rename_i hx
          · rw [if_pos hx]; omega
          · rw [if_neg hx]; omega
      have h3 := a3 (by omega)
      have := hge (compactAtE es (off + totalBytesCompact c))
        (if spannedBytes (compactAt c off) > r then spannedBytes (compactAt c off) else r)
      have : (if spannedBytes (compactAt c off) > r then spannedBytes (compactAt c off) else r) ≥
        off + totalBytesCompact c := by split <;> omega
      omega
theorem span_compactAtL : ∀ (es : List Schema) (off r : Int), CountsOK (.lst es) → 0 ≤ off → r ≤ off → 0 ≤ r →
    spannedBytesL r (compactAtL es off) ≤ off + totalBytesCompactL es ∧
    0 ≤ spannedBytesL r (compactAtL es off) ∧
    (0 < totalBytesCompactL es → spannedBytesL r (compactAtL es off) = off + totalBytesCompactL es)
  | [], off, r, _, h0, hr, h0r => by simp [compactAtL, spannedBytesL, totalBytesCompactL, hr, h0r]
  | c :: es, off, r, h, h0, hr, h0r => by
    have hc := countsL h
    have t1 := total_nonneg c hc.1
    have t2 := total_nonnegL es hc.2
    obtain ⟨a1, a2, a3⟩ := span_compactAt c off hc.1 h0
    rw [compactAtL, spannedBytesL, totalBytesCompactL, total_compactAt]
    have hr' : (if spannedBytes (compactAt c off) > r then spannedBytes (compactAt c off) else r)
        ≤ off + totalBytesCompact c := by split <;> omega
    have hr0 : 0 ≤ (if spannedBytes (compactAt c off) > r then spannedBytes (compactAt c off) else r) := by
      split <;> omega
    obtain ⟨b1, b2, b3⟩ := span_compactAtL es (off + totalBytesCompact c) _ hc.2 (by omega) hr' hr0
    refine ⟨by omega, b2, fun hpos => ?_⟩
    by_cases ht : 0 < totalBytesCompactL es
    · rw [b3 ht]; omega
    · have hge : ∀ (l : List Schema) (r : Int), r ≤ spannedBytesL r l := by
        intro l
        induction l with
        | nil => intro r; simp [spannedBytesL]
        | cons x l ih =>
          intro r
          rw [spannedBytesL]
          have := ih (if spannedBytes x > r then spannedBytes x else r)
          split at this <;> rename_i hx
          · rw [if_pos hx]; omega
          · rw [if_neg hx]; omega
      have h3 := a3 (by omega)
      have := hge (compactAtL es (off + totalBytesCompact c))
        (if spannedBytes (compactAt c off) > r then spannedBytes (compactAt c off) else r)
      have : (if spannedBytes (compactAt c off) > r then spannedBytes (compactAt c off) else r) ≥
        off + totalBytesCompact c := by split <;> omega
      omega
end

end Schema
end Conduit
