import Verif.Lemmas.NodeIO
import Verif.Spec.SetSchema
namespace Conduit
open Spec Schema Node

theorem spanE_ge : ∀ (es : List (Str × Schema)) (r : Int), r ≤ spannedBytesE r es ∧ ∀ e ∈ es, spannedBytes e.2 ≤ spannedBytesE r es
  | [], r => by simp [spannedBytesE]
  | (n, c) :: es, r => by
    obtain ⟨h1, h2⟩ := spanE_ge es (if spannedBytes c > r then spannedBytes c else r)
    rw [spannedBytesE]
    generalize spannedBytesE (if spannedBytes c > r then spannedBytes c else r) es = z at *
    refine ⟨by split at h1 <;> omega, ?_⟩
    intro e he
    rcases List.mem_cons.1 he with rfl | he
    · simp only; split at h1 <;> omega
    · exact h2 e he
theorem spanL_ge : ∀ (es : List Schema) (r : Int), r ≤ spannedBytesL r es ∧ ∀ e ∈ es, spannedBytes e ≤ spannedBytesL r es
  | [], r => by simp [spannedBytesL]
  | c :: es, r => by
    obtain ⟨h1, h2⟩ := spanL_ge es (if spannedBytes c > r then spannedBytes c else r)
    rw [spannedBytesL]
    generalize spannedBytesL (if spannedBytes c > r then spannedBytes c else r) es = z at *
    refine ⟨by split at h1 <;> omega, ?_⟩
    intro e he
    rcases List.mem_cons.1 he with rfl | he
    · split at h1 <;> omega
    · exact h2 e he

/-- every element byte of a forward leaf is inside the spanned bytes -/
theorem forward_inside {d : DataType} (he : d.id ≠ .empty) (h : Forward (.leaf d)) (i k : Nat) (hi : (i : Int) < d.n) (hk : k < d.id.bytes) :
    0 ≤ d.offset + d.stride * i + k ∧ d.offset + d.stride * i + k < d.spannedBytes := by
  rcases h with h | ⟨h1, h2, h3, h4⟩
  · exact absurd h he
  · have a : 0 ≤ d.stride * (i : Int) := Int.mul_nonneg h2 (by omega)
    have b : d.stride * (i : Int) ≤ d.stride * (d.n - 1) := Int.mul_le_mul_of_nonneg_left (by omega) h2
    unfold DataType.spannedBytes
    omega

mutual
/-- what a forward schema describes depends on its spanned bytes only -/
theorem view_span {m m' : Mem} {p p' : Option Ptr} : ∀ s : Schema, Forward s →
    (∀ i, 0 ≤ i → i < s.spannedBytes → m'.byteAt p' i = m.byteAt p i) → view m' p' s = view m p s
  | .leaf d, h, hb => by
    simp only [view]
    by_cases he : d.id = .empty
    · simp [he]
    · rw [if_neg he, if_neg he]
      congr 1
      refine elems_congr (by rfl) (by rfl) ?_
      intro i k hi hk
      obtain ⟨a, b⟩ := forward_inside he h i k hi hk
      exact hb _ a b
  | .obj es, h, hb => by
    simp only [view]
    rw [viewE_span es h fun e he i h0 hi => hb i h0 (Int.lt_of_lt_of_le hi ((spanE_ge es 0).2 e he))]
  | .lst es, h, hb => by
    simp only [view]
    rw [viewL_span es h fun e he i h0 hi => hb i h0 (Int.lt_of_lt_of_le hi ((spanL_ge es 0).2 e he))]
theorem viewE_span {m m' : Mem} {p p' : Option Ptr} : ∀ es : List (Str × Schema), ForwardE es →
    (∀ e ∈ es, ∀ i, 0 ≤ i → i < e.2.spannedBytes → m'.byteAt p' i = m.byteAt p i) → viewE m' p' es = viewE m p es
  | [], _, _ => rfl
  | (n, c) :: es, h, hb => by
    simp only [viewE]
    rw [view_span c h.1 (hb _ List.mem_cons_self), viewE_span es h.2 fun e he => hb e (List.mem_cons_of_mem _ he)]
theorem viewL_span {m m' : Mem} {p p' : Option Ptr} : ∀ es : List Schema, ForwardL es →
    (∀ e ∈ es, ∀ i, 0 ≤ i → i < e.spannedBytes → m'.byteAt p' i = m.byteAt p i) → viewL m' p' es = viewL m p es
  | [], _, _ => rfl
  | c :: es, h, hb => by
    simp only [viewL]
    rw [view_span c h.1 (hb _ List.mem_cons_self), viewL_span es h.2 fun e he => hb e (List.mem_cons_of_mem _ he)]
end

mutual
theorem view_zeros {m : Mem} {p : Option Ptr} : ∀ s : Schema, Forward s →
    (∀ i, 0 ≤ i → i < s.spannedBytes → m.byteAt p i = some 0) → view m p s = zeros s
  | .leaf d, h, hb => by
    simp only [view, zeros]
    by_cases he : d.id = .empty
    · simp [he]
    · rw [if_neg he, if_neg he]
      congr 1
      unfold elems
      apply List.ext_getElem (by simp)
      intro i hi _
      simp only [List.length_map, List.length_range] at hi
      simp only [List.getElem_map, List.getElem_range, List.getElem_replicate]
      apply List.ext_getElem (by simp)
      intro k hk _
      simp only [List.length_map, List.length_range] at hk
      simp only [List.getElem_map, List.getElem_range, List.getElem_replicate]
      obtain ⟨a, b⟩ := forward_inside he h i k (by omega) hk
      exact hb _ a b
  | .obj es, h, hb => by
    simp only [view, zeros]
    rw [viewE_zeros es h fun e he i h0 hi => hb i h0 (Int.lt_of_lt_of_le hi ((spanE_ge es 0).2 e he))]
  | .lst es, h, hb => by
    simp only [view, zeros]
    rw [viewL_zeros es h fun e he i h0 hi => hb i h0 (Int.lt_of_lt_of_le hi ((spanL_ge es 0).2 e he))]
theorem viewE_zeros {m : Mem} {p : Option Ptr} : ∀ es : List (Str × Schema), ForwardE es →
    (∀ e ∈ es, ∀ i, 0 ≤ i → i < e.2.spannedBytes → m.byteAt p i = some 0) → viewE m p es = zerosE es
  | [], _, _ => rfl
  | (n, c) :: es, h, hb => by
    simp only [viewE, zerosE]
    rw [view_zeros c h.1 (hb _ List.mem_cons_self), viewE_zeros es h.2 fun e he => hb e (List.mem_cons_of_mem _ he)]
theorem viewL_zeros {m : Mem} {p : Option Ptr} : ∀ es : List Schema, ForwardL es →
    (∀ e ∈ es, ∀ i, 0 ≤ i → i < e.spannedBytes → m.byteAt p i = some 0) → viewL m p es = zerosL es
  | [], _, _ => rfl
  | c :: es, h, hb => by
    simp only [viewL, zerosL]
    rw [view_zeros c h.1 (hb _ List.mem_cons_self), viewL_zeros es h.2 fun e he => hb e (List.mem_cons_of_mem _ he)]
end

end Conduit
