import Verif.Model.Contiguous
import Verif.Spec.Contiguous
/-
Lemmas for C36: the contiguity queries walk the ranges of the leaves.
-/
namespace Conduit
open Spec Node

theorem elementAddr_eq (base : Nat → Int) (x : Info) (d : DataType) : elementAddr base x d = leafAddr base x d := by
  simp only [elementAddr, leafAddr, DataType.elementIndex]
  cases x.data <;> simp

/-- One pass over the ranges; `s = 0`: nothing seen so far. -/
def goR (s : Int) : List (Int × Int) → Option Int
  | [] => some s
  | (b, len) :: rs => if b ≠ 0 ∧ (s = 0 ∨ b = s) then goR (b + len) rs else none

theorem goR_append (s : Int) (a b : List (Int × Int)) : goR s (a ++ b) = (goR s a).bind fun e => goR e b := by
  induction a generalizing s with
  | nil => rfl
  | cons r rs ih =>
    obtain ⟨x, l⟩ := r
    simp only [List.cons_append, goR]
    split
    · exact ih _
    · rfl

/-- a result as the pair of the code -/
def pairOf : Option Int → Bool × Int
  | some e => (true, e)
  | none => (false, 0)

mutual
theorem contig_eq (base : Nat → Int) : ∀ (n : Node) (s e : Int),
    (DataFirst n → contig base n s e = pairOf (goR s (ranges base n))) ∧
    (¬ DataFirst n → contig base n s e = pairOf (goR e (ranges base n)))
  | .leaf x d, s, e => by
    simp only [contig, ranges, elementAddr_eq, DataFirst, DataType.stridedBytes]
    refine ⟨fun h => ?_, fun h => ?_⟩
    · rw [if_neg h, if_neg h]
      simp only [goR]
      by_cases hs : s = 0
      · rw [if_neg (by simpa using hs)]
        by_cases ha : leafAddr base x d = 0
        · simp [ha, pairOf]
        · simp [ha, hs, pairOf]
      · rw [if_pos hs]
        by_cases ha : leafAddr base x d ≠ 0 ∧ leafAddr base x d = s
        · rw [if_pos ha, if_pos ⟨ha.1, Or.inr ha.2⟩]; rfl
        · rw [if_neg ha, if_neg (by rintro ⟨h1, h2⟩; exact ha ⟨h1, h2.resolve_left hs⟩)]; rfl
    · have h := Classical.not_not.1 h
      rw [if_pos h, if_pos h]; rfl
  | .obj x es, s, e => by simp only [contig, ranges, DataFirst]; exact contigE_eq base es s e
  | .lst x cs, s, e => by simp only [contig, ranges, DataFirst]; exact contigL_eq base cs s e
theorem contigE_eq (base : Nat → Int) : ∀ (es : List (Str × Node)) (s e : Int),
    (DataFirstE es → contigE base es s e = pairOf (goR s (rangesE base es))) ∧
    (¬ DataFirstE es → contigE base es s e = pairOf (goR e (rangesE base es)))
  | [], s, e => ⟨fun h => absurd h (by simp [DataFirstE]), fun _ => rfl⟩
  | (n, c) :: es, s, e => by
    simp only [contigE, rangesE, DataFirstE, goR_append]
    have hc := contig_eq base c s e
    have he : ∀ e', contigE base es e' e' = pairOf (goR e' (rangesE base es)) := fun e' => by
      by_cases hd : DataFirstE es
      · exact (contigE_eq base es e' e').1 hd
      · exact (contigE_eq base es e' e').2 hd
    refine ⟨fun h => ?_, fun h => ?_⟩
    · rw [hc.1 h]
      cases goR s (ranges base c) <;> simp [pairOf, he]
    · rw [hc.2 h]
      cases goR e (ranges base c) <;> simp [pairOf, he]
theorem contigL_eq (base : Nat → Int) : ∀ (cs : List Node) (s e : Int),
    (DataFirstL cs → contigL base cs s e = pairOf (goR s (rangesL base cs))) ∧
    (¬ DataFirstL cs → contigL base cs s e = pairOf (goR e (rangesL base cs)))
  | [], s, e => ⟨fun h => absurd h (by simp [DataFirstL]), fun _ => rfl⟩
  | c :: cs, s, e => by
    simp only [contigL, rangesL, DataFirstL, goR_append]
    have hc := contig_eq base c s e
    have he : ∀ e', contigL base cs e' e' = pairOf (goR e' (rangesL base cs)) := fun e' => by
      by_cases hd : DataFirstL cs
      · exact (contigL_eq base cs e' e').1 hd
      · exact (contigL_eq base cs e' e').2 hd
    refine ⟨fun h => ?_, fun h => ?_⟩
    · rw [hc.1 h]
      cases goR s (ranges base c) <;> simp [pairOf, he]
    · rw [hc.2 h]
      cases goR e (ranges base c) <;> simp [pairOf, he]
end

theorem contig_same (base : Nat → Int) (n : Node) (s : Int) : contig base n s s = pairOf (goR s (ranges base n)) := by
  by_cases hd : DataFirst n
  · exact (contig_eq base n s s).1 hd
  · exact (contig_eq base n s s).2 hd

theorem goR_from : ∀ (rs : List (Int × Int)) (s e : Int), (∀ r ∈ rs, 0 ≤ r.1 ∧ 0 ≤ r.2) → s ≠ 0 →
    (goR s rs = some e ↔ NoNull rs ∧ RunFrom s rs ∧ e = endOf s rs)
  | [], s, e, _, _ => by simp [goR, NoNull, RunFrom, endOf, eq_comm]
  | (b, l) :: rs, s, e, hp, hs => by
    have h0 := hp (b, l) (by simp)
    simp only at h0
    simp only [goR, NoNull, RunFrom, endOf, List.forall_mem_cons]
    by_cases hb : b ≠ 0 ∧ (s = 0 ∨ b = s)
    · rw [if_pos hb, goR_from rs (b + l) e (fun r hr => hp r (List.mem_cons_of_mem _ hr)) (by omega)]
      have := hb.2.resolve_left hs
      simp only [hb.1, this, NoNull, true_and, ne_eq, not_false_eq_true, hs]
    · rw [if_neg hb]
      simp only [reduceCtorEq, false_iff]
      rintro ⟨⟨h1, _⟩, ⟨h2, _⟩, _⟩
      exact hb ⟨h1, Or.inr h2⟩

theorem goR_zero : ∀ (rs : List (Int × Int)) (e : Int), (∀ r ∈ rs, 0 ≤ r.1 ∧ 0 ≤ r.2) →
    (goR 0 rs = some e ↔ NoNull rs ∧ Run rs ∧ e = endOf 0 rs)
  | [], e, _ => by simp [goR, NoNull, Run, endOf, eq_comm]
  | (b, l) :: rs, e, hp => by
    have h0 := hp (b, l) (by simp)
    simp only at h0
    simp only [goR, NoNull, Run, endOf, List.forall_mem_cons, true_or, and_true]
    by_cases hb : b ≠ 0
    · rw [if_pos hb, goR_from rs (b + l) e (fun r hr => hp r (List.mem_cons_of_mem _ hr)) (by omega)]
      simp only [hb, NoNull, true_and, ne_eq, not_false_eq_true]
    · rw [if_neg hb]
      simp [hb]

theorem goR_pos : ∀ (rs : List (Int × Int)) (s e : Int), (∀ r ∈ rs, 0 ≤ r.1 ∧ 0 ≤ r.2) → goR s rs = some e →
    (rs = [] ∧ e = s) ∨ (rs ≠ [] ∧ 0 < e)
  | [], s, e, _, h => by simp [goR] at h; simp [h]
  | (b, l) :: rs, s, e, hp, h => by
    have h0 := hp (b, l) (by simp)
    simp only at h0
    simp only [goR] at h
    split at h
    · rename_i hb
      refine Or.inr ⟨by simp, ?_⟩
      rcases goR_pos rs (b + l) e (fun r hr => hp r (List.mem_cons_of_mem _ hr)) h with ⟨_, h1⟩ | ⟨_, h1⟩ <;> omega
    · simp at h

/-! ### the first pointer -/

mutual
theorem firstData_eq (base : Nat → Int) : ∀ n : Node, NoNull (ranges base n) →
    firstData base n = ((ranges base n).head?.map Prod.fst).getD 0
  | .leaf x d, _ => by
    simp only [firstData, ranges, elementAddr_eq]
    split <;> rfl
  | .obj x es, h => firstDataE_eq base es h
  | .lst x es, h => firstDataL_eq base es h
theorem firstDataE_eq (base : Nat → Int) : ∀ es : List (Str × Node), NoNull (rangesE base es) →
    firstDataE base es = ((rangesE base es).head?.map Prod.fst).getD 0
  | [], _ => rfl
  | (n, c) :: es, h => by
    simp only [rangesE] at h ⊢
    simp only [firstDataE]
    rw [firstData_eq base c (fun r hr => h r (by simp [hr])), firstDataE_eq base es (fun r hr => h r (by simp [hr]))]
    cases hr : ranges base c with
    | nil => simp
    | cons r rs => simp [h r (by simp [hr])]
theorem firstDataL_eq (base : Nat → Int) : ∀ es : List Node, NoNull (rangesL base es) →
    firstDataL base es = ((rangesL base es).head?.map Prod.fst).getD 0
  | [], _ => rfl
  | c :: es, h => by
    simp only [rangesL] at h ⊢
    simp only [firstDataL]
    rw [firstData_eq base c (fun r hr => h r (by simp [hr])), firstDataL_eq base es (fun r hr => h r (by simp [hr]))]
    cases hr : ranges base c with
    | nil => simp
    | cons r rs => simp [h r (by simp [hr])]
end

/-! ### bytes -/

theorem interval_append (a : Int) (m n : Nat) : interval a m ++ interval (a + m) n = interval a (m + n) := by
  simp only [interval, List.range_add, List.map_append, List.map_map]
  congr 1
  apply List.map_congr_left
  intro k _
  simp only [Function.comp]
  omega

theorem flat_interval (a : Int) (w : Nat) : ∀ n : Nat,
    ((List.range n).flatMap fun (i : Nat) => (List.range w).map fun (k : Nat) => a + (w : Int) * i + k) = interval a (w * n)
  | 0 => rfl
  | n + 1 => by
    rw [List.range_succ, List.flatMap_append, flat_interval a w n, Nat.mul_succ, ← interval_append]
    simp only [List.flatMap_cons, List.flatMap_nil, List.append_nil, interval]
    simp

/-- the bytes of a dense leaf -/
theorem leafBytes_dense {base : Nat → Int} {x : Info} {d : DataType} (hn : 0 ≤ d.n) (he : d.ele = d.id.bytes)
    (hs : d.stride = d.ele ∨ d.n = 1) :
    leafBytes base x d = interval (leafAddr base x d) (d.stride * (d.n - 1) + d.ele).toNat ∧
      d.stride * (d.n - 1) + d.ele = (d.id.bytes * d.n.toNat : Nat) := by
  have hl : d.stride * (d.n - 1) + d.ele = (d.id.bytes * d.n.toNat : Nat) := by
    rcases hs with hs | hs
    · rw [hs, he, Int.natCast_mul, Int.toNat_of_nonneg hn, Int.mul_sub]; omega
    · rw [hs, he]; simp
  refine ⟨?_, hl⟩
  rw [hl, Int.toNat_natCast]
  rcases hs with hs | hs
  · rw [← flat_interval]
    simp only [leafBytes, hs, he]
  · rw [hs]
    simp [leafBytes, hs, interval]

/-- Bytes of ranges -/
def rangeBytes (rs : List (Int × Int)) : List Int := rs.flatMap fun r => interval r.1 r.2.toNat

mutual
theorem allBytes_dense (base : Nat → Int) : ∀ n : Node, Dense n →
    allBytes base n = rangeBytes (ranges base n) ∧ ∀ r ∈ ranges base n, 0 ≤ r.2
  | .leaf x d, h => by
    simp only [allBytes, ranges]
    split
    · simp [rangeBytes]
    · rename_i he
      obtain ⟨h1, h2, h3⟩ := h he
      have := leafBytes_dense (base := base) (x := x) h1 h2 h3
      simp only [rangeBytes, List.flatMap_cons, List.flatMap_nil, List.append_nil, List.mem_singleton, forall_eq]
      exact ⟨this.1, by rw [this.2]; omega⟩
  | .obj x es, h => allBytesE_dense base es h
  | .lst x es, h => allBytesL_dense base es h
theorem allBytesE_dense (base : Nat → Int) : ∀ es : List (Str × Node), DenseE es →
    allBytesE base es = rangeBytes (rangesE base es) ∧ ∀ r ∈ rangesE base es, 0 ≤ r.2
  | [], _ => by simp [allBytesE, rangesE, rangeBytes]
  | (_, c) :: es, h => by
    have h1 := allBytes_dense base c h.1
    have h2 := allBytesE_dense base es h.2
    simp only [allBytesE, rangesE, rangeBytes, List.flatMap_append, List.mem_append] at *
    exact ⟨by rw [h1.1, h2.1], fun r hr => hr.elim (h1.2 r) (h2.2 r)⟩
theorem allBytesL_dense (base : Nat → Int) : ∀ es : List Node, DenseL es →
    allBytesL base es = rangeBytes (rangesL base es) ∧ ∀ r ∈ rangesL base es, 0 ≤ r.2
  | [], _ => by simp [allBytesL, rangesL, rangeBytes]
  | c :: es, h => by
    have h1 := allBytes_dense base c h.1
    have h2 := allBytesL_dense base es h.2
    simp only [allBytesL, rangesL, rangeBytes, List.flatMap_append, List.mem_append] at *
    exact ⟨by rw [h1.1, h2.1], fun r hr => hr.elim (h1.2 r) (h2.2 r)⟩
end

theorem rangeBytes_run : ∀ (rs : List (Int × Int)) (a : Int), (∀ r ∈ rs, 0 ≤ r.2) → RunFrom a rs →
    rangeBytes rs = interval a (rangeBytes rs).length
  | [], a, _, _ => by simp [rangeBytes, interval]
  | (b, l) :: rs, a, hp, ⟨h1, h2⟩ => by
    have ih := rangeBytes_run rs (b + l) (fun r hr => hp r (List.mem_cons_of_mem _ hr)) h2
    have hl := hp (b, l) (by simp)
    simp only at hl h1
    have e1 : rangeBytes ((b, l) :: rs) = interval b l.toNat ++ rangeBytes rs := rfl
    rw [e1, ih]
    have e2 : b + l = b + (l.toNat : Int) := by omega
    rw [e2, interval_append]
    rw [h1]
    congr 1
    simp [interval]

theorem interval_ne_nil {a : Int} {k : Nat} (h : 0 < k) : interval a k = a :: interval (a + 1) (k - 1) := by
  have h1 := interval_append a 1 (k - 1)
  rw [show 1 + (k - 1) = k by omega] at h1
  rw [← h1]
  simp [interval]

theorem interval_inj {a b : Int} {k l : Nat} (h : interval a k = interval b l) : k = l ∧ (0 < k → a = b) := by
  have hl : k = l := by
    have := congrArg List.length h
    simpa [interval] using this
  refine ⟨hl, fun hk => ?_⟩
  rw [interval_ne_nil hk, interval_ne_nil (show 0 < l by omega)] at h
  exact (List.cons.inj h).1

/-- Conversely: when the bytes are one interval and no range is without bytes, the ranges follow each
    other. -/
theorem run_of_bytes : ∀ (rs : List (Int × Int)) (a : Int), (∀ r ∈ rs, 0 < r.2) →
    (∃ k, rangeBytes rs = interval a k) → RunFrom a rs
  | [], a, _, _ => trivial
  | (b, l) :: rs, a, hp, ⟨k, hk⟩ => by
    have hl := hp (b, l) (by simp)
    simp only at hl
    have e1 : rangeBytes ((b, l) :: rs) = interval b l.toNat ++ rangeBytes rs := rfl
    rw [e1] at hk
    have hlen : l.toNat + (rangeBytes rs).length = k := by
      have := congrArg List.length hk
      simpa [interval] using this
    rw [← hlen, ← interval_append] at hk
    have h2 := List.append_inj hk (by simp [interval])
    have h3 := (interval_inj h2.1).2 (by omega)
    refine ⟨h3, run_of_bytes rs (b + l) (fun r hr => hp r (List.mem_cons_of_mem _ hr)) ⟨(rangeBytes rs).length, ?_⟩⟩
    have h4 := h2.2
    rw [h3]
    rwa [show a + ((l.toNat : Nat) : Int) = a + l by omega] at h4

/-! ### what the bytes are -/

theorem leaf_flat {base : Nat → Int} {fm : Int → Option UInt8} {m : Mem} (hs : Shows base fm m) {x : Info} {d : DataType}
    (hr : ∀ e ∈ elems m x.data d, ∀ b ∈ e, b.isSome) :
    (elems m x.data d).flatten = (leafBytes base x d).map fm := by
  simp only [elems, leafBytes, List.map_flatMap, List.map_map, List.flatten_eq_flatMap, List.flatMap_map, id_eq]
  simp only [List.flatMap]
  congr 1
  apply List.map_congr_left
  intro i hi
  apply List.map_congr_left
  intro k hk
  have hb := hr ((List.range d.id.bytes).map fun (k : Nat) => m.byteAt x.data (d.offset + d.stride * i + k))
    (List.mem_map.2 ⟨i, hi, rfl⟩) _ (List.mem_map.2 ⟨k, hk, rfl⟩)
  simp only [Function.comp]
  cases hx : x.data with
  | none => rw [hx] at hb; simp [Mem.byteAt] at hb
  | some p =>
    rw [hx] at hb
    simp only [Mem.byteAt] at hb ⊢
    obtain ⟨v, hv⟩ := Option.isSome_iff_exists.1 hb
    rw [hv]
    have := hs _ _ _ hv
    simp only [leafAddr, hx, Option.elim]
    rw [← this]
    congr 1
    omega

mutual
theorem flat_bytes {base : Nat → Int} {fm : Int → Option UInt8} {m : Mem} (hs : Shows base fm m) : ∀ n : Node,
    Readable m n → flat (val m n) = (allBytes base n).map fm
  | .leaf x d, hr => by
    simp only [val, allBytes]
    split
    · rfl
    · rename_i he
      simp only [flat]
      exact leaf_flat hs (hr.2.2.2 he)
  | .obj x es, hr => by simp only [val, allBytes, flat]; exact flat_bytesE hs es hr
  | .lst x es, hr => by simp only [val, allBytes, flat]; exact flat_bytesL hs es hr
theorem flat_bytesE {base : Nat → Int} {fm : Int → Option UInt8} {m : Mem} (hs : Shows base fm m) : ∀ es : List (Str × Node),
    ReadableE m es → flatE (valE m es) = (allBytesE base es).map fm
  | [], _ => rfl
  | (_, c) :: es, hr => by
    simp only [valE, flatE, allBytesE, List.map_append]
    rw [flat_bytes hs c hr.1, flat_bytesE hs es hr.2]
theorem flat_bytesL {base : Nat → Int} {fm : Int → Option UInt8} {m : Mem} (hs : Shows base fm m) : ∀ es : List Node,
    ReadableL m es → flatL (valL m es) = (allBytesL base es).map fm
  | [], _ => rfl
  | c :: es, hr => by
    simp only [valL, flatL, allBytesL, List.map_append]
    rw [flat_bytes hs c hr.1, flat_bytesL hs es hr.2]
end

end Conduit
