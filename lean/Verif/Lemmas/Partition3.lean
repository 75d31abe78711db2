import Verif.Lemmas.Partition2
import Verif.Spec.Partition
/-
Splitting towards the target.
-/
namespace Conduit.Part
open Conduit.Mesh
variable {F : Type}

/-! ### selections inside the mesh -/

theorem rangeIds_length : ∀ {r : List (Int × Int)}, (∀ p ∈ r, p.1 ≤ p.2) → ((rangeIds r).length : Int) = rangesLength r
  | [], _ => by simp [rangeIds, rangesLength]
  | p :: r, h => by
    have ih := rangeIds_length (r := r) fun q hq => h q (List.mem_cons_of_mem _ hq)
    have hp := h p (List.mem_cons_self)
    simp only [rangeIds, rangesLength, List.flatMap_cons, List.length_append, upTo_length, List.map_cons, List.sum_cons] at ih ⊢
    omega

theorem rangeIds_mem {r : List (Int × Int)} {x : Int} : x ∈ rangeIds r ↔ ∃ p ∈ r, p.1 ≤ x ∧ x ≤ p.2 := by
  unfold rangeIds
  simp only [List.mem_flatMap, upTo_mem]

theorem rangeIds_filter {r : List (Int × Int)} {n : Int} (h : ∀ p ∈ r, p.2 < n) : (rangeIds r).filter (fun e => decide (e < n)) = rangeIds r := by
  rw [List.filter_eq_self]
  intro x hx
  obtain ⟨p, hp, h1, h2⟩ := rangeIds_mem.mp hx
  have := h p hp
  exact decide_eq_true (by omega)

/-- What a selection inside the mesh has. -/
theorem inside_ids (A : Arith F) {mesh : BNode F} {s : Sel} (h : Inside A mesh s) :
    ∃ ids, elementIds A s mesh = .ok ids ∧ selLength A s mesh = .ok (ids.length : Int) ∧ 1 ≤ ids.length := by
  obtain ⟨t, ht, h⟩ := h
  split at h
  · rename_i a b e
    obtain ⟨d, hd, h1, h2, h3, h4, h5, h6, h7, h8, h9⟩ := h
    refine ⟨_, ids_logical A ht hd e, ?_, ?_⟩
    · unfold selLength
      rw [e]
      simp only [boxIds_length]
      have e1 : (cells a.i b.i).toNat = cells a.i b.i := by unfold cells; omega
      have e2 : (cells a.j b.j).toNat = cells a.j b.j := by unfold cells; omega
      have e3 : (cells a.k b.k).toNat = cells a.k b.k := by unfold cells; omega
      push_cast
      rw [e1, e2, e3]
      congr 1
      rw [Int.mul_comm (cells a.k b.k), Int.mul_comm (cells a.j b.j)]
    · rw [boxIds_length]
      have e1 : 0 < (cells a.i b.i).toNat := by unfold cells; omega
      have e2 : 0 < (cells a.j b.j).toNat := by unfold cells; omega
      have e3 : 0 < (cells a.k b.k).toNat := by unfold cells; omega
      exact Nat.mul_pos e3 (Nat.mul_pos e2 e1)
  · rename_i l e
    obtain ⟨h1, _, n, hn, h2⟩ := h
    have : l.filter (fun e => decide (e < n)) = l := List.filter_eq_self.mpr fun x hx => decide_eq_true (h2 x hx).2
    refine ⟨_, ids_explicit A ht hn e, ?_, ?_⟩
    · unfold selLength
      rw [e, this]
    · rw [this]
      exact List.length_pos_iff.mpr h1
  · rename_i r e
    obtain ⟨p, n, rfl, hn, h1, h2, h3⟩ := h
    have : (rangeIds [p]).filter (fun e => decide (e < n)) = rangeIds [p] := rangeIds_filter fun q hq => by
      cases List.mem_singleton.mp hq
      exact h3
    have hl := rangeIds_length (r := [p]) fun q hq => by
      cases List.mem_singleton.mp hq
      exact h2
    refine ⟨_, ids_ranges A ht hn e, ?_, ?_⟩
    · unfold selLength
      rw [e, this, hl]
    · rw [this]
      simp only [rangesLength, List.map_cons, List.map_nil, List.sum_cons, List.sum_nil] at hl
      omega
  · exact h.elim

theorem inside_free {A : Arith F} {mesh : BNode F} {s : Sel} (h : Inside A mesh s) : destDomain s = -1 := by
  obtain ⟨t, ht, h⟩ := h
  unfold destDomain
  split
  · rename_i e
    rw [e] at h
    exact h.elim
  · rfl

/-- A range of several elements is cut into two. -/
theorem splitRange_one {p : Int × Int} (h : 1 < p.2 - p.1 + 1) :
    ∃ q, splitRanges [p] = [.ranges [(p.1, q)], .ranges [(q + 1, p.2)]] ∧ p.1 ≤ q ∧ q < p.2 := by
  have hl : rangesLength [p] = p.2 - p.1 + 1 := by simp [rangesLength]
  obtain ⟨n, p', e1, e2, es, _⟩ := splitRanges_spec (r := [p]) (by rw [hl]; omega)
  have hn : n = 0 := by
    have := (List.getElem?_eq_some_iff.mp e1).1
    simp at this
    exact this
  subst hn
  simp only [List.getElem?_cons_zero, Option.some.injEq] at e1
  subst e1
  rw [es]
  unfold cutRange
  by_cases h2 : p.2 - p.1 + 1 = 2
  · rw [if_neg (by omega), if_pos h2]
    refine ⟨p.1, ?_, by omega, by omega⟩
    simp
    omega
  · rw [if_neg (by omega), if_neg h2]
    rw [Int.tdiv_eq_ediv_of_nonneg (by omega)]
    refine ⟨p.1 + (p.2 - p.1 + 1) / 2, ?_, by omega, by omega⟩
    simp

/-- The parts of a selection of several elements are inside the mesh again. -/
theorem inside_split (A : Arith F) {mesh : BNode F} {s : Sel} {ids : List Int} (h : Inside A mesh s) (hi : elementIds A s mesh = .ok ids)
    (h1 : 1 < ids.length) :
    ∃ p0 p1 i0 i1, split A s mesh = .ok [p0, p1] ∧ Inside A mesh p0 ∧ Inside A mesh p1 ∧ elementIds A p0 mesh = .ok i0 ∧
      elementIds A p1 mesh = .ok i1 ∧ (i0 ++ i1).Perm ids ∧ p0.whole = some false ∧ p1.whole = some false := by
  obtain ⟨ids', hi', hl, _⟩ := inside_ids A h
  rw [hi] at hi'
  cases hi'
  have hf : ∀ name value ranks, s.kind ≠ .field name value ranks := by
    intro name value ranks e
    obtain ⟨t, _, h⟩ := h
    rw [e] at h
    exact h
  have go : ∀ {ps}, split A s mesh = .ok ps → ∃ p0 p1 i0 i1, ps = [p0, p1] ∧ elementIds A p0 mesh = .ok i0 ∧
      elementIds A p1 mesh = .ok i1 ∧ (i0 ++ i1).Perm ids := by
    intro ps hs
    obtain ⟨p0, p1, i0, i1, a, _, b, c, d, _⟩ := split_ids A hf hl (by omega) (fun _ _ _ => by omega) hi hs
    exact ⟨p0, p1, i0, i1, a, b, c, d⟩
  obtain ⟨t, ht, h⟩ := h
  split at h
  · rename_i a b e
    obtain ⟨d, hd, g1, g2, g3, g4, g5, g6, g7, g8, g9⟩ := h
    have hlen : cells a.i b.i * cells a.j b.j * cells a.k b.k > 1 := by
      unfold selLength at hl
      rw [e] at hl
      have := Res.ok.inj hl
      omega
    have hs : split A s mesh = .ok ((splitLogical a b).map (part s)) := by
      unfold split
      rw [e]
    have bounds : ∃ b0 a1, splitLogical a b = [.logical a b0, .logical a1 b] ∧ Box a b0 ∧ Box a1 b ∧
        b0.i ≤ b.i ∧ b0.j ≤ b.j ∧ b0.k ≤ b.k ∧ a.i ≤ a1.i ∧ a.j ≤ a1.j ∧ a.k ≤ a1.k := by
      obtain ⟨b0, a1, e1, x, y⟩ := splitLogical_box ⟨g4, g5, g6⟩ hlen
      refine ⟨b0, a1, e1, x, y, ?_⟩
      unfold splitLogical at e1
      rw [if_pos hlen] at e1
      have t1 := half_bounds (n := cells a.i b.i) (by unfold cells; omega)
      have t2 := half_bounds (n := cells a.j b.j) (by unfold cells; omega)
      have t3 := half_bounds (n := cells a.k b.k) (by unfold cells; omega)
      rcases longest_pos hlen with ⟨el, _⟩ | ⟨el, _⟩ | ⟨el, _⟩ <;> rw [el] at e1 <;> simp only [List.cons.injEq, Kind.logical.injEq, and_true, true_and] at e1 <;>
        obtain ⟨rfl, rfl⟩ := e1 <;> unfold cells at t1 t2 t3 ⊢ <;> simp only <;> omega
    obtain ⟨b0, a1, e1, x, y, k1, k2, k3, k4, k5, k6⟩ := bounds
    rw [e1] at hs
    obtain ⟨p0, p1, i0, i1, e2, q1, q2, q3⟩ := go hs
    simp only [List.map_cons, List.map_nil, List.cons.injEq, and_true] at e2
    obtain ⟨rfl, rfl⟩ := e2
    refine ⟨_, _, i0, i1, hs, ⟨t, ht, ?_⟩, ⟨t, ht, ?_⟩, q1, q2, q3, rfl, rfl⟩
    · exact ⟨d, hd, g1, g2, g3, x.1, x.2.1, x.2.2, by omega, by omega, by omega⟩
    · exact ⟨d, hd, by omega, by omega, by omega, y.1, y.2.1, y.2.2, g7, g8, g9⟩
  · rename_i l e
    obtain ⟨g1, g2, n, hn, g3⟩ := h
    have keep : ∀ q : List Int, (∀ x ∈ q, x ∈ l) → q.filter (fun e => decide (e < n)) = q := fun q hq =>
      List.filter_eq_self.mpr fun x hx => decide_eq_true (g3 x (hq x hx)).2
    have hs : split A s mesh = .ok [part s (.explicit (l.take (l.length / 2))), part s (.explicit (l.drop (l.length / 2)))] := by
      unfold split
      simp only [e, ht, Res.bind_ok, hn, caught]
      rw [keep _ fun x hx => List.mem_of_mem_take hx, keep _ fun x hx => List.mem_of_mem_drop hx]
    have hlen : 1 < l.length := by
      unfold selLength at hl
      rw [e] at hl
      have := Res.ok.inj hl
      omega
    obtain ⟨p0, p1, i0, i1, e2, q1, q2, q3⟩ := go hs
    simp only [List.cons.injEq, and_true] at e2
    obtain ⟨rfl, rfl⟩ := e2
    refine ⟨_, _, i0, i1, hs, ⟨t, ht, ?_⟩, ⟨t, ht, ?_⟩, q1, q2, q3, rfl, rfl⟩
    · refine ⟨?_, g2.sublist (List.take_sublist _ _), n, hn, fun x hx => g3 x (List.mem_of_mem_take hx)⟩
      apply List.length_pos_iff.mp
      rw [List.length_take]
      omega
    · refine ⟨?_, g2.sublist (List.drop_sublist _ _), n, hn, fun x hx => g3 x (List.mem_of_mem_drop hx)⟩
      apply List.length_pos_iff.mp
      rw [List.length_drop]
      omega
  · rename_i r e
    obtain ⟨p, n, rfl, hn, g1, g2, g3⟩ := h
    have hlen : 1 < rangesLength [p] := by
      unfold selLength at hl
      rw [e] at hl
      have := Res.ok.inj hl
      omega
    obtain ⟨q, es, k1, k2⟩ := splitRange_one (p := p) (by simpa [rangesLength] using hlen)
    have hs : split A s mesh = .ok [part s (.ranges [(p.1, q)]), part s (.ranges [(q + 1, p.2)])] := by
      unfold split
      simp only [e, es, List.map_cons, List.map_nil]
    obtain ⟨p0, p1, i0, i1, e2, q1, q2, q3⟩ := go hs
    simp only [List.cons.injEq, and_true] at e2
    obtain ⟨rfl, rfl⟩ := e2
    refine ⟨_, _, i0, i1, hs, ⟨t, ht, ?_⟩, ⟨t, ht, ?_⟩, q1, q2, q3, rfl, rfl⟩
    · exact ⟨(p.1, q), n, rfl, hn, g1, k1, by show q < n; omega⟩
    · exact ⟨(q + 1, p.2), n, rfl, hn, by show 0 ≤ q + 1; omega, by show q + 1 ≤ p.2; omega, g3⟩
  · exact h.elim

end Conduit.Part
