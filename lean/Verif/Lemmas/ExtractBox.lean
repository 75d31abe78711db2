import Verif.Lemmas.Extract4
/-
The numbers of the elements and points of a box.
-/
namespace Conduit.Part
open Conduit.Mesh
variable {F : Type}

theorem flatMap_get {α β : Type} (f : α → List β) (m : Nat) : ∀ (l : List α), (∀ x ∈ l, (f x).length = m) → ∀ (q r : Nat) (x : α) (v : β),
    l[q]? = some x → (f x)[r]? = some v → (l.flatMap f)[q * m + r]? = some v
  | [], _, q, r, x, v, hq, _ => by simp at hq
  | a :: l, h, q, r, x, v, hq, hr => by
    rw [List.flatMap_cons]
    have ha := h a (by simp)
    cases q with
    | zero =>
      rw [List.getElem?_cons_zero] at hq; cases hq
      rw [List.getElem?_append_left (by rw [Nat.zero_mul, Nat.zero_add]; exact (List.getElem?_eq_some_iff.1 hr).1), Nat.zero_mul, Nat.zero_add]
      exact hr
    | succ q =>
      rw [List.getElem?_append_right (by rw [ha, Nat.succ_mul]; omega), ha, show (q + 1) * m + r - m = q * m + r by rw [Nat.succ_mul]; omega]
      exact flatMap_get f m l (fun x hx => h x (by simp [hx])) q r x v (by simpa using hq) hr

theorem upTo_nat (a b : Nat) : upTo (a : Int) (b : Int) = ints (List.range' a (b + 1 - a)) := by
  unfold upTo
  rw [show ((b : Int) - (a : Int) + 1).toNat = b + 1 - a by omega, ints]
  apply List.ext_getElem?
  intro k
  by_cases hk : k < b + 1 - a
  · rw [List.getElem?_map, List.getElem?_map, List.getElem?_range hk, List.getElem?_range' hk]
    simp
  · rw [List.getElem?_eq_none (by simp; omega), List.getElem?_eq_none (by simp; omega)]

/-- A box of three dimensions. -/
theorem boxIds3 (n0 n1 : Nat) (n2 : Int) (n2' a0 a1 a2 b0 b1 b2 : Nat) :
    ∃ l, boxIds ⟨n0, n1, n2⟩ ⟨a0, a1, a2⟩ ⟨b0, b1, b2⟩ = ints l ∧
      BoxOf [n0, n1, n2'] [a0, a1, a2] [b0 + 1 - a0, b1 + 1 - a1, b2 + 1 - a2] l := by
  let l := (List.range' a2 (b2 + 1 - a2)).flatMap fun k => (List.range' a1 (b1 + 1 - a1)).flatMap fun j =>
    (List.range' a0 (b0 + 1 - a0)).map fun i => k * (n0 * n1) + j * n0 + i
  have h1 : ∀ k j : Nat, ((List.range' a0 (b0 + 1 - a0)).map fun i => k * (n0 * n1) + j * n0 + i).length = b0 + 1 - a0 := by simp
  have h2 : ∀ k : Nat, ((List.range' a1 (b1 + 1 - a1)).flatMap fun j =>
      (List.range' a0 (b0 + 1 - a0)).map fun i => k * (n0 * n1) + j * n0 + i).length = (b1 + 1 - a1) * (b0 + 1 - a0) := by
    intro k
    rw [flatMap_length_const _ (fun j => h1 k j)]; simp
  refine ⟨l, ?_, ?_, ?_⟩
  · unfold boxIds
    simp only [upTo_nat, ints, List.flatMap_map, l, List.map_flatMap, List.map_map]
    simp [Function.comp_def]
  · rw [flatMap_length_const _ h2]
    simp only [List.length_range', count]
    rw [Nat.mul_one, Nat.mul_comm, Nat.mul_comm (b1 + 1 - a1), Nat.mul_assoc]
  · intro x hx
    rcases x with _ | ⟨x, _ | ⟨y, _ | ⟨z, _ | ⟨_, _⟩⟩⟩⟩ <;> simp [InGrid] at hx
    obtain ⟨hx, hy, hz⟩ := hx
    have e : pointId [b0 + 1 - a0, b1 + 1 - a1, b2 + 1 - a2] [x, y, z] =
        z * ((b1 + 1 - a1) * (b0 + 1 - a0)) + (y * (b0 + 1 - a0) + x) := by
      simp only [pointId]; ring
    rw [e]
    refine flatMap_get _ _ _ (fun k _ => h2 k) z _ (a2 + z) _ (by rw [List.getElem?_range' hz]; simp) ?_
    refine flatMap_get _ _ _ (fun j _ => h1 _ j) y _ (a1 + y) _ (by rw [List.getElem?_range' hy]; simp) ?_
    rw [List.getElem?_map, List.getElem?_range' hx, Option.map_some]
    simp only [addIdx, pointId]
    congr 1
    ring

/-- A box of two dimensions. -/
theorem boxIds2 (n0 n1 : Nat) (n2 : Int) (a0 a1 b0 b1 : Nat) :
    ∃ l, boxIds ⟨n0, n1, n2⟩ ⟨a0, a1, 0⟩ ⟨b0, b1, 0⟩ = ints l ∧ BoxOf [n0, n1] [a0, a1] [b0 + 1 - a0, b1 + 1 - a1] l := by
  obtain ⟨l, h1, h2, h3⟩ := boxIds3 n0 n1 n2 1 a0 a1 0 b0 b1 0
  refine ⟨l, h1, by rw [h2]; simp [count], ?_⟩
  intro x hx
  rcases x with _ | ⟨x, _ | ⟨y, _ | ⟨_, _⟩⟩⟩ <;> simp [InGrid] at hx
  have := h3 [x, y, 0] (by simp [InGrid]; exact hx)
  simpa [pointId, addIdx] using this

theorem boxOf_bound {n start len ids : List Nat} (h : BoxOf n start len ids) (hin : ∀ x, InGrid len x → InGrid n (addIdx start x)) :
    ∀ p ∈ ids, p < count n := by
  intro p hp
  obtain ⟨k, hk⟩ := List.getElem?_of_mem hp
  have hlt := (List.getElem?_eq_some_iff.1 hk).1
  rw [h.1] at hlt
  obtain ⟨x, hx, rfl⟩ := pointId_surj len k hlt
  rw [h.2 x hx] at hk
  cases hk
  exact pointId_lt _ _ (hin x hx)

/-- The numbers of the elements and points of a box. -/
theorem box_ids (A : Arith F) (mesh topo cset : BNode F) (ed start stop : List Nat) (hl : ed.length = 2 ∨ ed.length = 3)
    (hg : GridRead A mesh topo cset ed) (hb : BoxIn ed start stop) :
    ∃ ids pts, (∀ d, logicalDims A mesh topo = .ok d → boxIds d (i3 start) (i3 stop) = ints ids) ∧
      boxVertexIds A mesh topo (i3 start) (i3 stop) = .ok (ints pts) ∧
      BoxOf ed start (boxLens start stop) ids ∧ BoxOf (ed.map (· + 1)) start ((boxLens start stop).map (· + 1)) pts ∧
      (∀ i ∈ ids, i < count ed) ∧ (∀ p ∈ pts, p < count (ed.map (· + 1))) ∧ ids ≠ [] ∧ pts ≠ [] := by
  obtain ⟨⟨ty, b, ht, hbb, _⟩, hd, hld⟩ := hg
  have hty : ty ≠ chars! "unstructured" := by rintro rfl; simp [baseOf] at hbb
  obtain ⟨h1, h2, h3⟩ := hb
  rcases hl with hl | hl
  · rcases ed with _ | ⟨n0, _ | ⟨n1, _ | ⟨_, _⟩⟩⟩ <;> simp at hl
    rcases start with _ | ⟨a0, _ | ⟨a1, _ | ⟨_, _⟩⟩⟩ <;> simp at h1
    rcases stop with _ | ⟨b0, _ | ⟨b1, _ | ⟨_, _⟩⟩⟩ <;> simp at h2
    have x0 := h3 0 a0 b0 n0 rfl rfl rfl
    have x1 := h3 1 a1 b1 n1 rfl rfl rfl
    obtain ⟨ids, e1, e2⟩ := boxIds2 n0 n1 1 a0 a1 b0 b1
    obtain ⟨pts, p1, p2⟩ := boxIds2 (n0 + 1) (n1 + 1) 1 a0 a1 (b0 + 1) (b1 + 1)
    have l1 : [b0 + 1 - a0, b1 + 1 - a1] = boxLens [a0, a1] [b0, b1] := by
      simp only [boxLens, List.zipWith]
      rw [show b0 + 1 - a0 = b0 - a0 + 1 by omega, show b1 + 1 - a1 = b1 - a1 + 1 by omega]
    have l2 : [b0 + 1 + 1 - a0, b1 + 1 + 1 - a1] = (boxLens [a0, a1] [b0, b1]).map (· + 1) := by
      rw [← l1, List.map_cons, List.map_cons, List.map_nil, show b0 + 1 + 1 - a0 = b0 + 1 - a0 + 1 by omega,
        show b1 + 1 + 1 - a1 = b1 + 1 - a1 + 1 by omega]
    rw [l1] at e2
    rw [l2] at p2
    refine ⟨ids, pts, ?_, ?_, e2, p2, boxOf_bound e2 ?_, boxOf_bound p2 ?_, ?_, ?_⟩
    · intro d hdd
      rw [hld] at hdd; cases hdd
      exact e1
    · unfold boxVertexIds
      simp only [hld, Res.bind_ok, ht, BNode.asString, if_neg hty, hd, caught]
      simp only [i3, List.getD_cons_zero, List.getD_cons_succ, List.getD_nil, List.length_cons, List.length_nil]
      rw [if_neg (by decide), if_neg (by decide)]
      have : boxIds ⟨((n0 + 1 : Nat) : Int), ((n1 + 1 : Nat) : Int), 1⟩ ⟨a0, a1, 0⟩ ⟨((b0 + 1 : Nat) : Int), ((b1 + 1 : Nat) : Int), 0⟩ = ints pts := p1
      push_cast at this
      push_cast
      rw [this]
    · intro x hx
      rw [← l1] at hx
      rcases x with _ | ⟨x, _ | ⟨y, _ | ⟨_, _⟩⟩⟩ <;> simp [InGrid] at hx
      simp only [addIdx, InGrid]
      exact ⟨by omega, by omega, trivial⟩
    · intro x hx
      rw [← l2] at hx
      rcases x with _ | ⟨x, _ | ⟨y, _ | ⟨_, _⟩⟩⟩ <;> simp [InGrid] at hx
      simp only [addIdx, InGrid, List.map]
      exact ⟨by omega, by omega, trivial⟩
    · rintro rfl
      have := e2.1
      simp [boxLens, count] at this
    · rintro rfl
      have := p2.1
      simp [boxLens, count] at this
  · rcases ed with _ | ⟨n0, _ | ⟨n1, _ | ⟨n2, _ | ⟨_, _⟩⟩⟩⟩ <;> simp at hl
    rcases start with _ | ⟨a0, _ | ⟨a1, _ | ⟨a2, _ | ⟨_, _⟩⟩⟩⟩ <;> simp at h1
    rcases stop with _ | ⟨b0, _ | ⟨b1, _ | ⟨b2, _ | ⟨_, _⟩⟩⟩⟩ <;> simp at h2
    have x0 := h3 0 a0 b0 n0 rfl rfl rfl
    have x1 := h3 1 a1 b1 n1 rfl rfl rfl
    have x2 := h3 2 a2 b2 n2 rfl rfl rfl
    obtain ⟨ids, e1, e2⟩ := boxIds3 n0 n1 n2 n2 a0 a1 a2 b0 b1 b2
    obtain ⟨pts, p1, p2⟩ := boxIds3 (n0 + 1) (n1 + 1) ((n2 + 1 : Nat) : Int) (n2 + 1) a0 a1 a2 (b0 + 1) (b1 + 1) (b2 + 1)
    have l1 : [b0 + 1 - a0, b1 + 1 - a1, b2 + 1 - a2] = boxLens [a0, a1, a2] [b0, b1, b2] := by
      simp only [boxLens, List.zipWith]
      rw [show b0 + 1 - a0 = b0 - a0 + 1 by omega, show b1 + 1 - a1 = b1 - a1 + 1 by omega, show b2 + 1 - a2 = b2 - a2 + 1 by omega]
    have l2 : [b0 + 1 + 1 - a0, b1 + 1 + 1 - a1, b2 + 1 + 1 - a2] = (boxLens [a0, a1, a2] [b0, b1, b2]).map (· + 1) := by
      rw [← l1, List.map_cons, List.map_cons, List.map_cons, List.map_nil, show b0 + 1 + 1 - a0 = b0 + 1 - a0 + 1 by omega,
        show b1 + 1 + 1 - a1 = b1 + 1 - a1 + 1 by omega, show b2 + 1 + 1 - a2 = b2 + 1 - a2 + 1 by omega]
    rw [l1] at e2
    rw [l2] at p2
    refine ⟨ids, pts, ?_, ?_, e2, p2, boxOf_bound e2 ?_, boxOf_bound p2 ?_, ?_, ?_⟩
    · intro d hdd
      rw [hld] at hdd; cases hdd
      exact e1
    · unfold boxVertexIds
      simp only [hld, Res.bind_ok, ht, BNode.asString, if_neg hty, hd, caught]
      simp only [i3, List.getD_cons_zero, List.getD_cons_succ, List.length_cons, List.length_nil]
      rw [if_pos (by decide), if_pos (by decide)]
      push_cast at p1
      push_cast
      rw [p1]
    · intro x hx
      rw [← l1] at hx
      rcases x with _ | ⟨x, _ | ⟨y, _ | ⟨z, _ | ⟨_, _⟩⟩⟩⟩ <;> simp [InGrid] at hx
      simp only [addIdx, InGrid]
      exact ⟨by omega, by omega, by omega, trivial⟩
    · intro x hx
      rw [← l2] at hx
      rcases x with _ | ⟨x, _ | ⟨y, _ | ⟨z, _ | ⟨_, _⟩⟩⟩⟩ <;> simp [InGrid] at hx
      simp only [addIdx, InGrid, List.map]
      exact ⟨by omega, by omega, by omega, trivial⟩
    · rintro rfl
      have := e2.1
      simp [boxLens, count] at this
    · rintro rfl
      have := p2.1
      simp [boxLens, count] at this

end Conduit.Part
