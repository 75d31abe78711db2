import Verif.Lemmas.Partition5
/-
The plan: chunks of selections inside the mesh, and where they go.
-/
namespace Conduit.Part
open Conduit.Mesh
variable {F : Type}

/-! ### the whole mesh as a box -/

theorem upTo_zero (n : Int) : upTo 0 (n - 1) = (List.range n.toNat).map fun m : Nat => (m : Int) := by
  unfold upTo
  rw [show n - 1 - 0 + 1 = n by omega]
  simp

theorem upTo_rows (w : Nat) : ∀ m : Nat,
    ((List.range m).flatMap fun j => (List.range w).map fun i => j * w + i) = List.range (m * w)
  | 0 => by simp
  | m + 1 => by
    rw [List.range_succ, List.flatMap_append, upTo_rows w m, Nat.succ_mul, List.range_add]
    simp

theorem flatMap_map' {α β γ : Type} (f : α → β) (g : β → List γ) (l : List α) : (l.map f).flatMap g = l.flatMap fun x => g (f x) := by
  rw [List.flatMap_map]

theorem rows_int (m w : Nat) : ((List.range m).flatMap fun j : Nat => (List.range w).map fun i : Nat => (j : Int) * (w : Int) + (i : Int)) =
    (List.range (m * w)).map fun n : Nat => (n : Int) := by
  rw [← upTo_rows, List.map_flatMap]
  congr 1
  funext j
  rw [List.map_map]
  apply List.map_congr_left
  intro i _
  simp

/-- The box of all cells has the elements in order. -/
theorem box_whole {d : I3} (hi : 0 ≤ d.i) (hj : 0 ≤ d.j) (hk : 0 ≤ d.k) :
    boxIds d ⟨0, 0, 0⟩ ⟨d.i - 1, d.j - 1, d.k - 1⟩ = upTo 0 (d.i * d.j * d.k - 1) := by
  obtain ⟨di, dj, dk⟩ := d
  simp only at hi hj hk
  obtain ⟨a, rfl⟩ := Int.eq_ofNat_of_zero_le hi
  obtain ⟨b, rfl⟩ := Int.eq_ofNat_of_zero_le hj
  obtain ⟨c, rfl⟩ := Int.eq_ofNat_of_zero_le hk
  unfold boxIds
  simp only [upTo_zero, Int.toNat_natCast]
  have e2 : ((a : Int) * (b : Int) * (c : Int)).toNat = c * (b * a) := by
    rw [← Int.natCast_mul, ← Int.natCast_mul, Int.toNat_natCast, Nat.mul_comm a b, Nat.mul_comm (b * a) c]
  rw [e2, ← rows_int c (b * a), flatMap_map']
  congr 1
  funext k
  rw [flatMap_map']
  have : ((List.range (b * a)).map fun i : Nat => (k : Int) * ((b * a : Nat) : Int) + (i : Int)) =
      ((List.range (b * a)).map fun n : Nat => (n : Int)).map fun x => (k : Int) * ((b * a : Nat) : Int) + x := by
    rw [List.map_map]
    rfl
  rw [this, ← rows_int b a, List.map_flatMap]
  congr 1
  funext j
  rw [List.map_map, List.map_map]
  apply List.map_congr_left
  intro i _
  simp only [Function.comp]
  rw [Int.natCast_mul, Int.mul_comm (a : Int) (b : Int)]
  omega

theorem upTo_sublist {a b c d : Int} (h1 : c ≤ a) (h2 : a ≤ b + 1) (h3 : b ≤ d) : (upTo a b).Sublist (upTo c d) := by
  rw [← upTo_append (a := c) (m := a) (b := d) h1 (by omega), ← upTo_append (a := a) (m := b + 1) (b := d) (by omega) (by omega),
    show b + 1 - 1 = b by omega]
  exact (List.sublist_append_left _ _).trans (List.sublist_append_right _ _)

theorem flatMap_sublist {α β : Type} {f g : α → List β} (h : ∀ x, (f x).Sublist (g x)) : ∀ {l m : List α}, l.Sublist m → (l.flatMap f).Sublist (m.flatMap g)
  | _, _, .slnil => List.Sublist.refl _
  | _, _, .cons a s => by
    rw [List.flatMap_cons]
    exact (flatMap_sublist h s).trans (List.sublist_append_right _ _)
  | _, _, .cons₂ a s => by
    rw [List.flatMap_cons, List.flatMap_cons]
    exact List.Sublist.append (h a) (flatMap_sublist h s)

/-- A box within the mesh has some of its elements, in order. -/
theorem box_sublist {d a b : I3} (h1 : 0 ≤ a.i) (h2 : 0 ≤ a.j) (h3 : 0 ≤ a.k) (h4 : a.i ≤ b.i) (h5 : a.j ≤ b.j) (h6 : a.k ≤ b.k)
    (h7 : b.i < d.i) (h8 : b.j < d.j) (h9 : b.k < d.k) : (boxIds d a b).Sublist (upTo 0 (d.i * d.j * d.k - 1)) := by
  rw [← box_whole (by omega) (by omega) (by omega)]
  unfold boxIds
  refine flatMap_sublist (fun k => ?_) (upTo_sublist h3 (by omega) (by simp only; omega))
  refine flatMap_sublist (fun j => ?_) (upTo_sublist h2 (by omega) (by simp only; omega))
  exact (upTo_sublist h1 (by omega) (by simp only; omega)).map _

theorem upTo_nodup (a b : Int) : (upTo a b).Nodup := by
  unfold upTo
  refine List.Pairwise.map _ ?_ List.nodup_range
  intro x y h e
  exact h (by omega)

theorem length_dims (A : Arith F) {mesh topo : BNode F} {d : I3} (h : logicalDims A mesh topo = .ok d) :
    length A mesh topo = .ok (d.i * d.j * d.k) := by
  unfold length
  rw [h]
  rfl

/-- A selection inside the mesh has elements of the mesh, none twice. -/
theorem inside_subset (A : Arith F) {mesh : BNode F} {s : Sel} {ids : List Int} (h : Inside A mesh s) (hi : elementIds A s mesh = .ok ids) :
    ∃ t n, selected s mesh = .ok t ∧ length A mesh t.2 = .ok n ∧ ids.Nodup ∧ ∀ e ∈ ids, 0 ≤ e ∧ e < n := by
  obtain ⟨t, ht, h⟩ := h
  split at h
  · rename_i a b e
    obtain ⟨d, hd, h1, h2, h3, h4, h5, h6, h7, h8, h9⟩ := h
    rw [ids_logical A ht hd e] at hi
    cases hi
    have sub := box_sublist h1 h2 h3 h4 h5 h6 h7 h8 h9
    refine ⟨t, _, ht, length_dims A hd, List.Nodup.sublist sub (upTo_nodup _ _), ?_⟩
    intro x hx
    have := upTo_mem.mp (sub.subset hx)
    omega
  · rename_i l e
    obtain ⟨h1, h2, n, hn, h3⟩ := h
    rw [ids_explicit A ht hn e] at hi
    cases hi
    refine ⟨t, n, ht, hn, h2.filter _, ?_⟩
    intro x hx
    exact h3 x (List.mem_filter.mp hx).1
  · rename_i r e
    obtain ⟨p, n, rfl, hn, h1, h2, h3⟩ := h
    rw [ids_ranges A ht hn e] at hi
    cases hi
    have : rangeIds [p] = upTo p.1 p.2 := by simp [rangeIds]
    rw [this]
    refine ⟨t, n, ht, hn, (upTo_nodup _ _).filter _, ?_⟩
    intro x hx
    have := upTo_mem.mp (List.mem_filter.mp hx).1
    omega
  · exact h.elim

theorem full_perm {ids : List Int} {n : Int} (h1 : ids.Nodup) (h2 : ∀ e ∈ ids, 0 ≤ e ∧ e < n) (h3 : (ids.length : Int) = n) :
    (upTo 0 (n - 1)).Perm ids := by
  have sub : ids.Subperm (upTo 0 (n - 1)) := List.Nodup.subperm h1 fun x hx => by
    have := h2 x hx
    exact upTo_mem.mpr ⟨this.1, by omega⟩
  exact (sub.perm_of_length_le (by rw [upTo_length]; omega)).symm

/-- A selection that is found to be the whole has all elements. -/
theorem whole_ids (A : Arith F) {mesh : BNode F} {s : Sel} {ids : List Int} (h : Inside A mesh s) (hi : elementIds A s mesh = .ok ids) :
    ∃ w, isWhole A s mesh = .ok w ∧ ∃ t n, selected s mesh = .ok t ∧ length A mesh t.2 = .ok n ∧ (w = true → (upTo 0 (n - 1)).Perm ids) := by
  obtain ⟨t, n, ht, hn, hnd, hin⟩ := inside_subset A h hi
  obtain ⟨ids', hi', hl, _⟩ := inside_ids A h
  rw [hi] at hi'
  cases hi'
  obtain ⟨t', ht', h⟩ := h
  rw [ht] at ht'
  cases ht'
  split at h
  · rename_i a b e
    refine ⟨decide (n = (ids.length : Int)), ?_, t, n, ht, hn, ?_⟩
    · unfold isWhole
      simp only [e, ht, Res.bind_ok, hn, hl, caught]
    · intro hw
      exact full_perm hnd hin (of_decide_eq_true hw).symm
  · rename_i l e
    obtain ⟨h1, h2, n', hn', h3⟩ := h
    rw [hn] at hn'
    cases hn'
    rw [ids_explicit A ht hn e, List.filter_eq_self.mpr (fun x hx => decide_eq_true (h3 x hx).2)] at hi
    cases hi
    by_cases hc : (ids.length : Int) = n
    · refine ⟨decide (((unique ids).length : Int) = n) && (List.range (ids.length - 1)).all fun m => decide (ids.getD m 0 < ids.getD (m + 1) 0),
        ?_, t, n, ht, hn, fun _ => full_perm hnd hin hc⟩
      unfold isWhole
      simp only [e, ht, Res.bind_ok, hn, caught, if_pos hc]
    · refine ⟨false, ?_, t, n, ht, hn, fun h => by cases h⟩
      unfold isWhole
      simp only [e, ht, Res.bind_ok, hn, caught, if_neg hc]
  · rename_i r e
    obtain ⟨p, n', rfl, hn', h1, h2, h3⟩ := h
    rw [hn] at hn'
    cases hn'
    refine ⟨decide (p.1 = 0) && decide (min p.2 (n - 1) = n - 1), ?_, t, n, ht, hn, ?_⟩
    · unfold isWhole
      simp only [e, ht, Res.bind_ok, hn, caught]
    · intro hw
      rw [Bool.and_eq_true] at hw
      have w1 := of_decide_eq_true hw.1
      have w2 := of_decide_eq_true hw.2
      apply full_perm hnd hin
      rw [ids_ranges A ht hn e, rangeIds_filter (fun q hq => by rw [List.mem_singleton.mp hq]; omega)] at hi
      cases hi
      simp only [rangeIds, List.flatMap_cons, List.flatMap_nil, List.append_nil, upTo_length]
      omega
  · exact h.elim

/-! ### chunks -/

/-- Where a selection is known to be the whole it is, and the topologies of its domain can be counted. -/
def Counted (A : Arith F) (p : Sel × Dom F) : Prop :=
  (p.1.whole = some true → ∃ t n ids, selected p.1 p.2.mesh = .ok t ∧ length A p.2.mesh t.2 = .ok n ∧ elementIds A p.1 p.2.mesh = .ok ids ∧
    (upTo 0 (n - 1)).Perm ids) ∧ ∃ m, allLengths A p.2.mesh = .ok m ∧ 1 ≤ m

theorem counted_part (A : Arith F) (s : Sel) (d : Dom F) (ps : List Sel) (h : Counted A (s, d)) (_ : split A s d.mesh = .ok ps) :
    ∀ p ∈ ps, p.whole = some false → Inside A d.mesh p → Counted A (p, d) := by
  intro p _ hw _
  refine ⟨fun h => ?_, h.2⟩
  simp only at h
  rw [hw] at h
  cases h

/-- What a chunk is to a selection. -/
def ChunkFor (A : Arith F) (p : Sel × Dom F) (c : Piece × Int × Int) : Prop :=
  c.1.dom = p.2.idx ∧ c.1.ids ≠ [] ∧ 1 ≤ c.2.1 ∧ c.2.2 = -1 ∧ ∃ ids, elementIds A p.1 p.2.mesh = .ok ids ∧ c.1.ids.Perm ids

theorem inside_rank {A : Arith F} {mesh : BNode F} {s : Sel} (h : Inside A mesh s) : destRank s = .ok (-1) := by
  obtain ⟨t, _, h⟩ := h
  unfold destRank
  split
  · rename_i e
    rw [e] at h
    exact h.elim
  · rfl

theorem perm_ne_nil {α : Type} {a b : List α} (h : a.Perm b) (hb : 1 ≤ b.length) : a ≠ [] := by
  rintro rfl
  have := h.length_eq
  simp at this
  omega

theorem chunk_ok (A : Arith F) {p : Sel × Dom F} (h : Inside A p.2.mesh p.1) (hc : Counted A p) :
    ∃ c, chunkOf A p.1 p.2 = .ok c ∧ ChunkFor A p c := by
  obtain ⟨ids, hi, hl, h1⟩ := inside_ids A h
  obtain ⟨m, hm, hm1⟩ := hc.2
  obtain ⟨w, hw, t, n, ht, hn, hp⟩ := whole_ids A h hi
  have part_case : getWhole A p.1 p.2.mesh = .ok false → ∃ c, chunkOf A p.1 p.2 = .ok c ∧ ChunkFor A p c := by
    intro hg
    refine ⟨(⟨p.2.idx, ids⟩, (ids.length : Int), -1), ?_, rfl, ?_, by simp only; omega, rfl, ids, hi, List.Perm.refl _⟩
    · unfold chunkOf
      simp only [inside_rank h, Res.bind_ok, hg, ht, hi, inside_free h, Bool.false_eq_true, if_false]
    · intro h0
      simp only at h0
      rw [h0] at h1
      simp at h1
  have whole_case : ∀ {q : Prop}, getWhole A p.1 p.2.mesh = .ok true → (upTo 0 (n - 1)).Perm ids → ∃ c, chunkOf A p.1 p.2 = .ok c ∧ ChunkFor A p c := by
    intro _ hg hperm
    refine ⟨(⟨p.2.idx, upTo 0 (n - 1)⟩, m, -1), ?_, rfl, perm_ne_nil hperm h1, hm1, rfl, ids, hi, hperm⟩
    unfold chunkOf
    simp only [inside_rank h, Res.bind_ok, hg, ht, hn, hm, inside_free h, if_true]
  cases hs : p.1.whole with
  | none =>
    have hg : getWhole A p.1 p.2.mesh = .ok w := by
      unfold getWhole
      rw [hs]
      exact hw
    cases w with
    | true => exact whole_case (q := True) hg (hp rfl)
    | false => exact part_case hg
  | some b =>
    have hg : getWhole A p.1 p.2.mesh = .ok b := by
      unfold getWhole
      rw [hs]
    cases b with
    | false => exact part_case hg
    | true =>
      obtain ⟨t', n', ids', ht', hn', hi', hp'⟩ := hc.1 hs
      rw [ht] at ht'
      cases ht'
      rw [hn] at hn'
      cases hn'
      rw [hi] at hi'
      cases hi'
      exact whole_case (q := True) hg hp'

theorem mapM_forall {α β : Type} {f : α → Res β} {P : α → β → Prop} : ∀ {l : List α}, (∀ a ∈ l, ∃ b, f a = .ok b ∧ P a b) →
    ∃ r, l.mapM f = .ok r ∧ List.Forall₂ P l r
  | [], _ => ⟨[], rfl, .nil⟩
  | a :: l, h => by
    obtain ⟨b, hb, pb⟩ := h a (List.mem_cons_self)
    obtain ⟨r, hr, pr⟩ := mapM_forall fun x hx => h x (List.mem_cons_of_mem _ hx)
    refine ⟨b :: r, ?_, .cons pb pr⟩
    rw [List.mapM_cons, hb, hr]
    rfl

theorem chunks_elements (A : Arith F) : ∀ {ss : List (Sel × Dom F)} {cs : List (Piece × Int × Int)}, List.Forall₂ (ChunkFor A) ss cs →
    (piecesElements (cs.map (·.1))).Perm (elementsOfAll A ss)
  | [], _, .nil => by simp [piecesElements, elementsOfAll]
  | p :: ss, c :: cs, .cons h t => by
    have ih := chunks_elements A t
    obtain ⟨h1, _, _, _, ids, hi, hp⟩ := h
    unfold piecesElements elementsOfAll at ih ⊢
    rw [List.map_cons, List.flatMap_cons, List.flatMap_cons, elements_ok A hi, h1]
    exact List.Perm.append (hp.map _) ih

theorem pieces_flatten {α : Type} (l : List (α × List Piece)) : (l.flatMap fun o => piecesElements o.2) = piecesElements (l.flatMap fun o => o.2) := by
  unfold piecesElements
  rw [List.flatMap_assoc]

theorem forall2_mem {α β : Type} {P : α → β → Prop} : ∀ {l : List α} {m : List β}, List.Forall₂ P l m → ∀ b ∈ m, ∃ a ∈ l, P a b
  | _, _, .nil, b, h => by cases h
  | _, _, .cons (a := a) h t, b, hb => by
    rcases List.mem_cons.mp hb with rfl | hb
    · exact ⟨_, List.mem_cons_self, h⟩
    · obtain ⟨x, hx, px⟩ := forall2_mem t b hb
      exact ⟨x, List.mem_cons_of_mem _ hx, px⟩

theorem ascending_unique {a b : Int} {l : List Int} (h : Ascending a b l) : unique l = upTo a b := by
  apply unique_eq
  · unfold upTo
    refine List.Pairwise.map _ ?_ List.pairwise_lt_range
    intro x y h
    omega
  · intro v
    rw [h.2, upTo_mem]

theorem spread_of (A : Arith F) {target : Nat} {ss : List (Sel × Dom F)} {cs : List (Piece × Int × Int)} {dests : List Int}
    (hf : List.Forall₂ (ChunkFor A) ss cs) (hdl : dests.length = cs.length) (hu : unique dests = upTo 0 ((target : Int) - 1)) :
    Spread target (elementsOfAll A ss) (assemble dests (cs.map (·.1))) := by
  refine ⟨?_, ?_, ?_⟩
  · unfold assemble
    rw [List.map_map, hu, upTo_zero, Int.toNat_natCast]
    simp [Function.comp_def]
  · intro o ho
    have hne := assemble_nonempty (dests := dests) (chunks := cs.map (·.1)) (by rw [List.length_map]; exact hdl) o ho
    have hp := assemble_perm (dests := dests) (chunks := cs.map (·.1)) (by rw [List.length_map]; exact hdl)
    obtain ⟨x, hx⟩ := List.exists_mem_of_ne_nil _ hne
    have hm : x ∈ cs.map (·.1) := hp.mem_iff.mp (List.mem_flatMap.mpr ⟨o, ho, hx⟩)
    obtain ⟨c, hc, rfl⟩ := List.mem_map.mp hm
    obtain ⟨p, _, pc⟩ := forall2_mem hf c hc
    obtain ⟨e, he⟩ := List.exists_mem_of_ne_nil _ pc.2.1
    intro h0
    have : (c.1.dom, e) ∈ piecesElements o.2 := List.mem_flatMap.mpr ⟨c.1, hx, List.mem_map.mpr ⟨e, he, rfl⟩⟩
    rw [h0] at this
    cases this
  · rw [pieces_flatten]
    exact ((assemble_perm (by rw [List.length_map]; exact hdl)).flatMap_right _).trans (chunks_elements A hf)

theorem execute_spread (A : Arith F) {target : Nat} {ss : List (Sel × Dom F)} (hin : ∀ p ∈ ss, Inside A p.2.mesh p.1 ∧ Counted A p)
    (h1 : 1 ≤ target) (h2 : target ≤ ss.length) (h3 : target < 4294967296) :
    ∃ out, execute A target ss = .ok out ∧ Spread target (elementsOfAll A ss) out := by
  obtain ⟨cs, hcs, hf⟩ := mapM_forall (f := fun p : Sel × Dom F => chunkOf A p.1 p.2) (P := ChunkFor A) (l := ss)
    fun p hp => chunk_ok A (hin p hp).1 (hin p hp).2
  have hlen := hf.length_eq
  obtain ⟨dests, hd, hdl, hda⟩ := mapChunks_free (target := target) (chunks := cs.map fun c => c.2) (by
    intro c hc
    obtain ⟨x, hx, rfl⟩ := List.mem_map.mp hc
    obtain ⟨p, _, hp⟩ := forall2_mem hf x hx
    exact ⟨hp.2.2.2.1, hp.2.2.1⟩) h1 (by rw [List.length_map]; omega) h3
  rw [List.length_map] at hdl
  exact ⟨_, by unfold execute; simp only [hcs, Res.bind_ok, hd], spread_of A hf hdl (ascending_unique hda)⟩

/-- Splitting towards the target and executing. -/
theorem spread_all (A : Arith F) {target fuel : Nat} {ss : List (Sel × Dom F)} (hin : ∀ p ∈ ss, Inside A p.2.mesh p.1 ∧ Counted A p)
    (hne : ss ≠ []) (h1 : 1 ≤ target) (h2 : target ≤ (elementsOfAll A ss).length) (h3 : target < 4294967296) (hf : target ≤ fuel) :
    ∃ ss' out, splitAll A target fuel ss = .ok (some ss') ∧ execute A target ss' = .ok out ∧ Spread target (elementsOfAll A ss) out := by
  by_cases hc : target ≤ ss.length
  · obtain ⟨out, ho, hs⟩ := execute_spread A hin h1 hc h3
    refine ⟨ss, out, ?_, ho, hs⟩
    obtain ⟨f, rfl⟩ : ∃ f, fuel = f + 1 := ⟨fuel - 1, by omega⟩
    unfold splitAll
    simp only [free_count fun p hp => inside_free (hin p hp).1, if_pos (Or.inr hc)]
  · have hpos : 1 ≤ ss.length := by
      cases ss with
      | nil => exact absurd rfl hne
      | cons _ _ => simp
    obtain ⟨ss', hs, hl, hin', hp⟩ := splitAll_reaches A (Counted A) (counted_part A) target (target - ss.length) (fuel := fuel) (ss := ss)
      (by omega) (by omega) hne hin h2
    obtain ⟨out, ho, hsp⟩ := execute_spread A hin' h1 (by omega) h3
    exact ⟨ss', out, hs, ho, hsp.1, hsp.2.1, hsp.2.2.trans hp⟩

end Conduit.Part
