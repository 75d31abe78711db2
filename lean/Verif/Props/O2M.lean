import Verif.Lemmas.O2MCompact
/-
Property theorems C48 (index and iterator), C49 (generate_offsets), C50 (compact_to).
-/
namespace Conduit.O2M
variable {α : Type}

/-- A relation used in the examples: two groups, of two and three members, with a gap. -/
def exRel : Rel Nat := ⟨some [2, 3], some [0, 3], none, [[10, 11, 0, 12, 13, 14]]⟩

private theorem exRel_valid : Valid exRel where
  sizes_nonneg := by intro s h; simp [exRel] at h; subst h; decide
  offsets_len := by intro o h; simp [exRel] at h; subst h; decide
  indices_in := by intro ix h; simp [exRel] at h

private theorem exRel_consecutive : Consecutive exRel := by
  intro i hi j hj
  have : target exRel i j = target exRel i 0 + j := by simp [target, exRel]
  exact this

/-- An indexed relation: each group is a run of the data, not starting at its offset. -/
def exIdx : Rel Nat := ⟨some [2, 1], some [0, 2], some [3, 4, 0], [[10, 11, 12, 13, 14]]⟩

private theorem exIdx_valid : Valid exIdx where
  sizes_nonneg := by intro s h; simp [exIdx] at h; subst h; decide
  offsets_len := by intro o h; simp [exIdx] at h; subst h; decide
  indices_in := by intro ix h; simp [exIdx] at h; subst h; decide

private theorem exIdx_consecutive : Consecutive exIdx := by unfold Consecutive; decide

/-! ## C48 -/

/-- C48: `O2MIndex::index(i, j)` is the data element of member `j` of group `i`. -/
theorem C48_index (r : Rel α) (hv : Valid r) (i j : Nat) (hi : i < ones r) (hj : j < size r i) :
    indexIndex r i j = .ok (target r i j) := indexIndex_eq r hv i j hi hj

/-- C48: iterating forward over DATA ends and visits every entry once, group by group, reporting
    the index `O2MIndex` reports (`_partial`: groups after the first are not empty and members of
    a group are consecutive data elements). -/
theorem C48_forward_partial (r : Rel α) (hv : Valid r) (hc : Consecutive r)
    (hpos : ∀ i, 0 < i → i < ones r → 0 < size r i) (it : It) :
    ∃ vs, dataLoop r (entries r).length (toFront it .data) = some (.ok vs) ∧
      vs.map (fun v => (v.one, v.many)) = (entries r).map (fun p => ((p.1 : Int), (p.2 : Int))) ∧
      ∀ v ∈ vs, indexIndex r v.one v.many = .ok v.data := by
  refine ⟨(entries r).map (visit r), ?_, by simp [visit, Function.comp_def], ?_⟩
  · by_cases h0 : ones r = 0
    · have he : entries r = [] := by unfold entries; simp [h0]
      have hn : hasNext r ⟨0, 0⟩ .data = .ok false := by
        simp only [hasNext]
        rw [elementsOne_eq, if_neg (by omega), show (0 : Int) = ((0 : Nat) : Int) by rfl, elementsMany_past r 0 (by omega), Res.bind_ok]
        rfl
      simp only [he, toFront, List.length_nil, List.map_nil, dataLoop, hn]
    · rw [entries_eq_rest r (by omega)]
      exact dataLoop_rest r hv hc hpos _ 0 0 (by omega) (by omega) (Nat.le_refl _)
  · intro v hm
    rw [List.mem_map] at hm
    obtain ⟨⟨i, j⟩, hp, rfl⟩ := hm
    simp only [entries, List.mem_flatMap, List.mem_range, List.mem_map, Prod.mk.injEq] at hp
    obtain ⟨i', hi, j', hj, rfl, rfl⟩ := hp
    exact indexIndex_eq r hv i' j' hi hj

example : Valid exRel ∧ Consecutive exRel ∧ (∀ i, 0 < i → i < ones exRel → 0 < size exRel i) ∧
    (entries exRel).length = 5 := ⟨exRel_valid, exRel_consecutive, fun i _ h => (by decide : ∀ i < ones exRel, 0 < size exRel i) i h, by decide⟩

example : Valid exIdx ∧ Consecutive exIdx ∧ dataLoop exIdx 3 ⟨0, 0⟩ =
    some (.ok [⟨0, 0, 3⟩, ⟨0, 1, 4⟩, ⟨1, 0, 0⟩]) := ⟨exIdx_valid, exIdx_consecutive, by decide⟩

/-- C48: iterating backward over DATA from the back ends and visits every entry once, in reverse
    order (`_partial`: no group is empty and members of a group are consecutive). -/
theorem C48_backward_partial (r : Rel α) (hv : Valid r) (hc : Consecutive r) (hpos : ∀ i, i < ones r → 0 < size r i) (it : It) :
    ∃ back vs, toBack r it .data = .ok back ∧
      dataLoopBack r (entries r).length back = some (.ok vs) ∧
      vs.map (fun v => (v.one, v.many)) = ((entries r).map (fun p => ((p.1 : Int), (p.2 : Int)))).reverse ∧
      ∀ v ∈ vs, indexIndex r v.one v.many = .ok v.data := by
  refine ⟨⟨elementsOne r, 1⟩, (entries r).reverse.map (visit r), rfl, ?_, by simp [visit, Function.comp_def], ?_⟩
  · rw [elementsOne_eq, entries_eq_before]
    exact dataLoopBack_before r hv hc hpos _ (ones r) 0 (Nat.le_refl _) (fun h => absurd h (Nat.lt_irrefl _)) (fun _ => rfl) (Nat.le_refl _)
  · intro v hm
    rw [List.mem_map] at hm
    obtain ⟨⟨i, j⟩, hp, rfl⟩ := hm
    rw [List.mem_reverse] at hp
    simp only [entries, List.mem_flatMap, List.mem_range, List.mem_map, Prod.mk.injEq] at hp
    obtain ⟨i', hi, j', hj, rfl, rfl⟩ := hp
    exact indexIndex_eq r hv i' j' hi hj

/-- C48: `peek_next` returns what `next` returns, for every kind and position. -/
theorem C48_peek_next (r : Rel α) (it it' : It) (d : Int) (k : Kind) (h : next r it k = .ok (it', d)) :
    peekNext r it k = .ok d := by
  cases k with
  | data =>
    simp only [next, Res.bind_eq_ok] at h
    obtain ⟨m, hm, d', h1, h2⟩ := h
    injection h2 with h2; injection h2 with h2 h3; subst h3
    simp only [peekNext, hm, Res.bind_ok]
    split at h1 <;> rename_i hlt
    · rw [if_pos hlt]; exact h1
    · rw [if_neg hlt]; exact h1
  | one =>
    simp only [next] at h
    simp only [peekNext]
    split at h <;> rename_i hlt <;> · injection h with h; injection h with h1 h2; subst h2; simp [hlt]
  | many =>
    simp only [next] at h
    injection h with h; injection h with h1 h2; subst h2; rfl

example : next exRel ⟨0, 2⟩ .data = .ok (⟨1, 1⟩, 3) := by decide

/-- C48 is not met when a group after the first is empty: the iterator visits a member the
    group does not have. -/
theorem C48_empty_group_false : ∃ r : Rel Nat, Valid r ∧ Consecutive r ∧ entries r = [(0, 0)] ∧
    dataLoop r 2 ⟨0, 0⟩ = some (.ok [⟨0, 0, 0⟩, ⟨1, 0, 1⟩]) := by
  refine ⟨⟨some [1, 0], some [0, 1], none, [[5]]⟩, ?_, ?_, by decide, by decide⟩
  · refine ⟨?_, ?_, ?_⟩
    · intro s h; simp at h; subst h; decide
    · intro o h; simp at h; subst h; decide
    · intro ix h; simp at h
  · unfold Consecutive; decide

/-- C48 is not met when a group's members are not consecutive data elements: the iterator and
    `O2MIndex` report different elements. -/
theorem C48_indices_disagree : ∃ r : Rel Nat, Valid r ∧ (∀ i < ones r, 0 < size r i) ∧
    dataLoop r 2 ⟨0, 0⟩ = some (.ok [⟨0, 0, 0⟩, ⟨0, 1, 1⟩]) ∧ indexIndex r 0 1 = .ok 2 := by
  refine ⟨⟨some [2], some [0], some [0, 2], [[5, 6, 7]]⟩, ?_, by decide, by decide, by decide⟩
  refine ⟨?_, ?_, ?_⟩
  · intro s h; simp at h; subst h; decide
  · intro o h; simp at h; subst h; decide
  · intro ix h; simp at h; subst h; decide

/-- C48: `O2MIndex::size(i)` is the number of members of group `i`. -/
theorem C48_index_size (r : Rel α) (hv : Valid r) (i : Nat) (hi : i < ones r) : indexSize r i = .ok (size r i : Int) := by
  have := elementsMany_eq r hv i hi
  unfold indexSize
  rw [if_neg (by omega)]
  unfold elementsMany at this
  rw [elementsOne_eq, if_pos (by omega)] at this
  unfold acc
  cases hs : r.sizes with
  | none => simp [size, hs]
  | some s =>
    have hl : i < s.length := by simpa [ones, hs] using hi
    simp only [hs] at this
    simp only [Option.getD_some]
    rw [if_pos (by omega)]; exact this

/-- C48: `O2MIndex::size()` and the iterator count the groups of a plain data array differently. -/
theorem C48_group_count_disagree : ∃ r : Rel Nat, Valid r ∧ elementsOne r = 2 ∧ indexSize r (-1) = .ok 0 := by
  refine ⟨⟨none, none, none, [[5, 6]]⟩, ⟨?_, ?_, ?_⟩, by decide, by decide⟩
  · intro s h; simp at h
  · intro o h; simp at h
  · intro ix h; simp at h

/-! ## C49 -/

/-- C49: `generate_offsets` on a relation with sizes leaves the other arrays alone and writes
    offsets that are the sums of the sizes before. -/
theorem C49_prefix_sums (r r' : Rel α) (s : List Int) (hs : r.sizes = some s) (h : generateOffsets r = some r') :
    r'.sizes = r.sizes ∧ r'.indices = r.indices ∧ r'.datas = r.datas ∧
    ∃ o, r'.offsets = some o ∧ o.length = s.length ∧ ∀ i < s.length, o[i]? = some (s.take i).sum := by
  unfold generateOffsets at h
  rw [hs] at h
  injection h with h; subst h
  refine ⟨hs.symm, rfl, rfl, _, rfl, by simp [offsetsLoop_none], ?_⟩
  intro i hi
  simp [offsetsLoop_none, hi]

/-- C49: with the generated offsets the groups, in order, cover entries 0, 1, ... of the data
    exactly once each, up to the sum of the sizes. -/
theorem C49_partition (r r' : Rel α) (s : List Int) (hs : r.sizes = some s) (hn : ∀ x ∈ s, 0 ≤ x)
    (h : generateOffsets r = some r') :
    (entries r').map (fun p => off r' p.1 + p.2) = (List.range s.sum.toNat).map (fun (k : Nat) => (k : Int)) := by
  obtain ⟨h1, -, -, o, ho, hl, hoff⟩ := C49_prefix_sums r r' s hs h
  have hs' : r'.sizes = some s := by rw [h1, hs]
  have hones : ones r' = s.length := by simp [ones, hs']
  have hpfx : ∀ i, i ≤ s.length → (pfx r' i : Int) = (s.take i).sum := by
    intro i
    induction i with
    | zero => intro _; rfl
    | succ i ih =>
      intro hi
      have hi' : i < s.length := by omega
      rw [pfx_succ, List.take_succ_eq_append_getElem hi']
      have h0 := hn _ (List.getElem_mem hi')
      have : size r' i = (s[i]).toNat := by simp [size, hs', List.getD, hi']
      have := ih (by omega)
      simp only [List.sum_append, List.sum_singleton]
      omega
  have hoff' : ∀ i < s.length, off r' i = (pfx r' i : Int) := by
    intro i hi
    rw [hpfx i (by omega)]
    simp [off, ho, List.getD, hoff i hi]
  have key : ∀ i, i ≤ s.length → (before r' i 0).map (fun p => off r' p.1 + p.2) = (List.range (pfx r' i)).map (fun (k : Nat) => (k : Int)) := by
    intro i
    induction i with
    | zero => intro _; rfl
    | succ i ih =>
      intro hi
      have hb : before r' i (size r' i) = before r' i 0 ++ (List.range (size r' i)).map fun m => (i, m) := by
        unfold before; simp
      rw [before_over, hb, List.map_append, ih (by omega), pfx_succ, List.range_add]
      simp only [List.map_append, List.map_map]
      congr 1
      apply List.map_congr_left
      intro m _
      simp only [Function.comp]
      rw [hoff' i (by omega)]; omega
  rw [entries_eq_before, hones, key _ (Nat.le_refl _)]
  have := hpfx s.length (Nat.le_refl _)
  rw [List.take_length] at this
  congr 2; omega

example : generateOffsets { exRel with offsets := none } = some { exRel with offsets := some [0, 2] } ∧
    (∀ x ∈ [(2 : Int), 3], 0 ≤ x) := by decide

/-! ## C50 -/

/-- C50: for a relation with one data array and at least two groups, none empty, `compact_to`
    ends; the result has the same sizes, no indices, offsets that are the sums of the sizes before,
    and as data the members' values group by group (`_partial`: members of a group are consecutive
    data elements). -/
theorem C50_compact_partial (r : Rel α) (zero : α) (s : List Int) (d : List α) (fuel : Nat)
    (hs : r.sizes = some s) (hd : r.datas = [d]) (hv : Valid r) (hc : Consecutive r) (hin : InData r d)
    (h2 : 2 ≤ ones r) (hpos : ∀ i < ones r, 0 < size r i) (hf : ones r + (entries r).length < fuel) :
    ∃ out, compactTo r zero fuel = some (.ok ⟨some s, some ((List.range s.length).map fun i => (s.take i).sum), none, [out]⟩) ∧
      out.map some = (entries r).map (fun p => d[(target r p.1 p.2).toNat]?) := by
  refine ⟨(entries r).map (val r d zero), ?_, ?_⟩
  · have hones : ones r = s.length := by simp [ones, hs]
    have htot : (entries r).length = pfx r (ones r) := by rw [entries_eq_before]; rfl
    have hsum : (elementsData r).toNat = pfx r (ones r) := by
      have := pfx_sum r s hs hv s.length (Nat.le_refl _)
      rw [List.take_length] at this
      simp only [elementsData, hs, hones]; omega
    have := compactOne_start r d zero hd hv hc hin h2 hpos fuel (by omega)
    unfold compactTo
    simp only [hs, hsum, hd, List.map_cons, List.map_nil]
    rw [← hones, this]
    simp only [after]
    rw [show ones r - 1 + 1 = ones r by omega, Nat.sub_self, Nat.sub_self]
    simp only [List.replicate_zero, List.append_nil, ← entries_eq_before]
    congr 4
    apply List.map_congr_left
    intro i hi
    rw [List.mem_range] at hi
    exact pfx_sum r s hs hv i (by omega)
  · rw [List.map_map]
    apply List.map_congr_left
    intro p hp
    obtain ⟨i, j⟩ := p
    simp only [entries, List.mem_flatMap, List.mem_range, List.mem_map, Prod.mk.injEq] at hp
    obtain ⟨i', hi, j', hj, rfl, rfl⟩ := hp
    obtain ⟨h1, h2⟩ := hin i' hi j' hj
    have hlt : (target r i' j').toNat < d.length := by omega
    simp [val, List.getD, hlt]

example : compactTo exRel 0 10 = some (.ok ⟨some [2, 3], some [0, 2], none, [[10, 11, 12, 13, 14]]⟩) := by decide
example : ∃ d, exRel.datas = [d] ∧ InData exRel d ∧ 2 ≤ ones exRel ∧ ∀ i < ones exRel, 0 < size exRel i :=
  ⟨_, rfl, by unfold InData; decide, by decide, by decide⟩

/-- C50: a relation without sizes is already compact and is returned as it is. -/
theorem C50_compact_plain (r : Rel α) (zero : α) (fuel : Nat) (hs : r.sizes = none) : compactTo r zero fuel = some (.ok r) := by
  unfold compactTo; rw [hs]

/-- C50 is not met by a relation with a single group: nothing is copied. -/
theorem C50_single_group_false : ∃ r : Rel Nat, Valid r ∧ Consecutive r ∧ ones r = 1 ∧ 0 < size r 0 ∧
    compactTo r 0 9 = some (.ok ⟨some [2], some [0], none, [[0, 0]]⟩) ∧ r.datas = [[7, 8]] := by
  refine ⟨⟨some [2], some [0], none, [[7, 8]]⟩, ⟨?_, ?_, ?_⟩, ?_, by decide, by decide, by decide, rfl⟩
  · intro s h; simp at h; subst h; decide
  · intro o h; simp at h; subst h; decide
  · intro ix h; simp at h
  · unfold Consecutive; decide

/-- C50 is not met by a relation with two data arrays: `compact_to` writes past the end of the
    result arrays. -/
theorem C50_two_arrays_ub : ∃ r : Rel Nat, Valid r ∧ Consecutive r ∧ (∀ d ∈ r.datas, InData r d) ∧
    (∀ i < ones r, 0 < size r i) ∧ compactTo r 0 20 = some .ub := by
  refine ⟨⟨some [1, 1], some [0, 1], none, [[7, 8], [1, 2]]⟩, ⟨?_, ?_, ?_⟩, ?_, ?_, by decide, by decide⟩
  · intro s h; simp at h; subst h; decide
  · intro o h; simp at h; subst h; decide
  · intro ix h; simp at h
  · unfold Consecutive; decide
  · unfold InData; decide

/-- C50, termination: whenever the first of several groups is empty, `compact_to` never ends. -/
theorem C50_empty_group_diverges (r : Rel α) (zero : α) (s : List Int) (hs : r.sizes = some s) (hv : Valid r)
    (h2 : 2 ≤ ones r) (h0 : size r 0 = 0) (fuel : Nat) : compactTo r zero fuel = none := by
  have hones : ones r = s.length := by simp [ones, hs]
  have hm : elementsMany r 0 = .ok 0 := by
    have := elementsMany_eq r hv 0 (by omega); rw [h0] at this; exact this
  have hn : hasNext r ⟨0, 0⟩ .one = .ok true := by
    simp only [hasNext, elementsOne_eq]; congr 1; simp; omega
  have hx : next r ⟨0, 0⟩ .one = .ok (⟨0, 1⟩, 0) := by simp [next]
  have hnm : hasNext r ⟨0, 0⟩ .many = .ok false := by simp only [hasNext, hm, Res.bind_ok]; rfl
  have key : ∀ (fuel : Nat) (ci co : Int) (offs : List Int) (ds : List (List α)), 0 < offs.length →
      compactOne r fuel ⟨⟨0, 0⟩, ci, co, offs, ds⟩ = none := by
    intro fuel
    induction fuel with
    | zero => intro _ _ _ _ _; rfl
    | succ f ih =>
      intro ci co offs ds hl
      have hw : wr offs 0 co = .ok (offs.set 0 co) := by
        unfold wr; rw [if_neg (by omega)]; rfl
      cases f with
      | zero => simp only [compactOne, hn, hx, hw, compactMany]
      | succ f =>
        simp only [compactOne, hn, hx, hw, toFront, compactMany, hnm, hm]
        have := ih ci (co + 0) (offs.set 0 co) ds (by simpa using hl)
        simpa [compactOne, hn, hx, toFront] using this
  unfold compactTo
  simp only [hs]
  rw [key fuel _ _ _ _ (by simp; omega)]

example : Valid (⟨some [0, 1], some [0, 0], none, [[3]]⟩ : Rel Nat) := by
  refine ⟨?_, ?_, ?_⟩
  · intro s h; simp at h; subst h; decide
  · intro o h; simp at h; subst h; decide
  · intro ix h; simp at h

end Conduit.O2M
