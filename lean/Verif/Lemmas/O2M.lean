import Verif.Spec.O2M
/-
Helper lemmas for one-to-many relations.
-/
namespace Conduit.O2M
variable {α : Type}

theorem elementsOne_eq (r : Rel α) : elementsOne r = (ones r : Int) := by
  unfold elementsOne ones
  cases r.sizes <;> cases r.indices <;> cases r.datas <;> simp

theorem rd_nat {β : Type} (l : List β) (i : Nat) (x : β) (h : l[i]? = some x) : rd l (i : Int) = .ok x := by
  unfold rd Res.ofIdx; simp [h]

theorem rd_getD {β : Type} (l : List β) (i : Nat) (d : β) (h : i < l.length) : rd l (i : Int) = .ok (l.getD i d) := by
  apply rd_nat; simp [List.getD, h]

theorem elementsMany_eq (r : Rel α) (hv : Valid r) (i : Nat) (h : i < ones r) : elementsMany r i = .ok (size r i : Int) := by
  unfold elementsMany
  rw [elementsOne_eq, if_pos (by omega)]
  unfold size
  cases hs : r.sizes with
  | none => simp
  | some s =>
    have hl : i < s.length := by simpa [ones, hs] using h
    simp only []
    rw [rd_getD s i 0 hl]
    have : 0 ≤ s.getD i 0 := by
      rw [List.getD, List.getElem?_eq_getElem hl]
      exact hv.sizes_nonneg s hs _ (List.getElem_mem hl)
    congr 1; omega

theorem elementsMany_past (r : Rel α) (i : Nat) (h : ones r ≤ i) : elementsMany r i = .ok 0 := by
  unfold elementsMany
  rw [elementsOne_eq, if_neg (by omega)]

theorem offset_eq (r : Rel α) (hv : Valid r) (i : Nat) (h : i < ones r) :
    groupOffset r i = .ok (off r i) := by
  unfold off groupOffset
  cases ho : r.offsets with
  | none => rfl
  | some o => exact rd_getD o i 0 (Nat.lt_of_lt_of_le h (hv.offsets_len o ho))

theorem indexOffset_eq (r : Rel α) (hv : Valid r) (i : Nat) (h : i < ones r) : indexOffset r i = .ok (off r i) := by
  have := offset_eq r hv i h
  unfold groupOffset at this
  unfold indexOffset acc
  cases ho : r.offsets with
  | none => simp [ho, off]
  | some o =>
    have hl := hv.offsets_len o ho
    simp only [Option.getD_some]
    rw [if_pos (by omega)]; simpa [ho] using this

theorem indexIndex_eq (r : Rel α) (hv : Valid r) (i j : Nat) (h : i < ones r) (hj : j < size r i) :
    indexIndex r i j = .ok (target r i j) := by
  unfold indexIndex
  rw [indexOffset_eq r hv i h, Res.bind_ok]
  unfold target acc
  cases hx : r.indices with
  | none => simp
  | some ix =>
    obtain ⟨h1, h2⟩ := hv.indices_in ix hx i h j hj
    simp only [Option.getD_some]
    rw [if_pos (by omega)]
    obtain ⟨k, hk⟩ : ∃ k : Nat, off r i + j = k := ⟨(off r i + j).toNat, by omega⟩
    rw [hk] at h2 ⊢
    rw [rd_getD ix k 0 (by omega)]; rfl

theorem index_eq (r : Rel α) (hv : Valid r) (i j : Nat) (h : i < ones r) (hj : j < size r i) :
    index r i ((j : Int) + 1) .data = .ok (target r i 0 + j) := by
  simp only [index]
  rw [offset_eq r hv i h, Res.bind_ok]
  unfold target groupStart
  cases hx : r.indices with
  | none =>
    simp only [Res.bind_ok]; congr 1; omega
  | some ix =>
    obtain ⟨h1, h2⟩ := hv.indices_in ix hx i h 0 (by omega)
    simp only []
    obtain ⟨k, hk⟩ : ∃ k : Nat, off r i = k := ⟨(off r i).toNat, by omega⟩
    rw [hk] at h2 ⊢
    rw [rd_getD ix k 0 (by omega), Res.bind_ok]; congr 1
    rw [show ((k : Int) + ((0 : Nat) : Int)).toNat = k by omega]; omega

theorem next_in (r : Rel α) (hv : Valid r) (hc : Consecutive r) (i j : Nat) (h : i < ones r) (hj : j < size r i) :
    next r ⟨i, j⟩ .data = .ok (⟨i, (j : Int) + 1⟩, target r i j) := by
  simp only [next]
  rw [elementsMany_eq r hv i h, Res.bind_ok, if_pos (by omega)]
  simp only []
  rw [index_eq r hv i j h hj, Res.bind_ok, hc i h j hj]

theorem next_over (r : Rel α) (hv : Valid r) (i : Nat) (h : i + 1 < ones r) (hs : 0 < size r (i + 1)) :
    next r ⟨i, size r i⟩ .data = .ok (⟨((i + 1 : Nat) : Int), 1⟩, target r (i + 1) 0) := by
  have := index_eq r hv (i + 1) 0 h hs
  simp only [next]
  rw [elementsMany_eq r hv i (by omega), Res.bind_ok, if_neg (by omega)]
  simp only []
  rw [show (i : Int) + 1 = ((i + 1 : Nat) : Int) by omega]
  rw [show ((0 : Nat) : Int) + 1 = 1 by omega] at this
  rw [this, Res.bind_ok]; simp

/-- entries of one group from member `j` on -/
def groupFrom (r : Rel α) (i j : Nat) : List (Nat × Nat) := (List.range' j (size r i - j)).map fun k => (i, k)

/-- entries from member `j` of group `i` on -/
def rest (r : Rel α) (i j : Nat) : List (Nat × Nat) :=
  groupFrom r i j ++ (List.range' (i + 1) (ones r - (i + 1))).flatMap fun k => groupFrom r k 0

theorem rest_in (r : Rel α) (i j : Nat) (h : j < size r i) : rest r i j = (i, j) :: rest r i (j + 1) := by
  unfold rest groupFrom
  rw [show size r i - j = (size r i - (j + 1)) + 1 by omega, List.range'_succ]; rfl

theorem rest_over (r : Rel α) (i : Nat) (h : i + 1 < ones r) : rest r i (size r i) = rest r (i + 1) 0 := by
  unfold rest
  rw [show ones r - (i + 1) = (ones r - (i + 1 + 1)) + 1 by omega, List.range'_succ]
  simp [groupFrom]

theorem rest_end (r : Rel α) (i : Nat) (h : i + 1 = ones r) : rest r i (size r i) = [] := by
  unfold rest groupFrom; simp [← h]

theorem entries_eq_rest (r : Rel α) (h : 0 < ones r) : entries r = rest r 0 0 := by
  unfold entries rest groupFrom
  obtain ⟨n, hn⟩ : ∃ n, ones r = n + 1 := ⟨ones r - 1, by omega⟩
  rw [hn, List.range_eq_range', List.range'_succ]
  simp [List.range_eq_range', List.flatMap_cons]

/-- what a visit of member `j` of group `i` reports -/
def visit (r : Rel α) (p : Nat × Nat) : Visit := ⟨p.1, p.2, target r p.1 p.2⟩

theorem dataLoop_rest (r : Rel α) (hv : Valid r) (hc : Consecutive r)
    (hpos : ∀ i, 0 < i → i < ones r → 0 < size r i) :
    ∀ (fuel i j : Nat), i < ones r → j ≤ size r i → (rest r i j).length ≤ fuel →
      dataLoop r fuel ⟨i, j⟩ = some (.ok ((rest r i j).map (visit r))) := by
  intro fuel
  induction fuel with
  | zero =>
    intro i j h hj hl
    have hnil : rest r i j = [] := by simpa using hl
    have hj' : j = size r i := by
      refine Nat.le_antisymm hj (Nat.le_of_not_lt fun hlt => ?_)
      rw [rest_in r i j hlt] at hnil; simp at hnil
    subst hj'
    have hi : i + 1 = ones r := by
      refine Nat.le_antisymm h (Nat.le_of_not_lt fun hlt => ?_)
      rw [rest_over r i hlt, rest_in r _ 0 (hpos _ (by omega) hlt)] at hnil; simp at hnil
    have hn : hasNext r ⟨i, size r i⟩ .data = .ok false := by
      simp only [hasNext]
      rw [elementsOne_eq, if_neg (by omega), elementsMany_eq r hv i h, Res.bind_ok]
      congr 1; simp
    simp only [dataLoop, hn, hnil]; rfl
  | succ fuel ih =>
    intro i j h hj hl
    by_cases hlt : j < size r i
    · have hn : hasNext r ⟨i, j⟩ .data = .ok true := by
        simp only [hasNext]
        rw [elementsOne_eq, elementsMany_eq r hv i h, Res.bind_ok]
        split
        · rfl
        · congr 1; simp; omega
      have hr := rest_in r i j hlt
      rw [hr] at hl ⊢
      have hi := ih i (j + 1) h hlt (by simpa using hl)
      rw [show ((j + 1 : Nat) : Int) = (j : Int) + 1 by omega] at hi
      simp only [dataLoop, hn, next_in r hv hc i j h hlt, hi, Option.map_some, Res.map'_ok, List.map_cons]
      congr 3
      simp [visit]
    · have hj' : j = size r i := by omega
      subst hj'
      by_cases hi : i + 1 < ones r
      · have hn : hasNext r ⟨i, size r i⟩ .data = .ok true := by
          simp only [hasNext]
          rw [elementsOne_eq, if_pos (by omega)]
        have hs := hpos (i + 1) (by omega) hi
        rw [rest_over r i hi, rest_in r _ 0 hs] at hl ⊢
        have hi' := ih (i + 1) 1 hi hs (by simpa using hl)
        rw [show ((1 : Nat) : Int) = 1 by rfl] at hi'
        simp only [dataLoop, hn, next_over r hv i hi hs, hi', Option.map_some, Res.map'_ok, List.map_cons]
        congr 3
      · have hi : i + 1 = ones r := by omega
        have hn : hasNext r ⟨i, size r i⟩ .data = .ok false := by
          simp only [hasNext]
          rw [elementsOne_eq, if_neg (by omega), elementsMany_eq r hv i h, Res.bind_ok]
          congr 1; simp
        simp only [dataLoop, hn, rest_end r i hi]; rfl

/-- entries before member `j` of group `i` -/
def before (r : Rel α) (i j : Nat) : List (Nat × Nat) :=
  (List.range i).flatMap (fun k => (List.range (size r k)).map fun m => (k, m)) ++ (List.range j).map fun m => (i, m)

theorem before_in (r : Rel α) (i j : Nat) : before r i (j + 1) = before r i j ++ [(i, j)] := by
  unfold before; rw [List.range_succ]; simp

theorem before_over (r : Rel α) (i : Nat) : before r (i + 1) 0 = before r i (size r i) := by
  unfold before; rw [List.range_succ]; simp

theorem entries_eq_before (r : Rel α) : entries r = before r (ones r) 0 := by
  unfold entries before; simp

theorem dataLoopBack_before (r : Rel α) (hv : Valid r) (hc : Consecutive r)
    (hpos : ∀ i, i < ones r → 0 < size r i) :
    ∀ (fuel i j : Nat), i ≤ ones r → (i < ones r → j < size r i) → (i = ones r → j = 0) → (before r i j).length ≤ fuel →
      dataLoopBack r fuel ⟨i, (j : Int) + 1⟩ = some (.ok ((before r i j).reverse.map (visit r))) := by
  intro fuel
  induction fuel with
  | zero =>
    intro i j h h1 h2 hl
    have hnil : before r i j = [] := by simpa using hl
    have hj : j = 0 := by
      cases j with
      | zero => rfl
      | succ j => rw [before_in] at hnil; simp at hnil
    subst hj
    have hi : i = 0 := by
      cases i with
      | zero => rfl
      | succ i =>
        have hp := hpos i (by omega)
        rw [before_over, show size r i = size r i - 1 + 1 by omega, before_in] at hnil; simp at hnil
    subst hi
    simp [dataLoopBack, hasPrevious, hnil]
  | succ fuel ih =>
    intro i j h h1 h2 hl
    cases j with
    | succ j =>
      have hi : i < ones r := by
        refine Nat.lt_of_le_of_ne h fun e => ?_
        have := h2 e; omega
      have hj := h1 hi
      have hp : hasPrevious ⟨i, ((j + 1 : Nat) : Int) + 1⟩ .data = true := by simp [hasPrevious]; omega
      have hx : previous r ⟨i, ((j + 1 : Nat) : Int) + 1⟩ .data = .ok (⟨i, (j : Int) + 1⟩, target r i j) := by
        simp only [previous]
        rw [if_pos (by omega), show ((j + 1 : Nat) : Int) + 1 - 1 = (j : Int) + 1 by omega,
          index_eq r hv i j hi (by omega), Res.bind_ok, hc i hi j (by omega)]
      rw [before_in] at hl ⊢
      have := ih i j h (fun _ => by omega) (fun e => by omega) (by simp at hl; omega)
      simp only [dataLoopBack, hp, if_true, hx, this, Option.map_some, Res.map'_ok]
      simp [visit]
    | zero =>
      cases i with
      | zero => simp [dataLoopBack, hasPrevious, before]
      | succ i =>
        have hi : i < ones r := by omega
        have hs := hpos i hi
        have hp : hasPrevious ⟨((i + 1 : Nat) : Int), ((0 : Nat) : Int) + 1⟩ .data = true := by
          simp [hasPrevious]
        have hx : previous r ⟨((i + 1 : Nat) : Int), ((0 : Nat) : Int) + 1⟩ .data =
            .ok (⟨i, ((size r i - 1 : Nat) : Int) + 1⟩, target r i (size r i - 1)) := by
          have e : (size r i : Int) = ((size r i - 1 : Nat) : Int) + 1 := by omega
          simp only [previous]
          rw [if_neg (by omega), show ((i + 1 : Nat) : Int) - 1 = (i : Int) by omega, elementsMany_eq r hv i hi,
            Res.bind_ok, e, index_eq r hv i _ hi (by omega), Res.bind_ok, ← hc i hi _ (by omega)]
        have hb : before r (i + 1) 0 = before r i (size r i - 1) ++ [(i, size r i - 1)] := by
          rw [before_over, ← before_in]; congr 1; omega
        rw [hb] at hl ⊢
        have := ih i (size r i - 1) (by omega) (fun _ => by omega) (fun e => by omega) (by simp at hl; omega)
        simp only [dataLoopBack, hp, if_true, hx, this, Option.map_some, Res.map'_ok]
        simp [visit]

end Conduit.O2M
