import Verif.Lemmas.O2M
/-
Helper lemmas for o2mrelation compact_to and generate_offsets.
-/
namespace Conduit.O2M
variable {α : Type}

/-- number of entries in the groups before `i` -/
def pfx (r : Rel α) (i : Nat) : Nat := (before r i 0).length

theorem pfx_zero (r : Rel α) : pfx r 0 = 0 := rfl

theorem before_len (r : Rel α) (i j : Nat) : (before r i j).length = pfx r i + j := by
  unfold pfx before; simp

theorem pfx_succ (r : Rel α) (i : Nat) : pfx r (i + 1) = pfx r i + size r i := by
  rw [← before_len, ← before_over]; rfl

theorem pfx_mono (r : Rel α) {i j : Nat} (h : i ≤ j) : pfx r i ≤ pfx r j := by
  induction j with
  | zero => rw [show i = 0 by omega]; exact Nat.le_refl _
  | succ j ih =>
    by_cases e : i = j + 1
    · subst e; exact Nat.le_refl _
    · have := ih (by omega); have := pfx_succ r j; omega

theorem pfx_sum (r : Rel α) (s : List Int) (hs : r.sizes = some s) (hv : Valid r) :
    ∀ i, i ≤ s.length → (pfx r i : Int) = (s.take i).sum := by
  intro i
  induction i with
  | zero => intro _; rfl
  | succ i ih =>
    intro h
    have hi : i < s.length := by omega
    rw [pfx_succ, List.take_succ_eq_append_getElem hi]
    have h0 := hv.sizes_nonneg s hs _ (List.getElem_mem hi)
    have : size r i = (s[i]).toNat := by simp [size, hs, List.getD, hi]
    rw [this]
    have := ih (by omega)
    simp only [List.sum_append, List.sum_singleton]
    omega

theorem offsetsLoop_some (ss : List Int) : ∀ (o p : Int), offsetsLoop (some (o, p)) ss =
    (List.range ss.length).map fun i => o + p + (ss.take i).sum := by
  induction ss with
  | nil => intro o p; rfl
  | cons s ss ih =>
    intro o p
    simp only [offsetsLoop, ih, List.length_cons, List.range_succ_eq_map, List.map_cons, List.map_map]
    congr 1
    · simp
    · apply List.map_congr_left
      intro i _; simp [Int.add_assoc]

theorem offsetsLoop_none (ss : List Int) : offsetsLoop none ss = (List.range ss.length).map fun i => (ss.take i).sum := by
  cases ss with
  | nil => rfl
  | cons s ss =>
    simp only [offsetsLoop, offsetsLoop_some, List.length_cons, List.range_succ_eq_map, List.map_cons, List.map_map]
    congr 1
    apply List.map_congr_left
    intro i _; simp

theorem wr_front {β : Type} (pre : List β) (k : Nat) (z x : β) (hk : 0 < k) :
    wr (pre ++ List.replicate k z) (pre.length : Int) x = .ok ((pre ++ [x]) ++ List.replicate (k - 1) z) := by
  obtain ⟨m, rfl⟩ : ∃ m, k = m + 1 := ⟨k - 1, by omega⟩
  unfold wr
  rw [if_neg (by simp; omega)]
  congr 1
  simp [List.replicate_succ]

/-- The data element of an entry. -/
def val (r : Rel α) (d : List α) (z : α) (p : Nat × Nat) : α := d.getD (target r p.1 p.2).toNat z

/-- Every entry names an element of the data array. -/
def InData (r : Rel α) (d : List α) : Prop :=
  ∀ i < ones r, ∀ j < size r i, 0 ≤ target r i j ∧ target r i j < d.length

theorem val_rd (r : Rel α) (d : List α) (z : α) (h : InData r d) (i j : Nat) (hi : i < ones r) (hj : j < size r i) :
    rd d (target r i j) = .ok (val r d z (i, j)) := by
  obtain ⟨h1, h2⟩ := h i hi j hj
  obtain ⟨k, hk⟩ : ∃ k : Nat, target r i j = k := ⟨(target r i j).toNat, by omega⟩
  unfold val
  simp only [hk]
  rw [hk] at h2
  rw [rd_getD d k z (by omega)]; rfl

theorem compactMany_spec (r : Rel α) (d : List α) (z : α) (hd : r.datas = [d]) (hv : Valid r) (hc : Consecutive r)
    (hin : InData r d) (i : Nat) (hi : i < ones r) (co : Int) (offs : List Int) : ∀ (m j fuel k : Nat),
    j + m = size r i → m < fuel → m ≤ k →
    compactMany r fuel ⟨⟨i, j⟩, (pfx r i + j : Nat), co, offs, [(before r i j).map (val r d z) ++ List.replicate k z]⟩ =
      some (.ok ⟨⟨i, size r i⟩, (pfx r (i + 1) : Nat), co, offs,
        [(before r (i + 1) 0).map (val r d z) ++ List.replicate (k - m) z]⟩) := by
  intro m
  induction m with
  | zero =>
    intro j fuel k hm hf hk
    have : j = size r i := by omega
    subst this
    obtain ⟨f, rfl⟩ : ∃ f, fuel = f + 1 := ⟨fuel - 1, by omega⟩
    have hn : hasNext r ⟨i, size r i⟩ .many = .ok false := by
      simp only [hasNext, elementsMany_eq r hv i hi, Res.bind_ok]; simp
    simp only [compactMany, hn, Nat.sub_zero]
    rw [before_over, pfx_succ]
  | succ m ih =>
    intro j fuel k hm hf hk
    obtain ⟨f, rfl⟩ : ∃ f, fuel = f + 1 := ⟨fuel - 1, by omega⟩
    have hj : j < size r i := by omega
    have hn : hasNext r ⟨i, j⟩ .many = .ok true := by
      simp only [hasNext, elementsMany_eq r hv i hi, Res.bind_ok]; simp [hj]
    have hw := wr_front ((before r i j).map (val r d z)) k z (val r d z (i, j)) (by omega)
    rw [List.length_map, before_len] at hw
    have hcopy : copyElems (target r i j) r.datas [(before r i j).map (val r d z) ++ List.replicate k z]
        ((pfx r i + j : Nat) : Int) = .ok (((pfx r i + (j + 1) : Nat) : Int),
          [(before r i (j + 1)).map (val r d z) ++ List.replicate (k - 1) z]) := by
      rw [hd]
      simp only [copyElems, val_rd r d z hin i j hi hj, Res.bind_ok, hw]
      rw [before_in]; simp; omega
    have h1 := ih (j + 1) f (k - 1) (by omega) (by omega) (by omega)
    rw [show ((j + 1 : Nat) : Int) = (j : Int) + 1 by omega] at h1
    simp only [compactMany, hn, next, Res.bind_ok, index_eq r hv i j hi hj, ← hc i hi j hj, hcopy]
    rw [h1, show k - 1 - m = k - (m + 1) by omega]

/-- The loop state after group `i`. -/
def after (r : Rel α) (d : List α) (z : α) (i : Nat) : Compact α :=
  ⟨⟨i, size r i⟩, (pfx r (i + 1) : Nat), (pfx r (i + 1) : Nat),
    ((List.range (i + 1)).map fun k => ((pfx r k : Nat) : Int)) ++ List.replicate (ones r - (i + 1)) 0,
    [(before r (i + 1) 0).map (val r d z) ++ List.replicate (pfx r (ones r) - pfx r (i + 1)) z]⟩

theorem group_spec (r : Rel α) (d : List α) (z : α) (hd : r.datas = [d]) (hv : Valid r) (hc : Consecutive r)
    (hin : InData r d) (i : Nat) (hi : i < ones r) (fuel : Nat) (hf : size r i < fuel) (co : Int) (offs : List Int) :
    compactMany r fuel ⟨⟨i, 0⟩, (pfx r i : Nat), co, offs,
      [(before r i 0).map (val r d z) ++ List.replicate (pfx r (ones r) - pfx r i) z]⟩ =
    some (.ok ⟨⟨i, size r i⟩, (pfx r (i + 1) : Nat), co, offs,
      [(before r (i + 1) 0).map (val r d z) ++ List.replicate (pfx r (ones r) - pfx r (i + 1)) z]⟩) := by
  have hle : pfx r (i + 1) ≤ pfx r (ones r) := pfx_mono r hi
  have := pfx_succ r i
  have h := compactMany_spec r d z hd hv hc hin i hi co offs (size r i) 0 fuel (pfx r (ones r) - pfx r i) (by omega) hf (by omega)
  rw [show pfx r (ones r) - pfx r i - size r i = pfx r (ones r) - pfx r (i + 1) by omega] at h
  exact h

theorem size_le_total (r : Rel α) (i : Nat) (hi : i < ones r) : size r i ≤ pfx r (ones r) := by
  have h1 := pfx_mono r (show i + 1 ≤ ones r from hi)
  have := pfx_succ r i; omega

theorem compactOne_spec (r : Rel α) (d : List α) (z : α) (hd : r.datas = [d]) (hv : Valid r) (hc : Consecutive r)
    (hin : InData r d) (hpos : ∀ i < ones r, 0 < size r i) : ∀ (m i fuel : Nat), i + m + 1 = ones r →
    m + pfx r (ones r) < fuel → compactOne r fuel (after r d z i) = some (.ok (after r d z (ones r - 1))) := by
  intro m
  induction m with
  | zero =>
    intro i fuel hm hf
    obtain ⟨f, rfl⟩ : ∃ f, fuel = f + 1 := ⟨fuel - 1, by omega⟩
    have hn : hasNext r ⟨i, size r i⟩ .one = .ok false := by
      simp only [hasNext, elementsOne_eq]; congr 1; simp; omega
    rw [show ones r - 1 = i by omega]
    simp only [after, compactOne, hn]
  | succ m ih =>
    intro i fuel hm hf
    obtain ⟨f, rfl⟩ : ∃ f, fuel = f + 1 := ⟨fuel - 1, by omega⟩
    have hi : i + 1 < ones r := by omega
    have hn : hasNext r ⟨i, size r i⟩ .one = .ok true := by
      simp only [hasNext, elementsOne_eq]; congr 1; simp; omega
    have hp := hpos i (by omega)
    have hx : next r ⟨i, size r i⟩ .one = .ok (⟨(i : Int) + 1, size r i⟩, (i : Int) + 1) := by
      simp only [next]; rw [if_neg (by omega)]
    have hw := wr_front ((List.range (i + 1)).map fun k => ((pfx r k : Nat) : Int)) (ones r - (i + 1)) 0 ((pfx r (i + 1) : Nat) : Int) (by omega)
    rw [List.length_map, List.length_range] at hw
    have hg := group_spec r d z hd hv hc hin (i + 1) hi f (by have := size_le_total r (i + 1) hi; omega) ((pfx r (i + 1) : Nat) : Int)
      ((((List.range (i + 1)).map fun k => ((pfx r k : Nat) : Int)) ++ [((pfx r (i + 1) : Nat) : Int)]) ++ List.replicate (ones r - (i + 1) - 1) 0)
    have hcast : ((i + 1 : Nat) : Int) = (i : Int) + 1 := by omega
    rw [hcast] at hw hg
    have hm' := elementsMany_eq r hv (i + 1) hi
    rw [hcast] at hm'
    rw [← ih (i + 1) f (by omega) (by omega)]
    simp only [after, compactOne, hn, hx, hw, toFront, hg, hm']
    congr 1
    simp only [hcast]
    congr 1
    · rw [pfx_succ r (i + 1)]; omega
    · rw [List.range_succ (n := i + 1)]; simp; omega

theorem compactOne_start (r : Rel α) (d : List α) (z : α) (hd : r.datas = [d]) (hv : Valid r) (hc : Consecutive r)
    (hin : InData r d) (h2 : 2 ≤ ones r) (hpos : ∀ i < ones r, 0 < size r i) (fuel : Nat)
    (hf : ones r + pfx r (ones r) < fuel) :
    compactOne r fuel ⟨⟨0, 0⟩, 0, 0, List.replicate (ones r) 0, [List.replicate (pfx r (ones r)) z]⟩ =
      some (.ok (after r d z (ones r - 1))) := by
  obtain ⟨f, rfl⟩ : ∃ f, fuel = f + 1 := ⟨fuel - 1, by omega⟩
  have hn : hasNext r ⟨0, 0⟩ .one = .ok true := by
    simp only [hasNext, elementsOne_eq]; congr 1; simp; omega
  have hx : next r ⟨0, 0⟩ .one = .ok (⟨0, 1⟩, 0) := by simp [next]
  have hw := wr_front ([] : List Int) (ones r) 0 0 (by omega)
  rw [List.nil_append] at hw
  have hw' : wr (List.replicate (ones r) 0) (0 : Int) (0 : Int) = .ok ([0] ++ List.replicate (ones r - 1) 0) := hw
  have hg := group_spec r d z hd hv hc hin 0 (by omega) f (by have := size_le_total r 0 (by omega); omega) 0
    ([0] ++ List.replicate (ones r - 1) 0)
  have hm' := elementsMany_eq r hv 0 (by omega)
  have hg' : compactMany r f ⟨⟨0, 0⟩, 0, 0, [0] ++ List.replicate (ones r - 1) 0, [List.replicate (pfx r (ones r)) z]⟩ =
      some (.ok ⟨⟨0, size r 0⟩, (pfx r 1 : Nat), 0, [0] ++ List.replicate (ones r - 1) 0,
        [(before r 1 0).map (val r d z) ++ List.replicate (pfx r (ones r) - pfx r 1) z]⟩) := hg
  have hm'' : elementsMany r 0 = .ok (size r 0 : Int) := hm'
  simp only [compactOne, hn, hx, hw', toFront, hg', hm'']
  have := compactOne_spec r d z hd hv hc hin hpos (ones r - 1) 0 f (by omega) (by omega)
  rw [← this]
  congr 1
  simp only [after]
  congr 1
  rw [pfx_succ r 0, pfx_zero]; omega

end Conduit.O2M
