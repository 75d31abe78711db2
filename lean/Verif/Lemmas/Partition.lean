import Verif.Model.Partition
/-
Splitting a selection keeps its elements.
-/
namespace Conduit.Part
open Conduit.Mesh
variable {F : Type}

/-! ### counting -/

theorem upTo_append {a m b : Int} (h1 : a ≤ m) (h2 : m ≤ b + 1) : upTo a (m - 1) ++ upTo m b = upTo a b := by
  unfold upTo
  have e : (b - a + 1).toNat = (m - 1 - a + 1).toNat + (b - m + 1).toNat := by omega
  rw [e, List.range_add, List.map_append, List.map_map]
  congr 1
  apply List.map_congr_left
  intro n _
  simp only [Function.comp]
  omega

theorem upTo_length (a b : Int) : (upTo a b).length = (b - a + 1).toNat := by simp [upTo]

theorem upTo_mem {a b x : Int} : x ∈ upTo a b ↔ a ≤ x ∧ x ≤ b := by
  unfold upTo
  simp only [List.mem_map, List.mem_range]
  constructor
  · rintro ⟨n, h, rfl⟩
    omega
  · intro h
    exact ⟨(x - a).toNat, by omega, by omega⟩

theorem upTo_self (a : Int) : upTo a a = [a] := by
  unfold upTo
  have : (a - a + 1).toNat = 1 := by omega
  rw [this]
  simp [List.range_succ]

theorem flatMap_two {α β : Type} (f g : α → List β) (l : List α) :
    (l.flatMap f ++ l.flatMap g).Perm (l.flatMap fun x => f x ++ g x) := by
  induction l with
  | nil => simp
  | cons a l ih =>
    simp only [List.flatMap_cons]
    have h1 : (f a ++ l.flatMap f ++ (g a ++ l.flatMap g)).Perm (f a ++ (g a ++ (l.flatMap f ++ l.flatMap g))) := by
      rw [List.append_assoc]
      refine List.Perm.append_left _ ?_
      rw [← List.append_assoc, ← List.append_assoc]
      exact List.Perm.append_right _ List.perm_append_comm
    refine h1.trans ?_
    rw [List.append_assoc]
    exact List.Perm.append_left _ (List.Perm.append_left _ ih)

theorem flatMap_perm {α β : Type} {f g : α → List β} (l : List α) (h : ∀ x, (f x).Perm (g x)) :
    (l.flatMap f).Perm (l.flatMap g) := by
  induction l with
  | nil => simp
  | cons a l ih =>
    simp only [List.flatMap_cons]
    exact List.Perm.append (h a) ih

theorem flatMap_length_const {α β : Type} {f : α → List β} {n : Nat} (l : List α) (h : ∀ x, (f x).length = n) :
    (l.flatMap f).length = l.length * n := by
  induction l with
  | nil => simp
  | cons a l ih => simp [List.flatMap_cons, h, ih, Nat.succ_mul, Nat.add_comm]

/-! ### boxes -/

theorem boxIds_length (d a b : I3) :
    (boxIds d a b).length = (cells a.k b.k).toNat * ((cells a.j b.j).toNat * (cells a.i b.i).toNat) := by
  unfold boxIds
  rw [flatMap_length_const (n := (cells a.j b.j).toNat * (cells a.i b.i).toNat), upTo_length]
  · rfl
  · intro k
    rw [flatMap_length_const (n := (cells a.i b.i).toNat), upTo_length]
    · rfl
    · intro j
      rw [List.length_map, upTo_length]
      rfl

theorem box_i (d a b : I3) (h : Int) (h0 : 0 ≤ h) (h1 : h ≤ cells a.i b.i) :
    (boxIds d a ⟨a.i + h - 1, b.j, b.k⟩ ++ boxIds d ⟨a.i + h, a.j, a.k⟩ b).Perm (boxIds d a b) := by
  unfold cells at h1
  unfold boxIds
  refine (flatMap_two _ _ _).trans (flatMap_perm _ fun k => ?_)
  refine (flatMap_two _ _ _).trans (flatMap_perm _ fun j => ?_)
  rw [← List.map_append, upTo_append (by omega) (by omega)]

theorem box_j (d a b : I3) (h : Int) (h0 : 0 ≤ h) (h1 : h ≤ cells a.j b.j) :
    (boxIds d a ⟨b.i, a.j + h - 1, b.k⟩ ++ boxIds d ⟨a.i, a.j + h, a.k⟩ b).Perm (boxIds d a b) := by
  unfold cells at h1
  unfold boxIds
  refine (flatMap_two _ _ _).trans (flatMap_perm _ fun k => ?_)
  rw [← List.flatMap_append, upTo_append (by omega) (by omega)]

theorem box_k (d a b : I3) (h : Int) (h0 : 0 ≤ h) (h1 : h ≤ cells a.k b.k) :
    (boxIds d a ⟨b.i, b.j, a.k + h - 1⟩ ++ boxIds d ⟨a.i, a.j, a.k + h⟩ b).Perm (boxIds d a b) := by
  unfold cells at h1
  unfold boxIds
  rw [← List.flatMap_append, upTo_append (by omega) (by omega)]

theorem half_bounds {n : Int} (h : 0 ≤ n) : 0 ≤ Int.tdiv n 2 ∧ Int.tdiv n 2 ≤ n := by
  rw [Int.tdiv_eq_ediv_of_nonneg h]
  omega

/-- The axis that is cut has cells. -/
theorem longest_pos {a b : I3} (h : cells a.i b.i * cells a.j b.j * cells a.k b.k > 1) :
    (longest a b = 0 ∧ 1 ≤ cells a.i b.i ∧ cells a.j b.j ≤ cells a.i b.i ∧ cells a.k b.k ≤ cells a.i b.i) ∨
    (longest a b = 1 ∧ 1 ≤ cells a.j b.j ∧ cells a.i b.i ≤ cells a.j b.j ∧ cells a.k b.k ≤ cells a.j b.j) ∨
    (longest a b = 2 ∧ 1 ≤ cells a.k b.k ∧ cells a.i b.i ≤ cells a.k b.k ∧ cells a.j b.j ≤ cells a.k b.k) := by
  unfold longest
  have key : ¬ (cells a.i b.i ≤ 0 ∧ cells a.j b.j ≤ 0 ∧ cells a.k b.k ≤ 0) := by
    rintro ⟨h1, h2, h3⟩
    have : 0 ≤ cells a.i b.i * cells a.j b.j := Int.mul_nonneg_of_nonpos_of_nonpos h1 h2
    have := Int.mul_nonpos_of_nonneg_of_nonpos this h3
    omega
  by_cases h1 : cells a.j b.j > cells a.i b.i
  · simp only [if_pos h1]
    by_cases h2 : cells a.k b.k > cells a.j b.j
    · simp [h2]; omega
    · simp [h2]; omega
  · simp only [if_neg h1]
    by_cases h2 : cells a.k b.k > cells a.i b.i
    · simp [h2]; omega
    · simp [h2]; omega

theorem splitLogical_spec {a b : I3} (h : cells a.i b.i * cells a.j b.j * cells a.k b.k > 1) :
    ∃ b0 a1, splitLogical a b = [.logical a b0, .logical a1 b] ∧ ∀ d, (boxIds d a b0 ++ boxIds d a1 b).Perm (boxIds d a b) := by
  unfold splitLogical
  rw [if_pos h]
  rcases longest_pos h with ⟨e, p, _⟩ | ⟨e, p, _⟩ | ⟨e, p, _⟩ <;> rw [e]
  · exact ⟨_, _, rfl, fun d => box_i d a b _ (half_bounds (by omega)).1 (half_bounds (by omega)).2⟩
  · exact ⟨_, _, rfl, fun d => box_j d a b _ (half_bounds (by omega)).1 (half_bounds (by omega)).2⟩
  · exact ⟨_, _, rfl, fun d => box_k d a b _ (half_bounds (by omega)).1 (half_bounds (by omega)).2⟩

/-- A box with a cell along every axis. -/
def Box (a b : I3) : Prop := a.i ≤ b.i ∧ a.j ≤ b.j ∧ a.k ≤ b.k

theorem splitLogical_box {a b : I3} (hb : Box a b) (h : cells a.i b.i * cells a.j b.j * cells a.k b.k > 1) :
    ∃ b0 a1, splitLogical a b = [.logical a b0, .logical a1 b] ∧ Box a b0 ∧ Box a1 b := by
  obtain ⟨hi, hj, hk⟩ := hb
  have two : 2 ≤ cells a.i b.i ∨ 2 ≤ cells a.j b.j ∨ 2 ≤ cells a.k b.k := by
    by_cases h1 : 2 ≤ cells a.i b.i
    · exact .inl h1
    by_cases h2 : 2 ≤ cells a.j b.j
    · exact .inr (.inl h2)
    by_cases h3 : 2 ≤ cells a.k b.k
    · exact .inr (.inr h3)
    have e1 : cells a.i b.i = 1 := by unfold cells at *; omega
    have e2 : cells a.j b.j = 1 := by unfold cells at *; omega
    have e3 : cells a.k b.k = 1 := by unfold cells at *; omega
    rw [e1, e2, e3] at h
    omega
  unfold splitLogical
  rw [if_pos h]
  rcases longest_pos h with ⟨e, p, q, r⟩ | ⟨e, p, q, r⟩ | ⟨e, p, q, r⟩ <;> rw [e] <;>
    refine ⟨_, _, rfl, ?_, ?_⟩ <;> unfold Box <;>
    rw [Int.tdiv_eq_ediv_of_nonneg (by omega)] <;> unfold cells at * <;> simp only <;> omega

/-! ### ranges -/

/-- The elements of the ranges in order. -/
def rangeIds (r : List (Int × Int)) : List Int := r.flatMap fun p => upTo p.1 p.2

theorem rangeIds_append (r q : List (Int × Int)) : rangeIds (r ++ q) = rangeIds r ++ rangeIds q := by
  unfold rangeIds
  rw [List.flatMap_append]

theorem cutRange_spec {p : Int × Int} (h : 1 ≤ p.2 - p.1 + 1) :
    rangeIds (cutRange p).1 ++ rangeIds (cutRange p).2 = upTo p.1 p.2 := by
  unfold cutRange rangeIds
  by_cases h1 : p.2 - p.1 + 1 = 1
  · simp only [if_pos h1]
    have : p.2 = p.1 := by omega
    simp [this, upTo_self]
  · by_cases h2 : p.2 - p.1 + 1 = 2
    · simp only [if_neg h1, if_pos h2]
      have : p.2 = p.1 + 1 := by omega
      simp only [List.flatMap_cons, List.flatMap_nil, List.append_nil, this]
      have := upTo_append (a := p.1) (m := p.1 + 1) (b := p.1 + 1) (by omega) (by omega)
      simpa using this
    · simp only [if_neg h1, if_neg h2, List.flatMap_cons, List.flatMap_nil, List.append_nil]
      rw [Int.tdiv_eq_ediv_of_nonneg (by omega)]
      have := upTo_append (a := p.1) (m := p.1 + (p.2 - p.1 + 1) / 2 + 1) (b := p.2) (by omega) (by omega)
      rw [show p.1 + (p.2 - p.1 + 1) / 2 + 1 - 1 = p.1 + (p.2 - p.1 + 1) / 2 by omega] at this
      exact this

/-- The range to split is there and not empty, if there is more than the half. -/
theorem splitIndex_spec (half : Int) : ∀ (r : List (Int × Int)) (i : Nat) (count : Int), count ≤ half → half < count + rangesLength r →
    ∃ n p, splitIndex half i count r = i + n ∧ r[n]? = some p ∧ 1 ≤ p.2 - p.1 + 1
  | [], i, count, h1, h2 => by
    simp [rangesLength] at h2
    omega
  | p :: rest, i, count, h1, h2 => by
    unfold splitIndex
    by_cases h : count + (p.2 - p.1 + 1) > half
    · simp only [if_pos h]
      exact ⟨0, p, rfl, rfl, by omega⟩
    · simp only [if_neg h]
      obtain ⟨n, q, e1, e2, e3⟩ := splitIndex_spec half rest (i + 1) (count + (p.2 - p.1 + 1)) (by omega)
        (by simp only [rangesLength, List.map_cons, List.sum_cons] at h2 ⊢; omega)
      exact ⟨n + 1, q, by omega, by simpa using e2, e3⟩

theorem take_drop_of {α : Type} {l : List α} {n : Nat} {x : α} (h : l[n]? = some x) : l = l.take n ++ x :: l.drop (n + 1) := by
  obtain ⟨hn, e⟩ := List.getElem?_eq_some_iff.mp h
  rw [← e, List.getElem_cons_drop, List.take_append_drop]

/-- Splitting ranges keeps the elements and their order. -/
theorem splitRanges_spec {r : List (Int × Int)} (h : 0 < rangesLength r) :
    ∃ n p, r[n]? = some p ∧ 1 ≤ p.2 - p.1 + 1 ∧
      splitRanges r = [.ranges (r.take n ++ (cutRange p).1), .ranges ((cutRange p).2 ++ r.drop (n + 1))] ∧
      rangeIds (r.take n ++ (cutRange p).1) ++ rangeIds ((cutRange p).2 ++ r.drop (n + 1)) = rangeIds r := by
  obtain ⟨n, p, e1, e2, e3⟩ := splitIndex_spec (Int.tdiv (rangesLength r) 2) r 0 0
    (by rw [Int.tdiv_eq_ediv_of_nonneg (by omega)]; omega) (by rw [Int.tdiv_eq_ediv_of_nonneg (by omega)]; omega)
  refine ⟨n, p, e2, e3, ?_, ?_⟩
  · unfold splitRanges
    simp only [e1, Nat.zero_add, e2]
  · rw [rangeIds_append, rangeIds_append, List.append_assoc, ← List.append_assoc (rangeIds (cutRange p).1), cutRange_spec e3]
    have := congrArg rangeIds (take_drop_of e2)
    rw [this, rangeIds_append]
    congr 1

end Conduit.Part
