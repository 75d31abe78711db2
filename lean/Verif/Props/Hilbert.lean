import Verif.Lemmas.Hilbert
import Verif.Model.Adjset
/-
C77: the order of elements along a Hilbert curve.
-/
namespace Conduit.Hilbert
variable {K : Type}

/-- `std::sort` rearranges the list. -/
def Rearranges (sort : (Nat → Nat → Bool) → List Nat → List Nat) : Prop := ∀ c l, (sort c l).Perm l

theorem curve_perm (E : Env K) (P : Partitions E.part) (S : Rearranges E.sort) (dim n : Nat) (lo hi : Nat → K) :
    ∃ l, curve E dim n lo hi = some l ∧ l.Perm (List.range n) := by
  unfold curve
  simp only
  split
  · exact ⟨_, rfl, S _ _⟩
  · split
    · exact sort2_perm P n _ (by simp) _ _ _ _ _ _ _
    · exact sort3_perm P n _ (by simp) _ _ _ _ _ _ _ _ _ _

/-- **C77**: the recursion ends, whatever the comparisons answer (equal points, values that are not numbers), and the
    result has every element once; it tells, for each element, its place along the curve. -/
theorem C77_hilbert (E : Env K) (P : Partitions E.part) (S : Rearranges E.sort) (dim n : Nat) (lo hi : Nat → K) :
    ∃ l o, curve E dim n lo hi = some l ∧ ordering E dim n lo hi = some (.ok o) ∧ l.Perm (List.range n) ∧
      o.Perm (List.range n) ∧ ∀ (i k : Nat), l[i]? = some k ↔ o[k]? = some i := by
  obtain ⟨l, h1, h2⟩ := curve_perm E P S dim n lo hi
  obtain ⟨o, h3, h4, h5⟩ := invert_ok h2
  have hp := inverse_perm h2 h4 h5
  refine ⟨l, o, h1, by simp [ordering, h1, h3], h2, hp, fun i k => ⟨h5 i k, fun h => ?_⟩⟩
  have hk : k < o.length := (List.getElem?_eq_some_iff.1 h).1
  have hm : k ∈ l := h2.mem_iff.2 (by simp; omega)
  obtain ⟨j, hj, hjk⟩ := List.getElem_of_mem hm
  have hj' : l[j]? = some k := by rw [List.getElem?_eq_getElem hj, hjk]
  have := h5 j k hj'
  rw [h] at this
  cases this
  exact hj'

/-! ### what the curve visits -/

/-- The numbers of the quadrants in the order of the curve: low x and low y, low x and high y, high x and high y, high x
    and low y. -/
def Visits2 (E : Env K) (xmid ymid : K) (l : List Nat) : Prop :=
  ∃ a b c d, l = a ++ b ++ c ++ d ∧
    (∀ i ∈ a, E.lt (E.pt i 0) xmid = true ∧ E.lt (E.pt i 1) ymid = true) ∧
    (∀ i ∈ b, E.lt (E.pt i 0) xmid = true ∧ E.lt (E.pt i 1) ymid = false) ∧
    (∀ i ∈ c, E.lt (E.pt i 0) xmid = false ∧ E.lt (E.pt i 1) ymid = false) ∧
    (∀ i ∈ d, E.lt (E.pt i 0) xmid = false ∧ E.lt (E.pt i 1) ymid = true)

/-- **C77**, two axes: the curve stays in one quarter of the extents until it has seen all elements there, and the
    quarters that follow each other have an edge in common. -/
theorem C77_quadrants (E : Env K) (P : Partitions E.part) (n : Nat) (lo hi : Nat → K) (hn : 2 ≤ n) :
    ∃ l, curve E 2 n lo hi = some l ∧ Visits2 E (E.mid (lo 0) (hi 0)) (E.mid (lo 1) (hi 1)) l := by
  have key : ∀ (l : List Nat) (fuel : Nat), 2 ≤ l.length → l.length ≤ fuel → ∃ l',
      sort2 E fuel 0 false false (lo 0) (lo 1) (hi 0) (hi 1) l = some l' ∧
      Visits2 E (E.mid (lo 0) (hi 0)) (E.mid (lo 1) (hi 1)) l' := by
    intro l fuel h2 hf
    obtain ⟨fuel, rfl⟩ : ∃ f, fuel = f + 1 := ⟨fuel - 1, by omega⟩
    unfold sort2
    rw [if_neg (by omega)]
    simp only
    generalize hh : E.part (cmp E 0 false (E.mid (lo 0) (hi 0))) l = h
    generalize ha : E.part (cmp E ((0 + 1) % 2) false (E.mid (lo 1) (hi 1))) h.1 = a
    generalize hb : E.part (cmp E ((0 + 1) % 2) (!false) (E.mid (lo 1) (hi 1))) h.2 = b
    obtain ⟨ph, ph1, ph2⟩ := P (cmp E 0 false (E.mid (lo 0) (hi 0))) l
    obtain ⟨pa, pa1, pa2⟩ := P (cmp E ((0 + 1) % 2) false (E.mid (lo 1) (hi 1))) h.1
    obtain ⟨pb, pb1, pb2⟩ := P (cmp E ((0 + 1) % 2) (!false) (E.mid (lo 1) (hi 1))) h.2
    rw [hh] at ph ph1 ph2
    rw [ha] at pa pa1 pa2
    rw [hb] at pb pb1 pb2
    have lh := ph.length_eq
    have la := pa.length_eq
    have lb := pb.length_eq
    simp only [List.length_append] at lh la lb
    have step : ∀ (part : List Nat), part.length ≤ l.length → ∀ (c1 : Nat) (d1 d2 : Bool) (xa ya xb yb : K),
        ∃ q, unlessAll l part (sort2 E fuel c1 d1 d2 xa ya xb yb) = some q ∧ q.Perm part :=
      fun part hp c1 d1 d2 xa ya xb yb => unlessAll_ok hp (fun h => sort2_perm P _ _ (by omega) _ _ _ _ _ _ _)
    obtain ⟨q0, e0, p0⟩ := step a.1 (by omega) ((0 + 1) % 2) false false (lo 1) (lo 0) (E.mid (lo 1) (hi 1)) (E.mid (lo 0) (hi 0))
    obtain ⟨q1, e1, p1⟩ := step a.2 (by omega) 0 false false (lo 0) (E.mid (lo 1) (hi 1)) (E.mid (lo 0) (hi 0)) (hi 1)
    obtain ⟨q2, e2, p2⟩ := step b.1 (by omega) 0 false false (E.mid (lo 0) (hi 0)) (E.mid (lo 1) (hi 1)) (hi 0) (hi 1)
    obtain ⟨q3, e3, p3⟩ := step b.2 (by omega) ((0 + 1) % 2) (!false) (!false) (E.mid (lo 1) (hi 1)) (hi 0) (lo 1) (E.mid (lo 0) (hi 0))
    rw [e0, e1, e2, e3]
    refine ⟨_, rfl, q0, q1, q2, q3, rfl, ?_, ?_, ?_, ?_⟩
    · intro i hi
      have hi := p0.mem_iff.1 hi
      have h1 := ph1 i (pa.mem_iff.1 (List.mem_append_left _ hi))
      have h2 := pa1 i hi
      simpa [cmp] using And.intro h1 h2
    · intro i hi
      have hi := p1.mem_iff.1 hi
      have h1 := ph1 i (pa.mem_iff.1 (List.mem_append_right _ hi))
      have h2 := pa2 i hi
      simpa [cmp] using And.intro h1 h2
    · intro i hi
      have hi := p2.mem_iff.1 hi
      have h1 := ph2 i (pb.mem_iff.1 (List.mem_append_left _ hi))
      have h2 := pb1 i hi
      simpa [cmp] using And.intro h1 h2
    · intro i hi
      have hi := p3.mem_iff.1 hi
      have h1 := ph2 i (pb.mem_iff.1 (List.mem_append_right _ hi))
      have h2 := pb2 i hi
      simpa [cmp] using And.intro h1 h2
  obtain ⟨l', h1, h2⟩ := key (List.range n) n (by simpa using hn) (by simp)
  exact ⟨l', by simpa [curve] using h1, h2⟩

/-! ### concrete cases -/

/-- `std::partition` and `std::sort` that keep the order of equal elements. -/
def env (pt : Nat → Nat → Rat) : Env Rat where
  zero := 0
  lt a b := decide (a < b)
  mid a b := (a + b) / 2
  part p l := (l.filter p, l.filter fun i => !p i)
  sort c l := Mesh.sortBy c l
  pt := pt

theorem env_partitions (pt : Nat → Nat → Rat) : Partitions (env pt).part := fun p l =>
  ⟨List.filter_append_perm p l, fun _ h => (List.mem_filter.1 h).2, fun _ h => by simpa using (List.mem_filter.1 h).2⟩

theorem insertBy_perm (c : Nat → Nat → Bool) (a : Nat) : ∀ l, (Mesh.insertBy c a l).Perm (a :: l)
  | [] => List.Perm.refl _
  | b :: l => by
    unfold Mesh.insertBy
    split
    · exact ((insertBy_perm c a l).cons b).trans (List.Perm.swap a b l)
    · exact List.Perm.refl _

theorem env_rearranges (pt : Nat → Nat → Rat) : Rearranges (env pt).sort := by
  intro c l
  show (Mesh.sortBy c l).Perm l
  induction l with
  | nil => exact List.Perm.refl _
  | cons a l ih => exact (insertBy_perm c a _).trans (ih.cons a)

/-- The centers of the cells of a grid of 4 by 2 cells, by rows. -/
def grid : Env Rat := env fun i c => if c = 0 then ((i % 4 : Nat) : Rat) else ((i / 4 : Nat) : Rat)

example : curve grid 2 8 (fun _ => 0) (fun c => if c = 0 then 3 else 1) = some [0, 1, 4, 5, 6, 7, 2, 3] ∧
    ordering grid 2 8 (fun _ => 0) (fun c => if c = 0 then 3 else 1) = some (.ok [0, 1, 6, 7, 2, 3, 4, 5]) := by
  decide +kernel

example : ∃ l o, curve grid 2 8 (fun _ => 0) (fun c => if c = 0 then 3 else 1) = some l ∧
    ordering grid 2 8 (fun _ => 0) (fun c => if c = 0 then 3 else 1) = some (.ok o) ∧ l.Perm (List.range 8) ∧
    o.Perm (List.range 8) ∧ ∀ (i k : Nat), l[i]? = some k ↔ o[k]? = some i :=
  C77_hilbert grid (env_partitions _) (env_rearranges _) _ _ _ _

example : curve (env fun i c => if c = 0 then ((i % 2 : Nat) : Rat) else if c = 1 then ((i / 2 % 2 : Nat) : Rat) else ((i / 4 : Nat) : Rat)) 3 8 (fun _ => 0)
    (fun _ => 1) = some [0, 4, 6, 2, 3, 7, 5, 1] := by decide +kernel

/-! ### limits -/

/-- Three centers on a line. -/
def three : Env Rat := env fun i _ => [5, 1, 3].getD i 0

/-- The result is not the list of the elements in their new order, which `reorder` and `slice_field` take and
    `spatial_ordering` gives: read as one, it does not sort the elements even on a line. -/
theorem C77_convention_false : ordering three 1 3 (fun _ => 1) (fun _ => 5) = some (.ok [2, 0, 1]) ∧
    curve three 1 3 (fun _ => 1) (fun _ => 5) = some [1, 2, 0] ∧
    ([1, 2, 0] : List Nat).map (fun i => three.pt i 0) = [1, 3, 5] ∧
    ([2, 0, 1] : List Nat).map (fun i => three.pt i 0) = [3, 5, 1] := by decide +kernel

/-- Elements that are all in one quarter of the extents of the centers of a group keep the order they had: here one far
    element is enough to leave the three others, on a line, unsorted. -/
theorem C77_cluster_false :
    let E := env fun i c => if c = 0 then [100, 3, 1, 2].getD i 0 else 0
    curve E 2 4 (fun c => if c = 0 then 1 else 0) (fun c => if c = 0 then 100 else 0) = some [1, 2, 3, 0] ∧
      ([1, 2, 3, 0] : List Nat).map (fun i => E.pt i 0) = [3, 1, 2, 100] := by decide +kernel

end Conduit.Hilbert
