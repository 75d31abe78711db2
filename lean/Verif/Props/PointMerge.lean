import Verif.Lemmas.PointMerge3
/-
C95: the merging of the points of several coordsets.
-/
namespace Conduit.Merge
open Conduit.Mesh
variable {F : Type}

/-- **C95**: merging explicit cartesian coordsets gives one explicit coordset with as many axes as the one with most of them, and for each of the
    coordsets a map with an entry for each point: the number of a point of the result which is that point or no further away than
    the tolerance.  Every point of the result is a point of one of the coordsets. -/
theorem C95_merge (o : MOps F) (tol : F) (ins : List (In F)) (h2 : 2 ≤ ins.length) (hin : ∀ x ∈ ins, Cart o x.cset x.n x.pts) :
    ∃ out pts maps, execute o 32 tol (ins.map (·.cset)) = .ok (some out) ∧ Merged o tol ins out pts maps := by
  obtain ⟨out, R, idss, h1, h2, _⟩ := execute_ok o tol 32 ins h2 hin
  exact ⟨out, R, idss, h1, h2⟩

theorem same_trans {o : MOps F} (ho : Ordered o) {p q r : V3 F} (h1 : Same o p q) (h2 : Same o q r) : Same o p r := fun d hd =>
  ⟨ho.negTrans _ _ _ (h1 d hd).1 (h2 d hd).1, ho.negTrans _ _ _ (h2 d hd).2 (h1 d hd).2⟩

theorem same_symm {o : MOps F} {p q : V3 F} (h : Same o p q) : Same o q p := fun d hd => ⟨(h d hd).2, (h d hd).1⟩

theorem same_refl {o : MOps F} (ho : Ordered o) (p : V3 F) : Same o p p := fun _ _ => ⟨ho.irrefl _, ho.irrefl _⟩

/-- **C95**: if points that are near have the same coordinates, then points of two coordsets become the same point exactly if they have
    the same coordinates. -/
theorem C95_shared (o : MOps F) (tol : F) (ho : Ordered o) (ht : Tolerance o tol) (ins : List (In F)) (h2 : 2 ≤ ins.length)
    (hin : ∀ x ∈ ins, Cart o x.cset x.n x.pts) (hs : Separated o tol ins) :
    ∃ out pts maps, execute o 32 tol (ins.map (·.cset)) = .ok (some out) ∧ Merged o tol ins out pts maps ∧
      ∀ i j k l p q id id', i ≠ j → PointAt ins i k p → PointAt ins j l q → IdAt maps i k id → IdAt maps j l id' →
        (id = id' ↔ Same o p q) := by
  obtain ⟨out, R, idss, h1, hm, ha⟩ := execute_ok o tol 32 ins h2 hin
  refine ⟨out, R, idss, h1, hm, ?_⟩
  intro i j k l p q id id' hij hp hq hid hid'
  have hrow : ∀ i k p id, PointAt ins i k p → IdAt idss i k id → ∃ r, R[id]? = some r ∧ Same o p r := by
    intro i k p id hp hid
    obtain ⟨id2, r, ⟨m, e1, e2⟩, e3, e4⟩ := hm.close i k p hp
    obtain ⟨m', e1', e2'⟩ := hid
    rw [e1] at e1'; cases e1'
    rw [e2] at e2'; cases e2'
    refine ⟨r, e3, ?_⟩
    rcases e4 with rfl | e4
    · exact same_refl ho _
    · obtain ⟨i', k', ⟨y, hy, hr⟩, _⟩ := hm.from_ _ r e3
      obtain ⟨x, hx, hp⟩ := hp
      exact hs x (List.mem_of_getElem? hx) y (List.mem_of_getElem? hy) p (List.mem_of_getElem? hp) r (List.mem_of_getElem? hr) e4
  obtain ⟨r, r1, r2⟩ := hrow i k p id hp hid
  obtain ⟨r', r3, r4⟩ := hrow j l q id' hq hid'
  constructor
  · rintro rfl
    rw [r1] at r3; cases r3
    exact same_trans ho r2 (same_symm r4)
  · intro hpq
    have hap := ha ho i j k l p q hij hp hq hpq
    have hrr : Same o r r' := same_trans ho (same_symm r2) (same_trans ho hpq r4)
    rcases Nat.lt_trichotomy id id' with h | h | h
    · exact absurd (reach_same ho ht (same_symm hrr)) (hap id id' r r' h r1 r3)
    · exact h
    · exact absurd (reach_same ho ht hrr) (hap id' id r' r h r3 r1)

/-- **C95**: if two of the coordsets have a point in common and the arithmetic is exact, no point of the result is within the tolerance
    of one before it. -/
theorem C95_apart (o : MOps F) (tol : F) (ho : Ordered o) (he : ExactTol o tol) (ins : List (In F)) (h2 : 2 ≤ ins.length)
    (hin : ∀ x ∈ ins, Cart o x.cset x.n x.pts)
    (hc : ∃ i j k l p q, i ≠ j ∧ PointAt ins i k p ∧ PointAt ins j l q ∧ Same o p q) :
    ∃ out pts maps, execute o 32 tol (ins.map (·.cset)) = .ok (some out) ∧ Merged o tol ins out pts maps ∧
      ∀ (i j : Nat) (p q : V3 F), i < j → pts[i]? = some p → pts[j]? = some q → ¬ Near o tol q p := by
  obtain ⟨out, R, idss, h1, hm, ha⟩ := execute_ok o tol 32 ins h2 hin
  obtain ⟨i, j, k, l, p, q, hij, hp, hq, hs⟩ := hc
  exact ⟨out, R, idss, h1, hm, fun a b r r' hab hr hr' hn => ha ho i j k l p q hij hp hq hs a b r r' hab hr hr' (reach_near ho he hn)⟩

end Conduit.Merge
