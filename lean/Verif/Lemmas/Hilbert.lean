import Verif.Model.Hilbert
import Verif.Lemmas.ResMonad
/-
Lemmas on the Hilbert order.
-/
namespace Conduit.Hilbert
variable {K : Type}

/-- `std::partition` rearranges the list, the elements that satisfy the predicate first. -/
def Partitions (part : (Nat → Bool) → List Nat → List Nat × List Nat) : Prop :=
  ∀ p l, ((part p l).1 ++ (part p l).2).Perm l ∧ (∀ i ∈ (part p l).1, p i = true) ∧ (∀ i ∈ (part p l).2, p i = false)

theorem unlessAll_ok {whole part : List Nat} {rec : List Nat → Option (List Nat)} (hle : part.length ≤ whole.length)
    (h : part.length < whole.length → ∃ l', rec part = some l' ∧ l'.Perm part) :
    ∃ l', unlessAll whole part rec = some l' ∧ l'.Perm part := by
  unfold unlessAll
  split
  · exact ⟨part, rfl, List.Perm.refl _⟩
  · exact h (by omega)

theorem sort2_perm {E : Env K} (P : Partitions E.part) : ∀ (fuel : Nat) (l : List Nat), l.length ≤ fuel →
    ∀ (c1 : Nat) (d1 d2 : Bool) (xmin ymin xmax ymax : K),
      ∃ l', sort2 E fuel c1 d1 d2 xmin ymin xmax ymax l = some l' ∧ l'.Perm l := by
  intro fuel
  induction fuel with
  | zero =>
    intro l hl c1 d1 d2 xmin ymin xmax ymax
    unfold sort2
    rw [if_pos (by omega)]
    exact ⟨l, rfl, List.Perm.refl _⟩
  | succ fuel ih =>
    intro l hl c1 d1 d2 xmin ymin xmax ymax
    unfold sort2
    split
    · exact ⟨l, rfl, List.Perm.refl _⟩
    · simp only
      generalize hh : E.part (cmp E c1 d1 (E.mid xmin xmax)) l = h
      generalize ha : E.part (cmp E ((c1 + 1) % 2) d2 (E.mid ymin ymax)) h.1 = a
      generalize hb : E.part (cmp E ((c1 + 1) % 2) (!d2) (E.mid ymin ymax)) h.2 = b
      have ph : (h.1 ++ h.2).Perm l := by rw [← hh]; exact (P _ l).1
      have pa : (a.1 ++ a.2).Perm h.1 := by rw [← ha]; exact (P _ h.1).1
      have pb : (b.1 ++ b.2).Perm h.2 := by rw [← hb]; exact (P _ h.2).1
      have lh := ph.length_eq
      have la := pa.length_eq
      have lb := pb.length_eq
      simp only [List.length_append] at lh la lb
      obtain ⟨q0, e0, p0⟩ := unlessAll_ok (whole := l) (part := a.1)
        (rec := sort2 E fuel ((c1 + 1) % 2) d2 d1 ymin xmin (E.mid ymin ymax) (E.mid xmin xmax)) (by omega)
        (fun h => ih _ (by omega) _ _ _ _ _ _ _)
      obtain ⟨q1, e1, p1⟩ := unlessAll_ok (whole := l) (part := a.2)
        (rec := sort2 E fuel c1 d1 d2 xmin (E.mid ymin ymax) (E.mid xmin xmax) ymax) (by omega)
        (fun h => ih _ (by omega) _ _ _ _ _ _ _)
      obtain ⟨q2, e2, p2⟩ := unlessAll_ok (whole := l) (part := b.1)
        (rec := sort2 E fuel c1 d1 d2 (E.mid xmin xmax) (E.mid ymin ymax) xmax ymax) (by omega)
        (fun h => ih _ (by omega) _ _ _ _ _ _ _)
      obtain ⟨q3, e3, p3⟩ := unlessAll_ok (whole := l) (part := b.2)
        (rec := sort2 E fuel ((c1 + 1) % 2) (!d2) (!d1) (E.mid ymin ymax) xmax ymin (E.mid xmin xmax)) (by omega)
        (fun h => ih _ (by omega) _ _ _ _ _ _ _)
      rw [e0, e1, e2, e3]
      refine ⟨q0 ++ q1 ++ q2 ++ q3, rfl, ?_⟩
      have := (p0.append p1).append (p2.append p3)
      rw [List.append_assoc (q0 ++ q1)]
      exact this.trans ((pa.append pb).trans ph)

theorem sort3_perm {E : Env K} (P : Partitions E.part) : ∀ (fuel : Nat) (l : List Nat), l.length ≤ fuel →
    ∀ (c1 : Nat) (d1 d2 d3 : Bool) (xmin ymin zmin xmax ymax zmax : K),
      ∃ l', sort3 E fuel c1 d1 d2 d3 xmin ymin zmin xmax ymax zmax l = some l' ∧ l'.Perm l := by
  intro fuel
  induction fuel with
  | zero =>
    intro l hl c1 d1 d2 d3 xmin ymin zmin xmax ymax zmax
    unfold sort3
    rw [if_pos (by omega)]
    exact ⟨l, rfl, List.Perm.refl _⟩
  | succ fuel ih =>
    intro l hl c1 d1 d2 d3 xmin ymin zmin xmax ymax zmax
    unfold sort3
    split
    · exact ⟨l, rfl, List.Perm.refl _⟩
    · simp only
      generalize hh : E.part (cmp E c1 d1 (E.mid xmin xmax)) l = h
      generalize ha : E.part (cmp E ((c1 + 1) % 3) d2 (E.mid ymin ymax)) h.1 = a
      generalize hb : E.part (cmp E ((c1 + 1) % 3) (!d2) (E.mid ymin ymax)) h.2 = b
      generalize haa : E.part (cmp E ((c1 + 2) % 3) d3 (E.mid zmin zmax)) a.1 = aa
      generalize hab : E.part (cmp E ((c1 + 2) % 3) (!d3) (E.mid zmin zmax)) a.2 = ab
      generalize hba : E.part (cmp E ((c1 + 2) % 3) d3 (E.mid zmin zmax)) b.1 = ba
      generalize hbb : E.part (cmp E ((c1 + 2) % 3) (!d3) (E.mid zmin zmax)) b.2 = bb
      have ph : (h.1 ++ h.2).Perm l := by rw [← hh]; exact (P _ l).1
      have pa : (a.1 ++ a.2).Perm h.1 := by rw [← ha]; exact (P _ h.1).1
      have pb : (b.1 ++ b.2).Perm h.2 := by rw [← hb]; exact (P _ h.2).1
      have paa : (aa.1 ++ aa.2).Perm a.1 := by rw [← haa]; exact (P _ a.1).1
      have pab : (ab.1 ++ ab.2).Perm a.2 := by rw [← hab]; exact (P _ a.2).1
      have pba : (ba.1 ++ ba.2).Perm b.1 := by rw [← hba]; exact (P _ b.1).1
      have pbb : (bb.1 ++ bb.2).Perm b.2 := by rw [← hbb]; exact (P _ b.2).1
      have lh := ph.length_eq
      have la := pa.length_eq
      have lb := pb.length_eq
      have laa := paa.length_eq
      have lab := pab.length_eq
      have lba := pba.length_eq
      have lbb := pbb.length_eq
      simp only [List.length_append] at lh la lb laa lab lba lbb
      clear hh ha hb haa hab hba hbb
      have step : ∀ (part : List Nat), part.length ≤ l.length → ∀ (c1 : Nat) (d1 d2 d3 : Bool) (xa ya za xb yb zb : K),
          ∃ q, unlessAll l part (sort3 E fuel c1 d1 d2 d3 xa ya za xb yb zb) = some q ∧ q.Perm part :=
        fun part hp c1 d1 d2 d3 xa ya za xb yb zb =>
          unlessAll_ok hp (fun h => ih _ (by omega) _ _ _ _ _ _ _ _ _ _)
      obtain ⟨q0, e0, p0⟩ := step aa.1 (by omega) ((c1 + 2) % 3) d3 d1 d2 zmin xmin ymin (E.mid zmin zmax) (E.mid xmin xmax) (E.mid ymin ymax)
      obtain ⟨q1, e1, p1⟩ := step aa.2 (by omega) ((c1 + 1) % 3) d2 d3 d1 ymin (E.mid zmin zmax) xmin (E.mid ymin ymax) zmax (E.mid xmin xmax)
      obtain ⟨q2, e2, p2⟩ := step ab.1 (by omega) ((c1 + 1) % 3) d2 d3 d1 (E.mid ymin ymax) (E.mid zmin zmax) xmin ymax zmax (E.mid xmin xmax)
      obtain ⟨q3, e3, p3⟩ := step ab.2 (by omega) c1 d1 (!d2) (!d3) xmin ymax (E.mid zmin zmax) (E.mid xmin xmax) (E.mid ymin ymax) zmin
      obtain ⟨q4, e4, p4⟩ := step ba.1 (by omega) c1 d1 (!d2) (!d3) (E.mid xmin xmax) ymax (E.mid zmin zmax) xmax (E.mid ymin ymax) zmin
      obtain ⟨q5, e5, p5⟩ := step ba.2 (by omega) ((c1 + 1) % 3) (!d2) d3 (!d1) ymax (E.mid zmin zmax) xmax (E.mid ymin ymax) zmax (E.mid xmin xmax)
      obtain ⟨q6, e6, p6⟩ := step bb.1 (by omega) ((c1 + 1) % 3) (!d2) d3 (!d1) (E.mid ymin ymax) (E.mid zmin zmax) xmax ymin zmax (E.mid xmin xmax)
      obtain ⟨q7, e7, p7⟩ := step bb.2 (by omega) ((c1 + 2) % 3) (!d3) (!d1) d2 (E.mid zmin zmax) xmax ymin zmin (E.mid xmin xmax) (E.mid ymin ymax)
      rw [e0, e1, e2, e3, e4, e5, e6, e7]
      refine ⟨_, rfl, ?_⟩
      have h1 := (((p0.append p1).trans paa).append ((p2.append p3).trans pab)).trans pa
      have h2 := (((p4.append p5).trans pba).append ((p6.append p7).trans pbb)).trans pb
      have h3 := (h1.append h2).trans ph
      simp only [List.append_assoc] at h3 ⊢
      exact h3

/-! ### the inverse -/

theorem invert_ok {n : Nat} {indices : List Nat} (hp : indices.Perm (List.range n)) :
    ∃ o, invert n indices = .ok o ∧ o.length = n ∧ ∀ (i k : Nat), indices[i]? = some k → o[k]? = some i := by
  have hlen : indices.length = n := by simpa using hp.length_eq
  have hmem : ∀ k ∈ indices, k < n := fun k hk => by simpa using hp.mem_iff.1 hk
  have hnd : indices.Nodup := hp.nodup_iff.2 List.nodup_range
  have key : ∀ m, m ≤ n → ∃ o, (List.range m).foldlM (fun (o : List Nat) i => do
      let k ← Res.ofIdx indices i
      if k < o.length then .ok (o.set k i) else .ub) (List.replicate n 0) = .ok o ∧ o.length = n ∧
      ∀ (i k : Nat), i < m → indices[i]? = some k → o[k]? = some i := by
    intro m
    induction m with
    | zero => intro _; exact ⟨_, rfl, by simp, fun i k h => by omega⟩
    | succ m ih =>
      intro hm
      obtain ⟨o, e, lo, ho⟩ := ih (by omega)
      have hk : indices[m]? = some indices[m] := List.getElem?_eq_getElem (by omega)
      have hlt : indices[m] < n := hmem _ (List.getElem_mem _)
      refine ⟨o.set indices[m] m, ?_, by simp [lo], ?_⟩
      · rw [List.range_succ, List.foldlM_append, e]
        simp [Res.ofIdx, hk, lo, hlt]
      · intro i k hi hik
        by_cases e1 : i = m
        · subst e1
          rw [hk] at hik
          cases hik
          simp [lo, hlt]
        · have hne : indices[m] ≠ k := by
            intro h
            have h1 : i < indices.length := by omega
            have := (List.getElem?_inj (l := indices) (i := i) (j := m) h1 hnd).1 (by rw [hik, hk, h])
            exact e1 this
          rw [List.getElem?_set_ne hne]
          exact ho i k (by omega) hik
  obtain ⟨o, e, lo, ho⟩ := key n (Nat.le_refl _)
  refine ⟨o, e, lo, fun i k h => ho i k ?_ h⟩
  have := (List.getElem?_eq_some_iff.1 h).1
  omega

theorem inverse_perm {n : Nat} {indices o : List Nat} (hp : indices.Perm (List.range n)) (hl : o.length = n)
    (ho : ∀ (i k : Nat), indices[i]? = some k → o[k]? = some i) : o.Perm (List.range n) := by
  have hlen : indices.length = n := by simpa using hp.length_eq
  refine (List.perm_ext_iff_of_nodup ?_ List.nodup_range).2 ?_
  · rw [List.nodup_iff_pairwise_ne, List.pairwise_iff_getElem]
    intro a b ha hb hab heq
    have fa : a ∈ indices := hp.mem_iff.2 (by simp; omega)
    have fb : b ∈ indices := hp.mem_iff.2 (by simp; omega)
    obtain ⟨i, hi, hia⟩ := List.getElem_of_mem fa
    obtain ⟨j, hj, hjb⟩ := List.getElem_of_mem fb
    have h1 := ho i a (by rw [List.getElem?_eq_getElem hi, hia])
    have h2 := ho j b (by rw [List.getElem?_eq_getElem hj, hjb])
    rw [List.getElem?_eq_getElem ha] at h1
    rw [List.getElem?_eq_getElem hb] at h2
    have : i = j := by
      have h1 := Option.some.inj h1
      have h2 := Option.some.inj h2
      omega
    subst this
    omega
  · intro i
    simp only [List.mem_range]
    constructor
    · intro h
      obtain ⟨k, hk, hki⟩ := List.getElem_of_mem h
      have fk : k ∈ indices := hp.mem_iff.2 (by simp; omega)
      obtain ⟨j, hj, hjk⟩ := List.getElem_of_mem fk
      have := ho j k (by rw [List.getElem?_eq_getElem hj, hjk])
      rw [List.getElem?_eq_getElem hk, hki] at this
      have := Option.some.inj this
      omega
    · intro h
      have hi : i < indices.length := by omega
      exact List.mem_of_getElem? (ho i indices[i] (List.getElem?_eq_getElem hi))

end Conduit.Hilbert
