import Verif.Lemmas.PointMerge
/-
What the merging of points keeps true from point to point.
-/
namespace Conduit.Merge
open Conduit.Mesh
variable {F : Type}

/-- The state has the points `R`. -/
structure MInv (o : MOps F) (dim : Nat) (s : MState F) (R : List (V3 F)) : Prop where
  rows : s.rows = R.map (row dim)
  has : ∀ t, s.tree = some t → ∀ (q : V3 F) (i : Nat), (q, i) ∈ t.all ↔ R[i]? = some q
  init : s.tree = none → R = []
  good : Ordered o → ∀ t, s.tree = some t → t.Good o

/-- No point is in reach of one before it. -/
def Apart (o : MOps F) (tol : F) (R : List (V3 F)) : Prop :=
  ∀ (i j : Nat) (q q' : V3 F), i < j → R[i]? = some q → R[j]? = some q' → ¬ Reach o tol q' q

theorem inv_empty (o : MOps F) (dim : Nat) : MInv o dim ⟨[], none⟩ [] where
  rows := rfl
  has := fun _ h => by cases h
  init := fun _ => rfl
  good := fun _ _ h => by cases h

theorem insertPoint_all (o : MOps F) (bucket : Nat) (t : Option (KTree F)) (q x : V3 F × Nat) :
    x ∈ (insertPoint o bucket t q).all ↔ (∃ t', t = some t' ∧ x ∈ t'.all) ∨ x = q := by
  cases t with
  | none => simp [insertPoint, leafAdd, KTree.all]
  | some t => simp [insertPoint, insert_all]

theorem mergePoint_ok (o : MOps F) (tol : F) (bucket dim : Nat) (s : MState F) (R : List (V3 F)) (p : V3 F) (h : MInv o dim s R) :
    ∃ R', MInv o dim (mergePoint o tol bucket dim s p).2 (R ++ R') ∧
      (∃ q, (R ++ R')[(mergePoint o tol bucket dim s p).1]? = some q ∧ (q = p ∨ Near o tol p q)) ∧
      (R' = [] ∨ (R' = [p] ∧ (mergePoint o tol bucket dim s p).1 = R.length)) ∧
      (Ordered o → Apart o tol R → Apart o tol (R ++ R')) := by
  unfold mergePoint
  cases hf : findPoint o s.tree p tol with
  | some i =>
    refine ⟨[], by simpa using h, ?_, .inl rfl, by simp⟩
    cases ht : s.tree with
    | none => rw [ht] at hf; cases hf
    | some t =>
      rw [ht] at hf
      simp only [findPoint] at hf
      split at hf
      · obtain ⟨q, h1, h2⟩ := find_sound o p tol t i hf
        exact ⟨q, by simpa using (h.has t ht q i).mp h1, .inr h2⟩
      · cases hf
  | none =>
    have hlen : s.rows.length = R.length := by rw [h.rows, List.length_map]
    refine ⟨[p], ⟨by simp [h.rows], ?_, (fun h => by cases h), ?_⟩, ⟨p, by simp [hlen], .inl rfl⟩, .inr ⟨rfl, hlen⟩, ?_⟩
    · intro t ht q i
      cases ht
      rw [insertPoint_all]
      have hold : (∃ t', s.tree = some t' ∧ (q, i) ∈ t'.all) ↔ R[i]? = some q := by
        cases hs : s.tree with
        | none => simp [h.init hs]
        | some t =>
          rw [← h.has t hs q i]; simp
      rw [hold, hlen]
      constructor
      · rintro (h1 | h1)
        · have := (List.getElem?_eq_some_iff.mp h1).1
          rw [List.getElem?_append_left this]; exact h1
        · cases h1; simp
      · intro h1
        rcases Nat.lt_trichotomy i R.length with hi | hi | hi
        · rw [List.getElem?_append_left hi] at h1; exact .inl h1
        · subst hi; simp at h1; subst h1; exact .inr rfl
        · rw [List.getElem?_eq_none (by simp; omega)] at h1; cases h1
    · intro ho t ht
      cases ht
      cases hs : s.tree with
      | none =>
        intro q hq
        simp only [insertPoint, leafAdd, List.nil_append, List.mem_singleton] at hq ⊢
        subst hq
        exact has_expand ho _ _ _ (.inr rfl)
      | some t => exact insert_good ho bucket _ t (h.good ho t hs)
    · intro ho ha i j q q' hij hi hj hr
      rcases Nat.lt_trichotomy j R.length with hl | hl | hl
      · rw [List.getElem?_append_left hl] at hj
        rw [List.getElem?_append_left (by omega)] at hi
        exact ha i j q q' hij hi hj hr
      · subst hl
        rw [List.getElem?_append_left hij] at hi
        simp at hj; subst hj
        cases hs : s.tree with
        | none => rw [h.init hs] at hi; cases hi
        | some t =>
          rw [hs] at hf
          have hin := (h.has t hs q i).mpr hi
          have hg := h.good ho t hs
          simp only [findPoint] at hf
          rw [if_pos (hr.2 _ (hg.has _ hin))] at hf
          exact find_complete o p q tol i t hg hin hr hf
      · rw [List.getElem?_eq_none (by simp; omega)] at hj; cases hj

/-- What is true of the points `ps` given the numbers `ids`, when the points were `R` and are `R ++ R'`. -/
structure Step (o : MOps F) (tol : F) (R R' : List (V3 F)) (ps : List (V3 F)) (ids : List Nat) : Prop where
  len : ids.length = ps.length
  close : ∀ (k : Nat) (p : V3 F), ps[k]? = some p → ∃ (id : Nat) (q : V3 F), ids[k]? = some id ∧ (R ++ R')[id]? = some q ∧ (q = p ∨ Near o tol p q)
  new : ∀ (id : Nat) (q : V3 F), R.length ≤ id → (R ++ R')[id]? = some q → ∃ k : Nat, ps[k]? = some q ∧ ids[k]? = some id

theorem mergeSet_ok (o : MOps F) (tol : F) (bucket dim : Nat) (ps : List (V3 F)) (s : MState F) (R : List (V3 F)) (h : MInv o dim s R) :
    ∃ R', MInv o dim (mergeSet o tol bucket dim s ps).2 (R ++ R') ∧ Step o tol R R' ps (mergeSet o tol bucket dim s ps).1 ∧
      (Ordered o → Apart o tol R → Apart o tol (R ++ R')) := by
  induction ps generalizing s R with
  | nil =>
    refine ⟨[], by simpa [mergeSet] using h, ⟨rfl, (fun k p h => by simp at h), fun id q h1 h2 => ?_⟩, by simp⟩
    rw [List.append_nil, List.getElem?_eq_none (by omega)] at h2; cases h2
  | cons p ps ih =>
    obtain ⟨R1, a1, ⟨q, a2, a3⟩, a4, a5⟩ := mergePoint_ok o tol bucket dim s R p h
    obtain ⟨R2, b1, b2, b3⟩ := ih (mergePoint o tol bucket dim s p).2 (R ++ R1) a1
    unfold mergeSet
    dsimp only
    refine ⟨R1 ++ R2, by simpa using b1, ⟨by simp [b2.len], ?_, ?_⟩, fun ho ha => by rw [← List.append_assoc]; exact b3 ho (a5 ho ha)⟩
    · intro k p' hk
      cases k with
      | zero =>
        simp at hk; subst hk
        refine ⟨_, q, rfl, ?_, a3⟩
        rw [← List.append_assoc, List.getElem?_append_left (List.getElem?_eq_some_iff.mp a2).1]; exact a2
      | succ k =>
        obtain ⟨id, q, c1, c2, c3⟩ := b2.close k p' (by simpa using hk)
        exact ⟨id, q, by simpa using c1, by rw [← List.append_assoc]; exact c2, c3⟩
    · intro id q' h1 h2
      rw [← List.append_assoc] at h2
      rcases Nat.lt_or_ge id (R ++ R1).length with hl | hl
      · rcases a4 with rfl | ⟨rfl, a4⟩
        · simp at hl; omega
        · simp at hl
          have : id = R.length := by omega
          subst this
          rw [List.getElem?_append_left (by simp)] at h2
          simp at h2; subst h2
          exact ⟨0, rfl, by simp [a4]⟩
      · obtain ⟨k, c1, c2⟩ := b2.new id q' hl h2
        exact ⟨k + 1, by simpa using c1, by simpa using c2⟩

/-- The same for several lists of points. -/
structure Steps (o : MOps F) (tol : F) (R R' : List (V3 F)) (pss : List (List (V3 F))) (idss : List (List Nat)) : Prop where
  len : idss.length = pss.length
  lens : ∀ (i : Nat) (ps : List (V3 F)) (ids : List Nat), pss[i]? = some ps → idss[i]? = some ids → ids.length = ps.length
  close : ∀ (i k : Nat) (ps : List (V3 F)) (p : V3 F), pss[i]? = some ps → ps[k]? = some p →
    ∃ (ids : List Nat) (id : Nat) (q : V3 F), idss[i]? = some ids ∧ ids[k]? = some id ∧ (R ++ R')[id]? = some q ∧ (q = p ∨ Near o tol p q)
  new : ∀ (id : Nat) (q : V3 F), R.length ≤ id → (R ++ R')[id]? = some q → ∃ (i k : Nat) (ps : List (V3 F)) (ids : List Nat),
    pss[i]? = some ps ∧ ps[k]? = some q ∧ idss[i]? = some ids ∧ ids[k]? = some id

theorem steps_nil (o : MOps F) (tol : F) (R : List (V3 F)) : Steps o tol R [] [] [] where
  len := rfl
  lens := fun i ps ids h => by simp at h
  close := fun i k ps p h => by simp at h
  new := fun id q h1 h2 => by rw [List.append_nil, List.getElem?_eq_none (by omega)] at h2; cases h2

theorem steps_cons (o : MOps F) (tol : F) (R R1 R2 : List (V3 F)) (ps : List (V3 F)) (pss : List (List (V3 F))) (ids : List Nat)
    (idss : List (List Nat)) (h1 : Step o tol R R1 ps ids) (h2 : Steps o tol (R ++ R1) R2 pss idss) :
    Steps o tol R (R1 ++ R2) (ps :: pss) (ids :: idss) where
  len := by simp [h2.len]
  lens := by
    intro i ps' ids' a b
    cases i with
    | zero => simp at a b; subst a; subst b; exact h1.len
    | succ i => exact h2.lens i ps' ids' (by simpa using a) (by simpa using b)
  close := by
    intro i k ps' p a b
    cases i with
    | zero =>
      simp at a; subst a
      obtain ⟨id, q, c1, c2, c3⟩ := h1.close k p b
      refine ⟨ids, id, q, rfl, c1, ?_, c3⟩
      rw [← List.append_assoc, List.getElem?_append_left (List.getElem?_eq_some_iff.mp c2).1]; exact c2
    | succ i =>
      obtain ⟨ids', id, q, c1, c2, c3, c4⟩ := h2.close i k ps' p (by simpa using a) b
      exact ⟨ids', id, q, by simpa using c1, c2, by rw [← List.append_assoc]; exact c3, c4⟩
  new := by
    intro id q a b
    rw [← List.append_assoc] at b
    rcases Nat.lt_or_ge id (R ++ R1).length with hl | hl
    · rw [List.getElem?_append_left hl] at b
      obtain ⟨k, c1, c2⟩ := h1.new id q a b
      exact ⟨0, k, ps, ids, rfl, c1, rfl, c2⟩
    · obtain ⟨i, k, ps', ids', c1, c2, c3, c4⟩ := h2.new id q hl b
      exact ⟨i + 1, k, ps', ids', by simpa using c1, c2, by simpa using c3, c4⟩

theorem mergeSets_ok (o : MOps F) (tol : F) (bucket dim : Nat) (pss : List (List (V3 F))) (s : MState F) (R : List (V3 F))
    (h : MInv o dim s R) :
    ∃ R', MInv o dim (mergeSets o tol bucket dim s pss).2 (R ++ R') ∧ Steps o tol R R' pss (mergeSets o tol bucket dim s pss).1 ∧
      (Ordered o → Apart o tol R → Apart o tol (R ++ R')) := by
  induction pss generalizing s R with
  | nil => exact ⟨[], by simpa [mergeSets] using h, steps_nil o tol R, by simp⟩
  | cons ps pss ih =>
    obtain ⟨R1, a1, a2, a3⟩ := mergeSet_ok o tol bucket dim ps s R h
    obtain ⟨R2, b1, b2, b3⟩ := ih _ (R ++ R1) a1
    exact ⟨R1 ++ R2, by simpa [mergeSets] using b1, steps_cons o tol R R1 R2 ps pss _ _ a2 b2,
      fun ho ha => by rw [← List.append_assoc]; exact b3 ho (a3 ho ha)⟩

theorem appendSets_ok (o : MOps F) (tol : F) (dim : Nat) (pss : List (List (V3 F))) (R : List (V3 F)) :
    ∃ R', (appendSets dim (R.map (row dim)) pss).2 = (R ++ R').map (row dim) ∧
      Steps o tol R R' pss (appendSets dim (R.map (row dim)) pss).1 := by
  induction pss generalizing R with
  | nil => exact ⟨[], by simp [appendSets], steps_nil o tol R⟩
  | cons ps pss ih =>
    obtain ⟨R2, b1, b2⟩ := ih (R ++ ps)
    rw [List.map_append] at b1 b2
    refine ⟨ps ++ R2, by simpa [appendSets] using b1, ?_⟩
    unfold appendSets
    dsimp only
    refine steps_cons o tol R ps R2 ps pss _ _ ⟨by simp, ?_, ?_⟩ b2
    · intro k p hk
      have hl := (List.getElem?_eq_some_iff.mp hk).1
      exact ⟨R.length + k, p, by simp [hl], by rw [List.getElem?_append_right (by omega)]; simpa using hk, .inl rfl⟩
    · intro id q a b
      rw [List.getElem?_append_right a] at b
      have hl := (List.getElem?_eq_some_iff.mp b).1
      exact ⟨id - R.length, b, by simp [hl]; omega⟩

end Conduit.Merge
