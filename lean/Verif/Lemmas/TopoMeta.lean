import Verif.Model.TopoMeta
import Verif.Spec.TopoMeta
import Verif.Lemmas.MeshBuilder
import Mathlib.Data.List.Nodup
/-
Lemmas on the sides of elements.
-/
namespace Conduit.Mesh.Meta
variable {F : Type}

/-! ### numbering labels -/

theorem uniqueLoop_spec : ∀ (l : List (Nat × Nat)) (s u : Nat), (∀ p ∈ l, s ≤ p.1) → l.Pairwise (fun p q => p.1 ≤ q.1) →
    ∃ g : Nat → Nat, g s = u ∧ (uniqueLoop s u l).1 = l.map (fun p => (p.2, g p.1)) ∧
      (∀ a ∈ s :: l.map (·.1), ∀ b ∈ s :: l.map (·.1), g a = g b → a = b) ∧ u < (uniqueLoop s u l).2 ∧
      (∀ a ∈ s :: l.map (·.1), u ≤ g a ∧ g a < (uniqueLoop s u l).2) ∧
      ∀ v, u ≤ v → v < (uniqueLoop s u l).2 → ∃ a ∈ s :: l.map (·.1), g a = v := by
  intro l
  induction l with
  | nil =>
    intro s u _ _
    refine ⟨fun _ => u, rfl, rfl, ?_, Nat.lt_succ_self u, ?_, ?_⟩
    · intro a ha b hb _; simp at ha hb; rw [ha, hb]
    · intro a _; exact ⟨Nat.le_refl _, Nat.lt_succ_self u⟩
    · intro v h1 h2
      simp only [uniqueLoop] at h2
      exact ⟨s, by simp, by show u = v; omega⟩
  | cons p l ih =>
    obtain ⟨k, ef⟩ := p
    intro s u hs hp
    rw [List.pairwise_cons] at hp
    by_cases hk : s = k
    · subst hk
      obtain ⟨g, e1, e2, e3, e4, e5, e6⟩ := ih s u (fun p h => hs p (by simp [h])) hp.2
      have hm : ∀ a, a ∈ s :: ((s, ef) :: l).map (·.1) ↔ a ∈ s :: l.map (·.1) := by intro a; simp
      have hu : uniqueLoop s u ((s, ef) :: l) = ((ef, u) :: (uniqueLoop s u l).1, (uniqueLoop s u l).2) := by
        simp [uniqueLoop]
      rw [hu]
      refine ⟨g, e1, by simp [e1, e2], ?_, e4, ?_, ?_⟩
      · intro a ha b hb; exact e3 a ((hm a).1 ha) b ((hm b).1 hb)
      · intro a ha; exact e5 a ((hm a).1 ha)
      · intro v h1 h2; obtain ⟨a, ha, e⟩ := e6 v h1 h2; exact ⟨a, (hm a).2 ha, e⟩
    · have hlt : s < k := Nat.lt_of_le_of_ne (hs (k, ef) (by simp)) hk
      obtain ⟨g, e1, e2, e3, e4, e5, e6⟩ := ih k (u + 1) (fun p h => hp.1 p h) hp.2
      have hu : uniqueLoop s u ((k, ef) :: l) = ((ef, u + 1) :: (uniqueLoop k (u + 1) l).1, (uniqueLoop k (u + 1) l).2) := by
        simp [uniqueLoop, hk]
      have hne : ∀ a ∈ k :: l.map (·.1), a ≠ s := by
        intro a ha
        rcases List.mem_cons.1 ha with rfl | ha
        · omega
        · obtain ⟨q, hq, rfl⟩ := List.mem_map.1 ha
          have := hp.1 q hq
          simp only at this; omega
      have hg : ∀ a ∈ k :: l.map (·.1), (if a = s then u else g a) = g a := fun a ha => if_neg (hne a ha)
      have hmm : ∀ a, a ∈ s :: ((k, ef) :: l).map (·.1) ↔ a = s ∨ a ∈ k :: l.map (·.1) := by intro a; simp
      rw [hu]
      refine ⟨fun a => if a = s then u else g a, by simp, ?_, ?_, by simp only; omega, ?_, ?_⟩
      · simp only [List.map_cons, List.cons.injEq, Prod.mk.injEq, true_and]
        refine ⟨by rw [hg k (by simp), e1], ?_⟩
        rw [e2]
        apply List.map_congr_left
        intro p hpm
        rw [hg p.1 (by simp only [List.mem_cons, List.mem_map]; exact Or.inr ⟨p, hpm, rfl⟩)]
      · intro a ha b hb
        rcases (hmm a).1 ha with rfl | ha' <;> rcases (hmm b).1 hb with rfl | hb'
        · intro _; rfl
        · simp only [if_true]; rw [hg b hb']; intro e; have := (e5 b hb').1; omega
        · simp only [if_true]; rw [hg a ha']; intro e; have := (e5 a ha').1; omega
        · simp only; rw [hg a ha', hg b hb']; exact e3 a ha' b hb'
      · intro a ha
        rcases (hmm a).1 ha with rfl | ha'
        · simp only [if_true]; omega
        · simp only; rw [hg a ha']; have := e5 a ha'; omega
      · intro v h1 h2
        by_cases hv : v = u
        · exact ⟨s, by simp, by simp [hv]⟩
        · obtain ⟨a, ha, e⟩ := e6 v (by omega) h2
          exact ⟨a, (hmm a).2 (Or.inr ha), by simp only; rw [hg a ha]; exact e⟩

theorem strictTot_pair : StrictTot pairLt where
  irrefl a := by simp [pairLt]
  trans {a b c} h1 h2 := by
    simp only [pairLt, Bool.or_eq_true, Bool.and_eq_true, decide_eq_true_eq] at *
    omega
  total {a b} h1 h2 := by
    simp only [pairLt, Bool.or_eq_true, Bool.and_eq_true, decide_eq_true_eq, Bool.or_eq_false_iff, Bool.and_eq_false_iff,
      decide_eq_false_iff_not] at *
    have : a.1 ≠ b.1 ∨ a.2 ≠ b.2 := by
      by_cases h : a.1 = b.1
      · exact Or.inr fun h' => h1 (Prod.ext h h')
      · exact Or.inl h
    omega

theorem strictTot_nat : StrictTot (fun a b : Nat => decide (a < b)) where
  irrefl a := by simp
  trans {a b c} h1 h2 := by simp only [decide_eq_true_eq] at *; omega
  total {a b} h1 h2 := by simp only [decide_eq_true_eq, decide_eq_false_iff_not] at *; omega

theorem eq_of_perm_map {α β : Type} (f : α → β) (l m : List α) (hp : l.Perm m) (hm : l.map f = m.map f) (hn : (m.map f).Nodup) : l = m := by
  have hlen : l.length = m.length := hp.length_eq
  apply List.ext_getElem hlen
  intro i h1 h2
  have hmem : l[i] ∈ m := hp.mem_iff.1 (List.getElem_mem h1)
  obtain ⟨j, hj, e⟩ := List.getElem_of_mem hmem
  have hi : f l[i] = f m[i] := by
    have := congrArg (fun x : List β => x[i]?) hm
    simpa [h1, h2] using this
  have hij : j = i := by
    have h3 : (m.map f)[j]'(by simpa using hj) = (m.map f)[i]'(by simpa using h2) := by
      rw [List.getElem_map, List.getElem_map, e, hi]
    exact (List.Nodup.getElem_inj_iff hn).1 h3
  subst hij
  exact e.symm

/-- Numbers for labels: equal exactly for equal labels, and all below the count are used. -/
theorem relabel_spec (labels : List Nat) : ∃ g : Nat → Nat, (relabel labels.zipIdx).1 = (labels.map g).zipIdx.map (fun p => (p.2, p.1)) ∧
    (∀ a ∈ labels, ∀ b ∈ labels, g a = g b → a = b) ∧ ∀ v, v < (relabel labels.zipIdx).2 ↔ ∃ a ∈ labels, g a = v := by
  have hperm := sortBy_perm pairLt labels.zipIdx
  have hsort := sortBy_sorted strictTot_pair labels.zipIdx
  have hfst : (sortBy pairLt labels.zipIdx).Pairwise (fun p q => p.1 ≤ q.1) := by
    refine hsort.imp ?_
    intro a b h
    simp only [pairLt, Bool.or_eq_false_iff, Bool.and_eq_false_iff, decide_eq_false_iff_not] at h
    omega
  have hkeys : ∀ a, a ∈ (sortBy pairLt labels.zipIdx).map (·.1) ↔ a ∈ labels := by
    intro a
    rw [(hperm.map _).mem_iff, List.zipIdx_map_fst]
  have main : ∃ g : Nat → Nat, (makeUnique (sortBy pairLt labels.zipIdx)).1 =
      (sortBy pairLt labels.zipIdx).map (fun p => (p.2, g p.1)) ∧
      (∀ a ∈ labels, ∀ b ∈ labels, g a = g b → a = b) ∧
      ∀ v, v < (makeUnique (sortBy pairLt labels.zipIdx)).2 ↔ ∃ a ∈ labels, g a = v := by
    cases hs : sortBy pairLt labels.zipIdx with
    | nil =>
      have : labels = [] := by
        have := hkeys
        rw [hs] at this
        simpa [List.eq_nil_iff_forall_not_mem] using this
      subst this
      exact ⟨fun _ => 0, rfl, by simp, by simp [makeUnique]⟩
    | cons p r =>
      obtain ⟨k, ef⟩ := p
      rw [hs] at hfst hkeys
      obtain ⟨g, e1, e2, e3, e4, e5, e6⟩ := uniqueLoop_spec ((k, ef) :: r) k 0 (by
        intro p hp
        rcases List.mem_cons.1 hp with rfl | hp
        · exact Nat.le_refl _
        · exact (List.pairwise_cons.1 hfst).1 p hp) hfst
      have hm : ∀ a, a ∈ k :: ((k, ef) :: r).map (·.1) ↔ a ∈ labels := by
        intro a; rw [← hkeys a]; simp
      refine ⟨g, e2, ?_, ?_⟩
      · intro a ha b hb; exact e3 a ((hm a).2 ha) b ((hm b).2 hb)
      · intro v
        constructor
        · intro hv; obtain ⟨a, ha, e⟩ := e6 v (Nat.zero_le _) hv; exact ⟨a, (hm a).1 ha, e⟩
        · rintro ⟨a, ha, rfl⟩; exact (e5 a ((hm a).2 ha)).2
  obtain ⟨g, e1, e2, e3⟩ := main
  refine ⟨g, ?_, e2, e3⟩
  have hR : sortBy fstLt (makeUnique (sortBy pairLt labels.zipIdx)).1 = labels.zipIdx.map (fun p => (p.2, g p.1)) := by
    rw [e1]
    have hf : (labels.zipIdx.map (fun p => (p.2, g p.1))).map (·.1) = List.range labels.length := by
      rw [List.map_map]
      have : ((fun x : Nat × Nat => x.1) ∘ fun p : Nat × Nat => (p.2, g p.1)) = Prod.snd := rfl
      rw [this, List.zipIdx_map_snd, List.range_eq_range']
    apply eq_of_perm_map (·.1)
    · exact (sortBy_perm _ _).trans (hperm.map _)
    · rw [hf]
      have h1 : (sortBy fstLt ((sortBy pairLt labels.zipIdx).map (fun p => (p.2, g p.1)))).map (·.1) =
          sortBy (fun a b : Nat => decide (a < b)) (((sortBy pairLt labels.zipIdx).map (fun p => (p.2, g p.1))).map (·.1)) :=
        (sortBy_map (fun a b : Nat => decide (a < b)) (fun p : Nat × Nat => p.1) _).symm
      rw [h1]
      have h2 : (((sortBy pairLt labels.zipIdx).map (fun p => (p.2, g p.1))).map (·.1)).Perm (List.range labels.length) := by
        rw [← hf]; exact (hperm.map _).map _
      refine List.Perm.eq_of_pairwise ?_ (sortBy_sorted strictTot_nat _) (le := fun a b => decide (b < a) = false) ?_
        ((sortBy_perm _ _).trans h2)
      · intro a b _ _ h1 h2; simp only [decide_eq_false_iff_not] at h1 h2; omega
      · exact (List.pairwise_lt_range).imp (by intro a b h; simp only [decide_eq_false_iff_not]; omega)
    · rw [hf]; exact List.nodup_range
  show sortBy fstLt (makeUnique (sortBy pairLt labels.zipIdx)).1 = _
  rw [hR, List.zipIdx_map, List.map_map]
  rfl

/-! ### sides in the order of first use -/

structure Emitted (N : Nat) (sd : Nat → List Int) (seen : List Nat) (s : Emit) : Prop where
  reorder : s.reorder = (List.range N).map fun id => if id ∈ seen then (seen.eraseDups.idxOf id : Int) else -1
  next : s.next = (seen.eraseDups.length : Int)
  conn : s.conn = (seen.eraseDups.map fun v => sd (seen.idxOf v)).flatten
  refs : s.refs = seen.map fun v => (seen.eraseDups.idxOf v : Int)

theorem emitStep_ok {N v : Nat} {side : Nat → Res (List Int)} {sd : Nat → List Int} {seen : List Nat} {s : Emit}
    (h : Emitted N sd seen s) (hv : v < N) (hs : side seen.length = .ok (sd seen.length)) :
    ∃ s', emitStep side s seen.length v = .ok s' ∧ Emitted N sd (seen ++ [v]) s' := by
  have hpick : pick s.reorder (v : Int) = .ok (if v ∈ seen then (seen.eraseDups.idxOf v : Int) else -1) := by
    apply pick_nat
    rw [h.reorder, List.getElem?_map, List.getElem?_range hv]; rfl
  unfold emitStep
  rw [hpick, Res.bind_ok]
  have hconn : ∀ x ∈ seen, (seen ++ [v]).idxOf x = seen.idxOf x := fun x hx => idxOf_snoc hx
  by_cases hm : v ∈ seen
  · have hne : ((seen.eraseDups.idxOf v : Int) == -1) = false := by
      rw [beq_eq_false_iff_ne]; omega
    have he : (seen ++ [v]).eraseDups = seen.eraseDups := by rw [eraseDups_snoc, if_pos hm]
    rw [if_pos hm, hne]
    simp only [Bool.false_eq_true, if_false]
    refine ⟨_, rfl, ⟨?_, ?_, ?_, ?_⟩⟩
    · simp only [he]
      rw [h.reorder]
      apply List.map_congr_left
      intro id _
      by_cases e : id = v
      · subst e; simp [hm]
      · simp [e]
    · rw [he]; exact h.next
    · rw [he, h.conn]
      congr 1
      apply List.map_congr_left
      intro x hx
      rw [hconn x (List.mem_eraseDups.1 hx)]
    · simp only [he, List.map_append, h.refs, List.map_cons, List.map_nil]
  · have he : (seen ++ [v]).eraseDups = seen.eraseDups ++ [v] := by rw [eraseDups_snoc, if_neg hm]
    have hnm : v ∉ seen.eraseDups := fun hx => hm (List.mem_eraseDups.1 hx)
    have hidx : (seen.eraseDups ++ [v]).idxOf v = seen.eraseDups.length := by
      rw [List.idxOf_append_of_notMem hnm]; simp
    have hput : put s.reorder (v : Int) s.next = .ok (s.reorder.set v (seen.eraseDups.length : Int)) := by
      unfold put
      rw [if_pos ⟨by omega, by rw [h.reorder]; simp; omega⟩, h.next]; rfl
    rw [if_neg hm]
    simp only [beq_self_eq_true, if_true]
    rw [hs, Res.bind_ok, hput, Res.bind_ok]
    refine ⟨_, rfl, ⟨?_, ?_, ?_, ?_⟩⟩
    · simp only [he]
      apply List.ext_getElem?
      intro id
      by_cases hid : id < N
      · rw [List.getElem?_map, List.getElem?_range hid]
        by_cases e : id = v
        · subst e
          rw [List.getElem?_set_self (by rw [h.reorder]; simpa using hid)]
          simp [hidx]
        · rw [List.getElem?_set_ne (by omega), h.reorder, List.getElem?_map, List.getElem?_range hid]
          simp only [Option.map_some, List.mem_append, List.mem_singleton, e, or_false]
          by_cases hs : id ∈ seen
          · rw [if_pos hs, if_pos hs, idxOf_snoc (List.mem_eraseDups.2 hs)]
          · rw [if_neg hs, if_neg hs]
      · rw [List.getElem?_eq_none (by rw [List.length_set, h.reorder]; simp; omega), List.getElem?_eq_none (by simp; omega)]
    · rw [he, h.next]; simp
    · have hi : (seen ++ [v]).idxOf v = seen.length := by rw [List.idxOf_append_of_notMem hm]; simp
      simp only [he, List.map_append, List.flatten_append, List.map_cons, List.map_nil, List.flatten_cons, List.flatten_nil,
        List.append_nil, hi, h.conn]
      congr 2
      apply List.map_congr_left
      intro x hx
      rw [hconn x (List.mem_eraseDups.1 hx)]
    · simp only [he, List.map_append, List.map_cons, List.map_nil, hidx, h.next]
      congr 1
      rw [h.refs]
      apply List.map_congr_left
      intro q hq
      rw [idxOf_snoc (List.mem_eraseDups.2 hq)]

theorem emit_fold {N : Nat} {side : Nat → Res (List Int)} {sd : Nat → List Int} (vs : List Nat) :
    ∀ (seen : List Nat) (s : Emit), Emitted N sd seen s → (∀ v ∈ vs, v < N) →
      (∀ ef, ef < seen.length + vs.length → side ef = .ok (sd ef)) →
      ∃ s', ((vs.zipIdx seen.length).map fun p => (p.2, p.1)).foldlM (fun s p => emitStep side s p.1 p.2) s = .ok s' ∧
        Emitted N sd (seen ++ vs) s' := by
  induction vs with
  | nil => intro seen s h _ _; exact ⟨s, rfl, by simpa using h⟩
  | cons v vs ih =>
    intro seen s h hv hs
    obtain ⟨s1, e1, h1⟩ := emitStep_ok h (hv v (by simp)) (hs seen.length (by simp))
    obtain ⟨s2, e2, h2⟩ := ih (seen ++ [v]) s1 h1 (fun x hx => hv x (by simp [hx])) (fun ef hef => hs ef (by
      simp at hef ⊢; omega))
    refine ⟨s2, ?_, by simpa using h2⟩
    simp only [List.zipIdx_cons, List.map_cons, List.foldlM_cons]
    rw [e1]
    simp only [List.length_append, List.length_cons, List.length_nil, Nat.zero_add] at e2
    exact e2

theorem emitAll_ok {N : Nat} {side : Nat → Res (List Int)} {sd : Nat → List Int} (vs : List Nat)
    (hv : ∀ v ∈ vs, v < N) (hs : ∀ ef, ef < vs.length → side ef = .ok (sd ef)) :
    emitAll side (vs.zipIdx.map fun p => (p.2, p.1)) N =
      .ok ⟨(vs.eraseDups.map fun v => sd (vs.idxOf v)).flatten, vs.map fun v => (vs.eraseDups.idxOf v : Int), N⟩ := by
  obtain ⟨s, e, h⟩ := emit_fold (N := N) (side := side) (sd := sd) vs [] ⟨List.replicate N (-1), 0, [], []⟩ ⟨by
      simp [List.map_const'], rfl, rfl, rfl⟩ hv (by simpa using hs)
  unfold emitAll
  rw [show ([] : List Nat).length = 0 from rfl] at e
  rw [e, Res.bind_ok, h.conn, h.refs]
  rfl

end Conduit.Mesh.Meta
