import Verif.Model.MeshIndex
import Verif.Spec.MeshIndex
import Verif.Lemmas.MeshVerify6
/-
What the check of an index decides, and what it reports.
-/
namespace Conduit.Mesh
open Log (Info)

section
variable {F : Type} {s φ ψ : Prop}

theorem axisOk_iff {sys name : Str} (h : sys ∈ coordSystems) : axisOk sys name = true ↔ name ∈ axesOf sys := by
  simp only [coordSystems, List.mem_cons, List.not_mem_nil, or_false] at h
  rcases h with rfl | rfl | rfl
  · rw [show axesOf (chars! "cartesian") = [chars! "x", chars! "y", chars! "z"] from rfl]
    simp [axisOk, or_assoc]
  · rw [show axesOf (chars! "cylindrical") = [chars! "r", chars! "z"] from rfl]
    simp [axisOk]
  · rw [show axesOf (chars! "spherical") = [chars! "r", chars! "theta", chars! "phi"] from rfl]
    simp [axisOk, or_assoc]

theorem coordSystem_verifies {n : BNode F} : Verifies (coordSystemVerify n) s (IsCoordSystem n) := by
  refine reset_then ?_
  refine (enumField_keeps (by decide)).seq fun r1 h1 => ?_
  cases r1
  · refine Does.bind (Does.pure (Q := fun _ t => W true t) _ fun t x => x) fun sys => ?_
    refine (objectField_plain (by decide)).seq fun r2 h2 => ?_
    have body : Keeps (if r2 = true then
        if sys = chars! "unknown" then pure true
        else do
          let c ← V.lift (n.get (chars! "axes"))
          V.all (fun (k : Str × BNode F) => V.demand (axisOk sys k.1) (chars! "mesh::coordset::coord_system")
            (chars! "unsupported " ++ sys ++ chars! " axis name: " ++ k.1)) c.items
      else pure false) s (r2 = true ∧ (sys ≠ chars! "unknown" → ∀ c, n.get (chars! "axes") = .ok c →
        ∀ k ∈ c.items, axisOk sys k.1 = true)) := by
      cases r2
      · exact (pure_keeps false).iff (by simp)
      · simp only [if_true, true_and]
        by_cases e : sys = chars! "unknown"
        · rw [if_pos e]; exact (pure_keeps true).iff (by simp [e])
        rw [if_neg e]
        obtain ⟨ks, hk, -⟩ := h2.1 rfl
        refine lift_keeps hk ((Keeps.all _ fun k _ => demand_keeps _ _ _).iff ?_)
        constructor
        · intro h _ c hc; exact get_inj hk hc ▸ h
        · intro h; exact h e _ hk
    refine body.seq fun r3 _ => finish_of ⟨fun x => absurd x (by simp), ?_⟩
    rintro ⟨sys, hs, ht, -⟩
    exact absurd (h1.2 ⟨sys, hs, ht⟩) (by simp)
  · obtain ⟨sys, hs, ht⟩ := h1.1 rfl
    simp only [if_true]
    refine Does.bind (Q := fun x t => x = sys ∧ W true t) (lift_then ht ?_) fun x => Does.pull fun hx => ?_
    · exact (Does.lift (s := s) (.ok sys) fun _ => ⟨sys, rfl⟩).conseq (fun _ x => x) fun a t x => ⟨(Res.ok.inj x.1).symm, x.2⟩
    subst hx
    refine (objectField_plain (by decide)).seq fun r2 h2 => ?_
    have body : Keeps (if r2 = true then
        if x = chars! "unknown" then pure true
        else do
          let c ← V.lift (n.get (chars! "axes"))
          V.all (fun (k : Str × BNode F) => V.demand (axisOk x k.1) (chars! "mesh::coordset::coord_system")
            (chars! "unsupported " ++ x ++ chars! " axis name: " ++ k.1)) c.items
      else pure false) s (∃ ks, n.get (chars! "axes") = .ok (.obj ks) ∧ ks ≠ [] ∧ ∀ k ∈ ks, k.1 ∈ axesOf x) := by
      cases r2
      · refine (pure_keeps false).iff ⟨fun h => absurd h (by simp), ?_⟩
        rintro ⟨ks, a, b, -⟩; exact absurd (h2.2 ⟨ks, a, b⟩) (by simp)
      · obtain ⟨ks, hk, hne⟩ := h2.1 rfl
        simp only [if_true]
        have hu : x ≠ chars! "unknown" := by
          rintro rfl; exact absurd hs (by decide)
        rw [if_neg hu]
        refine lift_keeps hk ((Keeps.all _ fun k _ => (demand_keeps _ _ _).iff (axisOk_iff hs)).iff ?_)
        constructor
        · intro h; exact ⟨ks, hk, hne, h⟩
        · rintro ⟨ks', hk', -, h⟩
          have := get_inj hk hk'; injection this with this; subst this; exact h
    refine body.seq fun r3 h3 => finish_of ?_
    rw [Bool.true_and, h3]
    constructor
    · rintro h; exact ⟨x, hs, ht, h⟩
    · rintro ⟨sys, -, ht', h⟩
      have := get_inj ht ht'; injection this with this; subst this; exact h

theorem coordSystem_kids {n : BNode F} (h : IsCoordSystem n) : ∃ ks, n = .obj ks ∧ ks ≠ [] := by
  obtain ⟨sys, -, h, -⟩ := h; exact nonempty_of_get h

theorem coordsetIndex_verifies {n : BNode F} : Verifies (coordsetIndexVerify n) s (IsCoordsetIndex n) := by
  refine reset_then ?_
  refine (existsEnum_keeps (by decide)).seq fun r1 h1 => ?_
  refine (stringField_keeps (by decide)).seq fun r2 h2 => ?_
  refine (objectAnd_keeps (by decide) fun ks _ => coordSystem_verifies.decides).seq fun r3 h3 => ?_
  refine finish_of ?_
  rw [Bool.and_eq_true, Bool.and_eq_true, h1, h2, h3, and_assoc]
  unfold IsCoordsetIndex
  refine and_congr Iff.rfl (and_congr Iff.rfl ?_)
  constructor
  · rintro ⟨ks, a, -, b⟩; exact ⟨_, a, b⟩
  · rintro ⟨c, a, b⟩
    obtain ⟨ks, rfl, hk⟩ := coordSystem_kids b
    exact ⟨ks, a, hk, b⟩

theorem topologyIndex_verifies {n : BNode F} : Verifies (topologyIndexVerify n) s (IsTopologyIndex n) := by
  refine reset_then ?_
  refine (existsEnum_keeps (by decide)).seq fun r1 h1 => ?_
  refine (stringField_keeps (by decide)).seq fun r2 h2 => ?_
  refine (stringField_keeps (by decide)).seq fun r3 h3 => ?_
  refine (optional_keeps fun _ => opt_keeps (stringField_keeps (by decide))).seq fun r4 h4 => ?_
  refine finish_of ?_
  simp only [Bool.and_eq_true, h1, h2, h3, h4, and_assoc]
  rfl

theorem matsetIndex_verifies {n : BNode F} : Verifies (matsetIndexVerify n) s (IsMatsetIndex n) := by
  refine reset_then ?_
  refine (stringField_keeps (by decide)).seq fun r1 h1 => ?_
  by_cases hm : Has n (chars! "material_map")
  · rw [if_pos (has_iff.2 hm)]
    refine materialMap_joins.seq fun r2 h2 => ?_
    refine (stringField_keeps (by decide)).seq fun r3 h3 => finish_of' ?_ (by simp +contextual)
    rw [Bool.and_eq_true, Bool.and_eq_true, h1, h2, h3, and_assoc]
    unfold IsMatsetIndex
    simp [hm]
  · rw [if_neg (by rw [has_iff]; exact hm)]
    refine (objectField_plain (by decide)).seq fun r2 h2 => ?_
    refine (stringField_keeps (by decide)).seq fun r3 h3 => finish_of ?_
    rw [Bool.and_eq_true, Bool.and_eq_true, h1, h2, h3, and_assoc]
    refine and_congr Iff.rfl (and_congr ?_ Iff.rfl)
    constructor
    · intro h; exact .inr ⟨hm, h⟩
    · rintro (⟨ks, h, -⟩ | h)
      · exact absurd ⟨_, h⟩ hm
      · exact h.2

theorem fieldIndex_verifies {n : BNode F} : Verifies (fieldIndexVerify n) s (IsFieldIndex n) := by
  refine reset_then ?_
  refine (demand_keeps _ _ _).seq fun r1 h1 => ?_
  refine (ifHas_keeps fun c _ => enumVerify_verifies.decides.sub (by decide)).seq fun r2 h2 => ?_
  refine (ifHas_keeps fun c _ => basis_verifies.decides.sub (by decide)).seq fun r3 h3 => ?_
  refine (demand_keeps _ _ _).seq fun r4 h4 => ?_
  refine (optional_keeps fun _ => stringField_keeps (by decide)).seq fun r5 h5 => ?_
  refine (optional_keeps fun _ => stringField_keeps (by decide)).seq fun r6 h6 => ?_
  refine (integerField_keeps (by decide)).seq fun r7 h7 => ?_
  refine (stringField_keeps (by decide)).seq fun r8 h8 => ?_
  refine finish_of ?_
  have e2 : (∀ c, n.get (chars! "association") = .ok c → ∃ x ∈ associations, c = .str x) ↔
      (Has n (chars! "association") → HasOneOf n (chars! "association") [chars! "vertex", chars! "element"]) := by
    constructor
    · rintro h ⟨c, hc⟩; obtain ⟨x, hx, rfl⟩ := h c hc; exact ⟨x, hx, hc⟩
    · intro h c hc; obtain ⟨x, hx, e⟩ := h ⟨c, hc⟩; exact ⟨x, hx, get_inj hc e⟩
  have e3 : (∀ c, n.get (chars! "basis") = .ok c → ∃ x, c = .str x) ↔
      (Has n (chars! "basis") → HasStr n (chars! "basis")) := by
    constructor
    · rintro h ⟨c, hc⟩; obtain ⟨x, rfl⟩ := h c hc; exact ⟨x, hc⟩
    · intro h c hc; obtain ⟨x, e⟩ := h ⟨c, hc⟩; exact ⟨x, get_inj hc e⟩
  simp only [Bool.and_eq_true, h1, h2, h3, h4, h5, h6, h7, h8, e2, e3, Bool.or_eq_true, has_iff, and_assoc]
  rfl

theorem specsetIndex_verifies {n : BNode F} : Verifies (specsetIndexVerify n) s (IsSpecsetIndex n) := by
  refine reset_then ?_
  refine (stringField_keeps (by decide)).seq fun r1 h1 => ?_
  refine (objectField_plain (by decide)).seq fun r2 h2 => ?_
  refine (stringField_keeps (by decide)).seq fun r3 h3 => finish_of ?_
  rw [Bool.and_eq_true, Bool.and_eq_true, h1, h2, h3, and_assoc]
  rfl

theorem adjacencyIndex_verifies {p : Str} {n : BNode F} : Verifies (adjacencyIndexVerify p n) s (IsAdjacencyIndex n) := by
  refine reset_then ?_
  refine (stringField_keeps (by decide)).seq fun r1 h1 => ?_
  refine (existsEnum_keeps (by decide)).seq fun r2 h2 => ?_
  refine (stringField_keeps (by decide)).seq fun r3 h3 => finish_of ?_
  rw [Bool.and_eq_true, Bool.and_eq_true, h1, h2, h3, and_assoc]
  rfl

/-- What is known of the entries of an index once it has been checked. -/
structure IndexReported (n : BNode F) (t : Info) : Prop where
  coordsets : Known n (chars! "coordsets") IsCoordsetIndex t
  topologies : Known n (chars! "topologies") (TopologyIndexOk n) t
  matsets : Known n (chars! "matsets") (MatsetIndexOk n) t
  specsets : Known n (chars! "specsets") (SpecsetIndexOk n) t
  fields : Known n (chars! "fields") (FieldIndexOk n) t
  adjsets : Known n (chars! "adjsets") (AdjacencyIndexOk n) t
  nestsets : Known n (chars! "nestsets") (AdjacencyIndexOk n) t

theorem indexVerify_does {n : BNode F} (hp : Plain n) {P : Info → Prop} :
    Does (indexVerify n) s P fun b t => (b = true ↔ IsIndex n) ∧ Marked t b ∧ IndexReported n t := by
  unfold indexVerify
  dsimp only
  refine reset_then ?_
  have D0 := depends_W true
  refine Does.bind (collection_does (good := IsCoordsetIndex) hp D0 (by decide) (by decide) (by decide)
    fun ks hk k hm J hJ _ => ?_) fun r1 => Does.pull fun h1 => ?_
  · exact (verified_entry (by decide) ((hp.get hk).kid hm).1 hJ coordsetIndex_verifies).conseq (fun _ => id)
      fun b t x => ⟨x.1, x.2.1, b, x.2.2, x.1⟩
  have D1 := D0.known n (chars! "coordsets") IsCoordsetIndex
  refine Does.bind (collection_does (good := TopologyIndexOk n) hp D1 (by decide) (by decide) (by decide)
    fun ks hk k hm J hJ hI => ?_) fun r2 => Does.pull fun h2 => ?_
  · exact entry_step (by decide) ((hp.get hk).kid hm).1 (by decide) hJ (fun t x => (hI t x).2) topologyIndex_verifies
  have D2 := D1.known n (chars! "topologies") (TopologyIndexOk n)
  refine Does.bind (optCollection_does (good := MatsetIndexOk n) hp D2 (by decide) (by decide) (by decide)
    fun ks hk k hm J hJ hI => ?_) fun r3 => Does.pull fun h3 => ?_
  · exact entry_step (by decide) ((hp.get hk).kid hm).1 (by decide) hJ (fun t x => (hI t x).2) matsetIndex_verifies
  have D3 := D2.known n (chars! "matsets") (MatsetIndexOk n)
  refine Does.bind (optCollection_does (good := SpecsetIndexOk n) hp D3 (by decide) (by decide) (by decide)
    fun ks hk k hm J hJ hI => ?_) fun r4 => Does.pull fun h4 => ?_
  · exact entry_step (by decide) ((hp.get hk).kid hm).1 (by decide) hJ (fun t x => (hI t x).2) specsetIndex_verifies
  have D4 := D3.known n (chars! "specsets") (SpecsetIndexOk n)
  refine Does.bind (optCollection_does (good := FieldIndexOk n) hp D4 (by decide) (by decide) (by decide)
    fun ks hk k hm J hJ hI => ?_) fun r5 => Does.pull fun h5 => ?_
  · have hn := ((hp.get hk).kid hm).1
    refine (verified_entry (by decide) hn hJ fieldIndex_verifies).bind fun a => Does.pull fun ha => ?_
    refine Does.bind (optReference_does (by decide) hn (by decide) hJ (fun t x => (hI t x).1.1.2) a) fun b =>
      Does.pull fun hb => ?_
    refine Does.bind (optReference_does (by decide) hn (by decide) hJ (fun t x => (hI t x).1.2) (a && b)) fun d =>
      Does.pull fun hd => ?_
    have e : (a && b && d) = true ↔ FieldIndexOk n k.2 := by
      rw [Bool.and_eq_true, Bool.and_eq_true, ha, hb, hd, and_assoc]; exact Iff.rfl
    exact Does.pure _ fun t x => ⟨e, x.1, _, x.2, e⟩
  have D5 := D4.known n (chars! "fields") (FieldIndexOk n)
  refine Does.bind (optCollection_does (good := AdjacencyIndexOk n) hp D5 (by decide) (by decide) (by decide)
    fun ks hk k hm J hJ hI => ?_) fun r6 => Does.pull fun h6 => ?_
  · exact entry_step (by decide) ((hp.get hk).kid hm).1 (by decide) hJ (fun t x => (hI t x).1.1.1.2)
      adjacencyIndex_verifies
  have D6 := D5.known n (chars! "adjsets") (AdjacencyIndexOk n)
  refine Does.bind (optCollection_does (good := AdjacencyIndexOk n) hp D6 (by decide) (by decide) (by decide)
    fun ks hk k hm J hJ hI => ?_) fun r7 => Does.pull fun h7 => ?_
  · exact entry_step (by decide) ((hp.get hk).kid hm).1 (by decide) hJ (fun t x => (hI t x).1.1.1.1.2)
      adjacencyIndex_verifies
  have e : (r1 && r2 && r3 && r4 && r5 && r6 && r7) = true ↔ IsIndex n := by
    simp only [Bool.and_eq_true]
    rw [h1, h2, h3, h4, h5, h6, h7]
    unfold IsIndex
    simp only [and_assoc]
  generalize (r1 && r2 && r3 && r4 && r5 && r6 && r7) = b at e ⊢
  rintro t ⟨⟨⟨⟨⟨⟨⟨w, kc⟩, kt⟩, km⟩, ks⟩, kf⟩, ka⟩, kn⟩
  have fin := finish_of (s := s) e t w
  refine ⟨fun r t' x => ⟨(fin.1 r t' x).1, (fin.1 r t' x).2, ?_⟩, fin.2⟩
  have hv := finish_frame x
  exact ⟨kc.congr (hv _ (by decide)), kt.congr (hv _ (by decide)), km.congr (hv _ (by decide)),
    ks.congr (hv _ (by decide)), kf.congr (hv _ (by decide)), ka.congr (hv _ (by decide)), kn.congr (hv _ (by decide))⟩

end
end Conduit.Mesh
