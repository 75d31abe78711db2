import Verif.Lemmas.Adjset4
/-
Adjacency sets: names of groups.
-/
namespace Conduit.Mesh
variable {F : Type}

theorem findDomainId_near (near rest : List (Option Int)) (h : ∀ x ∈ near, x = none ∨ x = some (-1)) :
    findDomainId (near ++ rest) = findDomainId rest := by
  induction near with
  | nil => rfl
  | cons x near ih =>
    have := ih fun x hx => h x (by simp [hx])
    rcases h x (by simp) with rfl | rfl
    · simpa [findDomainId] using this
    · simpa [findDomainId] using this

theorem domainId_eq {up : List (Option Int)} {d : Int} (h : DomainId up d) : d = findDomainId up := by
  rcases h with ⟨near, far, rfl, h1, h2⟩ | ⟨rfl, h⟩
  · rw [findDomainId_near near _ h2]; simp [findDomainId, h1]
  · have := findDomainId_near up [] h
    rw [List.append_nil] at this
    rw [this]; rfl

theorem namedFor_iff (dom : Int) (g : Group) : NamedFor dom g ↔ g.name = canonicalName dom g.neighbors := by
  constructor
  · rintro ⟨doms, h1, h2, h3⟩
    have : doms = sortBy intLt (dom :: g.neighbors) := by
      refine List.Perm.eq_of_pairwise ?_ h1 ((sortBy_sorted strictTot_int (dom :: g.neighbors)).imp ?_)
        (h2.trans (sortBy_perm _ _).symm)
      · intro a b _ _ h1 h2; omega
      · intro a b h
        simp only [intLt, decide_eq_false_iff_not] at h
        omega
    rw [h3, this]; rfl
  · intro h
    obtain ⟨doms, h1, h2, h3⟩ := namedFor_canonical dom g.neighbors g.values
    exact ⟨doms, h1, h2, h.trans h3⟩

theorem putKid_get (ks : List (Str × BNode F)) (name x : Str) (v : BNode F) :
    (BNode.obj (putKid ks name v)).get x =
      if x = name then (if ks.any (fun k => k.1 == name) then .ok v else .error) else (BNode.obj ks).get x := by
  have hk : ∀ l : List (Str × BNode F), (BNode.obj l).kids = l := fun _ => rfl
  unfold BNode.get
  rw [hk, hk]
  induction ks with
  | nil => simp [putKid]
  | cons k ks ih =>
    unfold putKid at ih ⊢
    rw [List.map_cons, List.find?_cons, List.find?_cons, List.any_cons]
    by_cases h1 : k.1 = name
    · by_cases h2 : x = name
      · simp [h1, h2]
      · have : ¬ name = x := fun e => h2 e.symm
        simp only [h1, if_true, if_neg h2, beq_iff_eq, this, beq_eq_false_iff_ne.mpr this]
        rw [if_neg h2] at ih
        exact ih
    · by_cases h3 : k.1 = x
      · have h2 : ¬ x = name := fun e => h1 (h3.trans e)
        simp [h1, h2, h3]
      · have h4 : (k.1 == x) = false := by simpa using h3
        have h5 : (k.1 == name) = false := by simpa using h1
        simp only [if_neg h1, h4, h5, Bool.false_or]
        exact ih

theorem canonicalize_ok (A : Arith F) (dom : Int) (n : BNode F) (gs : List Group) (h : HasGroups n gs)
    (hf : Fits int64 gs)
    (hnew : ∀ (i j : Nat) g h, i < j → gs[i]? = some g → gs[j]? = some h → ¬ g.neighbors.Perm h.neighbors)
    (hold : ∀ (i j : Nat) g h, i < j → gs[i]? = some g → gs[j]? = some h → h.name ≠ canonicalName dom g.neighbors) :
    ∃ d, canonicalize A dom n = .ok d ∧
      HasGroups d (gs.map fun g => ⟨canonicalName dom g.neighbors, g.neighbors, g.values⟩) ∧
      ∀ name, name ≠ chars! "groups" → d.get name = n.get name := by
  obtain ⟨ks, h1, h2, h3⟩ := h
  have hg : ∀ {i : Nat} {k}, ks[i]? = some k → ∃ g, gs[i]? = some g := fun {i k} hk =>
    ⟨_, List.getElem?_eq_getElem (h2 ▸ getElem?_lt hk)⟩
  have hcan := canonicalGroups_ok A dom ks (fun i => ((gs[i]?).map (·.neighbors)).getD [])
    (by
      intro i k hk
      obtain ⟨g, hi⟩ := hg hk
      obtain ⟨_, t, u, e1, e2⟩ := h3 i k g hk hi
      refine ⟨_, e1, ?_⟩
      rw [hi]
      exact leafInts_fits A t _ fun v hv => (hf g (List.mem_of_getElem? hi) v (by simp [hv])).1)
    (by
      intro i j hij hj
      rw [h2] at hj
      rw [List.getElem?_eq_getElem hj, List.getElem?_eq_getElem (by omega)]
      simp only [Option.map_some, Option.getD_some]
      intro hc
      exact hnew i j _ _ hij (List.getElem?_eq_getElem (by omega)) (List.getElem?_eq_getElem hj) (canonicalName_inj dom _ _ hc))
    (by
      intro i j k hij hk
      obtain ⟨g, hj⟩ := hg hk
      have hi : gs[i]? = some (gs[i]'(by have := getElem?_lt hj; omega)) := List.getElem?_eq_getElem _
      rw [hi]
      rw [(h3 j k g hk hj).1]
      exact hold i j _ g hij hi hj)
  have hn : n.kids.any (fun k => k.1 == chars! "groups") = true := by
    unfold BNode.get at h1
    cases he : n.kids.find? (fun k => k.1 == chars! "groups") with
    | none => rw [he] at h1; simp at h1
    | some k =>
      rw [List.any_eq_true]
      have hp := List.find?_some he
      exact ⟨k, List.mem_of_find?_eq_some he, hp⟩
  have hget : ∀ w : BNode F, (BNode.obj (putKid n.kids (chars! "groups") w)).get (chars! "groups") = .ok w := by
    intro w; rw [putKid_get, if_pos rfl, if_pos hn]
  refine ⟨.obj (putKid n.kids (chars! "groups") (.obj (ks.mapIdx fun i k =>
    (canonicalName dom (((gs[i]?).map (·.neighbors)).getD []), k.2)))), ?_, ⟨_, hget _, ?_, ?_⟩, ?_⟩
  · unfold canonicalize
    rw [h1, Res.bind_ok]
    show (canonicalGroups A dom ks >>= _) = _
    rw [hcan, Res.bind_ok]
  · simp [h2]
  · intro i k g hk hg'
    rw [List.getElem?_mapIdx] at hk
    rw [List.getElem?_map] at hg'
    cases hks : ks[i]? with
    | none => rw [hks] at hk; simp at hk
    | some k0 =>
      obtain ⟨g0, hi⟩ := hg hks
      rw [hks] at hk; rw [hi] at hg'
      simp only [Option.map_some, Option.some.injEq] at hk hg'
      subst hk; subst hg'
      rw [hi]
      obtain ⟨_, t, u, e1, e2⟩ := h3 i k0 g0 hks hi
      exact ⟨rfl, t, u, e1, e2⟩
  · intro name hname
    rw [putKid_get, if_neg hname]
    rfl

theorem isCanonical_eq (dom : Int) (n : BNode F) (gs : List Group) (h : HasGroups n gs)
    (hn : ∀ g ∈ gs, NamedFor dom g) :
    isCanonical n = .ok (gs.all fun g => decide (g.neighbors ≠ [] ∧ (dom :: g.neighbors).Nodup)) := by
  obtain ⟨ks, h1, h2, h3⟩ := h
  unfold isCanonical
  rw [h1, Res.bind_ok]
  show Res.ok (ks.all fun k => canonicalOk k.1) = _
  congr 1
  have e1 : (ks.all fun k => canonicalOk k.1) = (ks.map (·.1)).all canonicalOk := by rw [List.all_map]; rfl
  rw [e1, hasGroups_names (n := .obj ks) h2 h3, List.all_map]
  rw [Bool.eq_iff_iff, List.all_eq_true, List.all_eq_true]
  have : ∀ g ∈ gs, ((canonicalOk ∘ Group.name) g = true ↔ decide (g.neighbors ≠ [] ∧ (dom :: g.neighbors).Nodup) = true) := by
    intro g hg
    show canonicalOk g.name = true ↔ _
    rw [(namedFor_iff dom g).mp (hn g hg), canonicalOk_name, decide_eq_true_eq]
  exact ⟨fun h g hg => (this g hg).mp (h g hg), fun h g hg => (this g hg).mpr (h g hg)⟩

end Conduit.Mesh
