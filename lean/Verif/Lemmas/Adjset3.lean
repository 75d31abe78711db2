import Verif.Lemmas.Adjset2
/-
Adjacency sets: the results of the conversions, and the tests for their kinds.
-/
namespace Conduit.Mesh
variable {F : Type}

theorem getElem?_lt {α : Type} {l : List α} {i : Nat} {a : α} (h : l[i]? = some a) : i < l.length :=
  (List.getElem?_eq_some_iff.mp h).1

theorem nodup_getElem?_ne {α : Type} {l : List α} (hn : l.Nodup) {i j : Nat} {a b : α} (hij : i < j) (hi : l[i]? = some a)
    (hj : l[j]? = some b) : a ≠ b := by
  rintro rfl
  have := (List.getElem?_inj (getElem?_lt hi) hn).mp (hi.trans hj.symm)
  omega

/-- The lists of neighbors and values `to_pairwise` writes. -/
def pairLists (gs : List Group) : List (List Int × List Int) := (pairMap gs).map fun e => ([e.1], e.2)

theorem toPairwise_ok (A : Arith F) (up : List (Option Int)) (n : BNode F) (gs : List Group) (h : HasGroups n gs)
    (hn : (gs.map (·.name)).Nodup) (hf : Fits (widestInt n) gs) :
    ∃ d, toPairwise A up n = .ok d ∧ HasGroups d (groupsOf (findDomainId up) (pairLists gs)) ∧
      ∀ name, name ≠ chars! "groups" → d.get name = n.get name := by
  obtain ⟨ks, h1, h2, h3⟩ := h
  obtain ⟨d, e1, e2, e3⟩ := finish_ok A (findDomainId up) (widestInt n) n (pairLists gs) (by
      intro e he v hv
      obtain ⟨⟨k, vs⟩, hm, rfl⟩ := List.mem_map.mp he
      obtain ⟨⟨g, hg, hk⟩, rfl⟩ := (mem_pairMap gs k vs).mp hm
      rcases List.mem_append.mp hv with hv | hv
      · have : v = k := by simpa using hv
        subst this
        exact hf g hg _ (by simp [hk])
      · obtain ⟨g', hg', hd, hv'⟩ := (mem_pairList_byName gs k v).mp hv
        exact hf g' hg' v (by simp [hv']))
    (by
      intro i j a b hij ha hb hp
      simp only [pairLists, List.getElem?_map] at ha hb
      cases hx : (pairMap gs)[i]? with
      | none => rw [hx] at ha; simp at ha
      | some x =>
        cases hy : (pairMap gs)[j]? with
        | none => rw [hy] at hb; simp at hb
        | some y =>
          rw [hx] at ha; rw [hy] at hb
          simp only [Option.map_some, Option.some.injEq] at ha hb
          subst ha; subst hb
          have hne := nodup_getElem?_ne (ksorted_nodup strictTot_int _ (pairMap_sorted gs)) hij
            (by rw [List.getElem?_map, hx]; rfl) (by rw [List.getElem?_map, hy]; rfl)
          have : x.1 ∈ [y.1] := hp.mem_iff.mp (by simp)
          exact hne (by simpa using this))
  refine ⟨d, ?_, e2, e3⟩
  unfold toPairwise
  simp only []
  rw [h1, Res.bind_ok, pairValues_eq A _ h2 h3 hn hf, Res.bind_ok]
  rw [pairLists, List.map_map] at e1
  exact e1

/-- The lists `to_maxshare` writes. -/
def shareLists (gs : List Group) : List (List Int × List Int) :=
  (neighborSets (entityMap gs)).map fun s => (s, classValues gs s)

theorem toMaxshare_ok (A : Arith F) (up : List (Option Int)) (n : BNode F) (gs : List Group) (h : HasGroups n gs)
    (hn : (gs.map (·.name)).Nodup) (hf : Fits (widestInt n) gs) :
    ∃ d, toMaxshare A up n = .ok d ∧ HasGroups d (groupsOf (findDomainId up) (shareLists gs)) ∧
      ∀ name, name ≠ chars! "groups" → d.get name = n.get name := by
  obtain ⟨ks, h1, h2, h3⟩ := h
  have hsets : ∀ s ∈ neighborSets (entityMap gs), s.Pairwise (· < ·) := by
    intro s hs
    obtain ⟨v, _, rfl⟩ := (mem_neighborSets gs s).mp hs
    exact setOf_sorted gs v
  obtain ⟨d, e1, e2, e3⟩ := finish_ok A (findDomainId up) (widestInt n) n (shareLists gs) (by
      intro e he v hv
      obtain ⟨s, hs, rfl⟩ := List.mem_map.mp he
      rcases List.mem_append.mp hv with hv | hv
      · obtain ⟨w, _, hw⟩ := (mem_neighborSets gs s).mp hs
        have hv' : v ∈ setOf (entityMap gs) w := by rw [hw]; exact hv
        obtain ⟨g, hg, hd, _⟩ := (mem_setOf gs w v).mp hv'
        exact hf g hg v (by simp [hd])
      · obtain ⟨⟨g, hg, hv'⟩, _⟩ := (mem_classValues gs s v).mp hv
        exact hf g hg v (by simp [hv']))
    (by
      intro i j a b hij ha hb hp
      simp only [shareLists, List.getElem?_map] at ha hb
      cases hx : (neighborSets (entityMap gs))[i]? with
      | none => rw [hx] at ha; simp at ha
      | some x =>
        cases hy : (neighborSets (entityMap gs))[j]? with
        | none => rw [hy] at hb; simp at hb
        | some y =>
          rw [hx] at ha; rw [hy] at hb
          simp only [Option.map_some, Option.some.injEq] at ha hb
          subst ha; subst hb
          have hne := nodup_getElem?_ne (neighborSets_nodup _) hij hx hy
          exact hne (sorted_ext x y (hsets x (List.mem_of_getElem? hx)) (hsets y (List.mem_of_getElem? hy))
            fun z => hp.mem_iff))
  refine ⟨d, ?_, e2, e3⟩
  unfold toMaxshare
  simp only []
  rw [h1, Res.bind_ok, entitySets_eq A _ h2 h3 hn hf, Res.bind_ok, setValues_eq A _ _ h2 h3 hn hf, Res.bind_ok]
  rw [shareLists, List.map_map] at e1
  have hfun : (fun s => makeGroup (F := F) (widestInt n) s
      ((mapGet ((allValues gs).foldl (addValue (entityMap gs)) []) s).getD [])) =
      ((fun e => makeGroup (widestInt n) e.1 e.2) ∘ fun s => (s, classValues gs s)) := by
    funext s
    rw [setValues_get]; rfl
  rw [hfun]
  exact e1

theorem shareLists_nodup (gs : List Group) (sets : List (List Int)) (h : sets.Nodup) :
    (sets.flatMap (classValues gs)).Nodup := by
  induction sets with
  | nil => simp
  | cons s sets ih =>
    rw [List.nodup_cons] at h
    rw [List.flatMap_cons, List.nodup_append]
    refine ⟨firstOcc_nodup _, ih h.2, ?_⟩
    rintro a ha b hb rfl
    obtain ⟨t, ht, hb⟩ := List.mem_flatMap.mp hb
    have h1 := ((mem_classValues gs s a).mp ha).2
    have h2 := ((mem_classValues gs t a).mp hb).2
    rw [h1] at h2
    exact h.1 (h2 ▸ ht)

/-! ### tests -/

theorem pairwiseLoop_eq (ks : List (Str × BNode F)) (gs : List Group) (hl : ks.length = gs.length)
    (h : ∀ (i : Nat) k g, ks[i]? = some k → gs[i]? = some g → IsGroup k g) :
    pairwiseLoop ks = .ok (gs.all fun g => decide (g.neighbors.length = 1)) := by
  induction ks generalizing gs with
  | nil =>
    have : gs = [] := List.eq_nil_of_length_eq_zero hl.symm
    subst this; rfl
  | cons k ks ih =>
    cases gs with
    | nil => simp at hl
    | cons g gs =>
      obtain ⟨_, t, u, h1, h2⟩ := h 0 k g rfl rfl
      unfold pairwiseLoop
      rw [h1, Res.bind_ok]
      have hne : (BNode.ints t g.neighbors : BNode F).numElements = g.neighbors.length := rfl
      by_cases hc : g.neighbors.length = 1
      · rw [if_pos (by rw [hne]; exact hc), ih gs (by simpa using hl) (fun i k g hk hg => h (i + 1) k g (by simpa using hk) (by simpa using hg))]
        simp [hc]
      · rw [if_neg (by rw [hne]; exact hc)]; simp [hc]

theorem isPairwise_eq (n : BNode F) (gs : List Group) (h : HasGroups n gs) :
    isPairwise n = .ok (gs.all fun g => decide (g.neighbors.length = 1)) := by
  obtain ⟨ks, h1, h2, h3⟩ := h
  unfold isPairwise
  rw [h1, Res.bind_ok]
  exact pairwiseLoop_eq ks gs h2 h3

theorem maxshareVals_spec (vs : List Int) (b : Bool) (ids : List Int) (seen : List Int) (hm : ∀ x, x ∈ ids ↔ x ∈ seen)
    (hb : b = true ↔ seen.Nodup) :
    (∀ x, x ∈ (maxshareVals vs (b, ids)).2 ↔ x ∈ seen ++ vs) ∧ ((maxshareVals vs (b, ids)).1 = true ↔ (seen ++ vs).Nodup) := by
  unfold maxshareVals
  induction vs generalizing b ids seen with
  | nil => simpa using ⟨hm, hb⟩
  | cons v vs ih =>
    have := ih (b && !ids.contains v) (setInsert v ids) (seen ++ [v]) (by
        intro x; rw [mem_setInsert, hm, List.mem_append, List.mem_singleton, or_comm])
      (by
        rw [Bool.and_eq_true, hb, List.nodup_append]
        constructor
        · rintro ⟨h1, h2⟩
          refine ⟨h1, by simp, ?_⟩
          rintro a ha c hc rfl
          have : a = v := by simpa using hc
          subst this
          simp [(hm a).mpr ha] at h2
        · rintro ⟨h1, _, h2⟩
          refine ⟨h1, ?_⟩
          have : v ∉ ids := fun hv => h2 v ((hm v).mp hv) v (by simp) rfl
          simpa using this)
    simpa [List.append_assoc] using this

theorem maxshareLoop_eq (A : Arith F) (ks : List (Str × BNode F)) (gs : List Group) (hl : ks.length = gs.length)
    (h : ∀ (i : Nat) k g, ks[i]? = some k → gs[i]? = some g → IsGroup k g)
    (hf : ∀ g ∈ gs, ∀ v ∈ g.values, int64.cast v = v) (b : Bool) (ids seen : List Int) (hm : ∀ x, x ∈ ids ↔ x ∈ seen)
    (hb : b = true ↔ seen.Nodup) :
    maxshareLoop A ks (b, ids) = .ok (decide (seen ++ gs.flatMap (·.values)).Nodup) := by
  induction ks generalizing gs b ids seen with
  | nil =>
    have : gs = [] := List.eq_nil_of_length_eq_zero hl.symm
    subst this
    simp only [maxshareLoop, List.flatMap_nil, List.append_nil]
    congr 1
    by_cases hs : seen.Nodup
    · rw [hb.mpr hs]; simp [hs]
    · have : b = false := by cases b with
        | false => rfl
        | true => exact absurd (hb.mp rfl) hs
      rw [this]; simp [hs]
  | cons k ks ih =>
    cases gs with
    | nil => simp at hl
    | cons g gs =>
      obtain ⟨_, t, u, h1, h2⟩ := h 0 k g rfl rfl
      unfold maxshareLoop
      by_cases hs : seen.Nodup
      · simp only [hb.mpr hs, if_true]
        rw [h2, Res.bind_ok, leafInts_fits A u _ (hf g (by simp)), Res.bind_ok]
        obtain ⟨m1, m2⟩ := maxshareVals_spec g.values true ids seen hm (by simp [hs])
        have := ih gs (by simpa using hl) (fun i k g hk hg => h (i + 1) k g (by simpa using hk) (by simpa using hg))
          (fun g hg => hf g (by simp [hg])) (maxshareVals g.values (true, ids)).1 (maxshareVals g.values (true, ids)).2
          (seen ++ g.values) m1 m2
        rw [List.append_assoc, ← List.flatMap_cons] at this
        exact this
      · have hbf : b = false := by cases b with
          | false => rfl
          | true => exact absurd (hb.mp rfl) hs
        rw [hbf]
        simp only [Bool.false_eq_true, if_false]
        congr 1
        have : ¬ (seen ++ (g :: gs).flatMap (·.values)).Nodup := fun hn => hs (List.nodup_append.mp hn).1
        exact (decide_eq_false this).symm

theorem isMaxshare_eq (A : Arith F) (n : BNode F) (gs : List Group) (h : HasGroups n gs)
    (hf : ∀ g ∈ gs, ∀ v ∈ g.values, int64.cast v = v) :
    isMaxshare A n = .ok (decide (gs.flatMap (·.values)).Nodup) := by
  obtain ⟨ks, h1, h2, h3⟩ := h
  unfold isMaxshare
  rw [h1, Res.bind_ok]
  have := maxshareLoop_eq A ks gs h2 h3 hf true [] [] (by simp) (by simp)
  rw [List.nil_append] at this
  exact this

end Conduit.Mesh
