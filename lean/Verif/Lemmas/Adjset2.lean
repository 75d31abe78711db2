import Verif.Lemmas.Adjset
/-
Adjacency sets: the contents of the maps the conversions make.
-/
namespace Conduit.Mesh
variable {F : Type}

theorem namedFor_canonical (dom : Int) (nb vs : List Int) : NamedFor dom ⟨canonicalName dom nb, nb, vs⟩ := by
  refine ⟨sortBy intLt (dom :: nb), (sortBy_sorted strictTot_int _).imp ?_, sortBy_perm _ _, rfl⟩
  intro a b h
  simp only [intLt, decide_eq_false_iff_not] at h
  omega

/-! ### pairwise -/

/-- Repetitions of a list. -/
def reps (k : Nat) (vs : List Int) : List Int := (List.replicate k vs).flatten

theorem pairGroup_sorted (nb vs : List Int) (m : List (Int × List Int)) (h : KSorted intLt m) :
    KSorted intLt (pairGroup nb vs m) := by
  unfold pairGroup
  induction nb generalizing m with
  | nil => exact h
  | cons d nb ih => exact ih _ (mapMod_sorted strictTot_int _ _ _ _ h)

theorem pairGroup_get (nb vs : List Int) (m : List (Int × List Int)) (h : KSorted intLt m) (d : Int) :
    mapGet (pairGroup nb vs m) d =
      if d ∈ nb then some ((mapGet m d).getD [] ++ reps (nb.count d) vs) else mapGet m d := by
  unfold pairGroup
  induction nb generalizing m with
  | nil => simp
  | cons e nb ih =>
    rw [List.foldl_cons, ih _ (mapMod_sorted strictTot_int _ _ _ _ h), mapGet_mod strictTot_int _ _ _ _ h]
    by_cases hed : e = d
    · subst hed
      simp only [if_true, List.mem_cons, true_or, List.count_cons_self, Option.getD_some]
      by_cases hm : e ∈ nb
      · rw [if_pos hm]
        simp [reps, List.replicate_succ]
      · rw [if_neg hm, List.count_eq_zero_of_not_mem hm]
        simp [reps]
    · have hde : d ≠ e := fun h => hed h.symm
      rw [if_neg hed, List.count_cons_of_ne hed]
      simp only [List.mem_cons, hde, false_or]

/-- The values shared with a domain, groups in order. -/
def pairList (l : List Group) (d : Int) : List Int := l.flatMap fun g => reps (g.neighbors.count d) g.values

theorem pairFold_sorted (l : List Group) (m : List (Int × List Int)) (h : KSorted intLt m) :
    KSorted intLt (l.foldl (fun m g => pairGroup g.neighbors g.values m) m) := by
  induction l generalizing m with
  | nil => exact h
  | cons g l ih => exact ih _ (pairGroup_sorted _ _ _ h)

theorem pairFold_get (l : List Group) (m : List (Int × List Int)) (h : KSorted intLt m) (d : Int) :
    mapGet (l.foldl (fun m g => pairGroup g.neighbors g.values m) m) d =
      if (∃ g ∈ l, d ∈ g.neighbors) then some ((mapGet m d).getD [] ++ pairList l d) else mapGet m d := by
  induction l generalizing m with
  | nil => simp
  | cons g l ih =>
    rw [List.foldl_cons, ih _ (pairGroup_sorted _ _ _ h), pairGroup_get _ _ _ h]
    have hz : d ∉ g.neighbors → reps (g.neighbors.count d) g.values = [] := by
      intro hn; rw [List.count_eq_zero_of_not_mem hn]; rfl
    by_cases h1 : d ∈ g.neighbors
    · rw [if_pos h1]
      by_cases h2 : ∃ g ∈ l, d ∈ g.neighbors
      · rw [if_pos h2, if_pos ⟨g, by simp, h1⟩]
        simp [pairList, List.append_assoc]
      · rw [if_neg h2, if_pos ⟨g, by simp, h1⟩]
        have : pairList l d = [] := by
          unfold pairList
          rw [List.flatMap_eq_nil_iff]
          intro x hx
          rw [List.count_eq_zero_of_not_mem (fun hd => h2 ⟨x, hx, hd⟩)]; rfl
        have hcons : pairList (g :: l) d = reps (g.neighbors.count d) g.values ++ pairList l d := List.flatMap_cons ..
        rw [hcons, this, List.append_nil]
    · rw [if_neg h1]
      have hcons : pairList (g :: l) d = pairList l d := by
        rw [pairList, List.flatMap_cons, hz h1]; rfl
      rw [hcons]
      have hiff : (∃ x ∈ g :: l, d ∈ x.neighbors) ↔ ∃ x ∈ l, d ∈ x.neighbors := by
        constructor
        · rintro ⟨x, hx, hd⟩
          rcases List.mem_cons.mp hx with rfl | hx
          · exact absurd hd h1
          · exact ⟨x, hx, hd⟩
        · rintro ⟨x, hx, hd⟩; exact ⟨x, by simp [hx], hd⟩
      simp only [hiff]

theorem pairMap_sorted (gs : List Group) : KSorted intLt (pairMap gs) :=
  pairFold_sorted _ [] List.Pairwise.nil

theorem mem_pairMap (gs : List Group) (d : Int) (vs : List Int) :
    (d, vs) ∈ pairMap gs ↔ (∃ g ∈ gs, d ∈ g.neighbors) ∧ vs = pairList (byName gs) d := by
  rw [mem_iff_mapGet strictTot_int _ (pairMap_sorted gs)]
  simp only
  unfold pairMap
  rw [pairFold_get _ [] List.Pairwise.nil]
  have hiff : (∃ g ∈ byName gs, d ∈ g.neighbors) ↔ ∃ g ∈ gs, d ∈ g.neighbors := by
    simp only [(byName_perm gs).mem_iff]
  simp only [hiff]
  by_cases h : ∃ g ∈ gs, d ∈ g.neighbors
  · simp [h, mapGet, eq_comm]
  · simp [h, mapGet]

theorem mem_reps (k : Nat) (vs : List Int) (v : Int) : v ∈ reps k vs ↔ 0 < k ∧ v ∈ vs := by
  unfold reps
  rw [List.mem_flatten]
  constructor
  · rintro ⟨l, hl, hv⟩
    rw [List.mem_replicate] at hl
    exact ⟨Nat.pos_of_ne_zero hl.1, hl.2 ▸ hv⟩
  · rintro ⟨h, hv⟩
    exact ⟨vs, List.mem_replicate.mpr ⟨by omega, rfl⟩, hv⟩

theorem mem_pairList (l : List Group) (d v : Int) : v ∈ pairList l d ↔ ∃ g ∈ l, d ∈ g.neighbors ∧ v ∈ g.values := by
  unfold pairList
  rw [List.mem_flatMap]
  constructor
  · rintro ⟨g, hg, hv⟩
    rw [mem_reps, List.count_pos_iff] at hv
    exact ⟨g, hg, hv⟩
  · rintro ⟨g, hg, hd, hv⟩
    exact ⟨g, hg, by rw [mem_reps, List.count_pos_iff]; exact ⟨hd, hv⟩⟩

theorem mem_pairList_byName (gs : List Group) (d v : Int) : v ∈ pairList (byName gs) d ↔ Shares gs d v := by
  rw [mem_pairList]
  simp only [(byName_perm gs).mem_iff]
  exact Iff.rfl

/-! ### maxshare -/

/-- All sets of the map are in order. -/
def SetsSorted (m : List (Int × List Int)) : Prop := ∀ v s, mapGet m v = some s → s.Pairwise (· < ·)

/-- The set of an entity. -/
def setOf (m : List (Int × List Int)) (v : Int) : List Int := (mapGet m v).getD []

theorem foldl_setInsert_mem (nb : List Int) (s : List Int) (d : Int) :
    d ∈ nb.foldl (fun s d => setInsert d s) s ↔ d ∈ s ∨ d ∈ nb := by
  induction nb generalizing s with
  | nil => simp
  | cons e nb ih =>
    rw [List.foldl_cons, ih, mem_setInsert, List.mem_cons]
    constructor
    · rintro ((h | h) | h) <;> simp [h]
    · rintro (h | h | h) <;> simp [h]

theorem foldl_setInsert_sorted (nb : List Int) (s : List Int) (h : s.Pairwise (· < ·)) :
    (nb.foldl (fun s d => setInsert d s) s).Pairwise (· < ·) := by
  induction nb generalizing s with
  | nil => exact h
  | cons e nb ih => exact ih _ (setInsert_sorted _ _ h)

theorem entityStep (nb vs : List Int) (m : List (Int × List Int)) (hm : KSorted intLt m) (hs : SetsSorted m) :
    KSorted intLt (vs.foldl (fun m v => mapMod intLt v [] (fun s => nb.foldl (fun s d => setInsert d s) s) m) m) ∧
    SetsSorted (vs.foldl (fun m v => mapMod intLt v [] (fun s => nb.foldl (fun s d => setInsert d s) s) m) m) ∧
    ∀ v, ((mapGet (vs.foldl (fun m v => mapMod intLt v [] (fun s => nb.foldl (fun s d => setInsert d s) s) m) m) v).isSome = true
        ↔ (mapGet m v).isSome = true ∨ v ∈ vs) ∧
      ∀ d, d ∈ setOf (vs.foldl (fun m v => mapMod intLt v [] (fun s => nb.foldl (fun s d => setInsert d s) s) m) m) v ↔
        d ∈ setOf m v ∨ (v ∈ vs ∧ d ∈ nb) := by
  induction vs generalizing m with
  | nil => exact ⟨hm, hs, fun v => ⟨by simp, fun d => by simp⟩⟩
  | cons w vs ih =>
    have hm' := mapMod_sorted strictTot_int w [] (fun s => nb.foldl (fun s d => setInsert d s) s) m hm
    have hget := mapGet_mod strictTot_int w [] (fun s => nb.foldl (fun s d => setInsert d s) s) m hm
    have hs' : SetsSorted (mapMod intLt w [] (fun s => nb.foldl (fun s d => setInsert d s) s) m) := by
      intro v s hv
      rw [hget] at hv
      split at hv
      · injection hv with hv
        rw [← hv]
        apply foldl_setInsert_sorted
        cases hw : mapGet m w with
        | none => simp
        | some s => simpa using hs w s hw
      · exact hs v s hv
    obtain ⟨h1, h2, h3⟩ := ih _ hm' hs'
    refine ⟨h1, h2, fun v => ?_⟩
    obtain ⟨h4, h5⟩ := h3 v
    rw [List.foldl_cons]
    refine ⟨h4.trans ?_, fun d => (h5 d).trans ?_⟩
    · rw [hget, List.mem_cons]
      by_cases hv : w = v
      · subst hv; simp
      · have : v ≠ w := fun h => hv h.symm
        simp [hv, this]
    · unfold setOf
      rw [hget, List.mem_cons]
      by_cases hv : w = v
      · subst hv
        simp only [if_true, Option.getD_some, foldl_setInsert_mem, true_or, true_and]
        constructor
        · rintro ((h | h) | h)
          · exact .inl h
          · exact .inr h
          · exact .inr h.2
        · rintro (h | h)
          · exact .inl (.inl h)
          · exact .inl (.inr h)
      · have : v ≠ w := fun h => hv h.symm
        simp [hv, this]

theorem entityFold (l : List Group) (m : List (Int × List Int)) (hm : KSorted intLt m) (hs : SetsSorted m) :
    KSorted intLt (l.foldl entityGroup m) ∧ SetsSorted (l.foldl entityGroup m) ∧
    ∀ v, ((mapGet (l.foldl entityGroup m) v).isSome = true ↔ (mapGet m v).isSome = true ∨ ∃ g ∈ l, v ∈ g.values) ∧
      ∀ d, d ∈ setOf (l.foldl entityGroup m) v ↔ d ∈ setOf m v ∨ ∃ g ∈ l, d ∈ g.neighbors ∧ v ∈ g.values := by
  induction l generalizing m with
  | nil => exact ⟨hm, hs, fun v => ⟨by simp, fun d => by simp⟩⟩
  | cons g l ih =>
    obtain ⟨a1, a2, a3⟩ := entityStep g.neighbors g.values m hm hs
    obtain ⟨b1, b2, b3⟩ := ih (entityGroup m g) a1 a2
    refine ⟨b1, b2, fun v => ⟨(b3 v).1.trans ?_, fun d => ((b3 v).2 d).trans ?_⟩⟩
    · have := (a3 v).1
      unfold entityGroup
      rw [this]
      constructor
      · rintro ((h | h) | ⟨x, hx, h⟩)
        · exact .inl h
        · exact .inr ⟨g, by simp, h⟩
        · exact .inr ⟨x, by simp [hx], h⟩
      · rintro (h | ⟨x, hx, h⟩)
        · exact .inl (.inl h)
        · rcases List.mem_cons.mp hx with rfl | hx
          · exact .inl (.inr h)
          · exact .inr ⟨x, hx, h⟩
    · have := (a3 v).2 d
      unfold entityGroup
      rw [this]
      constructor
      · rintro ((h | ⟨h1, h2⟩) | ⟨x, hx, h⟩)
        · exact .inl h
        · exact .inr ⟨g, by simp, h2, h1⟩
        · exact .inr ⟨x, by simp [hx], h⟩
      · rintro (h | ⟨x, hx, h1, h2⟩)
        · exact .inl (.inl h)
        · rcases List.mem_cons.mp hx with rfl | hx
          · exact .inl (.inr ⟨h2, h1⟩)
          · exact .inr ⟨x, hx, h1, h2⟩

theorem entityMap_sorted (gs : List Group) : KSorted intLt (entityMap gs) :=
  (entityFold (byName gs) [] List.Pairwise.nil (by intro v s h; simp [mapGet] at h)).1

theorem entityMap_sets (gs : List Group) : SetsSorted (entityMap gs) :=
  (entityFold (byName gs) [] List.Pairwise.nil (by intro v s h; simp [mapGet] at h)).2.1

theorem entityMap_some (gs : List Group) (v : Int) :
    (mapGet (entityMap gs) v).isSome = true ↔ ∃ g ∈ gs, v ∈ g.values := by
  have := ((entityFold (byName gs) [] List.Pairwise.nil (by intro v s h; simp [mapGet] at h)).2.2 v).1
  simp only [(byName_perm gs).mem_iff] at this
  simpa [mapGet, entityMap] using this

/-- The set of an entity holds the domains it is shared with. -/
theorem mem_setOf (gs : List Group) (v d : Int) : d ∈ setOf (entityMap gs) v ↔ Shares gs d v := by
  have := ((entityFold (byName gs) [] List.Pairwise.nil (by intro v s h; simp [mapGet] at h)).2.2 v).2 d
  simp only [(byName_perm gs).mem_iff] at this
  have h0 : setOf [] v = [] := rfl
  rw [h0] at this
  simpa [entityMap, Shares] using this

theorem setOf_sorted (gs : List Group) (v : Int) : (setOf (entityMap gs) v).Pairwise (· < ·) := by
  unfold setOf
  cases h : mapGet (entityMap gs) v with
  | none => simp
  | some s => simpa using entityMap_sets gs v s h

/-- Two entities have the same set if they are shared with the same domains. -/
theorem setOf_eq (gs hs : List Group) (v w : Int) (h : ∀ d, Shares gs d v ↔ Shares hs d w) :
    setOf (entityMap gs) v = setOf (entityMap hs) w :=
  sorted_ext _ _ (setOf_sorted gs v) (setOf_sorted hs w) fun d => by rw [mem_setOf, mem_setOf, h]

theorem neighborFold (l : List (Int × List Int)) (sets : List (List Int)) (hn : sets.Nodup) :
    (l.foldl (fun sets e => if sets.contains e.2 then sets else sets ++ [e.2]) sets).Nodup ∧
    ∀ s, s ∈ l.foldl (fun sets e => if sets.contains e.2 then sets else sets ++ [e.2]) sets ↔
      s ∈ sets ∨ ∃ e ∈ l, e.2 = s := by
  induction l generalizing sets with
  | nil => exact ⟨hn, fun s => by simp⟩
  | cons e l ih =>
    rw [List.foldl_cons]
    by_cases hc : e.2 ∈ sets
    · have hc' : sets.contains e.2 = true := by simpa using hc
      rw [if_pos hc']
      obtain ⟨h1, h2⟩ := ih sets hn
      refine ⟨h1, fun s => (h2 s).trans ?_⟩
      constructor
      · rintro (h | ⟨x, hx, h⟩)
        · exact .inl h
        · exact .inr ⟨x, by simp [hx], h⟩
      · rintro (h | ⟨x, hx, h⟩)
        · exact .inl h
        · rcases List.mem_cons.mp hx with rfl | hx
          · exact .inl (h ▸ hc)
          · exact .inr ⟨x, hx, h⟩
    · have hc' : ¬ sets.contains e.2 = true := by simpa using hc
      rw [if_neg hc']
      obtain ⟨h1, h2⟩ := ih (sets ++ [e.2]) (by
        rw [List.nodup_append]
        exact ⟨hn, by simp, by intro a ha b hb; simp at hb; subst hb; rintro rfl; exact hc ha⟩)
      refine ⟨h1, fun s => (h2 s).trans ?_⟩
      rw [List.mem_append, List.mem_singleton]
      constructor
      · rintro ((h | h) | ⟨x, hx, h⟩)
        · exact .inl h
        · exact .inr ⟨e, by simp, h.symm⟩
        · exact .inr ⟨x, by simp [hx], h⟩
      · rintro (h | ⟨x, hx, h⟩)
        · exact .inl (.inl h)
        · rcases List.mem_cons.mp hx with rfl | hx
          · exact .inl (.inr h.symm)
          · exact .inr ⟨x, hx, h⟩

theorem neighborSets_nodup (m : List (Int × List Int)) : (neighborSets m).Nodup :=
  (neighborFold m [] List.nodup_nil).1

theorem mem_neighborSets (gs : List Group) (s : List Int) :
    s ∈ neighborSets (entityMap gs) ↔ ∃ v, (∃ g ∈ gs, v ∈ g.values) ∧ setOf (entityMap gs) v = s := by
  unfold neighborSets
  rw [(neighborFold _ [] List.nodup_nil).2 s]
  simp only [List.not_mem_nil, false_or]
  constructor
  · rintro ⟨⟨v, x⟩, he, rfl⟩
    have h := (mem_iff_mapGet strictTot_int _ (entityMap_sorted gs) (v, x)).mp he
    simp only at h
    exact ⟨v, (entityMap_some gs v).mp (by rw [h]; rfl), by rw [setOf, h]; rfl⟩
  · rintro ⟨v, hg, hs⟩
    have h := (entityMap_some gs v).mpr hg
    obtain ⟨x, hx⟩ := Option.isSome_iff_exists.mp h
    refine ⟨(v, x), (mem_iff_mapGet strictTot_int _ (entityMap_sorted gs) (v, x)).mpr hx, ?_⟩
    rw [setOf, hx] at hs
    exact hs

/-! ### the values of a set -/

/-- The elements of a list in the order in which they come first. -/
def firstOcc (l : List Int) : List Int := l.foldl (fun vs v => if vs.contains v then vs else vs ++ [v]) []

theorem addFold_sorted (E : List (Int × List Int)) (l : List Int) (m : List (List Int × List Int)) (hm : KSorted setLt m) :
    KSorted setLt (l.foldl (addValue E) m) := by
  induction l generalizing m with
  | nil => exact hm
  | cons v l ih => exact ih _ (mapMod_sorted strictTot_set _ _ _ _ hm)

theorem addFold_get (E : List (Int × List Int)) (l : List Int) (m : List (List Int × List Int)) (hm : KSorted setLt m)
    (s : List Int) :
    (mapGet (l.foldl (addValue E) m) s).getD [] =
      (l.filter fun v => decide (setOf E v = s)).foldl (fun vs v => if vs.contains v then vs else vs ++ [v])
        ((mapGet m s).getD []) := by
  induction l generalizing m with
  | nil => rfl
  | cons v l ih =>
    have hms : KSorted setLt (addValue E m v) := mapMod_sorted strictTot_set _ _ _ _ hm
    rw [List.foldl_cons, ih _ hms, addValue, mapGet_mod strictTot_set _ _ _ _ hm,
      List.filter_cons]
    have hv : (mapGet E v).getD [] = setOf E v := rfl
    rw [hv]
    by_cases h : setOf E v = s
    · have hd : decide (setOf E v = s) = true := by simpa using h
      rw [if_pos h, hd]
      simp only [if_true, List.foldl_cons, Option.getD_some, h]
    · have hd : decide (setOf E v = s) = false := by simpa using h
      rw [if_neg h, hd]
      simp

/-- The values of a group of the result. -/
def classValues (gs : List Group) (s : List Int) : List Int :=
  firstOcc ((allValues gs).filter fun v => decide (setOf (entityMap gs) v = s))

theorem setValues_get (gs : List Group) (s : List Int) :
    (mapGet ((allValues gs).foldl (addValue (entityMap gs)) []) s).getD [] = classValues gs s := by
  rw [addFold_get _ _ [] List.Pairwise.nil]
  rfl

theorem pushFold (l acc : List Int) (h : acc.Nodup) :
    (l.foldl (fun vs v => if vs.contains v then vs else vs ++ [v]) acc).Nodup ∧
    ∀ v, v ∈ l.foldl (fun vs v => if vs.contains v then vs else vs ++ [v]) acc ↔ v ∈ acc ∨ v ∈ l := by
  induction l generalizing acc with
  | nil => exact ⟨h, fun v => by simp⟩
  | cons w l ih =>
    rw [List.foldl_cons]
    by_cases hc : w ∈ acc
    · have hc' : acc.contains w = true := by simpa using hc
      rw [if_pos hc']
      obtain ⟨h1, h2⟩ := ih acc h
      refine ⟨h1, fun v => (h2 v).trans ?_⟩
      rw [List.mem_cons]
      constructor
      · rintro (h | h) <;> simp [h]
      · rintro (h | h | h)
        · exact .inl h
        · exact .inl (h ▸ hc)
        · exact .inr h
    · have hc' : ¬ acc.contains w = true := by simpa using hc
      rw [if_neg hc']
      obtain ⟨h1, h2⟩ := ih (acc ++ [w]) (by
        rw [List.nodup_append]
        exact ⟨h, by simp, by intro a ha b hb; simp at hb; subst hb; rintro rfl; exact hc ha⟩)
      refine ⟨h1, fun v => (h2 v).trans ?_⟩
      rw [List.mem_append, List.mem_singleton, List.mem_cons]
      constructor
      · rintro ((h | h) | h) <;> simp [h]
      · rintro (h | h | h) <;> simp [h]

theorem firstOcc_nodup (l : List Int) : (firstOcc l).Nodup := (pushFold l [] List.nodup_nil).1

theorem mem_firstOcc (l : List Int) (v : Int) : v ∈ firstOcc l ↔ v ∈ l := by
  have := (pushFold l [] List.nodup_nil).2 v
  simpa [firstOcc] using this

theorem mem_allValues (gs : List Group) (v : Int) : v ∈ allValues gs ↔ ∃ g ∈ gs, v ∈ g.values := by
  unfold allValues
  rw [List.mem_flatMap]
  simp only [(byName_perm gs).mem_iff]

theorem mem_classValues (gs : List Group) (s : List Int) (v : Int) :
    v ∈ classValues gs s ↔ (∃ g ∈ gs, v ∈ g.values) ∧ setOf (entityMap gs) v = s := by
  unfold classValues
  rw [mem_firstOcc, List.mem_filter, mem_allValues]
  simp

end Conduit.Mesh
