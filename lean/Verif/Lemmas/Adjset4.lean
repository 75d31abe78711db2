import Verif.Lemmas.Adjset3
/-
Adjacency sets of two domains: the converted groups list the shared entities in the same order.
-/
namespace Conduit.Mesh
variable {F : Type}

theorem Matching.append {r : Int → Int → Prop} {a b c d : List Int} (h1 : Matching r a b) (h2 : Matching r c d) :
    Matching r (a ++ c) (b ++ d) := by
  induction h1 with
  | nil => exact h2
  | cons h _ ih => exact .cons h ih

theorem reps_count (l : List Int) (hn : l.Nodup) (d : Int) (vs : List Int) :
    reps (l.count d) vs = if d ∈ l then vs else [] := by
  unfold reps
  by_cases h : d ∈ l
  · rw [if_pos h, List.Nodup.count hn, if_pos h]; simp
  · rw [if_neg h, List.count_eq_zero.mpr h]; rfl

/-- With distinct neighbors: the values of the groups that list `d`. -/
theorem pairList_filter (l : List Group) (d : Int) (hn : ∀ g ∈ l, g.neighbors.Nodup) :
    pairList l d = (l.filter fun g => decide (d ∈ g.neighbors)).flatMap (·.values) := by
  unfold pairList
  induction l with
  | nil => rfl
  | cons g l ih =>
    rw [List.flatMap_cons, reps_count _ (hn g (by simp)), ih (fun g hg => hn g (by simp [hg])), List.filter_cons]
    by_cases h : d ∈ g.neighbors
    · simp [h]
    · simp [h]

theorem byName_names (gs : List Group) (hn : (gs.map (·.name)).Nodup) :
    ((byName gs).map (·.name)).Pairwise fun a b => Matset.strLt a b = true := by
  have h1 : (byName gs).map (·.name) = sortBy Matset.strLt (gs.map (·.name)) := by
    unfold byName; rw [← sortBy_map]
  rw [h1]
  have h2 := sortBy_sorted strictTot_str (gs.map (·.name))
  have h3 : (sortBy Matset.strLt (gs.map (·.name))).Nodup := (sortBy_perm _ _).nodup_iff.mpr hn
  rw [List.nodup_iff_pairwise_ne] at h3
  exact (h2.and h3).imp fun {a b} h => strictTot_str.total (fun e => h.2 e.symm) h.1

theorem strSorted_ext (s t : List Str) (hs : s.Pairwise fun a b => Matset.strLt a b = true)
    (ht : t.Pairwise fun a b => Matset.strLt a b = true) (h : ∀ x, x ∈ s ↔ x ∈ t) : s = t := by
  have nd : ∀ {s : List Str}, (s.Pairwise fun a b => Matset.strLt a b = true) → s.Nodup := by
    intro s hs
    rw [List.nodup_iff_pairwise_ne]
    exact hs.imp fun {a b} hab he => by rw [he, strictTot_str.irrefl] at hab; simp at hab
  refine List.Perm.eq_of_pairwise ?_ hs ht ((List.perm_ext_iff_of_nodup (nd hs) (nd ht)).mpr h)
  intro a b _ _ h1 h2
  have := strictTot_str.trans h1 h2
  rw [strictTot_str.irrefl] at this; simp at this

/-- Lists of groups with the same names, groups of the same name matching. -/
theorem matching_flatMap (r : Int → Int → Prop) (l m : List Group) (hnm : l.map (·.name) = m.map (·.name))
    (h : ∀ (g : Group), g ∈ l → ∀ h' ∈ m, g.name = h'.name → Matching r g.values h'.values) :
    Matching r (l.flatMap (·.values)) (m.flatMap (·.values)) := by
  induction l generalizing m with
  | nil =>
    cases m with
    | nil => exact .nil
    | cons => simp at hnm
  | cons g l ih =>
    cases m with
    | nil => simp at hnm
    | cons g' m =>
      simp only [List.map_cons, List.cons.injEq] at hnm
      rw [List.flatMap_cons, List.flatMap_cons]
      exact (h g (by simp) g' (by simp) hnm.1).append
        (ih m hnm.2 fun a ha b hb => h a (by simp [ha]) b (by simp [hb]))

theorem name_inj {gs : List Group} (hn : (gs.map (·.name)).Nodup) {g h : Group} (hg : g ∈ gs) (hh : h ∈ gs)
    (he : g.name = h.name) : g = h := by
  obtain ⟨i, hi⟩ := List.mem_iff_getElem?.mp hg
  obtain ⟨j, hj⟩ := List.mem_iff_getElem?.mp hh
  have hij : i = j := by
    refine (List.getElem?_inj (l := gs.map (·.name)) ?_ hn).mp ?_
    · rw [List.length_map]; exact getElem?_lt hi
    · rw [List.getElem?_map, List.getElem?_map, hi, hj]; simp [he]
  subst hij
  rw [hi] at hj
  exact Option.some.inj hj

theorem pair_matching (r : Int → Int → Prop) (a b : Int) (gs hs : List Group)
    (hng : (gs.map (·.name)).Nodup) (hnh : (hs.map (·.name)).Nodup)
    (hdg : ∀ g ∈ gs, g.neighbors.Nodup) (hdh : ∀ h ∈ hs, h.neighbors.Nodup)
    (h1 : ∀ g ∈ gs, b ∈ g.neighbors → ∃ h ∈ hs, h.name = g.name ∧ a ∈ h.neighbors ∧ Matching r g.values h.values)
    (h2 : ∀ h ∈ hs, a ∈ h.neighbors → ∃ g ∈ gs, g.name = h.name ∧ b ∈ g.neighbors) :
    Matching r (pairList (byName gs) b) (pairList (byName hs) a) := by
  rw [pairList_filter _ _ (fun g hg => hdg g ((byName_perm gs).mem_iff.mp hg)),
    pairList_filter _ _ (fun g hg => hdh g ((byName_perm hs).mem_iff.mp hg))]
  have mem : ∀ (gs : List Group) (b : Int) (g : Group), (g ∈ (byName gs).filter fun g => decide (b ∈ g.neighbors)) ↔
      g ∈ gs ∧ b ∈ g.neighbors := by
    intro gs b g; rw [List.mem_filter, (byName_perm gs).mem_iff]; simp
  apply matching_flatMap
  · apply strSorted_ext
    · exact (byName_names gs hng).sublist ((List.filter_sublist).map _)
    · exact (byName_names hs hnh).sublist ((List.filter_sublist).map _)
    · intro x
      simp only [List.mem_map, mem]
      constructor
      · rintro ⟨g, ⟨hg, hb⟩, rfl⟩
        obtain ⟨h, hh, he, ha, _⟩ := h1 g hg hb
        exact ⟨h, ⟨hh, ha⟩, he⟩
      · rintro ⟨g, ⟨hg, hb⟩, rfl⟩
        obtain ⟨h, hh, he, ha⟩ := h2 g hg hb
        exact ⟨h, ⟨hh, ha⟩, he⟩
  · intro g hg h hh he
    rw [mem] at hg hh
    obtain ⟨h', hh', he', _, hm⟩ := h1 g hg.1 hg.2
    have : h' = h := name_inj hnh hh' hh.1 (he'.trans he)
    exact this ▸ hm

/-! ### maxshare -/

/-- Adding values that are there already changes nothing. -/
theorem push_all (l acc : List Int) (h : ∀ v ∈ l, v ∈ acc) :
    l.foldl (fun vs v => if vs.contains v then vs else vs ++ [v]) acc = acc := by
  induction l with
  | nil => rfl
  | cons v l ih =>
    rw [List.foldl_cons]
    have : acc.contains v = true := by simpa using h v (by simp)
    rw [if_pos this]
    exact ih fun v hv => h v (by simp [hv])

theorem push_nodup (l acc : List Int) (h : (acc ++ l).Nodup) :
    l.foldl (fun vs v => if vs.contains v then vs else vs ++ [v]) acc = acc ++ l := by
  induction l generalizing acc with
  | nil => simp
  | cons v l ih =>
    rw [List.foldl_cons]
    have : ¬ acc.contains v = true := by
      intro hc
      have hv : v ∈ acc := by simpa using hc
      exact (List.nodup_append.mp h).2.2 v hv v (by simp) rfl
    rw [if_neg this, ih]
    · simp
    · simpa using h

/-- If every group holds all of the entities of a class or none, the class is listed in the order of one group. -/
theorem firstOcc_class (P : Int → Bool) (l : List Group) (hn : ∀ g ∈ l, g.values.Nodup)
    (h : ∀ g ∈ l, (∀ g' ∈ l, ∀ v ∈ g'.values, P v = true → v ∈ g.values) ∨ ∀ v ∈ g.values, P v = false) :
    firstOcc ((l.flatMap (·.values)).filter P) = [] ∨
      ∃ g ∈ l, firstOcc ((l.flatMap (·.values)).filter P) = g.values.filter P := by
  induction l with
  | nil => exact .inl rfl
  | cons g l ih =>
    rw [List.flatMap_cons, List.filter_append]
    unfold firstOcc
    rw [List.foldl_append]
    have hp := push_nodup (g.values.filter P) [] (by rw [List.nil_append]; exact List.Nodup.sublist List.filter_sublist (hn g (by simp)))
    rw [List.nil_append] at hp
    rw [hp]
    rcases h g (by simp) with hall | hnone
    · refine .inr ⟨g, by simp, push_all _ _ ?_⟩
      intro v hv
      obtain ⟨hv, hP⟩ := List.mem_filter.mp hv
      obtain ⟨g', hg', hv'⟩ := List.mem_flatMap.mp hv
      exact List.mem_filter.mpr ⟨hall g' (by simp [hg']) v hv' hP, hP⟩
    · have : g.values.filter P = [] := List.filter_eq_nil_iff.mpr fun v hv => by simp [hnone v hv]
      rw [this]
      rcases ih (fun g hg => hn g (by simp [hg])) (fun g hg => (h g (by simp [hg])).imp
        (fun ha g' hg' => ha g' (by simp [hg'])) id) with e | ⟨g', hg', e⟩
      · exact .inl e
      · exact .inr ⟨g', by simp [hg'], e⟩

/-- One group for each neighbor, its entities ascending by `gid`: so is each class. -/
theorem classValues_ascending (gid : Int → Int) (gs : List Group) (h1 : ∀ g ∈ gs, ∃ d, g.neighbors = [d])
    (h2 : ∀ g ∈ gs, ∀ h ∈ gs, g.neighbors = h.neighbors → g = h)
    (h3 : ∀ g ∈ gs, (g.values.map gid).Pairwise (· < ·)) (s : List Int) :
    ((classValues gs s).map gid).Pairwise (· < ·) := by
  have hnd : ∀ g ∈ gs, g.values.Nodup := by
    intro g hg
    rw [List.nodup_iff_pairwise_ne]
    have := h3 g hg
    rw [List.pairwise_map] at this
    exact this.imp fun {a b} hab he => by rw [he] at hab; omega
  have key := firstOcc_class (fun v => decide (setOf (entityMap gs) v = s)) (byName gs)
    (fun g hg => hnd g ((byName_perm gs).mem_iff.mp hg)) ?_
  · unfold classValues allValues
    rcases key with e | ⟨g, hg, e⟩
    · rw [e]; simp
    · rw [e]
      exact (h3 g ((byName_perm gs).mem_iff.mp hg)).sublist (List.filter_sublist.map _)
  · intro g hg
    have hg := (byName_perm gs).mem_iff.mp hg
    obtain ⟨d, hd⟩ := h1 g hg
    by_cases hc : d ∈ s
    · left
      intro g' hg' v hv hP
      have hP : setOf (entityMap gs) v = s := by simpa using hP
      rw [← hP, mem_setOf] at hc
      obtain ⟨g2, hg2, hd2, hv2⟩ := hc
      obtain ⟨d2, e2⟩ := h1 g2 hg2
      have : d = d2 := by rw [e2] at hd2; simpa using hd2
      have : g2 = g := h2 g2 hg2 g hg (by rw [e2, hd, this])
      exact this ▸ hv2
    · right
      intro v hv
      refine decide_eq_false fun hP => hc ?_
      rw [← hP, mem_setOf]
      exact ⟨g, hg, by simp [hd], hv⟩

theorem sorted_nodup {l : List Int} (h : l.Pairwise (· < ·)) : l.Nodup := by
  rw [List.nodup_iff_pairwise_ne]; exact h.imp fun {a b} hab he => by omega

/-- The counterpart of a class in another domain. -/
theorem share_matching (a b : Int) (ida idb : Int → Int) (gs hs : List Group)
    (hna : ∀ v, ¬ Shares gs a v) (hnb : ∀ w, ¬ Shares hs b w)
    (g1 : ∀ g ∈ gs, ∃ d, g.neighbors = [d]) (g2 : ∀ g ∈ gs, ∀ h ∈ gs, g.neighbors = h.neighbors → g = h)
    (g3 : ∀ g ∈ gs, (g.values.map ida).Pairwise (· < ·))
    (k1 : ∀ g ∈ hs, ∃ d, g.neighbors = [d]) (k2 : ∀ g ∈ hs, ∀ h ∈ hs, g.neighbors = h.neighbors → g = h)
    (k3 : ∀ g ∈ hs, (g.values.map idb).Pairwise (· < ·))
    (hab : ∀ v, Shares gs b v → ∃ w, idb w = ida v ∧ Shares hs a w ∧ ∀ d, d ≠ a → d ≠ b → (Shares gs d v ↔ Shares hs d w))
    (hba : ∀ w, Shares hs a w → ∃ v, ida v = idb w ∧ Shares gs b v ∧ ∀ d, d ≠ a → d ≠ b → (Shares gs d v ↔ Shares hs d w))
    (s : List Int) (hs1 : s ∈ neighborSets (entityMap gs)) (hb : b ∈ s) :
    ∃ s', s' ∈ neighborSets (entityMap hs) ∧ (a :: s).Perm (b :: s') ∧
      (classValues gs s).map ida = (classValues hs s').map idb := by
  obtain ⟨v0, ⟨g0, hg0, hv0⟩, e0⟩ := (mem_neighborSets gs s).mp hs1
  subst e0
  have hb0 := (mem_setOf gs v0 b).mp hb
  obtain ⟨w0, hid0, hw0, hd0⟩ := hab v0 hb0
  have hab' : a ≠ b := fun e => hna v0 (e ▸ hb0)
  have mem0 : ∀ w, (∃ g ∈ hs, w ∈ g.values) ∧ setOf (entityMap hs) w = setOf (entityMap hs) w0 ↔
      Shares hs a w ∧ ∀ d, d ≠ a → d ≠ b → (Shares hs d w ↔ Shares hs d w0) := by
    intro w
    constructor
    · rintro ⟨_, e⟩
      have : ∀ d, Shares hs d w ↔ Shares hs d w0 := fun d => by rw [← mem_setOf, ← mem_setOf, e]
      exact ⟨(this a).mpr hw0, fun d _ _ => this d⟩
    · rintro ⟨h1, h2⟩
      obtain ⟨g, hg, hd, hv⟩ := id h1
      refine ⟨⟨g, hg, hv⟩, setOf_eq hs hs w w0 fun d => ?_⟩
      by_cases ea : d = a
      · rw [ea]; exact ⟨fun _ => hw0, fun _ => h1⟩
      by_cases eb : d = b
      · rw [eb]; exact ⟨fun h => absurd h (hnb w), fun h => absurd h (hnb w0)⟩
      exact h2 d ea eb
  have memv : ∀ v, (∃ g ∈ gs, v ∈ g.values) ∧ setOf (entityMap gs) v = setOf (entityMap gs) v0 ↔
      Shares gs b v ∧ ∀ d, d ≠ a → d ≠ b → (Shares gs d v ↔ Shares gs d v0) := by
    intro w
    constructor
    · rintro ⟨_, e⟩
      have : ∀ d, Shares gs d w ↔ Shares gs d v0 := fun d => by rw [← mem_setOf, ← mem_setOf, e]
      exact ⟨(this b).mpr hb0, fun d _ _ => this d⟩
    · rintro ⟨h1, h2⟩
      obtain ⟨g, hg, hd, hv⟩ := id h1
      refine ⟨⟨g, hg, hv⟩, setOf_eq gs gs w v0 fun d => ?_⟩
      by_cases eb : d = b
      · rw [eb]; exact ⟨fun _ => hb0, fun _ => h1⟩
      by_cases ea : d = a
      · rw [ea]; exact ⟨fun h => absurd h (hna w), fun h => absurd h (hna v0)⟩
      exact h2 d ea eb
  refine ⟨setOf (entityMap hs) w0, ?_, ?_, ?_⟩
  · obtain ⟨g, hg, _, hv⟩ := id hw0
    exact (mem_neighborSets hs _).mpr ⟨w0, ⟨g, hg, hv⟩, rfl⟩
  · refine (List.perm_ext_iff_of_nodup ?_ ?_).mpr ?_
    · rw [List.nodup_cons, mem_setOf]; exact ⟨hna v0, sorted_nodup (setOf_sorted gs v0)⟩
    · rw [List.nodup_cons, mem_setOf]; exact ⟨hnb w0, sorted_nodup (setOf_sorted hs w0)⟩
    · intro d
      rw [List.mem_cons, List.mem_cons, mem_setOf, mem_setOf]
      by_cases ea : d = a
      · subst ea; simp [hw0]
      by_cases eb : d = b
      · subst eb; simp [hb0]
      simp [ea, eb, hd0 d ea eb]
  · apply sorted_ext _ _ (classValues_ascending ida gs g1 g2 g3 _) (classValues_ascending idb hs k1 k2 k3 _)
    intro x
    simp only [List.mem_map, mem_classValues, mem0, memv]
    constructor
    · rintro ⟨v, ⟨hv, hd⟩, rfl⟩
      obtain ⟨w, h1, h2, h3⟩ := hab v hv
      exact ⟨w, ⟨h2, fun d ea eb => by rw [← h3 d ea eb, hd d ea eb, hd0 d ea eb]⟩, h1⟩
    · rintro ⟨w, ⟨hw, hd⟩, rfl⟩
      obtain ⟨v, h1, h2, h3⟩ := hba w hw
      exact ⟨v, ⟨h2, fun d ea eb => by rw [h3 d ea eb, hd d ea eb, hd0 d ea eb]⟩, h1⟩

end Conduit.Mesh
