import Verif.Lemmas.MeshMain
/-
What the conversions read from the trees of uniform, rectilinear and explicit coordsets.
-/
namespace Conduit.Mesh
variable {F : Type}

theorem baseAxes_congr (l m : List Str) (h : ∀ k, k ∈ l ↔ k ∈ m) : baseAxes l = baseAxes m := by
  unfold baseAxes
  simp only [h]

theorem axes_of_names (l names : List Str) (h : ∀ k, k ∈ l ↔ k ∈ names) (hn : AxisNames names) :
    ((baseAxes l).filter fun b => l.contains b) = names := by
  rw [baseAxes_congr l names h]
  have hc : (fun b => l.contains b) = (fun b => names.contains b) := by
    funext b
    by_cases hb : b ∈ names
    · simp [hb, (h b).mpr hb]
    · simp [hb, mt (h b).mp hb]
  rw [hc]
  obtain ⟨s, hs, keep, rfl⟩ := hn
  simp only [systems, List.mem_cons, List.not_mem_nil, or_false] at hs
  rcases hs with rfl | rfl | rfl | rfl
  · cases h1 : keep (chars! "x") <;> cases h2 : keep (chars! "y") <;> cases h3 : keep (chars! "z") <;>
      simp only [List.filter_cons, List.filter_nil, h1, h2, h3, if_true, Bool.false_eq_true, if_false] <;> decide
  · cases h1 : keep (chars! "z") <;> cases h2 : keep (chars! "r") <;>
      simp only [List.filter_cons, List.filter_nil, h1, h2, if_true, Bool.false_eq_true, if_false] <;> decide
  · cases h1 : keep (chars! "r") <;> cases h2 : keep (chars! "theta") <;> cases h3 : keep (chars! "phi") <;>
      simp only [List.filter_cons, List.filter_nil, h1, h2, h3, if_true, Bool.false_eq_true, if_false] <;> decide
  · cases h1 : keep (chars! "i") <;> cases h2 : keep (chars! "j") <;> cases h3 : keep (chars! "k") <;>
      simp only [List.filter_cons, List.filter_nil, h1, h2, h3, if_true, Bool.false_eq_true, if_false] <;> decide

theorem axisNames_mem (names : List Str) (hn : AxisNames names) (a : Str) (ha : a ∈ names) :
    a ∈ cartesianAxes ++ cylindricalAxes ++ sphericalAxes ++ logicalAxes := by
  obtain ⟨s, hs, keep, rfl⟩ := hn
  have h1 := (List.mem_filter.mp ha).1
  have : ∀ s ∈ systems, ∀ a ∈ s, a ∈ cartesianAxes ++ cylindricalAxes ++ sphericalAxes ++ logicalAxes := by decide
  exact this s hs a h1

theorem axisNames_length (names : List Str) (hn : AxisNames names) : names.length ≤ 3 := by
  obtain ⟨s, hs, keep, rfl⟩ := hn
  have : ∀ s ∈ systems, s.length ≤ 3 := by decide
  exact Nat.le_trans (List.length_filter_le _ _) (this s hs)

theorem axes_named (n c : BNode F) (ty child : Str) (names : List Str) (ht : n.get (chars! "type") = .ok (.str ty))
    (hch : axesChild n ty = child) (hc : n.get child = .ok c) (hn : AxisNames names)
    (h : ∀ k, k ∈ (c.kids.map (·.1)).map axisName ↔ k ∈ names) : axes n = .ok names := by
  unfold axes
  rw [ht, Res.bind_ok]
  simp only [BNode.asString, Res.bind_ok]
  rw [hch, hc, Res.bind_ok]
  rw [List.map_map] at h
  exact congrArg Res.ok (axes_of_names _ names h hn)

theorem map_axisName (l names : List Str) (hn : AxisNames names) (h : ∀ k, k ∈ l ↔ k ∈ names) (k : Str) :
    k ∈ l.map axisName ↔ k ∈ names := by
  rw [List.mem_map]
  constructor
  · rintro ⟨a, ha, rfl⟩
    have := (h a).mp ha
    rw [tables_axisName a (axisNames_mem names hn a this)]; exact this
  · intro hk
    exact ⟨k, (h k).mpr hk, tables_axisName k (axisNames_mem names hn k hk)⟩

theorem map_axisName_d (l names : List Str) (hn : AxisNames names) (h : ∀ k, k ∈ l ↔ k ∈ names.map ('d' :: ·)) (k : Str) :
    k ∈ l.map axisName ↔ k ∈ names := by
  have hd : ∀ a ∈ cartesianAxes ++ cylindricalAxes ++ sphericalAxes ++ logicalAxes, axisName ('d' :: a) = a := by decide
  rw [List.mem_map]
  constructor
  · rintro ⟨a, ha, rfl⟩
    have := (h a).mp ha
    rw [List.mem_map] at this
    obtain ⟨b, hb, rfl⟩ := this
    rw [hd b (axisNames_mem names hn b hb)]; exact hb
  · intro hk
    exact ⟨'d' :: k, (h _).mpr (List.mem_map.mpr ⟨k, hk, rfl⟩), hd k (axisNames_mem names hn k hk)⟩

theorem Uniform.read {A : Arith F} {n : BNode F} {g : List (Axis F)} (h : Uniform A n g) : UniformRd A n g where
  names := by
    rcases h.named with ⟨ho, c, hc, hk⟩ | ⟨ho, hs, c, hc, hk⟩ | ⟨ho, hs, c, hc, hk⟩
    · exact axes_named n c _ _ _ h.type (by unfold axesChild; rw [if_pos rfl, if_pos ho]) hc h.system
        (map_axisName _ _ h.system hk)
    · refine axes_named n c _ _ _ h.type
        (by unfold axesChild; rw [if_pos rfl, ho, hs, if_neg (by decide), if_pos rfl]) hc h.system
        (map_axisName_d _ _ h.system ?_)
      rw [List.map_map]; exact hk
    · exact axes_named n c _ _ _ h.type
        (by unfold axesChild; rw [if_pos rfl, ho, hs, if_neg (by decide), if_neg (by decide)]) hc h.system
        (map_axisName _ _ h.system hk)
  axis := by
    intro i a ha
    obtain ⟨⟨v, ⟨c, h1, h2⟩, h3⟩, o, s, ho, hs, hd⟩ := h.axis i a ha
    have hi : i < 3 := by
      have := axisNames_length _ h.system
      have hlt := (List.getElem?_eq_some_iff.mp ha).1
      rw [List.length_map] at this
      omega
    refine ⟨?_, o, s, ?_, ?_, hd⟩
    · unfold dimLen
      rw [Res.ofIdx, logicalAxes_get i hi]
      simp only [Res.bind_ok, h1, h2, h3]
    · unfold originOf
      by_cases hh : n.hasChild (chars! "origin") = true
      · rw [if_pos hh] at ho ⊢
        obtain ⟨v, ⟨c, e1, e2⟩, e3⟩ := ho
        simp only [Res.bind_ok, e1, e2, e3]
      · rw [if_neg hh] at ho ⊢; rw [ho]
    · unfold spacingOf
      by_cases hh : n.hasChild (chars! "spacing") = true
      · rw [if_pos hh] at hs ⊢
        obtain ⟨v, ⟨c, e1, e2⟩, e3⟩ := hs
        simp only [Res.bind_ok, e1, e2, e3]
      · rw [if_neg hh] at hs ⊢; rw [hs]

theorem Rectilinear.read {n : BNode F} {g : List (Axis F)} (h : Rectilinear n g) : RectilinearRd n g where
  names := by
    obtain ⟨c, hc, hk⟩ := h.named
    exact axes_named n c _ _ _ h.type (by unfold axesChild; rw [if_neg (by decide)]) hc h.system
      (map_axisName _ _ h.system hk)
  axis := by
    intro i a ha
    obtain ⟨w, l, ⟨v, e1, e2⟩, e3, e4⟩ := h.axis i a ha
    exact ⟨v, w, l, e1, e2, e3, e4⟩
  noOrigin := h.noOrigin
  noSpacing := h.noSpacing

theorem ExplicitAxes.read {n : BNode F} {names : List Str} (h : ExplicitAxes n names) : axes n = .ok names := by
  obtain ⟨c, hc, hk⟩ := h.named
  exact axes_named n c _ _ _ h.type (by unfold axesChild; rw [if_neg (by decide)]) hc h.system
    (map_axisName _ _ h.system hk)

end Conduit.Mesh
