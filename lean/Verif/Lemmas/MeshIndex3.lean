import Verif.Lemmas.MeshIndex2
/-
The entries of an index: coordsets, matsets, specsets.
-/
namespace Conduit.Mesh

section
variable {F : Type}

theorem items_of_get {n x : BNode F} {f : Str} (h : n.get f = .ok x) : n.items = n.kids := by
  obtain ⟨ks, rfl, -⟩ := nonempty_of_get h; rfl

theorem objKid_cons {f : Str} {ks : List (Str × BNode F)} (h : ks ≠ []) : objKid f ks = [(f, .obj ks)] := by
  cases ks with
  | nil => exact absurd rfl h
  | cons k ks => rfl

theorem matset_made {ref name : Str} {c : BNode F} (hp : Plain c) (h : IsMatset c) (hx : MatsetIndexable c) :
    ∃ e, indexMatset ref name c = .ok e ∧ Made ref (chars! "matsets") name c e OfMatset MatsetEntry := by
  obtain ⟨⟨t, ht⟩, v, hv, -, hmm, -⟩ := h
  by_cases h1 : Has c (chars! "material_map")
  · obtain ⟨m, hm⟩ := h1
    obtain ⟨ks, rfl, hne, hk⟩ := hmm m hm
    have hval : indexMatset ref name c = .ok (.obj [(chars! "topology", .str t), (chars! "material_map", .obj ks),
        indexPath ref (chars! "matsets") name]) := by
      unfold indexMatset indexMaterials
      rw [copyString_ok ht, if_pos (has_iff.2 ⟨_, hm⟩), hm]
      rfl
    refine ⟨_, hval, ⟨ht.symm, fun _ => hm.symm, fun q => absurd ⟨_, hm⟩ q, fun q => absurd ⟨_, hm⟩ q⟩,
      ⟨⟨⟨t, rfl⟩, .inl ⟨ks, rfl, hne, fun k hk' => (hk k hk').1⟩, ⟨_, rfl⟩⟩, fun q => absurd q (not_has_of_error rfl)⟩,
      ?_, rfl⟩
    refine plain_obj (by simp [indexPath]) ?_
    simp [indexPath, plain_str, hp.get hm]
  · by_cases h2 : Has c (chars! "materials")
    · obtain ⟨ks, hk, hne⟩ : HasKids c (chars! "materials") := by
        rcases hx with x | x | x
        · exact absurd x h1
        · exact x
        · exact absurd h2 x.1
      have hne' : (emptyKids (ks.map (·.1)) : List (Str × BNode F)) ≠ [] := by
        simpa [emptyKids] using hne
      have hval : indexMatset ref name c = .ok (.obj [(chars! "topology", .str t),
          (chars! "materials", .obj (emptyKids (ks.map (·.1)))), indexPath ref (chars! "matsets") name]) := by
        unfold indexMatset indexMaterials
        rw [copyString_ok ht, if_neg (by rw [has_iff]; exact h1), if_pos (has_iff.2 h2), hk]
        simp only [Res.map'_ok, Res.bind_ok, BNode.items]
        rw [objKid_cons hne']
        rfl
      have hpl := hp.get hk
      refine ⟨_, hval, ⟨ht.symm, fun q => absurd q h1, fun _ m hm => ?_, fun _ q => absurd h2 q⟩,
        ⟨⟨⟨t, rfl⟩, .inr ⟨?_, _, rfl, hne'⟩, ⟨_, rfl⟩⟩, fun _ => ⟨_, rfl, hne'⟩⟩, ?_, rfl⟩
      · obtain rfl := get_inj hk hm
        refine ⟨_, rfl, ?_⟩
        simp [childNames, emptyKids, Function.comp_def]
      · rintro ⟨x, hx⟩; exact absurd hx (by show (Res.error : Res (BNode F)) ≠ _; simp)
      · refine plain_obj (by simp [indexPath]) ?_
        have := plain_emptyKids (F := F) hpl.nodup (fun q => by
          obtain ⟨k, hk, e⟩ := List.mem_map.1 q
          exact (hpl.kid hk).1 e)
        simp only [BNode.kids] at this
        simp [indexPath, plain_str, this]
    · obtain ⟨ks, hk, hne⟩ : HasKids c (chars! "volume_fractions") := by
        rcases hx with x | ⟨ks, x, -⟩ | x
        · exact absurd x h1
        · exact absurd ⟨_, x⟩ h2
        · exact x.2
      let ms : List (Str × BNode F) := ks.zipIdx.map fun k => (k.1.1, .ints int64 [(k.2 : Int)])
      have hms : ms.map (·.1) = ks.map (·.1) := by
        have := congrArg (List.map (·.1)) (List.zipIdx_map_fst 0 ks)
        rw [List.map_map] at this ⊢
        exact this
      have hne' : ms ≠ [] := by
        intro q; rw [q] at hms; exact hne (List.map_eq_nil_iff.1 hms.symm)
      have hval : indexMatset ref name c = .ok (.obj [(chars! "topology", .str t),
          (chars! "material_map", .obj ms), indexPath ref (chars! "matsets") name]) := by
        unfold indexMatset indexMaterials
        rw [copyString_ok ht, if_neg (by rw [has_iff]; exact h1), if_neg (by rw [has_iff]; exact h2),
          if_pos (has_iff.2 ⟨_, hk⟩), hk]
        simp only [Res.map'_ok, Res.bind_ok, BNode.items]
        rw [objKid_cons hne']
        rfl
      have hpl := hp.get hk
      have hint : ∀ k ∈ ms, IsInts k.2 := by
        intro k hk'
        obtain ⟨x, -, rfl⟩ := List.mem_map.1 hk'
        exact ⟨_, _, rfl⟩
      have hpm : Plain (.obj ms : BNode F) := by
        refine plain_obj (by rw [hms]; exact hpl.nodup) fun k hk' => ?_
        have h3 : k.1 ∈ ks.map (·.1) := by rw [← hms]; exact List.mem_map_of_mem hk'
        obtain ⟨y, hy, e⟩ := List.mem_map.1 h3
        refine ⟨e ▸ (hpl.kid hy).1, ?_⟩
        obtain ⟨t, l, e⟩ := hint k hk'
        rw [e]; trivial
      refine ⟨_, hval, ⟨ht.symm, fun q => absurd q h1, fun _ m hm => absurd ⟨_, hm⟩ h2, fun _ _ m hm => ?_⟩,
        ⟨⟨⟨t, rfl⟩, .inl ⟨_, rfl, hne', hint⟩, ⟨_, rfl⟩⟩, fun q => absurd q (not_has_of_error rfl)⟩, ?_, rfl⟩
      · obtain rfl := get_inj hk hm
        refine ⟨_, rfl, hms, fun i name hi => ?_⟩
        have h3 : ks[i]?.map (·.1) = some name := by simpa [childNames] using hi
        obtain ⟨k, hki, rfl⟩ := Option.map_eq_some_iff.1 h3
        have hmem : (k.1, BNode.ints int64 [(i : Int)]) ∈ ms :=
          List.mem_map.2 ⟨(k, i), by rw [List.mem_iff_getElem?]; exact ⟨i, by simp [hki]⟩, rfl⟩
        exact hpm.get_of_mem (n := .obj ms) hmem
      · refine plain_obj (by simp [indexPath]) ?_
        simp [indexPath, plain_str, hpm]

theorem members_items (v : BNode F) : v.items.map (·.2) = members v := by
  cases v with
  | list ks => rw [BNode.items, List.map_map]; exact List.zipIdx_map_fst 0 ks
  | _ => rfl

theorem specset_made {ref name : Str} {c : BNode F} (hp : Plain c) (h : IsSpecset c) :
    ∃ e, indexSpecset ref name c = .ok e ∧ Made ref (chars! "specsets") name c e OfSpecset SpecsetEntry := by
  obtain ⟨⟨t, ht⟩, ks, ls, hk, hne, -, hls, -⟩ := h
  have hpl := hp.get hk
  have hmem : ∀ k ∈ ks, k.2.items ≠ [] := by
    intro k hk' q
    have h1 : (fun k : Str × BNode F => (members k.2).head?.map BNode.numElements) k ∈ ls.map some := by
      rw [← hls]; exact List.mem_map_of_mem hk'
    obtain ⟨x, -, e⟩ := List.mem_map.1 h1
    dsimp only at e
    rw [← members_items, q] at e
    simp at e
  let sp : List (Str × BNode F) := ks.map fun k => (k.1, .obj (emptyKids (k.2.items.map (·.1))))
  have hsp : ∀ l : List (Str × BNode F), (∀ k ∈ l, k.2.items ≠ []) →
      (l.flatMap fun k => objKid k.1 (emptyKids (k.2.items.map (·.1)))) =
        l.map fun k => (k.1, (.obj (emptyKids (k.2.items.map (·.1))) : BNode F)) := by
    intro l
    induction l with
    | nil => intro _; rfl
    | cons k l ih =>
      intro hl
      have h1 : (emptyKids (k.2.items.map (·.1)) : List (Str × BNode F)) ≠ [] := by
        have := hl k (List.mem_cons_self ..)
        simpa [emptyKids] using this
      rw [List.flatMap_cons, ih fun x hx => hl x (List.mem_cons_of_mem _ hx), objKid_cons h1]
      rfl
  have hne' : sp ≠ [] := by simpa [sp] using hne
  have hval : indexSpecset ref name c = .ok (.obj [(chars! "matset", .str t), (chars! "species", .obj sp),
      indexPath ref (chars! "specsets") name]) := by
    unfold indexSpecset
    rw [copyString_ok ht, hk]
    simp only [Res.bind_ok]
    rw [show (BNode.obj ks).items = ks from rfl, hsp ks hmem, objKid_cons hne']
    rfl
  have hspn : sp.map (·.1) = ks.map (·.1) := by
    rw [List.map_map]; exact List.map_congr_left fun _ _ => rfl
  have hps : Plain (.obj sp : BNode F) := by
    refine plain_obj (by rw [hspn]; exact hpl.nodup) fun k hk' => ?_
    obtain ⟨y, hy, rfl⟩ := List.mem_map.1 hk'
    refine ⟨(hpl.kid hy).1, ?_⟩
    refine plain_emptyKids (hpl.kid hy).2.items_nodup fun q => ?_
    obtain ⟨z, hz, e⟩ := List.mem_map.1 q
    exact ((hpl.kid hy).2.item hz).1 e
  refine ⟨_, hval, ⟨ht.symm, _, rfl, fun v hv => ?_⟩, ⟨⟨⟨t, rfl⟩, ⟨sp, rfl, hne'⟩, ⟨_, rfl⟩⟩, fun s m hs hm => ?_⟩, ?_, rfl⟩
  · obtain rfl := get_inj hk hv
    refine ⟨fun m => by rw [has_obj, has_obj, hspn]; exact id, fun m ms hm s => ?_⟩
    have hin : (m, BNode.obj (emptyKids (ms.map (·.1)))) ∈ sp := by
      obtain ⟨k, hk', e⟩ : ∃ k ∈ ks, k = (m, BNode.obj ms) := by
        unfold BNode.get at hm
        cases hf : (BNode.obj ks).kids.find? fun k => k.1 == m with
        | none => rw [hf] at hm; exact absurd hm (by simp)
        | some k =>
          rw [hf] at hm
          injection hm with hm
          have h1 := List.find?_some hf
          have h1 : k.1 = m := by simpa using h1
          exact ⟨k, List.mem_of_find?_eq_some hf, by rw [← h1, ← hm]⟩
      exact List.mem_map.2 ⟨k, hk', by rw [e]; rfl⟩
    have hg := hps.get_of_mem (n := .obj sp) hin
    dsimp only at hg
    rw [hg]
    simp only [Res.ok.injEq, exists_eq_left']
    rw [has_emptyKids, has_obj]
  · obtain rfl := get_inj (n := .obj [(chars! "matset", .str t), (chars! "species", .obj sp),
      indexPath ref (chars! "specsets") name]) (f := chars! "species") rfl hs
    rw [has_obj] at hm
    obtain ⟨k, hk', rfl⟩ := List.mem_map.1 hm
    have hg := hps.get_of_mem (n := .obj sp) hk'
    obtain ⟨y, hy, rfl⟩ := List.mem_map.1 hk'
    exact ⟨_, hg, by simpa [emptyKids] using hmem y hy⟩
  · refine plain_obj (by simp [indexPath]) ?_
    simp [indexPath, plain_str, hps]

theorem mem_addNames (l acc : List Str) (a : Str) : a ∈ addNames acc l ↔ a ∈ acc ∨ a ∈ l := by
  induction l generalizing acc with
  | nil => simp [addNames]
  | cons b l ih =>
    rw [addNames, ih]
    by_cases h : b ∈ acc
    · rw [if_pos (by simpa using h)]
      simp only [List.mem_cons]
      constructor
      · rintro (x | x) <;> simp [x]
      · rintro (x | rfl | x)
        · exact .inl x
        · exact .inl h
        · exact .inr x
    · rw [if_neg (by simpa using h)]
      simp [or_assoc]

theorem nodup_addNames (l acc : List Str) (h : acc.Nodup) : (addNames acc l).Nodup := by
  induction l generalizing acc with
  | nil => exact h
  | cons b l ih =>
    rw [addNames]
    apply ih
    by_cases hb : b ∈ acc
    · rw [if_pos (by simpa using hb)]; exact h
    · rw [if_neg (by simpa using hb), List.nodup_append]
      refine ⟨h, by simp, ?_⟩
      intro x hx y hy e
      simp only [List.mem_singleton] at hy
      exact hb (by rw [← hy, ← e]; exact hx)

theorem dropD_eq (s : Str) : dropD s = axisName s := by
  unfold dropD axisName
  split
  · rfl
  · rename_i h
    split
    · exact absurd rfl (h _ _)
    · rfl

theorem axisName_axis {sys a : Str} (hs : sys ∈ coordSystems) (h : a ∈ axesOf sys) : axisName a = a := by
  simp only [coordSystems, List.mem_cons, List.not_mem_nil, or_false] at hs
  have : a ∈ [chars! "x", chars! "y", chars! "z", chars! "r", chars! "theta", chars! "phi"] := by
    rcases hs with rfl | rfl | rfl <;> revert h <;> rw [axesOf] <;> revert a <;> decide
  revert this; clear h hs; revert a; decide

theorem systemOf_congr {a b : List Str} (h : ∀ x, x ∈ a ↔ x ∈ b) : systemOf a = systemOf b := by
  simp only [systemOf, h]

theorem systemOf_axes {c : BNode F} {names : List Str} (hn : ∀ a, a ∈ names ↔ HasAxis c a) (hne : ∃ a, HasAxis c a)
    (hx : ∃ sys ∈ coordSystems, ∀ a, HasAxis c a → a ∈ axesOf sys) :
    systemOf names ∈ coordSystems ∧ systemOf names ≠ chars! "logical" ∧ InSystem c (systemOf names) ∧
      ∀ a ∈ names, a ∈ axesOf (systemOf names) := by
  obtain ⟨a0, ha0⟩ := hne
  obtain ⟨sys, hs, hsub⟩ := hx
  have sub : ∀ a ∈ names, a ∈ axesOf sys := fun a ha => hsub a ((hn a).1 ha)
  have ha0 := (hn a0).2 ha0
  unfold InSystem
  simp only [← hn]
  clear hn hsub
  have hcar : axesOf (chars! "cartesian") = [chars! "x", chars! "y", chars! "z"] := rfl
  have hcyl : axesOf (chars! "cylindrical") = [chars! "r", chars! "z"] := rfl
  have hsph : axesOf (chars! "spherical") = [chars! "r", chars! "theta", chars! "phi"] := rfl
  by_cases h1 : chars! "theta" ∈ names ∨ chars! "phi" ∈ names
  · have e : systemOf names = chars! "spherical" := by unfold systemOf; rw [if_pos h1]
    rw [e]
    refine ⟨by decide, by decide, .inl ⟨h1, rfl⟩, fun a ha => ?_⟩
    simp only [coordSystems, List.mem_cons, List.not_mem_nil, or_false] at hs
    rcases hs with rfl | rfl | rfl
    · rcases h1 with h1 | h1 <;> exact absurd (sub _ h1) (by decide)
    · rcases h1 with h1 | h1 <;> exact absurd (sub _ h1) (by decide)
    · exact sub a ha
  · by_cases h2 : chars! "r" ∈ names
    · have e : systemOf names = chars! "cylindrical" := by unfold systemOf; rw [if_neg h1, if_pos h2]
      rw [e]
      refine ⟨by decide, by decide, .inr (.inl ⟨h1, h2, rfl⟩), fun a ha => ?_⟩
      simp only [coordSystems, List.mem_cons, List.not_mem_nil, or_false] at hs
      rcases hs with rfl | rfl | rfl
      · exact absurd (sub _ h2) (by decide)
      · exact sub a ha
      · have := sub a ha
        rw [hsph] at this
        simp only [List.mem_cons, List.not_mem_nil, or_false] at this
        rcases this with rfl | rfl | rfl
        · decide
        · exact absurd (.inl ha) h1
        · exact absurd (.inr ha) h1
    · have hall : ∀ a ∈ names, a ∈ [chars! "x", chars! "y", chars! "z"] := by
        intro a ha
        have := sub a ha
        simp only [coordSystems, List.mem_cons, List.not_mem_nil, or_false] at hs
        rcases hs with rfl | rfl | rfl
        · exact this
        · rw [hcyl] at this
          simp only [List.mem_cons, List.not_mem_nil, or_false] at this
          rcases this with rfl | rfl
          · exact absurd ha h2
          · decide
        · rw [hsph] at this
          simp only [List.mem_cons, List.not_mem_nil, or_false] at this
          rcases this with rfl | rfl | rfl
          · exact absurd ha h2
          · exact absurd (.inl ha) h1
          · exact absurd (.inr ha) h1
      have h3 : chars! "x" ∈ names ∨ chars! "y" ∈ names ∨ chars! "z" ∈ names := by
        have := hall a0 ha0
        simp only [List.mem_cons, List.not_mem_nil, or_false] at this
        rcases this with rfl | rfl | rfl
        · exact .inl ha0
        · exact .inr (.inl ha0)
        · exact .inr (.inr ha0)
      have e : systemOf names = chars! "cartesian" := by unfold systemOf; rw [if_neg h1, if_neg h2, if_pos h3]
      rw [e]
      exact ⟨by decide, by decide, .inr (.inr ⟨h1, h2, rfl⟩), hall⟩

theorem kids_childNames (n : BNode F) : n.kids.map (·.1) = childNames n := by cases n <;> rfl

/-- A node with a named child is an object. -/
theorem items_childNames {n : BNode F} {a : Str} (h : a ∈ childNames n) : n.items.map (·.1) = childNames n := by
  cases n with
  | obj ks => rfl
  | _ => simp [childNames] at h

/-- The names of the axes, as they are put into the index, and the system. -/
theorem coordset_axes {c : BNode F} {ty : Str} (ht : c.get (chars! "type") = .ok (.str ty)) (hp : Plain c) (h : IsCoordset c)
    (hx : CoordsetIndexable c) :
    ∃ names src, indexAxes c ty = .ok names ∧ names.Nodup ∧ names ≠ [] ∧ (∀ a, a ∈ names ↔ HasAxis c a) ∧
      coordsys c = .ok src ∧
      (if src = chars! "logical" then chars! "cartesian" else src) ∈ coordSystems ∧
      InSystem c (if src = chars! "logical" then chars! "cartesian" else src) ∧
      ∀ a ∈ names, a ∈ axesOf (if src = chars! "logical" then chars! "cartesian" else src) := by
  obtain ⟨hsys, hne, hd⟩ := hx
  have fin : ∀ names, (∀ a, a ∈ names ↔ HasAxis c a) → names.Nodup → indexAxes c ty = .ok names →
      coordsys c = .ok (systemOf names) → ∃ names src, indexAxes c ty = .ok names ∧ names.Nodup ∧ names ≠ [] ∧
      (∀ a, a ∈ names ↔ HasAxis c a) ∧ coordsys c = .ok src ∧
      (if src = chars! "logical" then chars! "cartesian" else src) ∈ coordSystems ∧
      InSystem c (if src = chars! "logical" then chars! "cartesian" else src) ∧
      ∀ a ∈ names, a ∈ axesOf (if src = chars! "logical" then chars! "cartesian" else src) := by
    intro names h1 h2 h3 h4
    obtain ⟨a, b, d, e⟩ := systemOf_axes h1 hne hsys
    refine ⟨names, _, h3, h2, ?_, h1, h4, ?_⟩
    · obtain ⟨x, hx⟩ := hne
      rintro rfl
      exact absurd ((h1 x).2 hx) (by simp)
    · rw [if_neg b]; exact ⟨a, d, e⟩
  have direct : ∀ (f : Str) (o : BNode F), c.get f = .ok o → axesChild c ty = f → (∀ a, HasAxis c a ↔ a ∈ childNames o) →
      indexAxes c ty = .ok (o.items.map (·.1)) → ∃ names src, indexAxes c ty = .ok names ∧ names.Nodup ∧ names ≠ [] ∧
      (∀ a, a ∈ names ↔ HasAxis c a) ∧ coordsys c = .ok src ∧
      (if src = chars! "logical" then chars! "cartesian" else src) ∈ coordSystems ∧
      InSystem c (if src = chars! "logical" then chars! "cartesian" else src) ∧
      ∀ a ∈ names, a ∈ axesOf (if src = chars! "logical" then chars! "cartesian" else src) := by
    intro f o hf hc ha hi
    obtain ⟨a0, ha0⟩ := hne
    have hit := items_childNames ((ha a0).1 ha0)
    rw [hit] at hi
    refine fin _ (fun a => (ha a).symm) ?_ hi ?_
    · rw [← kids_childNames]; exact (hp.get hf).nodup
    · unfold coordsys
      rw [ht]
      simp only [Res.bind_ok, BNode.asString]
      rw [hc, hf]
      simp only [Res.bind_ok, Res.ok.injEq]
      congr 1
      rw [show o.items.map (fun k => axisName k.1) = (o.items.map (·.1)).map axisName by rw [List.map_map]; rfl, hit]
      obtain ⟨sys, hs, hsub⟩ := hsys
      have := List.map_congr_left (f := axisName) (g := id) (l := childNames o)
        fun a h => axisName_axis hs (hsub a ((ha a).2 h))
      rw [this, List.map_id]
  by_cases hu : ty = chars! "uniform"
  · subst hu
    by_cases ho : Has c (chars! "origin")
    · obtain ⟨o, hg⟩ := ho
      refine direct _ o hg ?_ ?_ ?_
      · unfold axesChild; rw [if_pos rfl, if_pos (has_iff.2 ⟨o, hg⟩)]
      · intro a
        constructor
        · rintro (⟨-, ⟨o', h1, h2⟩ | ⟨h1, -⟩ | ⟨h1, -⟩⟩ | ⟨h1, -⟩)
          · rw [get_inj hg h1]; exact h2
          · exact absurd ⟨o, hg⟩ h1
          · exact absurd ⟨o, hg⟩ h1
          · exact absurd ht h1
        · intro h1; exact .inl ⟨ht, .inl ⟨o, hg, h1⟩⟩
      · unfold indexAxes
        rw [if_pos rfl, if_pos (has_iff.2 ⟨o, hg⟩), hg]
        rfl
    · by_cases hsp : Has c (chars! "spacing")
      · obtain ⟨o, hg⟩ := hsp
        have ha : ∀ a, HasAxis c a ↔ ∃ k ∈ childNames o, dropD k = a := by
          intro a
          constructor
          · rintro (⟨-, ⟨o', h1, h2⟩ | ⟨-, o', h1, h2⟩ | ⟨-, h1, -⟩⟩ | ⟨h1, -⟩)
            · exact absurd ⟨_, h1⟩ ho
            · rw [get_inj hg h1]; exact h2
            · exact absurd ⟨o, hg⟩ h1
            · exact absurd ht h1
          · intro h1; exact .inl ⟨ht, .inr (.inl ⟨ho, o, hg, h1⟩)⟩
        obtain ⟨a0, ha0⟩ := hne
        obtain ⟨k0, hk0, -⟩ := (ha a0).1 ha0
        have hit := items_childNames hk0
        have hmap : o.items.map (fun k => axisName k.1) = (childNames o).map axisName := by
          rw [← hit, List.map_map]; rfl
        have hmem : ∀ a, a ∈ addNames [] ((childNames o).map axisName) ↔ HasAxis c a := by
          intro a
          rw [mem_addNames, ha]
          simp [dropD_eq]
        refine fin _ hmem (nodup_addNames _ _ List.nodup_nil) ?_ ?_
        · unfold indexAxes
          rw [if_pos rfl, if_neg (by rw [has_iff]; exact ho), if_pos (has_iff.2 ⟨o, hg⟩), hg, Res.map'_ok, hmap]
        · unfold coordsys
          rw [ht]
          simp only [Res.bind_ok, BNode.asString]
          rw [show axesChild c (chars! "uniform") = chars! "spacing" by
            unfold axesChild; rw [if_pos rfl, if_neg (by rw [has_iff]; exact ho), if_pos (has_iff.2 ⟨o, hg⟩)], hg]
          simp only [Res.bind_ok, Res.ok.injEq]
          rw [hmap]
          apply systemOf_congr
          intro a; rw [mem_addNames]; simp
      · -- the dimensions
        rcases h with ⟨-, ⟨d, hdm, hI⟩, -⟩ | ⟨h1, -⟩ | ⟨h1, -⟩
        · obtain ⟨⟨ti, li, hi⟩, -⟩ := hI
          have hiN : chars! "i" ∈ childNames d := has_childNames.1 ⟨_, hi⟩
          have hit := items_childNames hiN
          have hnum : d.numChildren = (childNames d).length := by
            rw [← hit]; simp [BNode.numChildren]
          have hpos : 0 < (childNames d).length := List.length_pos_of_mem hiN
          have ha : ∀ a, a ∈ cartesianAxes.take (childNames d).length ↔ HasAxis c a := by
            intro a
            constructor
            · intro h1; exact .inl ⟨ht, .inr (.inr ⟨ho, hsp, d, hdm, h1⟩)⟩
            · rintro (⟨-, ⟨o', h1, h2⟩ | ⟨-, o', h1, h2⟩ | ⟨-, -, d', h1, h2⟩⟩ | ⟨h1, -⟩)
              · exact absurd ⟨_, h1⟩ ho
              · exact absurd ⟨_, h1⟩ hsp
              · rw [get_inj hdm h1]; exact h2
              · exact absurd ht h1
          have hsub : ∀ a, a ∈ cartesianAxes.take (childNames d).length → a ∈ cartesianAxes := fun a => List.mem_of_mem_take
          have hno : ∀ a, a ∉ cartesianAxes → ¬ HasAxis c a := fun a h1 h2 => h1 (hsub a ((ha a).2 h2))
          have hlog : coordsys c = .ok (chars! "logical") := by
            unfold coordsys
            rw [ht]
            simp only [Res.bind_ok, BNode.asString]
            rw [show axesChild c (chars! "uniform") = chars! "dims" by
              unfold axesChild; rw [if_pos rfl, if_neg (by rw [has_iff]; exact ho), if_neg (by rw [has_iff]; exact hsp)], hdm]
            simp only [Res.bind_ok, Res.ok.injEq]
            rw [show d.items.map (fun k => axisName k.1) = (childNames d).map axisName by rw [← hit, List.map_map]; rfl]
            have hdn := hd ht ho hsp d hdm
            have h3 : ∀ a ∈ [chars! "i", chars! "j", chars! "k"], axisName a = id a := by decide
            have := List.map_congr_left (f := axisName) (g := id) (l := childNames d) fun a h => h3 a (hdn a h)
            rw [this, List.map_id]
            have hn : ∀ a, a ∉ [chars! "i", chars! "j", chars! "k"] → a ∉ childNames d := fun a h1 h2 => h1 (hdn a h2)
            unfold systemOf
            rw [if_neg (by rintro (h | h) <;> exact hn _ (by decide) h), if_neg (hn _ (by decide)),
              if_neg (by rintro (h | h | h) <;> exact hn _ (by decide) h), if_pos (.inl hiN)]
          refine ⟨_, _, ?_, ?_, ?_, ha, hlog, ?_⟩
          · unfold indexAxes
            rw [if_pos rfl, if_neg (by rw [has_iff]; exact ho), if_neg (by rw [has_iff]; exact hsp), hdm, Res.map'_ok, hnum]
          · exact (List.take_sublist _ _).nodup (by decide)
          · obtain ⟨a0, ha0⟩ := hne
            intro q
            have := (ha a0).2 ha0
            rw [q] at this; exact absurd this (by simp)
          · rw [if_pos rfl]
            refine ⟨by decide, .inr (.inr ⟨?_, hno _ (by decide), rfl⟩), hsub⟩
            rintro (h | h) <;> exact hno _ (by decide) h
        · have := get_inj ht h1; injection this with this; exact absurd this (by decide)
        · have := get_inj ht h1; injection this with this; exact absurd this (by decide)
  · have htu : c.get (chars! "type") ≠ .ok (.str (chars! "uniform")) := by
      rw [ht]; intro q; injection q with q; injection q with q; exact hu q
    obtain ⟨a0, ha0⟩ := id hne
    obtain ⟨o, hg, -⟩ : ∃ o, c.get (chars! "values") = .ok o ∧ a0 ∈ childNames o := by
      rcases ha0 with ⟨q, -⟩ | ⟨-, q⟩
      · exact absurd q htu
      · exact q
    refine direct (chars! "values") o hg ?_ ?_ ?_
    · unfold axesChild; rw [if_neg hu]
    · intro a
      constructor
      · rintro (⟨q, -⟩ | ⟨-, o', h1, h2⟩)
        · exact absurd q htu
        · rw [get_inj hg h1]; exact h2
      · intro h1; exact .inr ⟨htu, o, hg, h1⟩
    · unfold indexAxes
      rw [if_neg hu, hg]
      rfl

theorem coordset_made {ref name : Str} {c : BNode F} (hp : Plain c) (h : IsCoordset c) (hx : CoordsetIndexable c) :
    ∃ e, indexCoordset ref name c = .ok e ∧ Made ref (chars! "coordsets") name c e OfCoordset IsCoordsetIndex := by
  obtain ⟨ty, hty, ht⟩ : HasOneOf c (chars! "type") [chars! "uniform", chars! "rectilinear", chars! "explicit"] := by
    rcases h with ⟨e, -⟩ | ⟨e, -⟩ | ⟨e, -⟩
    · exact ⟨_, by simp, e⟩
    · exact ⟨_, by simp, e⟩
    · exact ⟨_, by simp, e⟩
  obtain ⟨names, src, h1, h2, h3, h4, h5, h6, h7, h8⟩ := coordset_axes ht hp h hx
  generalize hsys : (if src = chars! "logical" then chars! "cartesian" else src) = sys at h6 h7 h8
  have hne : (emptyKids names : List (Str × BNode F)) ≠ [] := by simpa [emptyKids] using h3
  have hval : indexCoordset ref name c = .ok (.obj [(chars! "type", .str ty),
      (chars! "coord_system", .obj [(chars! "axes", .obj (emptyKids names)), (chars! "type", .str sys)]),
      indexPath ref (chars! "coordsets") name]) := by
    unfold indexCoordset
    rw [ht]
    simp only [Res.bind_ok, BNode.asString]
    rw [h1, h5]
    simp only [Res.bind_ok]
    rw [hsys, objKid_cons hne]
    rfl
  refine ⟨_, hval, ⟨ht.symm, _, _, sys, rfl, rfl, rfl, h7, fun a => has_emptyKids.trans (h4 a)⟩,
    ⟨⟨ty, hty, rfl⟩, ⟨_, rfl⟩, _, rfl, sys, h6, rfl, _, rfl, hne, ?_⟩, ?_, rfl⟩
  · intro k hk
    obtain ⟨a, ha, rfl⟩ := List.mem_map.1 hk
    exact h8 a ha
  · have hv : vkey ∉ names := fun q => by
      have := h8 _ q
      have h6' := h6
      simp only [coordSystems, List.mem_cons, List.not_mem_nil, or_false] at h6'
      rcases h6' with e | e | e <;> rw [e] at this <;> exact absurd this (by decide)
    have : Plain (.obj [(chars! "axes", .obj (emptyKids names)), (chars! "type", .str sys)] : BNode F) := by
      refine plain_obj (by simp) ?_
      simp [plain_str, plain_emptyKids h2 hv]
    refine plain_obj (by simp [indexPath]) ?_
    simp [indexPath, plain_str, this]

end
end Conduit.Mesh
