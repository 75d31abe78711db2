import Verif.Lemmas.MeshIndex3
/-
The index of one domain.
-/
namespace Conduit.Mesh

section
variable {F : Type}

/-- The child `f` of `c` names an entry of the collection. -/
def Points (n c : BNode F) (f coll : Str) : Prop := ∃ s, c.get f = .ok (.str s) ∧ ∃ x, Entry n coll s x

/-- An index, with references that lead to entries. -/
structure Flat (n : BNode F) : Prop where
  coordsets : AllOf n (chars! "coordsets") IsCoordsetIndex
  topologies : AllOf n (chars! "topologies") fun c => IsTopologyIndex c ∧ Points n c (chars! "coordset") (chars! "coordsets")
  matsets : Has n (chars! "matsets") → AllOf n (chars! "matsets") fun c =>
    IsMatsetIndex c ∧ Points n c (chars! "topology") (chars! "topologies")
  specsets : Has n (chars! "specsets") → AllOf n (chars! "specsets") fun c =>
    IsSpecsetIndex c ∧ Points n c (chars! "matset") (chars! "matsets")
  fields : Has n (chars! "fields") → AllOf n (chars! "fields") fun c => IsFieldIndex c ∧
    (Has c (chars! "topology") → Points n c (chars! "topology") (chars! "topologies")) ∧
    (Has c (chars! "matset") → Points n c (chars! "matset") (chars! "matsets"))
  adjsets : Has n (chars! "adjsets") → AllOf n (chars! "adjsets") fun c =>
    IsAdjacencyIndex c ∧ Points n c (chars! "topology") (chars! "topologies")
  nestsets : Has n (chars! "nestsets") → AllOf n (chars! "nestsets") fun c =>
    IsAdjacencyIndex c ∧ Points n c (chars! "topology") (chars! "topologies")

theorem mem_of_get {ks : List (Str × BNode F)} {name : Str} {x : BNode F} (h : (BNode.obj ks).get name = .ok x) :
    (name, x) ∈ ks := by
  unfold BNode.get at h
  cases hf : (BNode.obj ks).kids.find? fun k => k.1 == name with
  | none => rw [hf] at h; exact absurd h (by simp)
  | some k =>
    rw [hf] at h
    injection h with h
    have h1 : k.1 = name := by simpa using List.find?_some hf
    have := List.mem_of_find?_eq_some hf
    rw [← h1, ← h]; exact this

theorem AllOf.entry {n : BNode F} {coll name : Str} {good : BNode F → Prop} {x : BNode F} (h : AllOf n coll good)
    (he : Entry n coll name x) : good x := by
  obtain ⟨ks, hk, -, hg⟩ := h
  obtain ⟨e, h1, h2⟩ := he
  obtain rfl := get_inj hk h1
  exact hg _ (mem_of_get h2)

theorem AllOf.mono {n : BNode F} {coll : Str} {good good' : BNode F → Prop} (h : AllOf n coll good)
    (hg : ∀ c, good c → good' c) : AllOf n coll good' := by
  obtain ⟨ks, hk, hne, h⟩ := h
  exact ⟨ks, hk, hne, fun k hk' => hg _ (h k hk')⟩

theorem Points.refers {n c : BNode F} {f coll : Str} {good : BNode F → Prop} (h : Points n c f coll)
    (hg : Has n coll → AllOf n coll good) : RefersTo n c f coll good := by
  obtain ⟨s, hs, x, hx⟩ := h
  refine ⟨s, x, hs, hx, (hg ?_).entry hx⟩
  obtain ⟨e, he, -⟩ := hx
  exact ⟨e, he⟩

theorem Flat.isIndex {n : BNode F} (h : Flat n) : IsIndex n := by
  have ht : AllOf n (chars! "topologies") (TopologyIndexOk n) :=
    h.topologies.mono fun c hc => ⟨hc.1, hc.2.refers fun _ => h.coordsets⟩
  have hm : Has n (chars! "matsets") → AllOf n (chars! "matsets") (MatsetIndexOk n) := fun q =>
    (h.matsets q).mono fun c hc => ⟨hc.1, hc.2.refers fun _ => ht⟩
  refine ⟨h.coordsets, ht, hm, ?_, ?_, ?_, ?_⟩
  · exact fun q => (h.specsets q).mono fun c hc => ⟨hc.1, hc.2.refers hm⟩
  · exact fun q => (h.fields q).mono fun c hc =>
      ⟨hc.1, fun y => (hc.2.1 y).refers fun _ => ht, fun y => (hc.2.2 y).refers hm⟩
  · exact fun q => (h.adjsets q).mono fun c hc => ⟨hc.1, hc.2.refers fun _ => ht⟩
  · exact fun q => (h.nestsets q).mono fun c hc => ⟨hc.1, hc.2.refers fun _ => ht⟩

/-- What holds of a collection of the index. -/
def CollMade (ref : Str) (n : BNode F) (coll : Str) (R : BNode F → BNode F → Prop) (Is : BNode F → Prop)
    (l : List (Str × BNode F)) : Prop :=
  (n.get coll = .error ∧ l = []) ∨
  ∃ ks es, n.get coll = .ok (.obj ks) ∧ l = [(coll, .obj es)] ∧ es.map (·.1) = ks.map (·.1) ∧ es ≠ [] ∧
    Plain (.obj es : BNode F) ∧ (∀ k ∈ es, ∃ c, (k.1, c) ∈ ks ∧ Made ref coll k.1 c k.2 R Is) ∧
    ∀ name c, (BNode.obj ks).get name = .ok c → ∃ e, (BNode.obj es).get name = .ok e ∧ Made ref coll name c e R Is

theorem entries_made {ref coll : Str} {R : BNode F → BNode F → Prop} {Is : BNode F → Prop}
    {f : Str → BNode F → Res (BNode F)} (l : List (Str × BNode F))
    (h : ∀ k ∈ l, ∃ e, f k.1 k.2 = .ok e ∧ Made ref coll k.1 k.2 e R Is) :
    ∃ es, indexEntries f l = .ok es ∧ es.map (·.1) = l.map (·.1) ∧
      (∀ k ∈ es, ∃ c, (k.1, c) ∈ l ∧ Made ref coll k.1 c k.2 R Is) ∧
      ∀ name c, (BNode.obj l).get name = .ok c → ∃ e, (BNode.obj es).get name = .ok e ∧ Made ref coll name c e R Is := by
  induction l with
  | nil => exact ⟨[], rfl, rfl, by simp, fun name c h => absurd h (by rw [get_nil]; simp)⟩
  | cons k l ih =>
    obtain ⟨e, he, hm⟩ := h k (List.mem_cons_self ..)
    obtain ⟨es, h1, h2, h3, h4⟩ := ih fun x hx => h x (List.mem_cons_of_mem _ hx)
    refine ⟨(k.1, e) :: es, by rw [indexEntries, he, Res.bind_ok, h1]; rfl, by simp [h2], ?_, ?_⟩
    · intro x hx
      rcases List.mem_cons.1 hx with rfl | hx
      · exact ⟨k.2, List.mem_cons_self .., hm⟩
      · obtain ⟨c, hc, hm'⟩ := h3 x hx
        exact ⟨c, List.mem_cons_of_mem _ hc, hm'⟩
    · intro name c hc
      obtain ⟨kn, kv⟩ := k
      by_cases hn : kn = name
      · subst hn
        rw [get_cons_self] at hc
        injection hc with hc
        subst hc
        exact ⟨e, get_cons_self .., hm⟩
      · rw [get_cons_ne hn] at hc
        obtain ⟨e', he', hm'⟩ := h4 name c hc
        exact ⟨e', by rw [get_cons_ne hn]; exact he', hm'⟩

theorem collection_made {ref coll : Str} {n : BNode F} {P : BNode F → Prop} {R : BNode F → BNode F → Prop}
    {Is : BNode F → Prop} {f : Str → BNode F → Res (BNode F)} (hp : Plain n) (h : Has n coll → AllOf n coll P)
    (hf : ∀ name c, Plain c → P c → Entry n coll name c → ∃ e, f name c = .ok e ∧ Made ref coll name c e R Is) :
    ∃ l, indexCollection n coll f = .ok l ∧ CollMade ref n coll R Is l := by
  unfold indexCollection
  by_cases hh : Has n coll
  · obtain ⟨ks, hk, hne, hg⟩ := h hh
    have hpk := hp.get hk
    obtain ⟨es, h1, h2, h3, h4⟩ := entries_made (ref := ref) (coll := coll) (R := R) (Is := Is) (f := f) ks fun k hk' =>
      hf _ _ (hpk.kid hk').2 (hg k hk') ⟨_, hk, hpk.get_of_mem hk'⟩
    have hne' : es ≠ [] := by
      rintro rfl; exact hne (List.map_eq_nil_iff.1 h2.symm)
    refine ⟨[(coll, .obj es)], ?_, .inr ⟨ks, es, hk, rfl, h2, hne', ?_, h3, h4⟩⟩
    · rw [if_pos (has_iff.2 hh), hk, Res.bind_ok]
      show (indexEntries f ks >>= _) = _
      rw [h1, Res.bind_ok, objKid_cons hne']
    · refine plain_obj (by rw [h2]; exact hpk.nodup) fun k hk' => ?_
      obtain ⟨c, hc, hm⟩ := h3 k hk'
      exact ⟨(hpk.kid (n := .obj ks) hc).1, hm.plain⟩
  · rw [if_neg (by rw [has_iff]; exact hh)]
    exact ⟨[], rfl, .inl ⟨get_error hh, rfl⟩⟩

/-- A list with at most one child, of a given name. -/
def One (g : Str) (l : List (Str × BNode F)) : Prop := l = [] ∨ ∃ x, l = [(g, x)] ∧ Plain x

theorem CollMade.one {ref : Str} {n : BNode F} {coll : Str} {R : BNode F → BNode F → Prop} {Is : BNode F → Prop}
    {l : List (Str × BNode F)} (h : CollMade ref n coll R Is l) : One coll l := by
  rcases h with ⟨-, h⟩ | ⟨ks, es, -, h, -, -, hp, -⟩
  · exact .inl h
  · exact .inr ⟨_, h, hp⟩

theorem groups_get (gs : List (Str × List (Str × BNode F))) (hd : (gs.map (·.1)).Nodup) (h : ∀ g ∈ gs, One g.1 g.2)
    {f : Str} {l : List (Str × BNode F)} (hm : (f, l) ∈ gs) :
    (BNode.obj (gs.flatMap (·.2))).get f = (BNode.obj l).get f := by
  have skip : ∀ (gs : List (Str × List (Str × BNode F))), (∀ g ∈ gs, One g.1 g.2) → f ∉ gs.map (·.1) →
      (BNode.obj (gs.flatMap (·.2))).get f = .error := by
    intro gs
    induction gs with
    | nil => intro _ _; rfl
    | cons g gs ih =>
      intro h hf
      simp only [List.map_cons, List.mem_cons, not_or] at hf
      have ih := ih (fun x hx => h x (List.mem_cons_of_mem _ hx)) hf.2
      rw [List.flatMap_cons]
      rcases h g (List.mem_cons_self ..) with e | ⟨x, e, -⟩
      · rw [e]; exact ih
      · rw [e]
        show (BNode.obj ((g.1, x) :: _)).get f = _
        rw [get_cons_ne (Ne.symm hf.1)]; exact ih
  induction gs with
  | nil => exact absurd hm (by simp)
  | cons g gs ih =>
    simp only [List.map_cons, List.nodup_cons] at hd
    have h' : ∀ g ∈ gs, One g.1 g.2 := fun x hx => h x (List.mem_cons_of_mem _ hx)
    rw [List.flatMap_cons]
    rcases List.mem_cons.1 hm with e | hm'
    · subst e
      rcases h _ (List.mem_cons_self ..) with e | ⟨x, e, -⟩
      · dsimp only at e ⊢; rw [e]; exact skip gs h' hd.1
      · dsimp only at e ⊢
        rw [e]
        show (BNode.obj ((f, x) :: _)).get f = _
        rw [get_cons_self, get_cons_self]
    · have hne : g.1 ≠ f := fun e => hd.1 (e ▸ List.mem_map_of_mem (f := (·.1)) hm')
      rcases h g (List.mem_cons_self ..) with e | ⟨x, e, -⟩
      · rw [e]; exact ih hd.2 h' hm'
      · rw [e]
        show (BNode.obj ((g.1, x) :: _)).get f = _
        rw [get_cons_ne hne]; exact ih hd.2 h' hm'

theorem groups_plain (gs : List (Str × List (Str × BNode F))) (hd : (gs.map (·.1)).Nodup) (h : ∀ g ∈ gs, One g.1 g.2)
    (hv : vkey ∉ gs.map (·.1)) : Plain (.obj (gs.flatMap (·.2)) : BNode F) := by
  have hsub : ((gs.flatMap (·.2)).map (·.1)).Sublist (gs.map (·.1)) := by
    clear hd hv
    induction gs with
    | nil => exact List.Sublist.slnil
    | cons g gs ih =>
      have ih := ih fun x hx => h x (List.mem_cons_of_mem _ hx)
      rw [List.flatMap_cons, List.map_append, List.map_cons]
      rcases h g (List.mem_cons_self ..) with e | ⟨x, e, -⟩
      · rw [e]; exact ih.cons _
      · rw [e]; exact ih.cons_cons _
  refine plain_obj (hsub.nodup hd) fun k hk => ⟨fun e => hv (e ▸ hsub.subset (List.mem_map_of_mem hk)), ?_⟩
  obtain ⟨g, hg, hk⟩ := List.mem_flatMap.1 hk
  rcases h g hg with e | ⟨x, e, hx⟩
  · rw [e] at hk; exact absurd hk (by simp)
  · rw [e, List.mem_singleton] at hk; rw [hk]; exact hx

/-- The references of the entries that have been made. -/
theorem CollMade.all {ref : Str} {n idx : BNode F} {coll : Str} {R : BNode F → BNode F → Prop} {Is : BNode F → Prop}
    {P Q : BNode F → Prop} {l : List (Str × BNode F)} (h : CollMade ref n coll R Is l)
    (hg : idx.get coll = (BNode.obj l).get coll) (ha : Has n coll → AllOf n coll P)
    (hq : ∀ c e, P c → R c e → Is e → Q e) (hh : Has idx coll ∨ Has n coll) : AllOf idx coll Q := by
  rcases h with ⟨h, rfl⟩ | ⟨ks, es, hk, rfl, -, hne, -, hm, -⟩
  · rcases hh with ⟨x, e⟩ | ⟨x, e⟩
    · rw [hg] at e; exact absurd e (by rw [get_nil]; simp)
    · rw [h] at e; exact absurd e (by simp)
  · obtain ⟨ks', hk', -, ha⟩ := ha ⟨_, hk⟩
    have := get_inj hk hk'; injection this with this; subst this
    refine ⟨es, by rw [hg, get_cons_self], hne, fun k hk' => ?_⟩
    obtain ⟨c, hc, hM⟩ := hm k hk'
    exact hq c k.2 (ha _ hc) hM.says hM.good

theorem CollMade.entry {ref : Str} {n idx : BNode F} {coll : Str} {R : BNode F → BNode F → Prop} {Is : BNode F → Prop}
    {l : List (Str × BNode F)} (h : CollMade ref n coll R Is l) (hg : idx.get coll = (BNode.obj l).get coll)
    {name : Str} {x : BNode F} (he : Entry n coll name x) : ∃ y, Entry idx coll name y := by
  obtain ⟨e, h1, h2⟩ := he
  rcases h with ⟨h, rfl⟩ | ⟨ks, es, hk, rfl, -, -, -, -, hm⟩
  · rw [h] at h1; exact absurd h1 (by simp)
  · obtain rfl := get_inj hk h1
    obtain ⟨y, hy, -⟩ := hm name x h2
    exact ⟨y, _, by rw [hg, get_cons_self], hy⟩

theorem CollMade.points {ref : Str} {n idx c e : BNode F} {f coll : Str} {R : BNode F → BNode F → Prop} {Is : BNode F → Prop}
    {good : BNode F → Prop} {l : List (Str × BNode F)} (h : CollMade ref n coll R Is l)
    (hg : idx.get coll = (BNode.obj l).get coll) (hr : RefersTo n c f coll good) (hc : Copied f c e) : Points idx e f coll := by
  obtain ⟨s, x, hs, hx, -⟩ := hr
  exact ⟨s, hc.trans hs, h.entry hg hx⟩

theorem CollMade.lists {ref : Str} {n idx : BNode F} {coll : Str} {R : BNode F → BNode F → Prop} {Is : BNode F → Prop}
    {l : List (Str × BNode F)} (h : CollMade ref n coll R Is l) (hg : idx.get coll = (BNode.obj l).get coll)
    (h1 : coll ≠ []) (h2 : coll.getLast? ≠ some '/') : Catalogs ref n idx coll R := by
  rcases h with ⟨h, rfl⟩ | ⟨ks, es, hk, rfl, he, -, -, -, hm⟩
  · rw [get_nil] at hg
    refine ⟨⟨fun q => absurd q (not_has_of_error hg), fun q => absurd q (not_has_of_error h)⟩, fun x hx => ?_⟩
    rw [h] at hx; exact absurd hx (by simp)
  · rw [get_cons_self] at hg
    refine ⟨⟨fun _ => ⟨_, hk⟩, fun _ => ⟨_, hg⟩⟩, fun x hx => ?_⟩
    obtain rfl := get_inj hk hx
    refine ⟨_, hg, he, fun name c hc => ?_⟩
    obtain ⟨e, h3, h4⟩ := hm name c hc
    exact ⟨e, h3, h4.says, fun q => by rw [h4.path, path_below h1 h2 q]⟩

theorem state_made {n : BNode F} (ref : Str) (hp : Plain n) : ∃ l, indexState n ref = .ok l ∧ One (chars! "state") l ∧
    ((n.get (chars! "state") = .error ∧ l = []) ∨ ∃ x ks, n.get (chars! "state") = .ok x ∧ l = [(chars! "state", .obj ks)] ∧
      Copied (chars! "cycle") x (.obj ks) ∧ Copied (chars! "time") x (.obj ks) ∧
      (BNode.obj ks).get (chars! "path") = .ok (.str (below ref (chars! "state")))) := by
  unfold indexState
  by_cases h : Has n (chars! "state")
  · obtain ⟨x, hx⟩ := h
    rw [if_pos (has_iff.2 ⟨x, hx⟩), hx, Res.bind_ok, joinPath_below (by decide)]
    dsimp only
    have hpx := hp.get hx
    refine ⟨_, rfl, .inr ⟨_, rfl, ?_⟩, .inr ⟨x, _, rfl, rfl, ?_⟩⟩
    · rcases get_cases x (chars! "cycle") with ⟨c, hc⟩ | hc <;> rcases get_cases x (chars! "time") with ⟨t, ht⟩ | ht <;>
        rw [hc, ht] <;> refine plain_obj (by simp) ?_ <;>
        simp [plain_str]
      · exact ⟨hpx.get hc, hpx.get ht⟩
      · exact hpx.get hc
      · exact hpx.get ht
    · unfold Copied
      rcases get_cases x (chars! "cycle") with ⟨c, hc⟩ | hc <;> rcases get_cases x (chars! "time") with ⟨t, ht⟩ | ht <;>
        rw [hc, ht] <;> exact ⟨rfl, rfl, rfl⟩
  · rw [if_neg (by rw [has_iff]; exact h)]
    exact ⟨[], rfl, .inl rfl, .inl ⟨get_error h, rfl⟩⟩

/-- What the index has for a collection of the domain. -/
def Collected (ref : Str) (n idx : BNode F) (coll : Str) (R : BNode F → BNode F → Prop) (Is : BNode F → Prop) : Prop :=
  ∃ l, CollMade ref n coll R Is l ∧ idx.get coll = (BNode.obj l).get coll

/-- The index of a domain. -/
structure Single (ref : Str) (n idx : BNode F) : Prop where
  coordsets : Collected ref n idx (chars! "coordsets") OfCoordset IsCoordsetIndex
  topologies : Collected ref n idx (chars! "topologies") OfTopology IsTopologyIndex
  matsets : Collected ref n idx (chars! "matsets") OfMatset MatsetEntry
  specsets : Collected ref n idx (chars! "specsets") OfSpecset SpecsetEntry
  fields : Collected ref n idx (chars! "fields") OfField FieldEntry
  adjsets : Collected ref n idx (chars! "adjsets") OfAdjacency IsAdjacencyIndex
  nestsets : Collected ref n idx (chars! "nestsets") OfAdjacency IsAdjacencyIndex

/-- What the index of a domain has for its state. -/
def StateOf (ref : Str) (n idx : BNode F) : Prop :=
  (n.get (chars! "state") = .error ∧ idx.get (chars! "state") = .error) ∨
    ∃ x s, n.get (chars! "state") = .ok x ∧ idx.get (chars! "state") = .ok (.obj s) ∧
      Copied (chars! "cycle") x (.obj s) ∧ Copied (chars! "time") x (.obj s) ∧
      (BNode.obj s).get (chars! "path") = .ok (.str (below ref (chars! "state")))

theorem single_made {n : BNode F} (ref : Str) (hp : Plain n) (hd : IsDomain n) (hx : Indexable n) :
    ∃ ks, indexSingle n ref = .ok (.obj ks) ∧ Plain (.obj ks : BNode F) ∧ Single ref n (.obj ks) ∧
      StateOf ref n (.obj ks) := by
  obtain ⟨d1, d2, d3, d4, d5, d6, d7⟩ := hd
  obtain ⟨x1, x2, x3⟩ := hx
  obtain ⟨s, e0, o0, h0⟩ := state_made (n := n) ref hp
  obtain ⟨l1, e1, h1⟩ := collection_made (ref := ref) (f := indexCoordset ref) hp (fun _ => d1) fun name c hc hP he =>
    coordset_made hc hP (x1 name c he)
  obtain ⟨l2, e2, h2⟩ := collection_made (ref := ref) (f := indexTopology ref) hp (fun _ => d2) fun name c hc hP he =>
    topology_made hP.1.1
  obtain ⟨l3, e3, h3⟩ := collection_made (ref := ref) (f := indexMatset ref) hp d3 fun name c hc hP he =>
    matset_made hc hP.1 (x2 name c he)
  obtain ⟨l4, e4, h4⟩ := collection_made (ref := ref) (f := indexSpecset ref) hp d4 fun name c hc hP he =>
    specset_made hc hP.1
  obtain ⟨l5, e5, h5⟩ := collection_made (ref := ref) (f := indexField ref) hp d5 fun name c hc hP he =>
    field_made hP.1 (x3 name c he)
  obtain ⟨l6, e6, h6⟩ := collection_made (ref := ref) (f := indexAdjacency (chars! "adjsets") ref) hp d6
    fun name c hc hP he => adjacency_made hP.1.1 hP.1.2.1
  obtain ⟨l7, e7, h7⟩ := collection_made (ref := ref) (f := indexAdjacency (chars! "nestsets") ref) hp d7
    fun name c hc hP he => adjacency_made hP.1.1 hP.1.2.1
  let gs : List (Str × List (Str × BNode F)) := [(chars! "state", s), (chars! "coordsets", l1), (chars! "topologies", l2),
    (chars! "matsets", l3), (chars! "specsets", l4), (chars! "fields", l5), (chars! "adjsets", l6), (chars! "nestsets", l7)]
  have hgs : s ++ l1 ++ l2 ++ l3 ++ l4 ++ l5 ++ l6 ++ l7 = gs.flatMap (·.2) := by simp [gs]
  have hnd : (gs.map (·.1)).Nodup := by simp [gs]
  have hone : ∀ g ∈ gs, One g.1 g.2 := by
    simp only [gs, List.forall_mem_cons]
    exact ⟨o0, h1.one, h2.one, h3.one, h4.one, h5.one, h6.one, h7.one, by simp⟩
  refine ⟨gs.flatMap (·.2), ?_, ?_⟩
  · unfold indexSingle
    have hc : n.hasChild (chars! "coordsets") = true := by
      obtain ⟨ks, hk, -⟩ := d1; exact has_iff.2 ⟨_, hk⟩
    rw [hc, e0, e1, e2, e3, e4, e5, e6, e7, ← hgs]
    rfl
  have g0 := groups_get gs hnd hone (f := chars! "state") (l := s) (by simp [gs])
  have g1 := groups_get gs hnd hone (f := chars! "coordsets") (l := l1) (by simp [gs])
  have g2 := groups_get gs hnd hone (f := chars! "topologies") (l := l2) (by simp [gs])
  have g3 := groups_get gs hnd hone (f := chars! "matsets") (l := l3) (by simp [gs])
  have g4 := groups_get gs hnd hone (f := chars! "specsets") (l := l4) (by simp [gs])
  have g5 := groups_get gs hnd hone (f := chars! "fields") (l := l5) (by simp [gs])
  have g6 := groups_get gs hnd hone (f := chars! "adjsets") (l := l6) (by simp [gs])
  have g7 := groups_get gs hnd hone (f := chars! "nestsets") (l := l7) (by simp [gs])
  have hpl := groups_plain gs hnd hone (by simp [gs])
  clear_value gs
  refine ⟨hpl, ⟨⟨_, h1, g1⟩, ⟨_, h2, g2⟩, ⟨_, h3, g3⟩, ⟨_, h4, g4⟩, ⟨_, h5, g5⟩, ⟨_, h6, g6⟩, ⟨_, h7, g7⟩⟩, ?_⟩
  rcases h0 with ⟨a, rfl⟩ | ⟨x, ks, a, rfl, b⟩
  · exact .inl ⟨a, g0.trans (get_nil _)⟩
  · exact .inr ⟨x, ks, a, g0.trans (get_cons_self ..), b⟩

theorem Single.flat {ref : Str} {n idx : BNode F} (h : Single ref n idx) (hd : IsDomain n) : Flat idx := by
  obtain ⟨d1, d2, d3, d4, d5, d6, d7⟩ := hd
  obtain ⟨⟨l1, h1, g1⟩, ⟨l2, h2, g2⟩, ⟨l3, h3, g3⟩, ⟨l4, h4, g4⟩, ⟨l5, h5, g5⟩, ⟨l6, h6, g6⟩, ⟨l7, h7, g7⟩⟩ := h
  have hc : Has n (chars! "coordsets") := by obtain ⟨ks, hk, -⟩ := d1; exact ⟨_, hk⟩
  have ht : Has n (chars! "topologies") := by obtain ⟨ks, hk, -⟩ := d2; exact ⟨_, hk⟩
  refine ⟨?_, ?_, ?_, ?_, ?_, ?_, ?_⟩
  · exact h1.all g1 (fun _ => d1) (fun _ _ _ _ h => h) (.inr hc)
  · exact h2.all g2 (fun _ => d2) (fun c e hP hR hI => ⟨hI, h1.points g1 hP.1.2 hR.2.1⟩) (.inr ht)
  · exact fun q => h3.all g3 d3 (fun c e hP hR hI => ⟨hI.1, h2.points g2 hP.2 hR.1⟩) (.inl q)
  · exact fun q => h4.all g4 d4 (fun c e hP hR hI => ⟨hI.1, h3.points g3 hP.2 hR.1⟩) (.inl q)
  · refine fun q => h5.all g5 d5 (fun c e hP hR hI => ⟨hI.1, fun y => ?_, fun y => ?_⟩) (.inl q)
    · obtain ⟨z, y⟩ := y
      exact h2.points g2 (hP.2.1 ⟨z, hR.1.symm.trans y⟩) hR.1
    · obtain ⟨z, y⟩ := y
      exact h3.points g3 (hP.2.2 ⟨z, hR.2.1.symm.trans y⟩) hR.2.1
  · exact fun q => h6.all g6 d6 (fun c e hP hR hI => ⟨hI, h2.points g2 hP.2 hR.2⟩) (.inl q)
  · exact fun q => h7.all g7 d7 (fun c e hP hR hI => ⟨hI, h2.points g2 hP.2 hR.2⟩) (.inl q)

theorem Single.describes {ref : Str} {n idx : BNode F} (h : Single ref n idx) : Describes ref n idx := by
  obtain ⟨⟨l1, h1, g1⟩, ⟨l2, h2, g2⟩, ⟨l3, h3, g3⟩, ⟨l4, h4, g4⟩, ⟨l5, h5, g5⟩, ⟨l6, h6, g6⟩, ⟨l7, h7, g7⟩⟩ := h
  refine ⟨?_, ?_, ?_, ?_, ?_, ?_, ?_⟩
  · exact h1.lists g1 (by decide) (by decide)
  · exact h2.lists g2 (by decide) (by decide)
  · exact h3.lists g3 (by decide) (by decide)
  · exact h4.lists g4 (by decide) (by decide)
  · exact h5.lists g5 (by decide) (by decide)
  · exact h6.lists g6 (by decide) (by decide)
  · exact h7.lists g7 (by decide) (by decide)

end
end Conduit.Mesh
