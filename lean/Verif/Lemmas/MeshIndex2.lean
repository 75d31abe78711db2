import Verif.Lemmas.MeshIndex
/-
The entries of an index.
-/
namespace Conduit.Mesh

section
variable {F : Type}

theorem get_cases (n : BNode F) (f : Str) : (∃ x, n.get f = .ok x) ∨ n.get f = .error := by
  unfold BNode.get
  cases n.kids.find? fun k => k.1 == f with
  | none => exact .inr rfl
  | some k => exact .inl ⟨_, rfl⟩

theorem get_error {n : BNode F} {f : Str} (h : ¬ Has n f) : n.get f = .error :=
  (get_cases n f).resolve_left h

theorem not_has_of_error {n : BNode F} {f : Str} (h : n.get f = .error) : ¬ Has n f := by
  rintro ⟨x, e⟩; rw [h] at e; exact absurd e (by simp)

theorem get_cons_self (f : Str) (x : BNode F) (ks : List (Str × BNode F)) : (BNode.obj ((f, x) :: ks)).get f = .ok x := by
  simp [BNode.get, BNode.kids]

theorem get_cons_ne {f g : Str} (h : g ≠ f) (x : BNode F) (ks : List (Str × BNode F)) :
    (BNode.obj ((g, x) :: ks)).get f = (BNode.obj ks).get f := by
  have : (g == f) = false := by simpa using h
  simp [BNode.get, BNode.kids, List.find?_cons, this]

theorem get_nil (f : Str) : (BNode.obj ([] : List (Str × BNode F))).get f = .error := rfl

theorem has_obj {ks : List (Str × BNode F)} {f : Str} : Has (.obj ks) f ↔ f ∈ ks.map (·.1) := by
  rw [← has_iff]
  simp only [BNode.hasChild, BNode.kids, List.any_eq_true, List.mem_map, beq_iff_eq]

theorem has_childNames {n : BNode F} {f : Str} : Has n f ↔ f ∈ childNames n := by
  cases n with
  | obj ks => exact has_obj
  | _ => simp [Has, BNode.get, BNode.kids, childNames]

theorem has_emptyKids {ns : List Str} {f : Str} : Has (.obj (emptyKids ns) : BNode F) f ↔ f ∈ ns := by
  rw [has_obj]; simp [emptyKids]

theorem plain_obj {ks : List (Str × BNode F)} (hd : (ks.map (·.1)).Nodup) (h : ∀ k ∈ ks, k.1 ≠ vkey ∧ Plain k.2) :
    Plain (.obj ks) := by
  refine ⟨hd, ?_⟩
  clear hd
  induction ks with
  | nil => trivial
  | cons k ks ih =>
    exact ⟨(h k (List.mem_cons_self ..)).1, (h k (List.mem_cons_self ..)).2, ih fun x hx => h x (List.mem_cons_of_mem _ hx)⟩

theorem plain_emptyKids {ns : List Str} (hd : ns.Nodup) (h : vkey ∉ ns) : Plain (.obj (emptyKids ns) : BNode F) := by
  refine plain_obj ?_ ?_
  · simpa [emptyKids, Function.comp_def] using hd
  · intro k hk
    simp only [emptyKids, List.mem_map] at hk
    obtain ⟨a, ha, rfl⟩ := hk
    exact ⟨fun e => h (e ▸ ha), trivial⟩

theorem copyString_ok {n : BNode F} {f : Str} {s : Str} (h : n.get f = .ok (.str s)) : copyString n f = .ok (f, .str s) := by
  simp [copyString, h, BNode.asString]

theorem copyOptional_ok {n : BNode F} {f : Str} (h : Has n f → HasStr n f) :
    ∃ l, copyOptional n f = .ok l ∧
      ((∃ s, n.get f = .ok (.str s) ∧ l = [(f, .str s)]) ∨ (n.get f = .error ∧ l = [])) := by
  unfold copyOptional
  by_cases hh : Has n f
  · obtain ⟨s, hs⟩ := h hh
    rw [if_pos (has_iff.2 hh), copyString_ok hs]
    exact ⟨_, rfl, .inl ⟨s, hs, rfl⟩⟩
  · rw [if_neg (by rw [has_iff]; exact hh)]
    exact ⟨_, rfl, .inr ⟨get_error hh, rfl⟩⟩

theorem joinPath_below {ref rest : Str} (h : rest ≠ []) : joinPath ref rest = below ref rest := by
  unfold joinPath below
  have hr : rest.length > 0 := List.length_pos_iff.2 h
  by_cases h1 : ref = []
  · simp [h1]
  · have h1' : ref.length > 0 := List.length_pos_iff.2 h1
    by_cases h2 : ref.getLast? = some '/'
    · simp [h2]
    · simp [h1, h2, h1', hr]

theorem path_below {ref coll name : Str} (hc : coll ≠ []) (hs : coll.getLast? ≠ some '/') (h : name ≠ []) :
    joinPath (joinPath ref coll) name = below ref (coll ++ ['/'] ++ name) := by
  rw [joinPath_below hc, joinPath_below h]
  unfold below
  have e1 : ∀ p : Str, (p ++ coll).getLast? = coll.getLast? := fun p => by
    rw [List.getLast?_append]
    cases hx : coll.getLast? with
    | none => exact absurd (List.getLast?_eq_none_iff.1 hx) hc
    | some x => rfl
  split
  · rw [if_neg]
    · simp
    · rw [e1]; simp [hc, hs]
  · rw [if_neg]
    · simp
    · rw [e1]; simp [hc, hs]

/-- What holds of an entry that has been made. -/
structure Made (ref coll name : Str) (c e : BNode F) (R : BNode F → BNode F → Prop) (Is : BNode F → Prop) : Prop where
  says : R c e
  good : Is e
  plain : Plain e
  path : e.get (chars! "path") = .ok (.str (joinPath (joinPath ref coll) name))

/-- What more is known of the entries for matsets, specsets and fields. -/
def MatsetEntry (e : BNode F) : Prop := IsMatsetIndex e ∧ (Has e (chars! "materials") → HasKids e (chars! "materials"))
def SpecsetEntry (e : BNode F) : Prop :=
  IsSpecsetIndex e ∧ ∀ s m, e.get (chars! "species") = .ok s → Has s m → HasKids s m
def FieldEntry (e : BNode F) : Prop :=
  IsFieldIndex e ∧ ∃ m, e.get (chars! "number_of_components") = .ok (.ints int64 [m])

theorem plain_str (s : Str) : Plain (.str s : BNode F) := trivial
theorem plain_ints (t : IntTy) (l : List Int) : Plain (.ints t l : BNode F) := trivial

theorem topology_made {ref name : Str} {c : BNode F} (h : IsTopology c) :
    ∃ e, indexTopology ref name c = .ok e ∧ Made ref (chars! "topologies") name c e OfTopology IsTopologyIndex := by
  obtain ⟨⟨cs, hcs⟩, ht, hg⟩ := h
  have ht' : HasOneOf c (chars! "type")
      [chars! "points", chars! "uniform", chars! "rectilinear", chars! "structured", chars! "unstructured"] := by
    rcases ht with ⟨x, hx, e⟩ | ⟨e, -⟩ | ⟨e, -⟩
    · refine ⟨x, ?_, e⟩
      simp only [List.mem_cons, List.not_mem_nil, or_false] at hx ⊢
      rcases hx with h | h | h <;> simp [h]
    · exact ⟨_, by simp, e⟩
    · exact ⟨_, by simp, e⟩
  obtain ⟨ty, hty, ht⟩ := ht'
  obtain ⟨g, hg, hgs⟩ := copyOptional_ok hg
  unfold indexTopology
  rw [copyString_ok ht, copyString_ok hcs, hg]
  refine ⟨_, rfl, ?_⟩
  rcases hgs with ⟨gs, e, rfl⟩ | ⟨e, rfl⟩
  · refine ⟨⟨ht.symm, hcs.symm, e.symm⟩, ⟨⟨ty, hty, rfl⟩, ⟨cs, rfl⟩, ⟨_, rfl⟩, fun _ => ⟨gs, rfl⟩⟩, ?_, rfl⟩
    refine plain_obj (by simp [indexPath]) ?_
    simp [indexPath, plain_str]
  · refine ⟨⟨ht.symm, hcs.symm, e.symm⟩, ⟨⟨ty, hty, rfl⟩, ⟨cs, rfl⟩, ⟨_, rfl⟩, ?_⟩, ?_, rfl⟩
    · rintro ⟨x, hx⟩; exact absurd hx (by show (Res.error : Res (BNode F)) ≠ _; simp)
    · refine plain_obj (by simp [indexPath]) ?_
      simp [indexPath, plain_str]

theorem adjacency_made {coll ref name : Str} {c : BNode F} (h1 : HasStr c (chars! "topology"))
    (h2 : HasOneOf c (chars! "association") [chars! "vertex", chars! "element"]) :
    ∃ e, indexAdjacency coll ref name c = .ok e ∧ Made ref coll name c e OfAdjacency IsAdjacencyIndex := by
  obtain ⟨t, ht⟩ := h1
  obtain ⟨a, hm, ha⟩ := h2
  unfold indexAdjacency
  rw [copyString_ok ha, copyString_ok ht]
  refine ⟨_, rfl, ⟨ha.symm, ht.symm⟩, ⟨⟨t, rfl⟩, ⟨a, hm, rfl⟩, ⟨_, rfl⟩⟩, ?_, rfl⟩
  refine plain_obj (by simp [indexPath]) ?_
  simp [indexPath, plain_str]

theorem fieldComponents {c : BNode F} (h : IsField c) (hx : FieldIndexable c) :
    ∃ n, indexComponents c = .ok n ∧
      (∀ v, c.get (chars! "values") = .ok v → n = components v) ∧
      (¬ Has c (chars! "values") → ∀ v w l, c.get (chars! "matset_values") = .ok v → members v = w :: l →
        n = components w) := by
  have hcomp : ∀ v : BNode F, (if v.isObject then v.numChildren else 1) = components v := by
    intro v; cases v <;> rfl
  by_cases hv : Has c (chars! "values")
  · obtain ⟨v, e⟩ := hv
    have hval : indexComponents c = .ok (components v) := by
      unfold indexComponents
      rw [if_pos (has_iff.2 ⟨v, e⟩), e, Res.map'_ok, hcomp]
    refine ⟨_, hval, fun v' e' => ?_, fun hn => absurd ⟨v, e⟩ hn⟩
    rw [get_inj e e']
  · obtain ⟨v, e, hm⟩ := hx.1 hv
    have hi : v.items.map (·.2) = members v := by
      cases v with
      | obj ks => rfl
      | list ks => rw [BNode.items, List.map_map]; exact List.zipIdx_map_fst 0 ks
      | _ => rfl
    cases hI : v.items with
    | nil => rw [hI] at hi; exact absurd hi.symm hm
    | cons k ks =>
      have hval : indexComponents c = .ok (components k.2) := by
        unfold indexComponents
        rw [if_neg (by rw [has_iff]; exact hv), e, Res.bind_ok, hI, ← hcomp]
      refine ⟨_, hval, fun v' e' => absurd ⟨v', e'⟩ hv, fun _ v' w l e' hw => ?_⟩
      obtain rfl := get_inj e e'
      rw [hI, hw] at hi
      simp only [List.map_cons, List.cons.injEq] at hi
      rw [← hi.1]

theorem field_made {ref name : Str} {c : BNode F} (h : IsField c) (hx : FieldIndexable c) :
    ∃ e, indexField ref name c = .ok e ∧ Made ref (chars! "fields") name c e OfField FieldEntry := by
  obtain ⟨n, hn, hn1, hn2⟩ := fieldComponents h hx
  obtain ⟨hab, ha, hb, htm, ht, hm⟩ := h
  have ht' : Has c (chars! "topology") → HasStr c (chars! "topology") := fun y => by
    rcases ht with z | z
    · exact absurd y z.1
    · exact z.1
  have hm' : Has c (chars! "matset") → HasStr c (chars! "matset") := fun y => by
    rcases hm with z | z
    · exact absurd y z.1
    · exact z.1
  obtain ⟨t, et, ht'⟩ := copyOptional_ok ht'
  obtain ⟨m, em, hm'⟩ := copyOptional_ok hm'
  obtain ⟨v, ev, hv'⟩ := copyOptional_ok hx.2
  have hA : ∃ a, (if c.hasChild (chars! "association") then (c.get (chars! "association")).map' fun x => (chars! "association", x)
      else (c.get (chars! "basis")).map' fun x => (chars! "basis", x) : Res (Str × BNode F)) = .ok a ∧
      ((∃ s ∈ [chars! "vertex", chars! "element"], c.get (chars! "association") = .ok (.str s) ∧ a = (chars! "association", .str s)) ∨
       (c.get (chars! "association") = .error ∧ ∃ s, c.get (chars! "basis") = .ok (.str s) ∧ a = (chars! "basis", .str s))) := by
    by_cases h : Has c (chars! "association")
    · obtain ⟨s, hs, e⟩ := ha h
      exact ⟨_, by rw [if_pos (has_iff.2 h), e, Res.map'_ok], .inl ⟨s, hs, e, rfl⟩⟩
    · obtain ⟨s, e⟩ := hb (hab.resolve_left h)
      exact ⟨_, by rw [if_neg (by rw [has_iff]; exact h), e, Res.map'_ok], .inr ⟨get_error h, s, e, rfl⟩⟩
  obtain ⟨a, ea, ha'⟩ := hA
  have hval : indexField ref name c = .ok (.obj ([(chars! "number_of_components", .ints int64 [(n : Int)])] ++ t ++ m ++ v ++
    [a, indexPath ref (chars! "fields") name])) := by
    unfold indexField
    rw [hn, et, em, ev]
    simp only [Res.bind_ok]
    rw [ea]
    rfl
  refine ⟨_, hval, ?_⟩
  have hno : ∀ {x : BNode F} {f : Str} {φ : Prop}, x.get f = .error → Has x f → φ := fun h y => absurd y (not_has_of_error h)
  have key : ∀ (e : BNode F), e.get (chars! "number_of_components") = .ok (.ints int64 [(n : Int)]) →
      e.get (chars! "topology") = c.get (chars! "topology") → e.get (chars! "matset") = c.get (chars! "matset") →
      e.get (chars! "volume_dependent") = c.get (chars! "volume_dependent") →
      e.get (chars! "association") = c.get (chars! "association") →
      (e.get (chars! "association") = .error → e.get (chars! "basis") = c.get (chars! "basis")) →
      (∀ s x, e.get (chars! "association") = .ok (.str s) → e.get (chars! "basis") ≠ .ok x) →
      e.get (chars! "path") = .ok (.str (joinPath (joinPath ref (chars! "fields")) name)) → Plain e →
      Made ref (chars! "fields") name c e OfField FieldEntry := by
    intro e h1 h2 h3 h4 h5 h6 h7 h8 h9
    have hh : ∀ {f : Str}, e.get f = c.get f → (Has e f ↔ Has c f) := fun q => by unfold Has; rw [q]
    have hs : ∀ {f : Str}, e.get f = c.get f → (HasStr e f ↔ HasStr c f) := fun q => by unfold HasStr; rw [q]
    refine ⟨⟨h2, h3, h4, h5, fun q => h6 (by rw [h5]; exact get_error q), fun v' e' => by rw [h1, hn1 v' e'], fun q v' w l e' el => by
      rw [h1, hn2 q v' w l e' el]⟩, ⟨⟨?_, ?_, ?_, ?_, ?_, ?_, ⟨_, _, h1⟩, ⟨_, h8⟩⟩, _, h1⟩, h9, h8⟩
    · by_cases q : Has c (chars! "association")
      · exact .inl ((hh h5).2 q)
      · exact .inr ((hh (h6 (by rw [h5]; exact get_error q))).2 (hab.resolve_left q))
    · intro q
      obtain ⟨s, hs, e⟩ := ha ((hh h5).1 q)
      exact ⟨s, hs, h5.trans e⟩
    · intro q
      by_cases r : Has c (chars! "association")
      · obtain ⟨s, hs, e'⟩ := ha r
        obtain ⟨x, q⟩ := q
        exact absurd q (h7 s x (h5.trans e'))
      · have h6' := h6 (by rw [h5]; exact get_error r)
        exact (hs h6').2 (hb ((hh h6').1 q))
    · rcases htm with q | q
      · exact .inl ((hh h2).2 q)
      · exact .inr ((hh h3).2 q)
    · intro q
      refine (hs h2).2 ?_
      rcases ht' with ⟨s, x, -⟩ | ⟨x, -⟩
      · exact ⟨s, x⟩
      · exact hno x ((hh h2).1 q)
    · intro q
      refine (hs h3).2 ?_
      rcases hm' with ⟨s, x, -⟩ | ⟨x, -⟩
      · exact ⟨s, x⟩
      · exact hno x ((hh h3).1 q)
  apply key
  all_goals
    rcases ht' with ⟨s1, e1, rfl⟩ | ⟨e1, rfl⟩ <;> rcases hm' with ⟨s2, e2, rfl⟩ | ⟨e2, rfl⟩ <;>
      rcases hv' with ⟨s3, e3, rfl⟩ | ⟨e3, rfl⟩ <;> rcases ha' with ⟨s4, -, e4, rfl⟩ | ⟨e4, s4, e5, rfl⟩
  all_goals first
    | rfl
    | exact e1.symm
    | exact e2.symm
    | exact e3.symm
    | exact e4.symm
    | exact fun _ => e5.symm
    | exact fun q => absurd q (by show (Res.ok _ : Res (BNode F)) ≠ _; simp)
    | exact fun s x _ => by show (Res.error : Res (BNode F)) ≠ _; simp
    | exact fun s x q => absurd q (by show (Res.error : Res (BNode F)) ≠ _; simp)
    | exact plain_obj (by simp [indexPath]) (by simp [indexPath, plain_str, plain_ints])

end
end Conduit.Mesh
