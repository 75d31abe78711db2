import Verif.Lemmas.MeshIO
/-
Trees without empty objects (C88).
-/
namespace Conduit.MeshIO
open Conduit.Mesh

section
variable {F : Type}

theorem tidyO_map (ks : List (Str × BNode F)) : tidy.tidyO ks = ks.map fun k => (k.1, tidy k.2) := by
  induction ks with
  | nil => rfl
  | cons k ks ih => rw [tidy.tidyO, ih]; rfl

theorem tidyL_map (ks : List (BNode F)) : tidy.tidyL ks = ks.map tidy := by
  induction ks with
  | nil => rfl
  | cons k ks ih => rw [tidy.tidyL, ih]; rfl

theorem tidy_obj {ks : List (Str × BNode F)} (h : ks ≠ []) : tidy (.obj ks) = .obj (ks.map fun k => (k.1, tidy k.2)) := by
  cases ks with
  | nil => exact absurd rfl h
  | cons k ks => rw [tidy, tidyO_map]; simp

theorem tidy_list {ks : List (BNode F)} (h : ks ≠ []) : tidy (.list ks) = .list (ks.map tidy) := by
  cases ks with
  | nil => exact absurd rfl h
  | cons k ks => rw [tidy, tidyL_map]; simp

theorem tidy_nil : tidy (.obj [] : BNode F) = .empty := by rw [tidy]

@[simp] theorem tidy_empty : tidy (.empty : BNode F) = .empty := by rw [tidy] <;> simp
@[simp] theorem tidy_str (s : Str) : tidy (.str s : BNode F) = .str s := by rw [tidy] <;> simp
@[simp] theorem tidy_ints (t : IntTy) (l : List Int) : tidy (.ints t l : BNode F) = .ints t l := by rw [tidy] <;> simp
@[simp] theorem tidy_flts (w : Bool) (l : List F) : tidy (.flts w l : BNode F) = .flts w l := by rw [tidy] <;> simp

theorem get_map (g : BNode F → BNode F) (ks : List (Str × BNode F)) (f : Str) :
    (BNode.obj (ks.map fun k => (k.1, g k.2))).get f = ((BNode.obj ks).get f).map' g := by
  induction ks with
  | nil => rw [List.map_nil, get_nil]; rfl
  | cons k ks ih =>
    obtain ⟨t, x⟩ := k
    by_cases e : t = f
    · subst e; rw [List.map_cons, get_cons_self, get_cons_self]; rfl
    · rw [List.map_cons, get_cons_ne e, get_cons_ne e, ih]

theorem get_tidy (n : BNode F) (f : Str) : (tidy n).get f = (n.get f).map' tidy := by
  cases n with
  | obj ks =>
    by_cases h : ks = []
    · subst h; rw [tidy_nil, get_nil]; rfl
    · rw [tidy_obj h, get_map]
  | list ks =>
    by_cases h : ks = []
    · subst h; rw [tidy]; rfl
    · rw [tidy_list h]; rfl
  | _ => simp; rfl

theorem get_tidy_ok {n x : BNode F} {f : Str} (h : n.get f = .ok x) : (tidy n).get f = .ok (tidy x) := by
  rw [get_tidy, h]; rfl

theorem get_tidy_error {n : BNode F} {f : Str} (h : n.get f = .error) : (tidy n).get f = .error := by
  rw [get_tidy, h]; rfl

theorem of_get_tidy {n y : BNode F} {f : Str} (h : (tidy n).get f = .ok y) : ∃ x, n.get f = .ok x ∧ y = tidy x := by
  rcases get_cases n f with ⟨x, hx⟩ | hx
  · rw [get_tidy_ok hx] at h; injection h with h; exact ⟨x, hx, h.symm⟩
  · rw [get_tidy_error hx] at h; cases h

theorem has_tidy (n : BNode F) (f : Str) : Has (tidy n) f ↔ Has n f := by
  constructor
  · rintro ⟨y, hy⟩; obtain ⟨x, hx, -⟩ := of_get_tidy hy; exact ⟨x, hx⟩
  · rintro ⟨x, hx⟩; exact ⟨_, get_tidy_ok hx⟩

theorem entry_tidy (n : BNode F) (coll name : Str) (c : BNode F) :
    Entry (tidy n) coll name c ↔ ∃ b, Entry n coll name b ∧ c = tidy b := by
  constructor
  · rintro ⟨e, h1, h2⟩
    obtain ⟨x, hx, rfl⟩ := of_get_tidy h1
    obtain ⟨y, hy, rfl⟩ := of_get_tidy h2
    exact ⟨y, ⟨x, hx, hy⟩, rfl⟩
  · rintro ⟨b, ⟨e, h1, h2⟩, rfl⟩
    exact ⟨_, get_tidy_ok h1, get_tidy_ok h2⟩

theorem down_tidy {n x : BNode F} {l : List Str} (h : down n l = .ok x) : down (tidy n) l = .ok (tidy x) := by
  induction l generalizing n with
  | nil => injection h with h; rw [down, h]
  | cons s r ih =>
    rw [down] at h ⊢
    rcases get_cases n s with ⟨y, hy⟩ | hy
    · rw [hy] at h; rw [get_tidy_ok hy]; exact ih h
    · rw [hy] at h; cases h

mutual
theorem tidy_tidy : ∀ n : BNode F, tidy (tidy n) = tidy n
  | .obj ks => by
    by_cases h : ks = []
    · subst h; rw [tidy_nil]; simp
    · have e := tidyO_tidyO ks
      rw [tidyO_map, tidyO_map] at e
      rw [tidy_obj h, tidy_obj (by simpa using h), e]
  | .list ks => by
    by_cases h : ks = []
    · subst h; rw [tidy]; simp
    · have e := tidyL_tidyL ks
      rw [tidyL_map, tidyL_map] at e
      rw [tidy_list h, tidy_list (by simpa using h), e]
  | .empty => by simp
  | .ints _ _ => by simp
  | .flts _ _ => by simp
  | .str _ => by simp
theorem tidyO_tidyO : ∀ ks : List (Str × BNode F), tidy.tidyO (tidy.tidyO ks) = tidy.tidyO ks
  | [] => rfl
  | k :: ks => by rw [tidy.tidyO, tidy.tidyO, tidy_tidy k.2, tidyO_tidyO ks]
theorem tidyL_tidyL : ∀ ks : List (BNode F), tidy.tidyL (tidy.tidyL ks) = tidy.tidyL ks
  | [] => rfl
  | k :: ks => by rw [tidy.tidyL, tidy.tidyL, tidy_tidy k, tidyL_tidyL ks]
end

theorem modKid_new {name : Str} {f : BNode F → BNode F} {ds : List (Str × BNode F)} (h : name ∉ ds.map (·.1)) :
    modKid name f ds = ds ++ [(name, f .empty)] := by
  induction ds with
  | nil => rfl
  | cons d ds ih =>
    obtain ⟨t, x⟩ := d
    simp only [List.map_cons, List.mem_cons, not_or] at h
    rw [modKid_cons_ne (fun e => h.1 e.symm), ih h.2]; rfl

mutual
/-- Updating an empty node makes a tidy copy. -/
theorem update_empty : ∀ n : BNode F, Plain n → n.update .empty = tidy n
  | .obj ks, hp => by
    by_cases h : ks = []
    · subst h; rw [tidy_nil, BNode.update]
    · rw [update_obj h, tidy_obj h]
      have := updO_new ks [] hp.2 hp.1 (by simp)
      simpa [BNode.kids] using this
  | .list ks, hp => by
    by_cases h : ks = []
    · subst h; rw [tidy, BNode.update]
    · rw [tidy_list h, BNode.update]
      · rw [updL_new ks hp]
      · exact h
      · simp
  | .empty, _ => by simp [BNode.update]
  | .ints _ _, _ => by simp [BNode.update]
  | .flts _ _, _ => by simp [BNode.update]
  | .str _, _ => by simp [BNode.update]
theorem updO_new : ∀ (ks ds : List (Str × BNode F)), Plain.plainO ks → (ks.map (·.1)).Nodup →
    (∀ k ∈ ks, k.1 ∉ ds.map (·.1)) → BNode.update.updO ks ds = ds ++ ks.map fun k => (k.1, tidy k.2)
  | [], ds, _, _, _ => by rw [BNode.update.updO]; simp
  | k :: ks, ds, hp, hn, hd => by
    rw [List.map_cons, List.nodup_cons] at hn
    rw [BNode.update.updO, modKid_new (hd k List.mem_cons_self), update_empty k.2 hp.2.1,
      updO_new ks _ hp.2.2 hn.2 (fun x hx q => by
        rw [List.map_append, List.mem_append] at q
        rcases q with q | q
        · exact hd x (List.mem_cons_of_mem _ hx) q
        · simp only [List.map_cons, List.map_nil, List.mem_singleton] at q
          exact hn.1 (q ▸ List.mem_map_of_mem hx))]
    simp
theorem updL_new : ∀ (ks : List (BNode F)), Plain.plainL ks → BNode.update.updL ks [] = ks.map tidy
  | [], _ => by rw [BNode.update.updL]; rfl
  | k :: ks, hp => by rw [BNode.update.updL, update_empty k hp.1, updL_new ks hp.2]; rfl
end

theorem plain_tidy {n : BNode F} (h : Plain n) : Plain (tidy n) := by
  rw [← update_empty n h]; exact plain_update n .empty h trivial

/-! ### An index stays an index -/

theorem HasStr.tidy {n : BNode F} {f : Str} (h : HasStr n f) : HasStr (MeshIO.tidy n) f := by
  obtain ⟨s, h⟩ := h; exact ⟨s, by rw [get_tidy_ok h, tidy_str]⟩

theorem get_str_tidy {n : BNode F} {f s : Str} (h : n.get f = .ok (.str s)) : (tidy n).get f = .ok (.str s) := by
  rw [get_tidy_ok h, tidy_str]

theorem HasOneOf.tidy {n : BNode F} {f : Str} {vs : List Str} (h : HasOneOf n f vs) : HasOneOf (MeshIO.tidy n) f vs := by
  obtain ⟨s, hs, h⟩ := h; exact ⟨s, hs, get_str_tidy h⟩

theorem HasInts.tidy {n : BNode F} {f : Str} (h : HasInts n f) : HasInts (MeshIO.tidy n) f := by
  obtain ⟨t, l, h⟩ := h; exact ⟨t, l, by rw [get_tidy_ok h, tidy_ints]⟩

theorem get_obj_tidy {n : BNode F} {f : Str} {ks : List (Str × BNode F)} (h : n.get f = .ok (.obj ks)) (hk : ks ≠ []) :
    (tidy n).get f = .ok (.obj (ks.map fun k => (k.1, tidy k.2))) := by
  rw [get_tidy_ok h, tidy_obj hk]

theorem HasKids.tidy {n : BNode F} {f : Str} (h : HasKids n f) : HasKids (MeshIO.tidy n) f := by
  obtain ⟨ks, h, hk⟩ := h
  exact ⟨_, get_obj_tidy h hk, by simpa using hk⟩

theorem AllOf.tidy {n : BNode F} {coll : Str} {P Q : BNode F → Prop} (h : AllOf n coll P) (hq : ∀ c, P c → Q (MeshIO.tidy c)) :
    AllOf (MeshIO.tidy n) coll Q := by
  obtain ⟨ks, h, hk, hP⟩ := h
  refine ⟨_, get_obj_tidy h hk, by simpa using hk, fun k hk' => ?_⟩
  obtain ⟨x, hx, rfl⟩ := List.mem_map.1 hk'
  exact hq _ (hP x hx)

theorem opt_tidy {n : BNode F} {f : Str} {P Q : Prop} (h : Has n f → P) (hq : P → Q) : Has (tidy n) f → Q :=
  fun q => hq (h ((has_tidy n f).1 q))

theorem Points.tidy {n c : BNode F} {f coll : Str} (h : Points n c f coll) : Points (MeshIO.tidy n) (MeshIO.tidy c) f coll := by
  obtain ⟨s, hs, x, hx⟩ := h
  exact ⟨s, get_str_tidy hs, _, (entry_tidy n coll s _).2 ⟨x, hx, rfl⟩⟩

theorem coordsetIndex_tidy {n : BNode F} (h : IsCoordsetIndex n) : IsCoordsetIndex (tidy n) := by
  obtain ⟨h1, h2, s, h3, sys, h4, h5, ks, h6, h7, h8⟩ := h
  refine ⟨HasOneOf.tidy h1, HasStr.tidy h2, _, get_tidy_ok h3, sys, h4, get_str_tidy h5, _, get_obj_tidy h6 h7, by simpa using h7,
    fun k hk => ?_⟩
  obtain ⟨x, hx, rfl⟩ := List.mem_map.1 hk
  exact h8 x hx

theorem topologyIndex_tidy {n : BNode F} (h : IsTopologyIndex n) : IsTopologyIndex (tidy n) :=
  ⟨HasOneOf.tidy h.1, HasStr.tidy h.2.1, HasStr.tidy h.2.2.1, opt_tidy h.2.2.2 HasStr.tidy⟩

theorem matsetIndex_tidy {n : BNode F} (h : IsMatsetIndex n) : IsMatsetIndex (tidy n) := by
  obtain ⟨h1, h2, h3⟩ := h
  refine ⟨HasStr.tidy h1, ?_, HasStr.tidy h3⟩
  rcases h2 with ⟨ks, q1, q2, q3⟩ | ⟨q1, q2⟩
  · refine .inl ⟨_, get_obj_tidy q1 q2, by simpa using q2, fun k hk => ?_⟩
    obtain ⟨x, hx, rfl⟩ := List.mem_map.1 hk
    obtain ⟨t, l, e⟩ := q3 x hx
    exact ⟨t, l, by simp [e]⟩
  · exact .inr ⟨fun q => q1 ((has_tidy _ _).1 q), HasKids.tidy q2⟩

theorem fieldIndex_tidy {n : BNode F} (h : IsFieldIndex n) : IsFieldIndex (tidy n) := by
  obtain ⟨h1, h2, h3, h4, h5, h6, h7, h8⟩ := h
  exact ⟨h1.imp (has_tidy _ _).2 (has_tidy _ _).2, opt_tidy h2 HasOneOf.tidy, opt_tidy h3 HasStr.tidy,
    h4.imp (has_tidy _ _).2 (has_tidy _ _).2, opt_tidy h5 HasStr.tidy, opt_tidy h6 HasStr.tidy, HasInts.tidy h7, HasStr.tidy h8⟩

theorem specsetIndex_tidy {n : BNode F} (h : IsSpecsetIndex n) : IsSpecsetIndex (tidy n) :=
  ⟨HasStr.tidy h.1, HasKids.tidy h.2.1, HasStr.tidy h.2.2⟩

theorem adjacencyIndex_tidy {n : BNode F} (h : IsAdjacencyIndex n) : IsAdjacencyIndex (tidy n) :=
  ⟨HasStr.tidy h.1, HasOneOf.tidy h.2.1, HasStr.tidy h.2.2⟩

theorem flat_tidy {n : BNode F} (h : Flat n) : Flat (tidy n) := by
  constructor
  · exact AllOf.tidy h.coordsets fun _ => coordsetIndex_tidy
  · exact AllOf.tidy h.topologies fun _ q => ⟨topologyIndex_tidy q.1, Points.tidy q.2⟩
  · exact opt_tidy h.matsets fun a => AllOf.tidy a fun _ q => ⟨matsetIndex_tidy q.1, Points.tidy q.2⟩
  · exact opt_tidy h.specsets fun a => AllOf.tidy a fun _ q => ⟨specsetIndex_tidy q.1, Points.tidy q.2⟩
  · exact opt_tidy h.fields fun a => AllOf.tidy a fun _ q => ⟨fieldIndex_tidy q.1, opt_tidy q.2.1 Points.tidy,
      opt_tidy q.2.2 Points.tidy⟩
  · exact opt_tidy h.adjsets fun a => AllOf.tidy a fun _ q => ⟨adjacencyIndex_tidy q.1, Points.tidy q.2⟩
  · exact opt_tidy h.nestsets fun a => AllOf.tidy a fun _ q => ⟨adjacencyIndex_tidy q.1, Points.tidy q.2⟩

end
end Conduit.MeshIO
