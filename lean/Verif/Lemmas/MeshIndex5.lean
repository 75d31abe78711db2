import Verif.Lemmas.MeshIndex4
import Verif.Model.MeshPoints
/-
`Node::update`.
-/
namespace Conduit.Mesh

section
variable {F : Type}

theorem getOrEmpty_ok {n x : BNode F} {f : Str} (h : n.get f = .ok x) : n.getOrEmpty f = x := by
  unfold BNode.getOrEmpty; rw [h]

theorem getOrEmpty_error {n : BNode F} {f : Str} (h : n.get f = .error) : n.getOrEmpty f = .empty := by
  unfold BNode.getOrEmpty; rw [h]

theorem modKid_cons_self (g : Str) (f : BNode F → BNode F) (x : BNode F) (ds : List (Str × BNode F)) :
    modKid g f ((g, x) :: ds) = (g, f x) :: ds := by simp [modKid]

theorem modKid_cons_ne {g h : Str} (e : h ≠ g) (f : BNode F → BNode F) (x : BNode F) (ds : List (Str × BNode F)) :
    modKid g f ((h, x) :: ds) = (h, x) :: modKid g f ds := by simp [modKid, e]

theorem get_modKid_self (g : Str) (f : BNode F → BNode F) (ds : List (Str × BNode F)) :
    (BNode.obj (modKid g f ds)).get g = .ok (f ((BNode.obj ds).getOrEmpty g)) := by
  induction ds with
  | nil => rw [modKid, get_cons_self, getOrEmpty_error (get_nil g)]
  | cons d ds ih =>
    obtain ⟨h, x⟩ := d
    by_cases e : h = g
    · subst e; rw [modKid_cons_self, get_cons_self, getOrEmpty_ok (get_cons_self ..)]
    · rw [modKid_cons_ne e, get_cons_ne e, ih]
      unfold BNode.getOrEmpty; rw [get_cons_ne e]

theorem get_modKid_ne {g h : Str} (e : g ≠ h) (f : BNode F → BNode F) (ds : List (Str × BNode F)) :
    (BNode.obj (modKid g f ds)).get h = (BNode.obj ds).get h := by
  induction ds with
  | nil => rw [modKid, get_cons_ne e]
  | cons d ds ih =>
    obtain ⟨k, x⟩ := d
    by_cases e' : k = g
    · subst e'; rw [modKid_cons_self, get_cons_ne e, get_cons_ne e]
    · rw [modKid_cons_ne e']
      by_cases e2 : k = h
      · subst e2; rw [get_cons_self, get_cons_self]
      · rw [get_cons_ne e2, get_cons_ne e2, ih]

theorem get_updO (ks ds : List (Str × BNode F)) (hd : (ks.map (·.1)).Nodup) (f : Str) :
    (∀ x, (BNode.obj ks).get f = .ok x →
      (BNode.obj (BNode.update.updO ks ds)).get f = .ok (x.update ((BNode.obj ds).getOrEmpty f))) ∧
    ((BNode.obj ks).get f = .error → (BNode.obj (BNode.update.updO ks ds)).get f = (BNode.obj ds).get f) := by
  induction ks generalizing ds with
  | nil => exact ⟨fun x h => absurd h (by rw [get_nil]; simp), fun _ => by rw [BNode.update.updO]⟩
  | cons k ks ih =>
    obtain ⟨g, v⟩ := k
    simp only [List.map_cons, List.nodup_cons] at hd
    have ih := ih (modKid g v.update ds) hd.2
    rw [BNode.update.updO]
    by_cases e : g = f
    · subst e
      have hno : (BNode.obj ks).get g = .error := get_error (by rw [has_obj]; exact hd.1)
      refine ⟨fun x h => ?_, fun h => absurd h (by rw [get_cons_self]; simp)⟩
      rw [get_cons_self] at h
      injection h with h
      subst h
      rw [ih.2 hno, get_modKid_self]
    · rw [get_cons_ne e]
      constructor
      · intro x h
        rw [ih.1 x h]
        unfold BNode.getOrEmpty
        rw [get_modKid_ne e]
      · intro h
        rw [ih.2 h, get_modKid_ne e]

/-- An object with children, no two of one name. -/
def Sane (n : BNode F) : Prop := ∃ ks, n = .obj ks ∧ ks ≠ [] ∧ (ks.map (·.1)).Nodup

theorem Sane.of {n x : BNode F} {f : Str} (h : n.get f = .ok x) (hp : Plain n) : Sane n := by
  obtain ⟨ks, rfl, hk⟩ := nonempty_of_get h
  exact ⟨ks, rfl, hk, hp.nodup⟩

theorem update_obj {ks : List (Str × BNode F)} (h : ks ≠ []) (d : BNode F) :
    (BNode.obj ks).update d = .obj (BNode.update.updO ks d.kids) := by
  rw [BNode.update]
  exact h

theorem get_kids (d : BNode F) (f : Str) : (BNode.obj d.kids).get f = d.get f := rfl

theorem getOrEmpty_kids (d : BNode F) (f : Str) : (BNode.obj d.kids).getOrEmpty f = d.getOrEmpty f := rfl

theorem Sane.get_update {n d x : BNode F} {f : Str} (h : Sane n) (hx : n.get f = .ok x) :
    (n.update d).get f = .ok (x.update (d.getOrEmpty f)) := by
  obtain ⟨ks, rfl, hne, hd⟩ := h
  rw [update_obj hne, (get_updO ks d.kids hd f).1 x hx, getOrEmpty_kids]

theorem Sane.get_other {n d : BNode F} {f : Str} (h : Sane n) (hx : n.get f = .error) :
    (n.update d).get f = d.get f := by
  obtain ⟨ks, rfl, hne, hd⟩ := h
  rw [update_obj hne, (get_updO ks d.kids hd f).2 hx, get_kids]

theorem update_str (s : Str) (d : BNode F) : (BNode.str s).update d = .str s := by rw [BNode.update]

theorem Sane.str {n d : BNode F} {f s : Str} (h : Sane n) (hx : n.get f = .ok (.str s)) :
    (n.update d).get f = .ok (.str s) := by rw [h.get_update hx, update_str]

theorem update_ints (t : IntTy) (l : List Int) (d : BNode F) : ∃ l', (BNode.ints t l).update d = .ints t l' := by
  cases d with
  | ints t' l' => rw [BNode.update]; split <;> exact ⟨_, rfl⟩
  | _ => exact ⟨l, by simp [BNode.update]⟩

/-- One number replaces one number. -/
theorem update_scalar (t : IntTy) (v : Int) (d : BNode F) (h : d = .empty ∨ ∃ w, d = .ints t [w]) :
    (BNode.ints t [v]).update d = .ints t [v] := by
  rcases h with rfl | ⟨w, rfl⟩ <;> simp [BNode.update]

theorem Sane.has {n d : BNode F} {f : Str} (h : Sane n) : Has (n.update d) f ↔ Has n f ∨ Has d f := by
  rcases get_cases n f with ⟨x, hx⟩ | hx
  · exact ⟨fun _ => .inl ⟨x, hx⟩, fun _ => ⟨_, h.get_update hx⟩⟩
  · constructor
    · rintro ⟨y, hy⟩; rw [h.get_other hx] at hy; exact .inr ⟨y, hy⟩
    · rintro (q | ⟨y, hy⟩)
      · exact absurd q (not_has_of_error hx)
      · exact ⟨y, by rw [h.get_other hx]; exact hy⟩

theorem mem_names_modKid (g : Str) (f : BNode F → BNode F) (ds : List (Str × BNode F)) (a : Str) :
    a ∈ (modKid g f ds).map (·.1) ↔ a = g ∨ a ∈ ds.map (·.1) := by
  induction ds with
  | nil => simp [modKid]
  | cons d ds ih =>
    obtain ⟨h, x⟩ := d
    by_cases e : h = g
    · subst e; rw [modKid_cons_self]; simp
    · rw [modKid_cons_ne e, List.map_cons, List.mem_cons, ih, List.map_cons, List.mem_cons]
      constructor
      · rintro (q | q | q) <;> simp [q]
      · rintro (q | q | q) <;> simp [q]

theorem nodup_modKid (g : Str) (f : BNode F → BNode F) (ds : List (Str × BNode F)) (hd : (ds.map (·.1)).Nodup) :
    ((modKid g f ds).map (·.1)).Nodup := by
  induction ds with
  | nil => simp [modKid]
  | cons d ds ih =>
    obtain ⟨h, x⟩ := d
    simp only [List.map_cons, List.nodup_cons] at hd
    by_cases e : h = g
    · subst e; rw [modKid_cons_self]; simpa using hd
    · rw [modKid_cons_ne e, List.map_cons, List.nodup_cons, mem_names_modKid]
      refine ⟨?_, ih hd.2⟩
      rintro (q | q)
      · exact e q
      · exact hd.1 q

theorem mem_names_updO (ks ds : List (Str × BNode F)) (a : Str) :
    a ∈ (BNode.update.updO ks ds).map (·.1) ↔ a ∈ ks.map (·.1) ∨ a ∈ ds.map (·.1) := by
  induction ks generalizing ds with
  | nil => simp [BNode.update.updO]
  | cons k ks ih =>
    rw [BNode.update.updO, ih, mem_names_modKid, List.map_cons, List.mem_cons]
    constructor
    · rintro (q | q | q) <;> simp [q]
    · rintro ((q | q) | q) <;> simp [q]

theorem nodup_updO (ks ds : List (Str × BNode F)) (hd : (ds.map (·.1)).Nodup) :
    ((BNode.update.updO ks ds).map (·.1)).Nodup := by
  induction ks generalizing ds with
  | nil => simpa [BNode.update.updO] using hd
  | cons k ks ih => rw [BNode.update.updO]; exact ih _ (nodup_modKid _ _ _ hd)

theorem mem_modKid {g : Str} {f : BNode F → BNode F} {ds : List (Str × BNode F)} {k : Str × BNode F}
    (h : k ∈ modKid g f ds) : k ∈ ds ∨ (k.1 = g ∧ ((k.2 = f .empty) ∨ ∃ x, (g, x) ∈ ds ∧ k.2 = f x)) := by
  induction ds with
  | nil =>
    simp only [modKid, List.mem_singleton] at h
    subst h; exact .inr ⟨rfl, .inl rfl⟩
  | cons d ds ih =>
    obtain ⟨h', x⟩ := d
    by_cases e : h' = g
    · subst e
      rw [modKid_cons_self] at h
      rcases List.mem_cons.1 h with rfl | h
      · exact .inr ⟨rfl, .inr ⟨x, List.mem_cons_self .., rfl⟩⟩
      · exact .inl (List.mem_cons_of_mem _ h)
    · rw [modKid_cons_ne e] at h
      rcases List.mem_cons.1 h with rfl | h
      · exact .inl (List.mem_cons_self ..)
      · rcases ih h with q | ⟨q1, q2 | ⟨y, hy, q2⟩⟩
        · exact .inl (List.mem_cons_of_mem _ q)
        · exact .inr ⟨q1, .inl q2⟩
        · exact .inr ⟨q1, .inr ⟨y, List.mem_cons_of_mem _ hy, q2⟩⟩

/-- What is closed under updating. -/
theorem updO_closed {P : Str → BNode F → Prop} (ks ds : List (Str × BNode F)) (h1 : ∀ k ∈ ds, P k.1 k.2)
    (h2 : ∀ k ∈ ks, ∀ d, d = .empty ∨ P k.1 d → P k.1 (k.2.update d)) : ∀ k ∈ BNode.update.updO ks ds, P k.1 k.2 := by
  induction ks generalizing ds with
  | nil => rw [BNode.update.updO]; exact h1
  | cons k ks ih =>
    rw [BNode.update.updO]
    refine ih _ (fun x hx => ?_) fun x hx => h2 x (List.mem_cons_of_mem _ hx)
    rcases mem_modKid hx with q | ⟨q1, q2 | ⟨y, hy, q2⟩⟩
    · exact h1 x q
    · rw [q1, q2]; exact h2 k (List.mem_cons_self ..) _ (.inl rfl)
    · rw [q1, q2]; exact h2 k (List.mem_cons_self ..) _ (.inr (h1 _ hy))

theorem plainO_of {ks : List (Str × BNode F)} (h : Plain (.obj ks : BNode F)) : Plain.plainO ks := h.2

mutual
theorem plain_update : ∀ (s d : BNode F), Plain s → Plain d → Plain (s.update d)
  | .obj ks, d, hs, hd => by
    by_cases h : ks = []
    · subst h; rw [BNode.update]; exact hd
    · rw [update_obj h]
      refine plain_updO ks d.kids hs.2 (plain_obj hd.nodup fun k hk => hd.kid hk)
  | .list ks, d, hs, hd => by
    by_cases h : ks = []
    · subst h; rw [BNode.update]; exact hd
    · cases d with
      | list ds =>
        rw [BNode.update]
        · exact plain_updL ks _ hs hd
        · exact h
      | _ =>
        rw [BNode.update]
        · exact plain_updL ks [] hs trivial
        · exact h
        · simp
  | .empty, d, _, hd => by rw [BNode.update]; exact hd
  | .ints t l, d, _, _ => by obtain ⟨l', e⟩ := update_ints t l d; rw [e]; trivial
  | .flts w l, d, _, _ => by
    cases d with
    | flts t' l' => rw [BNode.update]; split <;> trivial
    | _ => simp [BNode.update, Plain]
  | .str s, d, _, _ => by rw [update_str]; trivial
theorem plain_updO : ∀ (ks ds : List (Str × BNode F)), Plain.plainO ks → Plain (.obj ds : BNode F) →
    Plain (.obj (BNode.update.updO ks ds) : BNode F)
  | [], ds, _, hd => by rw [BNode.update.updO]; exact hd
  | (g, v) :: ks, ds, hs, hd => by
    rw [BNode.update.updO]
    refine plain_updO ks _ hs.2.2 (plain_obj (nodup_modKid _ _ _ hd.nodup) fun x hx => ?_)
    rcases mem_modKid hx with q | ⟨q1, q2 | ⟨y, hy, q2⟩⟩
    · exact hd.kid q
    · rw [q1, q2]; exact ⟨hs.1, plain_update v .empty hs.2.1 trivial⟩
    · rw [q1, q2]; exact ⟨hs.1, plain_update v y hs.2.1 (hd.kid hy).2⟩
theorem plain_updL : ∀ (ks ds : List (BNode F)), Plain.plainL ks → Plain.plainL ds →
    Plain (.list (BNode.update.updL ks ds) : BNode F)
  | [], ds, _, hd => by rw [BNode.update.updL]; exact hd
  | k :: ks, [], hs, _ => by
    rw [BNode.update.updL]
    exact ⟨plain_update k .empty hs.1 trivial, plain_updL ks [] hs.2 trivial⟩
  | k :: ks, d :: ds, hs, hd => by
    rw [BNode.update.updL]
    exact ⟨plain_update k d hs.1 hd.1, plain_updL ks ds hs.2 hd.2⟩
end

end
end Conduit.Mesh
