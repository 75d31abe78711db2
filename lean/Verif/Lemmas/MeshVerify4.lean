import Verif.Lemmas.MeshVerify3
/-
What the checks of matsets, fields, specsets, adjsets and nestsets decide.
-/
namespace Conduit.Mesh
open Log (Info)

theorem decimal_ne (i : Nat) : decimal (i : Int) ≠ vkey := by
  have h : decimal (i : Int) = Nat.toDigits 10 i := by
    show (String.ofList (Nat.toDigits 10 i)).toList = _
    simp
  rw [h]
  intro e
  have : 'v' ∈ Nat.toDigits 10 i := by rw [e]; decide
  exact absurd (Nat.isDigit_of_mem_toDigits (by decide) (by decide) this) (by decide)

section
variable {F : Type} {s φ ψ : Prop}

/-! ### Trees with plain names -/

theorem plainO_mem {ks : List (Str × BNode F)} (h : Plain.plainO ks) {k : Str × BNode F} (hk : k ∈ ks) :
    k.1 ≠ vkey ∧ Plain k.2 := by
  induction ks with
  | nil => simp at hk
  | cons a ks ih =>
    rcases List.mem_cons.1 hk with rfl | hk
    · exact ⟨h.1, h.2.1⟩
    · exact ih h.2.2 hk

theorem plainL_mem {ks : List (BNode F)} (h : Plain.plainL ks) {k : BNode F} (hk : k ∈ ks) : Plain k := by
  induction ks with
  | nil => simp at hk
  | cons a ks ih =>
    rcases List.mem_cons.1 hk with rfl | hk
    · exact h.1
    · exact ih h.2 hk

theorem Plain.get {n c : BNode F} {f : Str} (h : Plain n) (hc : n.get f = .ok c) : Plain c := by
  obtain ⟨ks, rfl, hm⟩ := obj_of_get hc
  exact (plainO_mem h.2 hm).2

theorem Plain.item {n : BNode F} (h : Plain n) {k : Str × BNode F} (hk : k ∈ n.items) : k.1 ≠ vkey ∧ Plain k.2 := by
  cases n with
  | obj ks => exact plainO_mem h.2 hk
  | list ks =>
    simp only [BNode.items, List.mem_map] at hk
    obtain ⟨⟨c, i⟩, hc, rfl⟩ := hk
    exact ⟨decimal_ne i, plainL_mem h (by have := List.mem_zipIdx hc; simp at this; rw [this.2]; exact List.getElem_mem _)⟩
  | _ => simp [BNode.items] at hk

theorem Plain.member {n d : BNode F} (h : Plain n) (hd : d ∈ members n) : Plain d := by
  obtain ⟨k, hk, rfl⟩ := mem_items.1 hd
  exact (h.item hk).2

theorem Plain.kid {n : BNode F} (h : Plain n) {k : Str × BNode F} (hk : k ∈ n.kids) : k.1 ≠ vkey ∧ Plain k.2 := by
  cases n with
  | obj ks => exact plainO_mem h.2 hk
  | _ => simp [BNode.kids] at hk

theorem Plain.nodup {n : BNode F} (h : Plain n) : (n.kids.map (·.1)).Nodup := by
  cases n with
  | obj ks => exact h.1
  | _ => simp [BNode.kids]

theorem find_of_mem {ks : List (Str × BNode F)} (h : (ks.map (·.1)).Nodup) {k : Str × BNode F} (hk : k ∈ ks) :
    ks.find? (fun x => x.1 == k.1) = some k := by
  induction ks with
  | nil => simp at hk
  | cons a ks ih =>
    rw [List.map_cons, List.nodup_cons] at h
    rcases List.mem_cons.1 hk with rfl | hk
    · simp
    · have : a.1 ≠ k.1 := fun e => h.1 (e ▸ List.mem_map_of_mem hk)
      rw [List.find?_cons_of_neg (by simpa using this)]
      exact ih h.2 hk

theorem Plain.get_of_mem {n : BNode F} (h : Plain n) {k : Str × BNode F} (hk : k ∈ n.kids) :
    n.get k.1 = .ok k.2 := by
  unfold BNode.get
  rw [find_of_mem h.nodup hk]

/-! ### Checks that may note their own verdict -/

/-- The report does not contradict the verdict `w`. -/
def Ok (w : Bool) (t : Info) : Prop := w = true → verdict t = true

/-- A check after which the report does not contradict the verdicts so far. -/
def Tracks (act : V Bool) (s φ : Prop) : Prop :=
  ∀ w, Does act s (Ok w) fun b t => (b = true ↔ φ) ∧ Ok (w && b) t

theorem Ok.mono {w w' : Bool} {t : Info} (h : Ok w t) (hw : w' = true → w = true) : Ok w' t := fun x => h (hw x)

/-- A check that leaves the verdict alone, and what comes next. -/
theorem Keeps.next {act : V Bool} {β : Type} {f : Bool → V β} {w : Bool} {R : β → Info → Prop} (h : Keeps act s φ)
    (hf : ∀ r, (r = true ↔ φ) → Does (f r) s (Ok w) R) : Does (act >>= f) s (Ok w) R :=
  (h.under (R := fun v => w = true → v = true)).bind fun a => Does.pull (hf a)

theorem Keeps.tracks {act : V Bool} (h : Keeps act s φ) : Tracks act s φ := fun w =>
  (h.under (R := fun v => w = true → v = true)).conseq (fun _ => id) fun b t x =>
    ⟨x.1, fun hb => x.2 (by rw [Bool.and_eq_true] at hb; exact hb.1)⟩

theorem Joins.tracks {act : V Bool} (h : Joins act s φ) : Tracks act s φ := fun w t ht =>
  ⟨fun a t' e => by
    have := (h (verdict t) t rfl).1 a t' e
    refine ⟨this.1, fun hb => ?_⟩
    rw [Bool.and_eq_true] at hb
    rw [show verdict t' = _ from this.2, ht hb.1, hb.2]; rfl, (h (verdict t) t rfl).2⟩

theorem Tracks.iff {act : V Bool} (h : Tracks act s φ) (e : φ ↔ ψ) : Tracks act s ψ := by rwa [← propext e]

theorem Tracks.seq {act : V Bool} {β : Type} {f : Bool → V β} {w : Bool} {R : β → Info → Prop} (h : Tracks act s φ)
    (hf : ∀ r, (r = true ↔ φ) → Does (f r) s (Ok (w && r)) R) : Does (act >>= f) s (Ok w) R :=
  (h w).bind fun a => Does.pull (hf a)

theorem same_next {β : Type} {act : V Unit} {f : V β} {w : Bool} {R : β → Info → Prop}
    (ha : ∀ v, Does act s (W v) fun _ t => W v t) (hf : Does f s (Ok w) R) :
    Does (act >>= fun _ => f) s (Ok w) R :=
  Does.bind (Q := fun _ t => Ok w t) (fun t ht =>
    ⟨fun a t' e y => by rw [show verdict t' = verdict t from (ha (verdict t) t rfl).1 a t' e]; exact ht y,
     (ha (verdict t) t rfl).2⟩) fun _ => hf

/-! ### Matsets -/

theorem materialMap_joins {p : Str} {n : BNode F} : Joins (materialMapVerify p n) s
    (∃ ks, n.get (chars! "material_map") = .ok (.obj ks) ∧ ks ≠ [] ∧ ∀ k ∈ ks, IsInts k.2) := by
  intro v
  have key : Keeps (V.andAlso (objectField p n (chars! "material_map")) do
      let c ← V.lift (n.get (chars! "material_map"))
      V.all (fun k => V.demand k.2.isInt p (quote (chars! "material_map") ++ chars! "child " ++ quote k.1 ++
        chars! " is not an integer leaf.")) c.items) s
      (∃ ks, n.get (chars! "material_map") = .ok (.obj ks) ∧ ks ≠ [] ∧ ∀ k ∈ ks, IsInts k.2) := by
    by_cases hn : ∃ ks, n.get (chars! "material_map") = .ok (.obj ks) ∧ ks ≠ []
    · obtain ⟨ks, hk, hne⟩ := hn
      refine (Keeps.andAlso (objectField_plain (by decide)) fun _ =>
        lift_keeps hk (Keeps.all _ fun k _ => (demand_keeps _ _ _).iff isInt_iff)).iff ?_
      constructor
      · rintro ⟨-, x⟩; exact ⟨ks, hk, hne, x⟩
      · rintro ⟨ks', hk', hne', x⟩
        have := get_inj hk' hk; injection this with this; subst this
        exact ⟨⟨_, hk, hne⟩, x⟩
    · refine (Keeps.andAlso (ψ := False) (objectField_plain (by decide)) fun x => absurd x hn).iff ?_
      constructor
      · intro x; exact absurd x.1 hn
      · rintro ⟨ks, hk, hne, -⟩; exact absurd ⟨ks, hk, hne⟩ hn
  exact key.seq fun r hr => finish_joins hr

theorem nums_not_obj {v : BNode F} (h : IsNums v) : ¬ ∃ ks, v = .obj ks := by
  rintro ⟨ks, rfl⟩
  obtain ⟨t, l, e⟩ | ⟨t, l, e⟩ := h <;> exact absurd e (by simp)

theorem relation_obj {v : BNode F} (h : IsRelation v) : ∃ ks, v = .obj ks := h.1

/-- The verdict on the volume fractions. -/
def VolumeOk (n : BNode F) : Prop :=
  ∃ v, n.get (chars! "volume_fractions") = .ok v ∧
    ((IsNums v ∧ HasInts n (chars! "material_ids") ∧ IsRelation n) ∨
      (∃ ks, v = .obj ks ∧ ∀ k ∈ ks, IsRelation k.2 ∨ IsNums k.2))

theorem volumeFractions_does {p : Str} {n : BNode F} (hp : Plain n) (w : Bool) :
    Does (volumeFractions p n) s (Ok w) fun r t =>
      (((r.1 = true ↔ VolumeOk n) ∧
        (r.2 = false ↔ ∃ v, n.get (chars! "volume_fractions") = .ok v ∧ IsNums v)) ∧ Ok (w && r.1) t) := by
  refine (fieldExists_keeps (by decide)).next fun ex hex => ?_
  cases ex
  · have hno : ¬ Has n (chars! "volume_fractions") := fun h => absurd (hex.2 h) (by simp)
    refine Does.pure _ fun t ht => ⟨⟨⟨fun x => absurd x (by simp), ?_⟩, ⟨fun x => absurd x (by simp), ?_⟩⟩,
      ht.mono (by simp)⟩
    · rintro ⟨v, hv, -⟩; exact absurd ⟨v, hv⟩ hno
    · rintro ⟨v, hv, -⟩; exact absurd ⟨v, hv⟩ hno
  · obtain ⟨c, hc⟩ := hex.1 rfl
    refine lift_then hc ?_
    have vol : VolumeOk n ↔ ((IsNums c ∧ HasInts n (chars! "material_ids") ∧ IsRelation n) ∨
        (∃ ks, c = .obj ks ∧ ∀ k ∈ ks, IsRelation k.2 ∨ IsNums k.2)) := by
      constructor
      · rintro ⟨v, hv, h⟩; exact get_inj hv hc ▸ h
      · intro h; exact ⟨c, hc, h⟩
    have num : (∃ v, n.get (chars! "volume_fractions") = .ok v ∧ IsNums v) ↔ IsNums c := by
      constructor
      · rintro ⟨v, hv, h⟩; exact get_inj hv hc ▸ h
      · intro h; exact ⟨c, hc, h⟩
    simp only [vol, num]
    by_cases h1 : IsNums c
    · have hobj := nums_not_obj h1
      have e1 : c.isNumber = true := isNumber_iff.2 h1
      rw [if_neg (by rw [e1]; simp), if_pos e1]
      refine (numberField_keeps (by decide)).next fun r hr => ?_
      rw [hr.2 ⟨c, hc, h1⟩, if_pos rfl]
      refine same_next (note_does p _) ?_
      refine (integerField_keeps (by decide)).tracks.seq fun a ha => ?_
      refine o2mVerify_joins.tracks.seq fun b hb => ?_
      refine Does.pure _ fun t ht => ⟨⟨?_, by simp [h1]⟩, ht.mono (by simp +contextual)⟩
      have hno : ¬ ∃ ks, c = .obj ks ∧ ∀ k ∈ ks, IsRelation k.2 ∨ IsNums k.2 := fun ⟨ks, e, _⟩ => hobj ⟨ks, e⟩
      rw [Bool.and_eq_true, ha, hb, or_iff_left hno, and_iff_right h1]
    · have e1 : c.isNumber = false := by rw [← Bool.not_eq_true, isNumber_iff]; exact h1
      by_cases h2 : ∃ ks, c = .obj ks
      · obtain ⟨ks, rfl⟩ := h2
        rw [if_neg (by simp [BNode.isObject]), if_neg (by rw [e1]; simp)]
        refine (objectField_plain (by decide)).next fun r hr => ?_
        have hpc := hp.get hc
        have hO : ((IsNums (.obj ks) ∧ HasInts n (chars! "material_ids") ∧ IsRelation n) ∨
            (∃ ks', (BNode.obj ks : BNode F) = .obj ks' ∧ ∀ k ∈ ks', IsRelation k.2 ∨ IsNums k.2)) ↔
            ∀ k ∈ ks, IsRelation k.2 ∨ IsNums k.2 := by
          constructor
          · rintro (h | ⟨ks', e, h⟩)
            · exact absurd h.1 h1
            · injection e with e; subst e; exact h
          · intro h; exact .inr ⟨ks, rfl, h⟩
        rw [hO]
        by_cases hk : ks = []
        · subst hk
          have : r = false := by
            rw [← Bool.not_eq_true, hr]
            rintro ⟨ks', e, h⟩
            have := get_inj hc e; injection this with this; exact h this.symm
          subst this
          exact Does.pure _ fun t ht => ⟨⟨by simp, by simp [h1]⟩, ht.mono (by simp)⟩
        · rw [hr.2 ⟨ks, hc, hk⟩, if_pos rfl]
          refine same_next (note_does p _) ?_
          refine ((finish_then_decides (Decides.all (φ := fun k : Str × BNode F => IsRelation k.2 ∨ IsNums k.2) ks
            fun k hm => ?_)).sub (by decide)).next fun a ha => ?_
          · have hname := (hpc.kid hm).1
            have hget := hpc.get_of_mem hm
            cases hob : k.2.isObject
            · refine (numberField_keeps hname).decides.iff ?_
              constructor
              · rintro ⟨d, hd, h⟩; exact .inr (get_inj hd hget ▸ h)
              · rintro (h | h)
                · have := isObject_iff.2 h.1; rw [hob] at this; exact absurd this (by simp)
                · exact ⟨_, hget, h⟩
            · refine (o2mField_keeps hname).decides.iff ?_
              constructor
              · rintro ⟨d, hd, h⟩; exact .inl (get_inj hd hget ▸ h)
              · rintro (h | h)
                · exact ⟨_, hget, h⟩
                · exact absurd (isObject_iff.1 hob) (nums_not_obj h)
          · refine Does.pure _ fun t ht => ⟨⟨ha, by simp [h1]⟩, ht.mono (by simp +contextual)⟩
      · have e2 : c.isObject = false := by rw [← Bool.not_eq_true, isObject_iff]; exact h2
        rw [if_pos (by rw [e1, e2]; rfl)]
        refine same_next (err_does p _) ?_
        refine Does.pure _ fun t ht => ⟨⟨⟨fun x => absurd x (by simp), ?_⟩, by simp [h1]⟩, ht.mono (by simp)⟩
        rintro (h | ⟨ks, e, -⟩)
        · exact absurd h.1 h1
        · exact absurd ⟨ks, e⟩ h2

theorem elementIds_keeps {p : Str} {n e v : BNode F} (hp : Plain n) (he : n.get (chars! "element_ids") = .ok e)
    (hv : n.get (chars! "volume_fractions") = .ok v) :
    Keeps (elementIds p n) s ((IsInts e ∧ IsNums v) ∨
        (∃ es vs, e = .obj es ∧ v = .obj vs ∧ (∀ f, Has v f ↔ Has e f) ∧ ∀ k ∈ es, IsInts k.2)) := by
  refine lift_keeps he (lift_keeps hv ?_)
  have hpe := hp.get he
  by_cases h1 : IsInts e
  · have hne : ¬ ∃ ks, e = .obj ks := nums_not_obj (.inl h1)
    have e1 : e.isInt = true := isInt_iff.2 h1
    have e2 : e.isObject = false := by rw [← Bool.not_eq_true, isObject_iff]; exact hne
    rw [if_neg (by rw [e1]; simp), if_neg (by rw [e2]; simp)]
    have hno : ¬ ∃ es vs, e = .obj es ∧ v = .obj vs ∧ (∀ f, Has v f ↔ Has e f) ∧ ∀ k ∈ es, IsInts k.2 :=
      fun ⟨es, _, h, _⟩ => hne ⟨es, h⟩
    by_cases h2 : IsNums v
    · rw [if_pos (by rw [e1, isNumber_iff.2 h2]; rfl)]
      refine (integerField_keeps (by decide)).iff ?_
      constructor
      · intro _; exact .inl ⟨h1, h2⟩
      · intro _; obtain ⟨t, l, rfl⟩ := h1; exact ⟨t, l, he⟩
    · have e3 : v.isNumber = false := by rw [← Bool.not_eq_true, isNumber_iff]; exact h2
      rw [if_neg (by rw [e3]; simp)]
      refine err_keeps ?_
      rintro (h | h)
      · exact h2 h.2
      · exact hno h
  · have e1 : e.isInt = false := by rw [← Bool.not_eq_true, isInt_iff]; exact h1
    by_cases h3 : ∃ es, e = .obj es
    · obtain ⟨es, rfl⟩ := h3
      rw [if_neg (by simp [BNode.isObject])]
      by_cases h4 : ∃ vs, v = .obj vs
      · obtain ⟨vs, rfl⟩ := h4
        rw [if_pos (by rfl)]
        intro w
        refine (demand_keeps _ _ _).seq fun a ha => ?_
        refine (Decides.sub (φ := (∀ f, Has (.obj vs) f ↔ Has (.obj es) f) ∧ ∀ k ∈ es, IsInts k.2) ?_ (by decide)).iff ?_ w
        · refine Decides.seq (Decides.all (φ := fun k : Str × BNode F => IsInts k.2) es fun k hm => ?_) fun b hb => finish_decides ?_
          · refine (integerField_keeps (hpe.kid hm).1).decides.iff ?_
            have hget := hpe.get_of_mem hm
            constructor
            · rintro ⟨t, l, h⟩; exact ⟨t, l, get_inj hget h⟩
            · rintro ⟨t, l, h⟩; exact ⟨t, l, by rw [hget, h]⟩
          · rw [Bool.and_eq_true, ha, hb, sameSet_iff]
            simp only [mem_childNames]
        · constructor
          · intro h; exact .inr ⟨es, vs, rfl, rfl, h⟩
          · rintro (h | ⟨es', vs', e, e', h⟩)
            · exact absurd h.1 h1
            · injection e with e; subst e; exact h
      · have e4 : v.isObject = false := by rw [← Bool.not_eq_true, isObject_iff]; exact h4
        rw [if_neg (by rw [e4]; simp), if_neg (by rw [e1]; simp)]
        refine err_keeps ?_
        rintro (h | ⟨_, vs, _, h, _⟩)
        · exact h1 h.1
        · exact h4 ⟨vs, h⟩
    · have e2 : e.isObject = false := by rw [← Bool.not_eq_true, isObject_iff]; exact h3
      rw [if_pos (by rw [e1, e2]; rfl)]
      refine err_keeps ?_
      rintro (h | ⟨es, _, h, _⟩)
      · exact h1 h.1
      · exact h3 ⟨es, h⟩

theorem materialMapPart_tracks {p : Str} {n : BNode F} {isOptional : Bool} : Tracks (materialMapPart p n isOptional) s
    ((isOptional = false → Has n (chars! "material_map")) ∧
      ∀ m, n.get (chars! "material_map") = .ok m →
        (∃ ks, m = .obj ks ∧ ks ≠ [] ∧ ∀ k ∈ ks, IsInts k.2 ∧
          ∀ v, n.get (chars! "volume_fractions") = .ok v → (∃ vs, v = .obj vs) → Has v k.1)) := by
  intro w
  have k0 : Keeps (if (!isOptional && !n.hasChild (chars! "material_map")) = true then do
      V.err p (chars! "'material_map' is missing (required for uni-buffer matsets) ")
      pure false
    else pure true) s (isOptional = false → Has n (chars! "material_map")) := by
    refine ite_keeps (fun e => ?_) fun e => ?_
    · rw [Bool.and_eq_true, Bool.not_eq_true', Bool.not_eq_true', not_has_iff] at e
      exact err_keeps fun h => e.2 (h e.1)
    · refine (pure_keeps true).iff ⟨fun _ h => ?_, fun _ => rfl⟩
      subst h
      rw [← has_iff]
      simpa using e
  refine k0.tracks.seq fun r0 h0 => ?_
  by_cases hm : Has n (chars! "material_map")
  · obtain ⟨m, hm⟩ := hm
    unfold ifHas
    rw [if_pos (hasChild_get hm)]
    refine Does.bind (Q := fun b t => (b = true ↔ (∃ ks, m = .obj ks ∧ ks ≠ [] ∧ ∀ k ∈ ks, IsInts k.2 ∧
          ∀ v, n.get (chars! "volume_fractions") = .ok v → (∃ vs, v = .obj vs) → Has v k.1)) ∧ Ok (w && r0 && b) t) ?_
      fun r1 => Does.pull fun h1 => ?_
    · refine lift_then hm ?_
      have body : Does (do
          let a ← materialMapVerify p n
          let b ← (if n.hasChild (chars! "volume_fractions") = true then do
              let v ← V.lift (n.get (chars! "volume_fractions"))
              if v.isObject = true then
                V.all (fun (k : Str × BNode F) => V.demand (v.hasChild k.1) p
                  (chars! "'material_map' hierarchy must be a subset of 'volume_fractions'.  'volume_fractions' is missing child '"
                    ++ k.1 ++ chars! "' which exists in 'material_map`")) m.items
              else pure true
            else pure true : V Bool)
          pure (a && b) : V Bool) s (Ok (w && r0)) (fun b t => (b = true ↔ (∃ ks, m = .obj ks ∧ ks ≠ [] ∧ ∀ k ∈ ks, IsInts k.2 ∧
            ∀ v, n.get (chars! "volume_fractions") = .ok v → (∃ vs, v = .obj vs) → Has v k.1)) ∧ Ok (w && r0 && b) t) := by
        refine materialMap_joins.tracks.seq fun a ha => ?_
        have k1 : Keeps (if n.hasChild (chars! "volume_fractions") = true then do
              let v ← V.lift (n.get (chars! "volume_fractions"))
              if v.isObject = true then
                V.all (fun (k : Str × BNode F) => V.demand (v.hasChild k.1) p
                  (chars! "'material_map' hierarchy must be a subset of 'volume_fractions'.  'volume_fractions' is missing child '"
                    ++ k.1 ++ chars! "' which exists in 'material_map`")) m.items
              else pure true
            else pure true : V Bool) s
            (∀ k ∈ m.items, ∀ v, n.get (chars! "volume_fractions") = .ok v → (∃ vs, v = .obj vs) → Has v k.1) := by
          refine ite_keeps (fun e => ?_) fun e => ?_
          · obtain ⟨v, hv⟩ := has_iff.1 e
            refine lift_keeps hv (ite_keeps (fun eo => ?_) fun eo => ?_)
            · refine (Keeps.all (φ := fun k : Str × BNode F => Has v k.1) _ fun k _ => (demand_keeps _ _ _).iff has_iff).iff ?_
              constructor
              · intro h k hk v' hv' _; exact get_inj hv hv' ▸ h k hk
              · intro h k hk; exact h k hk v hv (isObject_iff.1 eo)
            · refine (pure_keeps true).iff ⟨fun _ k _ v' hv' ho => ?_, fun _ => rfl⟩
              have := isObject_iff.2 ho
              rw [← get_inj hv hv', eo] at this
              exact absurd this (by simp)
          · refine (pure_keeps true).iff ⟨fun _ k _ v' hv' _ => ?_, fun _ => rfl⟩
            exact absurd ⟨v', hv'⟩ (not_has_iff.1 e)
        refine k1.tracks.seq fun b hb => ?_
        refine Does.pure _ fun t ht => ⟨?_, ht.mono (by simp +contextual)⟩
        rw [Bool.and_eq_true, ha, hb]
        constructor
        · rintro ⟨⟨ks, hk, hne, x⟩, y⟩
          obtain rfl := get_inj hk hm
          exact ⟨ks, rfl, hne, fun k hk => ⟨x k hk, y k hk⟩⟩
        · rintro ⟨ks, rfl, hne, x⟩
          exact ⟨⟨ks, hm, hne, fun k hk => (x k hk).1⟩, fun k hk => (x k hk).2⟩
      cases isOptional
      · exact body
      · exact same_next (opt_does p _) body
    · refine Does.pure _ fun t ht => ⟨?_, ht.mono (by simp +contextual)⟩
      rw [Bool.and_eq_true, h0, h1]
      refine and_congr_right fun _ => ?_
      constructor
      · intro h m' hm'; exact get_inj hm hm' ▸ h
      · intro h; exact h m hm
  · unfold ifHas
    rw [if_neg (by rw [has_iff]; exact hm)]
    refine Does.bind (Does.pure (Q := fun b t => b = true ∧ Ok (w && r0) t) true fun t ht => ⟨rfl, ht⟩) fun b => ?_
    refine Does.pull fun hb => Does.pure _ fun t ht => ⟨?_, ht.mono (by simp +contextual)⟩
    subst hb
    rw [Bool.and_eq_true, h0]
    refine and_congr_right fun _ => ⟨fun _ m hm' => absurd ⟨m, hm'⟩ hm, fun _ => rfl⟩

theorem matset_verifies {n : BNode F} (hp : Plain n) : Verifies (matsetVerify n) s (IsMatset n) := by
  refine reset_then ?_
  refine Does.conseq (P := Ok true) ?_ (fun t ht _ => ht) fun _ _ x => x
  refine (stringField_keeps (by decide)).tracks.seq fun r1 h1 => ?_
  refine (volumeFractions_does hp _).bind fun vf => Does.pull fun h2 => ?_
  refine materialMapPart_tracks.seq fun r3 h3 => ?_
  have k4 : Keeps (if (n.hasChild (chars! "element_ids") && vf.1) = true then elementIds (chars! "mesh::matset") n
      else pure true) s (vf.1 = true → ∀ v, n.get (chars! "volume_fractions") = .ok v →
        ∀ e, n.get (chars! "element_ids") = .ok e →
        (IsInts e ∧ IsNums v) ∨
        (∃ es vs, e = .obj es ∧ v = .obj vs ∧ (∀ f, Has v f ↔ Has e f) ∧ ∀ k ∈ es, IsInts k.2)) := by
    refine ite_keeps (fun e => ?_) fun e => ?_
    · rw [Bool.and_eq_true] at e
      obtain ⟨el, hel⟩ := has_iff.1 e.1
      obtain ⟨v, hv, -⟩ := h2.1.1 e.2
      refine (elementIds_keeps hp hel hv).iff ?_
      constructor
      · intro h _ v' hv' e' he'; obtain rfl := get_inj hv hv'; obtain rfl := get_inj hel he'; exact h
      · intro h; exact h e.2 v hv el hel
    · refine (pure_keeps true).iff ⟨fun _ hvf v _ el hel => ?_, fun _ => rfl⟩
      rw [hvf, hasChild_get hel] at e
      exact absurd e (by simp)
  refine k4.tracks.seq fun r4 h4 => ?_
  refine Does.conseq (finish_leaves (φ := IsMatset n) ?_) (fun t ht => ?_) fun _ _ x => x
  · rw [Bool.and_eq_true, Bool.and_eq_true, Bool.and_eq_true, h1, h2.1, h3, h4, h2.1]
    unfold IsMatset
    constructor
    · rintro ⟨⟨⟨a, v, hv, hvv⟩, hmm, hmm2⟩, he⟩
      refine ⟨a, v, hv, ?_, fun m hm => ?_, he ⟨v, hv, hvv⟩ v hv⟩
      · rcases hvv with h | h
        · exact .inl ⟨h.1, h.2.1, h.2.2, hmm (h2.2.2 ⟨v, hv, h.1⟩)⟩
        · exact .inr h
      · obtain ⟨ks, e, hne, h⟩ := hmm2 m hm
        exact ⟨ks, e, hne, fun k hk => ⟨(h k hk).1, (h k hk).2 v hv⟩⟩
    · rintro ⟨a, v, hv, hvv, hm, he⟩
      refine ⟨⟨⟨a, v, hv, ?_⟩, fun ho => ?_, fun m hm' => ?_⟩, fun _ v' hv' e' he' => ?_⟩
      · rcases hvv with h | h
        · exact .inl ⟨h.1, h.2.1, h.2.2.1⟩
        · exact .inr h
      · obtain ⟨v', hv', hn⟩ := h2.2.1 ho
        obtain rfl := get_inj hv hv'
        rcases hvv with h | ⟨ks, h, -⟩
        · exact h.2.2.2
        · exact absurd ⟨ks, h⟩ (nums_not_obj hn)
      · obtain ⟨ks, e, hne, h⟩ := hm m hm'
        exact ⟨ks, e, hne, fun k hk => ⟨(h k hk).1, fun v' hv' => get_inj hv hv' ▸ (h k hk).2⟩⟩
      · obtain rfl := get_inj hv hv'; exact he e' he'
  · exact ht.mono (by simp +contextual)

/-! ### Fields -/

theorem basis_verifies {n : BNode F} : Verifies (basisVerify n) s (∃ x, n = .str x) := by
  refine reset_then ?_
  refine (leafSelf_joins (s := s)).seq fun r hr => ?_
  exact finish_of' (hr.trans isString_iff) (by intro h; simp [h])

theorem fieldValues_keeps {p : Str} {n : BNode F} {ref vals : Str} {d : Nat} (hr : ref ≠ vkey) (hv : vals ≠ vkey) :
    Keeps (fieldValues p n ref vals d) s ((¬ Has n ref ∧ ¬ Has n vals) ∨
      (HasStr n ref ∧ ∃ v, n.get vals = .ok v ∧ IsMLArray v 0 d)) := by
  unfold fieldValues
  simp only
  by_cases h1 : Has n ref <;> by_cases h2 : Has n vals
  · rw [has_iff.2 h1, has_iff.2 h2, if_neg (by simp), if_pos (by simp)]
    intro v
    refine (stringField_keeps hr).seq fun a ha => ?_
    refine (mlarrayField_keeps hv).seq fun b hb => ?_
    refine Does.pure _ fun t hw => ⟨?_, hw⟩
    rw [Bool.and_eq_true, ha, hb]
    simp [h1]
  · rw [has_iff.2 h1, not_has_iff.2 h2, if_pos (by simp)]
    refine err_keeps ?_
    rintro (h | ⟨-, v, h, -⟩)
    · exact h.1 h1
    · exact h2 ⟨v, h⟩
  · rw [not_has_iff.2 h1, has_iff.2 h2, if_pos (by simp)]
    refine err_keeps ?_
    rintro (h | ⟨⟨x, h⟩, -⟩)
    · exact h.2 h2
    · exact h1 ⟨_, h⟩
  · rw [not_has_iff.2 h1, not_has_iff.2 h2, if_neg (by simp), if_neg (by simp)]
    exact (pure_keeps true).iff ⟨fun _ => .inl ⟨h1, h2⟩, fun _ => rfl⟩

theorem field_verifies {n : BNode F} : Verifies (fieldVerify n) s (IsField n) := by
  refine reset_then ?_
  refine (demand_keeps _ _ _).seq fun r1 h1 => ?_
  refine (ifHas_keeps fun c _ => enumVerify_verifies.decides.sub (by decide)).seq fun r2 h2 => ?_
  refine (ifHas_keeps fun c _ => basis_verifies.decides.sub (by decide)).seq fun r3 h3 => ?_
  refine (demand_keeps _ _ _).seq fun r4 h4 => ?_
  refine (fieldValues_keeps (by decide) (by decide)).seq fun r5 h5 => ?_
  refine (fieldValues_keeps (by decide) (by decide)).seq fun r6 h6 => ?_
  refine finish_of ?_
  have e2 : (∀ c, n.get (chars! "association") = .ok c → ∃ x ∈ associations, c = .str x) ↔
      (Has n (chars! "association") → HasOneOf n (chars! "association") [chars! "vertex", chars! "element"]) := by
    constructor
    · rintro h ⟨c, hc⟩; obtain ⟨x, hx, rfl⟩ := h c hc; exact ⟨x, hx, hc⟩
    · intro h c hc; obtain ⟨x, hx, e⟩ := h ⟨c, hc⟩; exact ⟨x, hx, get_inj hc e⟩
  have e3 : (∀ c, n.get (chars! "basis") = .ok c → ∃ x, c = .str x) ↔
      (Has n (chars! "basis") → HasStr n (chars! "basis")) := by
    constructor
    · rintro h ⟨c, hc⟩; obtain ⟨x, rfl⟩ := h c hc; exact ⟨x, hc⟩
    · intro h c hc; obtain ⟨x, e⟩ := h ⟨c, hc⟩; exact ⟨x, get_inj hc e⟩
  simp only [Bool.and_eq_true, h1, h2, h3, h4, h5, h6, e2, e3, Bool.or_eq_true, has_iff, and_assoc]
  rfl

/-! ### Specsets -/

theorem specLoop_decides {p : Str} {mats : BNode F} (hp : Plain mats) (l : List (Str × BNode F)) (len : Nat)
    (hl : ∀ k ∈ l, k ∈ mats.kids) (hs : s → ∀ k ∈ l, IsMCArray k.2 → members k.2 ≠ []) :
    Decides (specLoop p mats l len) s ((∀ k ∈ l, IsMCArray k.2) ∧
      ∃ ls, l.map (fun k => (members k.2).head?.map BNode.numElements) = ls.map some ∧ mcCond ls len) := by
  induction l generalizing len with
  | nil => exact Does.pure _ fun _ _ => ⟨fun _ => ⟨by simp, [], rfl, trivial⟩, fun _ => rfl⟩
  | cons k l ih =>
    obtain ⟨name, c⟩ := k
    have hk := hl (name, c) (by simp)
    have hget : mats.get name = .ok c := hp.get_of_mem hk
    have ih := fun len => ih len (fun k hk => hl k (List.mem_cons_of_mem _ hk)) fun x k hk => hs x k (List.mem_cons_of_mem _ hk)
    unfold specLoop
    refine Decides.seq ((mcarrayField_keeps (hp.kid hk).1).decides.iff (ψ := IsMCArray c) ?_) fun ok hok => ?_
    · constructor
      · rintro ⟨d, hd, h⟩; exact get_inj hd hget ▸ h
      · intro h; exact ⟨c, hget, h⟩
    cases ok
    · have hno : ¬ IsMCArray c := fun h => absurd (hok.2 h) (by simp)
      refine Decides.seq (ih len) fun _ _ => Does.pure _ fun _ _ => ⟨fun x => absurd x (by simp), fun x => ?_⟩
      exact absurd (x.1 (name, c) (by simp)) hno
    · have hmc := hok.1 rfl
      simp only [if_true]
      refine liftAny (fun x => ?_) fun first hf => ?_
      · have := hs x (name, c) (by simp) hmc
        rw [← items_members] at this
        cases hi : c.items with
        | nil => rw [hi] at this; exact absurd rfl this
        | cons a b => exact ⟨_, rfl⟩
      · have hhead : (members c).head?.map BNode.numElements = some first.numElements := by
          rw [← items_members]
          cases hi : c.items with
          | nil => rw [hi] at hf; exact absurd hf (by simp)
          | cons a b => rw [hi] at hf; injection hf with hf; rw [← hf]; rfl
        have split : ∀ m, ((∀ k ∈ (name, c) :: l, IsMCArray k.2) ∧
            ∃ ls, ((name, c) :: l).map (fun k => (members k.2).head?.map BNode.numElements) = ls.map some ∧ mcCond ls m) ↔
            ((first.numElements = if m = 0 then first.numElements else m) ∧ (∀ k ∈ l, IsMCArray k.2) ∧
              ∃ ls, l.map (fun k => (members k.2).head?.map BNode.numElements) = ls.map some ∧
                mcCond ls (if m = 0 then first.numElements else m)) := by
          intro m
          simp only [List.mem_cons, forall_eq_or_imp, List.map_cons, hhead]
          constructor
          · rintro ⟨⟨-, a⟩, ls, e, h⟩
            cases ls with
            | nil => simp at e
            | cons x ls =>
              rw [List.map_cons, List.cons.injEq] at e
              obtain ⟨e1, e2⟩ := e
              injection e1 with e1
              subst e1
              exact ⟨h.1, a, ls, e2, h.2⟩
          · rintro ⟨h1, a, ls, e, h⟩
            exact ⟨⟨hmc, a⟩, first.numElements :: ls, by rw [List.map_cons, e], h1, h⟩
        by_cases h0 : len = 0
        · rw [if_pos h0]
          refine (ih _).iff ?_
          rw [split len, if_pos h0]
          simp
        · rw [if_neg h0]
          refine Decides.seq (demand_keeps _ _ _).decides fun a ha => ?_
          refine Decides.seq (ih _) fun b hb => Does.pure _ fun _ _ => ?_
          rw [Bool.and_eq_true, ha, hb, split len, if_neg h0, beq_iff_eq]
          rw [eq_comm (a := len)]

theorem specset_verifies {n : BNode F} (hp : Plain n) (hs : s → SpecsetSafe n) :
    Verifies (specsetVerify n) s (IsSpecset n) := by
  refine reset_then ?_
  refine (stringField_keeps (by decide)).seq fun r1 h1 => ?_
  refine (objectAnd_keeps (φ := fun c => (∀ k ∈ c.items, IsMCArray k.2) ∧
      ∃ ls, c.items.map (fun k => (members k.2).head?.map BNode.numElements) = ls.map some ∧ mcCond ls 0) (by decide)
    fun ks hk => finish_then_decides (specLoop_decides (hp.get hk) _ _ (fun k h => h)
      fun x k h => hs x _ hk k h)).seq fun r2 h2 => ?_
  refine finish_of ?_
  rw [Bool.and_eq_true, h1, h2]
  unfold IsSpecset
  refine and_congr_right fun _ => ?_
  simp only [mcCond_iff, BNode.items]
  constructor
  · rintro ⟨ks, a, b, c, ls, d, e⟩; exact ⟨ks, ls, a, b, c, d, e⟩
  · rintro ⟨ks, ls, a, b, c, d, e⟩; exact ⟨ks, a, b, c, ls, d, e⟩

/-! ### Adjsets -/

theorem adjsetWindow_decides {p : Str} {n : BNode F} : Decides (adjsetWindow p n) s
    (HasDims n (chars! "origin") ∧ HasDims n (chars! "dims") ∧ HasDims n (chars! "ratio")) := by
  refine Decides.seq (existsDims_keeps (by decide)).decides fun r1 h1 => ?_
  refine Decides.seq (existsDims_keeps (by decide)).decides fun r2 h2 => ?_
  refine Decides.seq (existsDims_keeps (by decide)).decides fun r3 h3 => ?_
  refine finish_then_decides ?_
  have hb : (r1 && r2 && r3) = true ↔
      (HasDims n (chars! "origin") ∧ HasDims n (chars! "dims") ∧ HasDims n (chars! "ratio")) := by
    rw [Bool.and_eq_true, Bool.and_eq_true, h1, h2, h3, and_assoc]
  cases hr : (r1 && r2 && r3)
  · rw [hr] at hb
    exact Does.pure _ fun _ _ => hb
  · obtain ⟨ho, hd, hra⟩ := hb.1 hr
    rw [hr] at hb
    simp only [if_true]
    obtain ⟨o, hoo, hod⟩ := ho
    refine lift_then hoo ?_
    have hne : (o.numChildren != 0) = true := by
      obtain ⟨ks, rfl, hk⟩ := dims_obj hod
      rw [numChildren_members]
      simpa [members] using hk
    rw [hne]
    have obj : ∀ f, f ≠ vkey → HasDims n f → Keeps (if n.hasChild f = true then objectField p n f false true else pure true) s True := by
      intro f hf ⟨d, hdd, hd⟩
      rw [if_pos (hasChild_get hdd)]
      obtain ⟨ks, rfl, hk⟩ := dims_obj hd
      exact (objectField_keeps hf).iff ⟨fun _ => trivial, fun _ =>
        ⟨_, hdd, .inl ⟨ks, rfl⟩, fun h => absurd h (by simp), fun h => absurd rfl h⟩⟩
    refine Decides.seq (obj _ (by decide) hd).decides fun a ha => ?_
    refine Decides.seq (obj _ (by decide) hra).decides fun b hb' => ?_
    refine Does.pure _ fun _ _ => ?_
    rw [ha.2 trivial, hb'.2 trivial]
    exact hb

theorem adjsetGroup_does {p : Str} {n : BNode F} (hp : Plain n) :
    Does (adjsetGroup p n) s (fun _ => True) fun r _ => (r.1 = true ∧ r.2 = true ↔ IsAdjGroup n) := by
  refine Decides.seq (integerField_keeps (by decide)).decides fun r1 h1 => ?_
  refine Does.bind (Q := fun r _ => (r.1 = true ∧ r.2 = true ↔
    ((Has n (chars! "values") → HasInts n (chars! "values")) ∧
    (¬ Has n (chars! "values") → Has n (chars! "windows") →
      (∃ ws, n.get (chars! "windows") = .ok (.obj ws) ∧ ws ≠ [] ∧ ∀ w ∈ ws,
        HasDims w.2 (chars! "origin") ∧ HasDims w.2 (chars! "dims") ∧ HasDims w.2 (chars! "ratio")) ∧
      (Has n (chars! "orientation") → HasInts n (chars! "orientation"))))) ∧ True) ?_ fun r => ?_
  · by_cases hv : Has n (chars! "values")
    · rw [if_pos (has_iff.2 hv)]
      refine Decides.seq (integerField_keeps (by decide)).decides fun a ha => Does.pure _ fun _ _ => ⟨?_, trivial⟩
      simp [ha, hv]
    · rw [if_neg (by rw [has_iff]; exact hv)]
      by_cases hw : Has n (chars! "windows")
      · rw [if_pos (has_iff.2 hw)]
        obtain ⟨w, hw'⟩ := hw
        refine Decides.seq (objectField_plain (by decide)).decides fun a ha => ?_
        refine lift_then hw' ?_
        refine Decides.seq ((finish_then_decides (Decides.all (φ := fun k : Str × BNode F =>
            HasDims k.2 (chars! "origin") ∧ HasDims k.2 (chars! "dims") ∧ HasDims k.2 (chars! "ratio")) w.items
          fun k hk => adjsetWindow_decides.subAny fun _ => ((hp.get hw').item hk).1)).subAny fun _ => by decide) fun b hb => ?_
        refine Decides.seq (optional_keeps fun _ => integerField_keeps (by decide)).decides fun c hc => ?_
        refine Does.pure _ fun _ _ => ⟨?_, trivial⟩
        simp only [Bool.and_eq_true, ha, hb, hc, hv, false_imp_iff, true_and, not_false_iff, true_imp_iff]
        constructor
        · rintro ⟨⟨⟨ws, e, hne⟩, ho⟩, hws⟩ _
          obtain rfl := get_inj hw' e
          exact ⟨⟨ws, e, hne, hws⟩, ho⟩
        · intro h
          obtain ⟨⟨ws, e, hne, hws⟩, ho⟩ := h ⟨w, hw'⟩
          obtain rfl := get_inj hw' e
          exact ⟨⟨⟨ws, e, hne⟩, ho⟩, hws⟩
      · rw [if_neg (by rw [has_iff]; exact hw)]
        exact Does.pure _ fun _ _ => ⟨by simp [hv, hw], trivial⟩
  · refine Does.pull fun hr => ?_
    refine Decides.seq (φ := (r1 && r.1) = true) (finish_decides Iff.rfl) fun _ _ => ?_
    refine Does.pure _ fun _ _ => ?_
    rw [Bool.and_eq_true, and_assoc, hr, h1]
    rfl

theorem adjsetGroups_does {p : Str} (l : List (Str × BNode F)) (hp : ∀ k ∈ l, k.1 ≠ vkey ∧ Plain k.2) :
    Does (adjsetVerify.groups p l) s (fun _ => True) fun r _ => (r.1 = true ∧ r.2 = true ↔ ∀ g ∈ l, IsAdjGroup g.2) := by
  induction l with
  | nil => exact Does.pure _ fun _ _ => by simp
  | cons k l ih =>
    obtain ⟨name, c⟩ := k
    have hk := hp (name, c) (by simp)
    unfold adjsetVerify.groups
    refine Does.bind (Q := fun a _ => (a.1 = true ∧ a.2 = true ↔ IsAdjGroup c) ∧ True)
      (sub_any (fun _ => hk.1) ((adjsetGroup_does hk.2).conseq (fun _ => id) fun _ _ x => ⟨x, trivial⟩)) fun a => Does.pull fun ha => ?_
    refine Does.bind (Q := fun b _ => (b.1 = true ∧ b.2 = true ↔ ∀ g ∈ l, IsAdjGroup g.2) ∧ True)
      ((ih fun k hk => hp k (List.mem_cons_of_mem _ hk)).conseq (fun _ => id) fun _ _ x => ⟨x, trivial⟩) fun b => Does.pull fun hb => ?_
    refine Does.pure _ fun _ _ => ?_
    simp only [Bool.and_eq_true, List.mem_cons, forall_eq_or_imp, ← ha, ← hb]
    constructor
    · rintro ⟨⟨a, b⟩, c, d⟩; exact ⟨⟨a, c⟩, b, d⟩
    · rintro ⟨⟨a, c⟩, b, d⟩; exact ⟨⟨a, b⟩, c, d⟩

theorem adjset_verifies {n : BNode F} (hp : Plain n) : Verifies (adjsetVerify n) s (IsAdjset n) := by
  refine reset_then ?_
  refine (stringField_keeps (by decide)).seq fun r1 h1 => ?_
  refine (existsEnum_keeps (by decide)).seq fun r2 h2 => ?_
  refine Does.bind (Q := fun b t => (b = true ↔ ∃ gs, n.get (chars! "groups") = .ok (.obj gs) ∧ ∀ g ∈ gs, IsAdjGroup g.2) ∧
    W true t) ?_ fun r3 => Does.pull fun h3 => ?_
  · refine (objectField_keeps (by decide)).seq fun r hr => ?_
    cases r
    · refine Does.pure _ fun t hw => ⟨⟨fun x => absurd x (by simp), ?_⟩, hw⟩
      rintro ⟨gs, hg, -⟩
      exact absurd (hr.2 ⟨_, hg, .inl ⟨gs, rfl⟩, fun h => absurd h (by simp), fun h => absurd rfl h⟩) (by simp)
    · obtain ⟨c, hc, ho, -⟩ := hr.1 rfl
      obtain ⟨gs, rfl⟩ : ∃ gs, c = .obj gs := by
        rcases ho with h | ⟨h, -⟩
        · exact h
        · exact absurd h (by simp)
      simp only [if_true]
      refine lift_then hc ?_
      refine Does.bind (sub_keeps_of (Q := fun r : Bool × Bool => (r.1 = true ∧ r.2 = true ↔ ∀ g ∈ gs, IsAdjGroup g.2))
        (by decide) ?_ true) fun r => Does.pull fun h => Does.pure _ fun t hw => ⟨?_, hw⟩
      · refine Does.bind ((adjsetGroups_does gs fun k hk => (hp.get hc).kid hk).conseq (fun _ => id)
          (Q' := fun r _ => (r.1 = true ∧ r.2 = true ↔ ∀ g ∈ gs, IsAdjGroup g.2) ∧ True) fun _ _ x => ⟨x, trivial⟩)
          fun r => Does.pull fun h => ?_
        exact Does.bind (valid_any _) fun _ => Does.pure _ fun _ _ => h
      · rw [Bool.and_eq_true, h]
        constructor
        · intro x; exact ⟨gs, hc, x⟩
        · rintro ⟨gs', hg, x⟩
          have := get_inj hg hc; injection this with this; subst this; exact x
  · refine finish_of ?_
    rw [Bool.and_eq_true, Bool.and_eq_true, h1, h2, h3, and_assoc]
    rfl

/-! ### Nestsets -/

theorem nestsetWindow_decides {p : Str} {n : BNode F} : Decides (nestsetWindow p n) s (IsNestWindow n) := by
  refine Decides.seq (integerField_keeps (by decide)).decides fun r1 h1 => ?_
  refine Decides.seq (existsEnum_keeps (by decide)).decides fun r2 h2 => ?_
  refine Decides.seq (existsDims_keeps (by decide)).decides fun r3 h3 => ?_
  refine Decides.seq (ifHas_keeps fun c _ => logicalDims_verifies.decides.sub (by decide)).decides fun r4 h4 => ?_
  refine Decides.seq (ifHas_keeps fun c _ => logicalDims_verifies.decides.sub (by decide)).decides fun r5 h5 => ?_
  refine finish_then_decides ?_
  have hb : (r1 && r2 && r3 && r4 && r5) = true ↔ (HasInts n (chars! "domain_id") ∧
      HasOneOf n (chars! "domain_type") [chars! "parent", chars! "child"] ∧ HasDims n (chars! "ratio") ∧
      (∀ c, n.get (chars! "origin") = .ok c → IsDims c) ∧ ∀ c, n.get (chars! "dims") = .ok c → IsDims c) := by
    simp only [Bool.and_eq_true, h1, h2, h3, h4, h5, and_assoc]
    rfl
  cases hr : (r1 && r2 && r3 && r4 && r5)
  · rw [hr] at hb
    refine Does.pure _ fun _ _ => ⟨fun x => absurd x (by simp), ?_⟩
    rintro ⟨a, b, r, hr, hd, ho, hdd⟩
    exact absurd (hb.2 ⟨a, b, ⟨r, hr, hd⟩, fun c hc => (ho c hc).1, fun c hc => (hdd c hc).1⟩) (by simp)
  · obtain ⟨ha, hdt, ⟨r, hra, hrd⟩, ho, hd⟩ := hb.1 hr
    simp only [if_true]
    refine lift_then hra ?_
    have hne : r.numChildren ≠ 0 := by
      obtain ⟨ks, rfl, hk⟩ := dims_obj hrd
      rw [numChildren_members]
      simpa [members] using hk
    have obj : ∀ f, f ≠ vkey → (∀ c, n.get f = .ok c → IsDims c) →
        Keeps (if n.hasChild f = true then objectField p n f false false r.numChildren else pure true) s
          (∀ c, n.get f = .ok c → IsDims c ∧ (members c).length = (members r).length) := by
      intro f hf hdim
      refine (optional_keeps fun _ => objectField_keeps hf).iff ?_
      constructor
      · intro h c hc
        obtain ⟨c', hc', -, -, h3⟩ := h ⟨c, hc⟩
        obtain rfl := get_inj hc hc'
        exact ⟨hdim c hc, by rw [h3 hne, numChildren_members]⟩
      · rintro h ⟨c, hc⟩
        obtain ⟨ks, rfl, hk⟩ := dims_obj (hdim c hc)
        exact ⟨_, hc, .inl ⟨ks, rfl⟩, fun _ => by simpa [members] using hk, fun _ => by
          rw [(h _ hc).2, numChildren_members]⟩
    refine Decides.seq (obj _ (by decide) ho).decides fun a ha' => ?_
    refine Decides.seq (obj _ (by decide) hd).decides fun b hb' => ?_
    refine Does.pure _ fun _ _ => ?_
    rw [Bool.and_eq_true, ha', hb']
    constructor
    · rintro ⟨x, y⟩; exact ⟨ha, hdt, r, hra, hrd, x, y⟩
    · rintro ⟨-, -, r', hr', -, x, y⟩
      obtain rfl := get_inj hra hr'
      exact ⟨x, y⟩

theorem nestset_verifies {n : BNode F} (hp : Plain n) : Verifies (nestsetVerify n) s (IsNestset n) := by
  refine reset_then ?_
  refine (stringField_keeps (by decide)).seq fun r1 h1 => ?_
  refine (existsEnum_keeps (by decide)).seq fun r2 h2 => ?_
  refine (objectAnd_keeps (φ := fun c => ∀ k ∈ c.items, IsNestWindow k.2) (by decide) fun ks hk =>
    finish_then_decides (Decides.all (φ := fun k : Str × BNode F => IsNestWindow k.2) _ fun k hm =>
      nestsetWindow_decides.subAny fun _ => ((hp.get hk).kid hm).1)).seq fun r3 h3 => ?_
  refine finish_of ?_
  rw [Bool.and_eq_true, Bool.and_eq_true, h1, h2, h3, and_assoc]
  rfl

end
end Conduit.Mesh
