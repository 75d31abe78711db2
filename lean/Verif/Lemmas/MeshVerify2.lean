import Verif.Lemmas.MeshVerify
import Verif.Spec.MeshVerify
/-
What the checks on the fields of a node decide.
-/
namespace Conduit.Mesh
open Log (Info)

section
variable {F : Type} {s φ ψ : Prop}

theorem has_iff {n : BNode F} {f : Str} : n.hasChild f = true ↔ Has n f := by
  unfold Has BNode.hasChild BNode.get
  rw [List.any_eq_true]
  cases h : n.kids.find? fun k => k.1 == f with
  | none => simp only [reduceCtorEq, exists_false, iff_false]; intro ⟨x, hx, hf⟩; exact absurd hf (List.find?_eq_none.1 h x hx)
  | some k => simp only [Res.ok.injEq, exists_eq', iff_true]; exact ⟨k, List.mem_of_find?_eq_some h, by have := List.find?_some h; simpa using this⟩

theorem get_of {n : BNode F} {f : Str} (h : Has n f) : ∃ c, n.get f = .ok c := h

theorem hasChild_get {n c : BNode F} {f : Str} (h : n.get f = .ok c) : n.hasChild f = true := has_iff.2 ⟨c, h⟩

theorem not_has_iff {n : BNode F} {f : Str} : n.hasChild f = false ↔ ¬ Has n f := by
  rw [← has_iff]; simp

theorem isInt_iff {c : BNode F} : c.isInt = true ↔ IsInts c := by
  cases c <;> simp [BNode.isInt, IsInts]
theorem isNumber_iff {c : BNode F} : c.isNumber = true ↔ IsNums c := by
  cases c <;> simp [BNode.isNumber, IsNums, IsInts]
theorem isString_iff {c : BNode F} : c.isString = true ↔ ∃ x, c = .str x := by
  cases c <;> simp [BNode.isString]
theorem isObject_iff {c : BNode F} : c.isObject = true ↔ ∃ ks, c = .obj ks := by
  cases c <;> simp [BNode.isObject]
theorem isList_iff {c : BNode F} : c.isList = true ↔ ∃ ks, c = .list ks := by
  cases c <;> simp [BNode.isList]

theorem items_members (c : BNode F) : c.items.map (·.2) = members c := by
  cases c <;> simp [BNode.items, members, List.map_map, Function.comp_def]

theorem numChildren_members (c : BNode F) : c.numChildren = (members c).length := by
  rw [← items_members]; simp [BNode.numChildren]

theorem mem_items {c d : BNode F} : d ∈ members c ↔ ∃ k ∈ c.items, k.2 = d := by
  rw [← items_members]; simp

theorem hasInts_iff {n : BNode F} {f : Str} : HasInts n f ↔ ∃ c, n.get f = .ok c ∧ c.isInt = true := by
  constructor
  · rintro ⟨t, l, h⟩; exact ⟨_, h, rfl⟩
  · rintro ⟨c, h, hc⟩; obtain ⟨t, l, rfl⟩ := isInt_iff.1 hc; exact ⟨t, l, h⟩

theorem hasStr_iff {n : BNode F} {f : Str} : HasStr n f ↔ ∃ c, n.get f = .ok c ∧ c.isString = true := by
  constructor
  · rintro ⟨x, h⟩; exact ⟨_, h, rfl⟩
  · rintro ⟨c, h, hc⟩; obtain ⟨x, rfl⟩ := isString_iff.1 hc; exact ⟨x, h⟩

theorem fieldExists_keeps {p f : Str} {n : BNode F} (hf : f ≠ vkey) : Keeps (fieldExists p n f) s (Has n f) := by
  intro v
  refine (demand_keeps _ _ _).seq fun r hr => ?_
  refine (sub_valid hf r v).bind fun _ => Does.pure _ fun t h => ⟨?_, h⟩
  rw [hr, has_iff]

/-- The common shape of the checks on a field. -/
theorem fieldPattern {f : Str} {act : V Bool} (hf : f ≠ vkey) (h : Keeps act s φ) :
    Keeps (do
      V.sub f (pure ())
      let res ← act
      V.sub f (V.valid res)
      pure res) s φ := by
  intro v
  refine (sub_touch hf v).bind fun _ => ?_
  refine h.seq fun r hr => ?_
  exact (sub_valid hf r v).bind fun _ => Does.pure _ fun t h => ⟨hr, h⟩

theorem withChild {p f : Str} {n : BNode F} {g : BNode F → V Bool} {φ : BNode F → Prop} (hf : f ≠ vkey)
    (h : ∀ c, n.get f = .ok c → Keeps (g c) s (φ c)) :
    Keeps (V.andAlso (fieldExists p n f) do
      let c ← V.lift (n.get f)
      g c) s (∃ c, n.get f = .ok c ∧ φ c) := by
  by_cases hn : Has n f
  · obtain ⟨c, hc⟩ := hn
    refine ((fieldExists_keeps hf).andAlso fun _ => lift_keeps hc (h c hc)).iff ?_
    constructor
    · intro x; exact ⟨c, hc, x.2⟩
    · rintro ⟨c', hc', x⟩; rw [hc] at hc'; injection hc' with hc'; subst hc'; exact ⟨⟨c, hc⟩, x⟩
  · refine (Keeps.andAlso (ψ := False) (fieldExists_keeps hf) fun x => absurd x hn).iff ?_
    constructor
    · intro x; exact absurd x.1 hn
    · rintro ⟨c, hc, -⟩; exact absurd ⟨c, hc⟩ hn

theorem leafField_keeps {test : BNode F → Bool} {w p f : Str} {n : BNode F} (hf : f ≠ vkey) :
    Keeps (leafField test w p n f) s (∃ c, n.get f = .ok c ∧ test c = true) :=
  fieldPattern hf (withChild hf fun _ _ => demand_keeps _ _ _)

theorem integerField_keeps {p f : Str} {n : BNode F} (hf : f ≠ vkey) : Keeps (integerField p n f) s (HasInts n f) :=
  (leafField_keeps hf).iff hasInts_iff.symm
theorem stringField_keeps {p f : Str} {n : BNode F} (hf : f ≠ vkey) : Keeps (stringField p n f) s (HasStr n f) :=
  (leafField_keeps hf).iff hasStr_iff.symm
theorem numberField_keeps {p f : Str} {n : BNode F} (hf : f ≠ vkey) :
    Keeps (numberField p n f) s (∃ c, n.get f = .ok c ∧ IsNums c) :=
  (leafField_keeps hf).iff (by simp only [isNumber_iff])

theorem leafSelf_joins {test : BNode F → Bool} {w p : Str} {n : BNode F} :
    Joins (leafSelf test w p n) s (test n = true) := by
  intro v
  refine (demand_keeps _ _ _).seq fun r hr => ?_
  exact finish_joins hr

/-- What `verify_object_field` asks of the node. -/
def ObjCond (c : BNode F) (allowList allowEmpty : Bool) (num : Nat) : Prop :=
  ((∃ ks, c = .obj ks) ∨ (allowList = true ∧ ∃ ks, c = .list ks)) ∧
    (allowEmpty = false → members c ≠ []) ∧ (num ≠ 0 → (members c).length = num)

theorem objectTests_keeps {p f : Str} {c : BNode F} {al ae : Bool} {num : Nat} :
    Keeps (objectTests p f c al ae num) s (ObjCond c al ae num) := by
  have e1 : (c.isObject || (al && c.isList)) = true ↔ ((∃ ks, c = .obj ks) ∨ (al = true ∧ ∃ ks, c = .list ks)) := by
    rw [Bool.or_eq_true, Bool.and_eq_true, isObject_iff, isList_iff]
  have e2 : (!ae && c.numChildren == 0) = false ↔ (ae = false → members c ≠ []) := by
    rw [numChildren_members]; cases ae <;> simp
  have e3 : (num != 0 && c.numChildren != num) = false ↔ (num ≠ 0 → (members c).length = num) := by
    rw [numChildren_members]; by_cases h : num = 0 <;> simp [h]
  have fail : ∀ m, ¬ ObjCond c al ae num → Keeps (do V.err p m; pure false) s (ObjCond c al ae num) := by
    intro m hm v
    exact (err_does p m v).bind fun _ => Does.pure _ fun _ h => ⟨⟨fun x => absurd x (by simp), fun x => absurd x hm⟩, h⟩
  unfold objectTests
  by_cases h1 : (c.isObject || (al && c.isList)) = true
  · rw [if_neg (by rw [h1]; simp)]
    by_cases h2 : (!ae && c.numChildren == 0) = true
    · rw [if_pos h2]; exact fail _ fun x => by rw [e2.2 x.2.1] at h2; exact absurd h2 (by simp)
    · rw [if_neg h2]
      by_cases h3 : (num != 0 && c.numChildren != num) = true
      · rw [if_pos h3]; exact fail _ fun x => by rw [e3.2 x.2.2] at h3; exact absurd h3 (by simp)
      · rw [if_neg h3]
        exact (pure_keeps true).iff ⟨fun _ => ⟨e1.1 h1, e2.1 (by simpa using h2), e3.1 (by simpa using h3)⟩, fun _ => rfl⟩
  · rw [if_pos (by rw [Bool.not_eq_true] at h1; rw [h1]; rfl)]; exact fail _ fun x => h1 (e1.2 x.1)

theorem objectField_keeps {p f : Str} {n : BNode F} {al ae : Bool} {num : Nat} (hf : f ≠ vkey) :
    Keeps (objectField p n f al ae num) s (∃ c, n.get f = .ok c ∧ ObjCond c al ae num) :=
  fieldPattern hf (withChild hf fun _ _ => objectTests_keeps)

theorem objCond_plain {c : BNode F} : ObjCond c false false 0 ↔ ∃ ks, c = .obj ks ∧ ks ≠ [] := by
  unfold ObjCond
  constructor
  · rintro ⟨h, h2, -⟩
    rcases h with ⟨ks, rfl⟩ | ⟨h, -⟩
    · exact ⟨ks, rfl, fun e => h2 rfl (by simp [members, e])⟩
    · exact absurd h (by simp)
  · rintro ⟨ks, rfl, h⟩
    exact ⟨.inl ⟨ks, rfl⟩, fun _ => by simpa [members] using h, fun h => absurd rfl h⟩

theorem objectField_plain {p f : Str} {n : BNode F} (hf : f ≠ vkey) :
    Keeps (objectField p n f) s (∃ ks, n.get f = .ok (.obj ks) ∧ ks ≠ []) := by
  refine (objectField_keeps hf).iff ?_
  constructor
  · rintro ⟨c, hc, ho⟩; obtain ⟨ks, rfl, h⟩ := objCond_plain.1 ho; exact ⟨ks, hc, h⟩
  · rintro ⟨ks, hc, h⟩; exact ⟨_, hc, objCond_plain.2 ⟨ks, rfl, h⟩⟩

theorem objectSelf_joins {p : Str} {n : BNode F} : Joins (objectSelf p n) s (∃ ks, n = .obj ks ∧ ks ≠ []) := by
  intro v
  refine objectTests_keeps.seq fun r hr => ?_
  exact finish_joins (hr.trans objCond_plain)

theorem existsAnd_keeps {p f : Str} {n : BNode F} {g : BNode F → V Bool} {φ : BNode F → Prop} (hf : f ≠ vkey)
    (h : ∀ c, n.get f = .ok c → Decides (g c) s (φ c)) :
    Keeps (existsAnd p n f g) s (∃ c, n.get f = .ok c ∧ φ c) :=
  withChild hf fun c hc => (h c hc).sub hf

theorem objectAnd_keeps {p f : Str} {n : BNode F} {g : BNode F → V Bool} {φ : BNode F → Prop} (hf : f ≠ vkey)
    (h : ∀ ks, n.get f = .ok (.obj ks) → Decides (g (.obj ks)) s (φ (.obj ks))) :
    Keeps (objectAnd p n f g) s (∃ ks, n.get f = .ok (.obj ks) ∧ ks ≠ [] ∧ φ (.obj ks)) := by
  by_cases hn : ∃ ks, n.get f = .ok (.obj ks) ∧ ks ≠ []
  · obtain ⟨ks, hk, hne⟩ := hn
    refine ((objectField_plain hf).andAlso fun _ => lift_keeps hk ((h ks hk).sub hf)).iff ?_
    constructor
    · intro x; exact ⟨ks, hk, hne, x.2⟩
    · rintro ⟨ks', hk', -, x⟩; rw [hk] at hk'; injection hk' with hk'; rw [← hk'] at x; exact ⟨⟨ks, hk, hne⟩, x⟩
  · refine (Keeps.andAlso (ψ := False) (objectField_plain hf) fun x => absurd x hn).iff ?_
    constructor
    · intro x; exact absurd x.1 hn
    · rintro ⟨ks, hk, hne, -⟩; exact absurd ⟨ks, hk, hne⟩ hn

theorem ifHas_keeps {f : Str} {n : BNode F} {g : BNode F → V Bool} {φ : BNode F → Prop}
    (h : ∀ c, n.get f = .ok c → Keeps (g c) s (φ c)) :
    Keeps (ifHas n f g) s (∀ c, n.get f = .ok c → φ c) := by
  unfold ifHas
  refine ite_keeps (fun e => ?_) fun e => ?_
  · obtain ⟨c, hc⟩ := has_iff.1 e
    refine (lift_keeps hc (h c hc)).iff ?_
    constructor
    · intro x c' hc'; rw [hc] at hc'; injection hc' with hc'; exact hc' ▸ x
    · intro x; exact x c hc
  · have := not_has_iff.1 e
    exact (pure_keeps true).iff ⟨fun _ c hc => absurd ⟨c, hc⟩ this, fun _ => rfl⟩

/-- `if(n.has_child(f)) res &= …` for a check of the field `f`. -/
theorem optional_keeps {f : Str} {n : BNode F} {act : V Bool} (h : Has n f → Keeps act s φ) :
    Keeps (if n.hasChild f = true then act else pure true) s (Has n f → φ) := by
  refine ite_keeps (fun e => ?_) fun e => ?_
  · have := has_iff.1 e
    exact (h this).iff ⟨fun x _ => x, fun x => x this⟩
  · have := not_has_iff.1 e
    exact (pure_keeps true).iff ⟨fun _ x => absurd x this, fun _ => rfl⟩

theorem enumTest_keeps {p f x : Str} {vals : List Str} : Keeps (enumTest p f vals x) s (x ∈ vals) := by
  intro v
  unfold enumTest
  by_cases h : vals.contains x = true
  · rw [if_pos h]
    exact (note_does _ _ v).bind fun _ => Does.pure _ fun _ hw => ⟨⟨fun _ => by simpa using h, fun _ => rfl⟩, hw⟩
  · rw [if_neg h]
    exact (err_does _ _ v).bind fun _ => Does.pure _ fun _ hw =>
      ⟨⟨fun x => absurd x (by simp), fun x => absurd (by simpa using x) h⟩, hw⟩

theorem enumField_keeps {p f : Str} {n : BNode F} {vals : List Str} (hf : f ≠ vkey) :
    Keeps (enumField p n f vals) s (HasOneOf n f vals) := by
  refine fieldPattern hf ?_
  by_cases hn : HasStr n f
  · obtain ⟨x, hx⟩ := hn
    refine ((stringField_keeps hf).andAlso fun _ =>
      lift_keeps hx (lift_keeps (show (BNode.str x : BNode F).asString = .ok x from rfl) enumTest_keeps)).iff ?_
    constructor
    · intro y; exact ⟨x, y.2, hx⟩
    · rintro ⟨y, hy, e⟩
      rw [hx] at e
      injection e with e; injection e with e
      exact ⟨⟨x, hx⟩, e ▸ hy⟩
  · refine (Keeps.andAlso (ψ := False) (stringField_keeps hf) fun x => absurd x hn).iff ?_
    constructor
    · intro x; exact absurd x.1 hn
    · rintro ⟨x, -, e⟩; exact absurd ⟨x, e⟩ hn

theorem enumSelf_joins {p : Str} {n : BNode F} {vals : List Str} :
    Joins (enumSelf p n vals) s (∃ x ∈ vals, n = .str x) := by
  intro v
  unfold enumSelf V.andAlso
  refine Does.bind (Q := fun r t => (r = true ↔ ∃ x ∈ vals, n = .str x) ∧ W (v && n.isString) t) ?_ ?_
  · refine leafSelf_joins.seq fun r hr => ?_
    have hr' : r = n.isString := by cases r <;> cases h : n.isString <;> simp_all
    subst hr'
    by_cases h : ∃ x, n = .str x
    · obtain ⟨x, rfl⟩ := h
      simp only [BNode.isString, if_true]
      refine lift_then (a := x) rfl ?_
      refine (enumTest_keeps _).conseq (fun _ => id) fun r t y => ⟨?_, y.2⟩
      rw [y.1]; constructor
      · intro hx; exact ⟨x, hx, rfl⟩
      · rintro ⟨y, hy, e⟩; injection e with e; exact e ▸ hy
    · have hf : n.isString = false := by
        cases h2 : n.isString with
        | false => rfl
        | true => exact absurd (isString_iff.1 h2) h
      rw [if_neg (by simp [hf])]
      exact Does.pure _ fun t hw => ⟨⟨fun x => absurd x (by simp), fun ⟨x, _, e⟩ => absurd ⟨x, e⟩ h⟩, hw⟩
  · intro r
    refine Does.pull fun hr => ?_
    refine (finish_joins hr).conseq (fun _ => id) fun b t x => ⟨x.1, ?_⟩
    have : b = true → n.isString = true := by
      intro hb; obtain ⟨y, _, e⟩ := x.1.1 hb; rw [e]; rfl
    have h2 := x.2
    unfold W at h2 ⊢
    rw [h2]
    cases b
    · simp
    · simp [this rfl]

theorem enumVerify_verifies {p : Str} {n : BNode F} {vals : List Str} :
    Verifies (enumVerify p vals n) s (∃ x ∈ vals, n = .str x) := by
  refine reset_then ?_
  refine enumSelf_joins.seq fun r hr => ?_
  exact finish_of' hr (by intro h; simp [h])

theorem existsEnum_keeps {p q f : Str} {n : BNode F} {vals : List Str} (hf : f ≠ vkey) :
    Keeps (existsAnd p n f (enumVerify q vals)) s (HasOneOf n f vals) := by
  refine (existsAnd_keeps hf fun c _ => enumVerify_verifies.decides).iff ?_
  constructor
  · rintro ⟨c, hc, x, hx, rfl⟩; exact ⟨x, hx, hc⟩
  · rintro ⟨x, hx, hc⟩; exact ⟨_, hc, x, hx, rfl⟩

/-! ### Multi-component arrays -/

/-- The condition the loop of `mcarray::verify` checks. -/
def mcCond : List Nat → Nat → Prop
  | [], _ => True
  | l :: ls, num => (l = if num = 0 then l else num) ∧ mcCond ls (if num = 0 then l else num)

theorem mcCond_pos (ls : List Nat) (num : Nat) (h : num ≠ 0) : mcCond ls num ↔ ∀ l ∈ ls, l = num := by
  induction ls with
  | nil => simp [mcCond]
  | cons l ls ih => simp [mcCond, h, ih]

theorem mcCond_iff (ls : List Nat) : mcCond ls 0 ↔ SameLength ls := by
  induction ls with
  | nil => simp only [mcCond, true_iff]; exact ⟨0, 0, 0, rfl⟩
  | cons l ls ih =>
    simp only [mcCond, if_true, true_and]
    by_cases h : l = 0
    · subst h
      rw [ih]
      constructor
      · rintro ⟨k, m, n, rfl⟩; exact ⟨k + 1, m, n, rfl⟩
      · rintro ⟨k, m, n, e⟩
        cases k with
        | zero =>
          cases m with
          | zero => simp at e
          | succ m =>
            simp [List.replicate_succ] at e
            obtain ⟨rfl, rfl⟩ := e
            exact ⟨0, m, 0, rfl⟩
        | succ k =>
          simp [List.replicate_succ] at e
          exact ⟨k, m, n, e⟩
    · rw [mcCond_pos _ _ h]
      constructor
      · intro hl
        refine ⟨0, ls.length + 1, l, ?_⟩
        rw [List.replicate_succ, List.replicate_zero, List.nil_append, List.cons.injEq]
        exact ⟨rfl, List.eq_replicate_iff.2 ⟨rfl, hl⟩⟩
      · rintro ⟨k, m, n, e⟩ x hx
        cases k with
        | zero =>
          cases m with
          | zero => simp at e
          | succ m =>
            simp [List.replicate_succ] at e
            obtain ⟨rfl, rfl⟩ := e
            exact List.eq_of_mem_replicate hx
        | succ k =>
          simp [List.replicate_succ] at e
          exact absurd e.1 h

theorem mcarrayLoop_keeps (l : List (Str × BNode F)) (num : Nat) :
    Keeps (mcarrayLoop l num) s ((∀ k ∈ l, IsNums k.2) ∧ mcCond (l.map fun k => k.2.numElements) num) := by
  induction l generalizing num with
  | nil => exact (pure_keeps true).iff (by simp [mcCond])
  | cons k l ih =>
    obtain ⟨name, c⟩ := k
    intro v
    unfold mcarrayLoop
    simp only
    by_cases hc : c.isNumber = true
    · rw [if_pos hc]
      refine (demand_keeps _ _ _).seq fun a ha => ?_
      refine (ih _).seq fun b hb => ?_
      refine Does.pure _ fun t hw => ⟨?_, hw⟩
      rw [Bool.and_eq_true, ha, hb]
      simp only [List.mem_cons, forall_eq_or_imp, List.map_cons, mcCond, isNumber_iff.1 hc, true_and, beq_iff_eq]
      constructor
      · rintro ⟨x, y, z⟩; exact ⟨y, x, z⟩
      · rintro ⟨y, x, z⟩; exact ⟨x, y, z⟩
    · rw [if_neg hc]
      refine (err_does _ _ v).bind fun _ => ?_
      refine (ih _).seq fun b hb => ?_
      refine Does.pure _ fun t hw => ⟨⟨fun x => absurd x (by simp), fun x => ?_⟩, hw⟩
      exact absurd (isNumber_iff.2 (x.1 (name, c) (by simp))) hc

theorem mcarrayVerify_verifies {n : BNode F} : Verifies (mcarrayVerify n) s (IsMCArray n) := by
  refine reset_then ?_
  refine (demand_keeps _ _ _).seq fun a ha => ?_
  refine (mcarrayLoop_keeps _ _).seq fun b hb => ?_
  refine finish_of ?_
  rw [Bool.and_eq_true, ha, hb, Bool.or_eq_true, isObject_iff, isList_iff, mcCond_iff]
  unfold IsMCArray
  have e : n.items.map (fun k => k.2.numElements) = (members n).map BNode.numElements := by
    rw [← items_members]; simp
  rw [e]
  constructor
  · rintro ⟨h1, h2, h3⟩
    exact ⟨h1, fun d hd => by obtain ⟨k, hk, rfl⟩ := mem_items.1 hd; exact h2 k hk, h3⟩
  · rintro ⟨h1, h2, h3⟩
    exact ⟨h1, fun k hk => h2 k.2 (mem_items.2 ⟨k, hk, rfl⟩), h3⟩

/-- A check on a field that notes its outcome. -/
theorem reported {p m1 m2 f : Str} {act : V Bool} (hf : f ≠ vkey) (h : Decides act s φ) :
    Keeps (do
      let res ← V.sub f act
      if res = true then do
        V.note p m1
        pure true
      else do
        V.err p m2
        pure false) s φ := by
  intro v
  refine (h.sub hf).seq fun r hr => ?_
  cases r
  · exact (err_does _ _ v).bind fun _ => Does.pure _ fun _ hw => ⟨hr, hw⟩
  · exact (note_does _ _ v).bind fun _ => Does.pure _ fun _ hw => ⟨hr, hw⟩

theorem mcarrayField_keeps {p f : Str} {n : BNode F} (hf : f ≠ vkey) :
    Keeps (mcarrayField p n f) s (∃ c, n.get f = .ok c ∧ IsMCArray c) :=
  fieldPattern hf (withChild hf fun _ _ => reported hf mcarrayVerify_verifies.decides)

/-! ### Multi-level arrays -/

theorem below_iff (n : BNode F) (d : Nat) (x : BNode F) : Below n d x ↔ x ∈ n.atDepth d := by
  induction d generalizing x with
  | zero =>
    simp only [BNode.atDepth, List.mem_singleton]
    constructor
    · intro h; cases h; rfl
    · rintro rfl; exact .here
  | succ d ih =>
    simp only [BNode.atDepth, List.mem_flatMap]
    constructor
    · intro h
      cases h with
      | down h1 h2 => exact ⟨_, (ih _).1 h1, by rw [items_members]; exact h2⟩
    · rintro ⟨y, hy, hx⟩
      rw [items_members] at hx
      exact .down ((ih y).2 hy) hx

theorem below_cons {n k : BNode F} (hk : k ∈ members n) {d : Nat} {x : BNode F} (h : Below k d x) :
    Below n (d + 1) x := by
  induction h with
  | here => exact .down .here hk
  | down _ hm ih => exact .down ih hm

theorem below_succ {n : BNode F} {d : Nat} {x : BNode F} (h : Below n (d + 1) x) :
    ∃ k ∈ members n, Below k d x := by
  generalize he : d + 1 = e at h
  induction h generalizing d with
  | here => exact absurd he (by simp)
  | @down d' y z h1 h2 ih =>
    obtain rfl : d = d' := by omega
    cases d with
    | zero => cases h1; exact ⟨z, h2, .here⟩
    | succ d =>
      obtain ⟨k, hk, hb⟩ := ih rfl
      exact ⟨k, hk, .down hb h2⟩

theorem height_spec (n : BNode F) : (∃ x, Below n n.height x) ∧ ∀ d x, Below n d x → d ≤ n.height := by
  suffices H : ∀ m (n : BNode F), n.size < m →
      (∃ x, Below n n.height x) ∧ ∀ d x, Below n d x → d ≤ n.height from H _ n (Nat.lt_succ_self _)
  intro m
  induction m with
  | zero => intro n h; omega
  | succ m ih =>
    have leaf : ∀ n : BNode F, members n = [] → n.height = 0 →
        (∃ x, Below n n.height x) ∧ ∀ d x, Below n d x → d ≤ n.height := by
      intro n hm hh
      rw [hh]
      refine ⟨⟨n, .here⟩, fun d x h => ?_⟩
      cases d with
      | zero => omega
      | succ d => obtain ⟨k, hk, _⟩ := below_succ h; rw [hm] at hk; simp at hk
    -- the heights of the members
    have tree : ∀ (n : BNode F), (∀ k ∈ members n, k.size < m) →
        n.height = ((members n).map fun k => k.height + 1).foldr max 0 →
        (∃ x, Below n n.height x) ∧ ∀ d x, Below n d x → d ≤ n.height := by
      intro n hs hh
      have fold : ∀ l : List (BNode F), (l = [] ∨ ∃ k ∈ l, (l.map fun k => k.height + 1).foldr max 0 = k.height + 1) ∧
          ∀ k ∈ l, k.height + 1 ≤ (l.map fun k => k.height + 1).foldr max 0 := by
        intro l
        induction l with
        | nil => simp
        | cons a l ihl =>
          obtain ⟨h1, h2⟩ := ihl
          simp only [List.map_cons, List.foldr_cons, List.mem_cons]
          refine ⟨.inr ?_, ?_⟩
          · rcases h1 with rfl | ⟨k, hk, e⟩
            · exact ⟨a, .inl rfl, by simp⟩
            · rw [e]
              rcases Nat.le_total (a.height + 1) (k.height + 1) with hle | hle
              · exact ⟨k, .inr hk, by omega⟩
              · exact ⟨a, .inl rfl, by omega⟩
          · rintro k (rfl | hk)
            · omega
            · have := h2 k hk; omega
      obtain ⟨f1, f2⟩ := fold (members n)
      rw [← hh] at f1 f2
      constructor
      · rcases f1 with e | ⟨k, hk, e⟩
        · rw [hh, e]; exact ⟨n, .here⟩
        · rw [e]
          obtain ⟨x, hx⟩ := (ih k (hs k hk)).1
          exact ⟨x, below_cons hk hx⟩
      · intro d x h
        cases d with
        | zero => omega
        | succ d =>
          obtain ⟨k, hk, hb⟩ := below_succ h
          have := (ih k (hs k hk)).2 d x hb
          have := f2 k hk
          omega
    intro n hn
    cases n with
    | obj ks =>
      refine tree _ ?_ ?_
      · have hO : ∀ l : List (Str × BNode F), ∀ k ∈ l.map (·.2), k.size ≤ BNode.size.sizeO l := by
          intro l
          induction l with
          | nil => simp
          | cons a l ihl =>
            intro k hk
            simp only [List.map_cons, List.mem_cons] at hk
            simp only [BNode.size.sizeO]
            rcases hk with rfl | hk
            · omega
            · have := ihl k hk; omega
        intro k hk
        have := hO ks k hk
        simp only [BNode.size] at hn
        omega
      · simp only [BNode.height, members]
        clear hn
        induction ks with
        | nil => rfl
        | cons a l ihl => simp only [BNode.height.heightO, List.map_cons, List.foldr_cons, ihl]
    | list ks =>
      refine tree _ ?_ ?_
      · have hL : ∀ l : List (BNode F), ∀ k ∈ l, k.size ≤ BNode.size.sizeL l := by
          intro l
          induction l with
          | nil => simp
          | cons a l ihl =>
            intro k hk
            simp only [BNode.size.sizeL]
            rcases List.mem_cons.1 hk with rfl | hk
            · omega
            · have := ihl k hk; omega
        intro k hk
        have := hL ks k hk
        simp only [BNode.size] at hn
        omega
      · simp only [BNode.height, members]
        clear hn
        induction ks with
        | nil => rfl
        | cons a l ihl => simp only [BNode.height.heightL, List.map_cons, List.foldr_cons, ihl]
    | _ => exact leaf _ rfl rfl

theorem mem_childNames {c : BNode F} {f : Str} : f ∈ c.childNames ↔ Has c f := by
  rw [← has_iff]
  unfold BNode.childNames BNode.hasChild
  rw [List.any_eq_true]
  simp only [List.mem_map, beq_iff_eq]

theorem sameSet_iff {a b : List Str} : sameSet a b = true ↔ ∀ f, f ∈ a ↔ f ∈ b := by
  unfold sameSet
  rw [Bool.and_eq_true, List.all_eq_true, List.all_eq_true]
  simp only [List.contains_iff_mem]
  constructor
  · rintro ⟨h1, h2⟩ f; exact ⟨h1 f, h2 f⟩
  · intro h; exact ⟨fun f => (h f).1, fun f => (h f).2⟩

/-- The nodes of depth `d` have the same child names. -/
def LevelSame (n : BNode F) (d : Nat) : Prop :=
  ∀ x y, Below n d x → Below n d y → ∀ f, Has x f → Has y f

theorem levelSame_iff (n : BNode F) (d : Nat) :
    levelSame n d = true ↔ LevelSame n d := by
  unfold LevelSame levelSame
  simp only [below_iff]
  cases n.atDepth d with
  | nil => simp
  | cons k ks =>
    simp only [List.all_eq_true, sameSet_iff, mem_childNames]
    constructor
    · intro h x y hx hy f hf
      have ex : Has x f ↔ Has k f := by
        rcases List.mem_cons.1 hx with rfl | hx
        · exact Iff.rfl
        · exact h x hx f
      have ey : Has y f ↔ Has k f := by
        rcases List.mem_cons.1 hy with rfl | hy
        · exact Iff.rfl
        · exact h y hy f
      exact ey.2 (ex.1 hf)
    · intro h x hx f
      exact ⟨h x k (List.mem_cons_of_mem _ hx) (List.mem_cons_self ..) f,
        h k x (List.mem_cons_self ..) (List.mem_cons_of_mem _ hx) f⟩

theorem mlarrayLevels_keeps (n : BNode F) (ds : List Nat) (res : Bool) :
    Keeps (mlarrayLevels n ds res) s (res = true ∧ ∀ d ∈ ds, LevelSame n d) := by
  induction ds generalizing res with
  | nil => exact (pure_keeps res).iff (by simp)
  | cons d ds ih =>
    unfold mlarrayLevels
    have hl := levelSame_iff n d
    generalize levelSame n d = same at hl
    by_cases h : (res && !same) = true
    · rw [if_pos h]
      intro v
      refine (err_does _ _ v).bind fun _ => ?_
      refine (ih false v).conseq (fun _ => id) fun b t x => ⟨?_, x.2⟩
      rw [x.1]
      constructor
      · intro y; exact absurd y.1 (by simp)
      · intro y
        have := hl.2 (y.2 d (by simp))
        rw [Bool.and_eq_true] at h
        rw [this] at h
        exact absurd h.2 (by simp)
    · rw [if_neg h]
      refine (ih res).iff ?_
      constructor
      · rintro ⟨rfl, y⟩
        refine ⟨rfl, fun e he => ?_⟩
        rcases List.mem_cons.1 he with rfl | he
        · exact hl.1 (by simpa using h)
        · exact y e he
      · rintro ⟨rfl, y⟩; exact ⟨rfl, fun e he => y e (List.mem_cons_of_mem _ he)⟩

theorem mlarrayVerify_decides {n : BNode F} {lo hi : Nat} : Decides (mlarrayVerify n lo hi) s (IsMLArray n lo hi) := by
  obtain ⟨⟨x0, hx0⟩, hmax⟩ := height_spec n
  refine reset_then ?_
  refine (demand_keeps _ _ _).seq fun r0 h0 => ?_
  refine (mlarrayLevels_keeps _ _ _).seq fun r1 h1 => ?_
  have key : Keeps (if r1 = true then
      V.demand ((n.atDepth n.height).all BNode.isNumber) (chars! "mlarray") (chars! "node leaves have non-numerical types")
      else pure false) s (r1 = true ∧ ∀ x, Below n n.height x → IsNums x) := by
    have hall : ((n.atDepth n.height).all BNode.isNumber) = true ↔ ∀ x, Below n n.height x → IsNums x := by
      rw [List.all_eq_true]
      simp only [below_iff, isNumber_iff]
    refine ite_keeps (fun e => ?_) fun e => ?_
    · exact (demand_keeps _ _ _).iff (by rw [hall]; simp [e])
    · exact (pure_keeps false).iff (by simp [e])
  refine key.seq fun r2 h2 => ?_
  refine (demand_keeps _ _ _).seq fun r3 h3 => ?_
  refine Does.pure _ fun t _ => ?_
  rw [Bool.and_eq_true, h2, h3, h1, h0]
  simp only [Bool.and_eq_true, decide_eq_true_iff, List.mem_range]
  unfold IsMLArray
  constructor
  · rintro ⟨⟨⟨-, hl⟩, hn⟩, hlo, hhi⟩
    exact ⟨n.height, hlo, hhi, fun x h => by have := hmax _ _ h; omega, ⟨x0, hx0⟩, fun d hd => hl d hd, hn⟩
  · rintro ⟨h, hlo, hhi, hnone, ⟨x, hx⟩, hl, hn⟩
    have e : h = n.height := by
      have h1 := hmax _ _ hx
      rcases Nat.lt_or_ge h n.height with hlt | hge
      · exfalso
        -- a node of depth `n.height` has an ancestor of depth `h + 1`
        have up : ∀ d y, Below n d y → h + 1 ≤ d → ∃ z, Below n (h + 1) z := by
          intro d y hb
          induction hb with
          | here => intro hd; omega
          | @down d' y' z' hb1 hb2 ih =>
            intro hd
            rcases Nat.lt_or_ge h d' with hlt' | hge'
            · exact ih hlt'
            · obtain rfl : d' = h := by omega
              exact ⟨z', .down hb1 hb2⟩
        obtain ⟨z, hz⟩ := up _ _ hx0 hlt
        exact hnone z hz
      · omega
    subst e
    refine ⟨⟨⟨?_, hl⟩, hn⟩, hlo, hhi⟩
    cases n with
    | empty =>
      obtain ⟨t, l, e⟩ | ⟨w, l, e⟩ := hn _ .here
      · exact absurd e (by simp)
      · exact absurd e (by simp)
    | _ => rfl

theorem mlarrayField_keeps {p f : Str} {n : BNode F} {lo hi : Nat} (hf : f ≠ vkey) :
    Keeps (mlarrayField p n f lo hi) s (∃ c, n.get f = .ok c ∧ IsMLArray c lo hi) :=
  fieldPattern hf (withChild hf fun _ _ => reported hf mlarrayVerify_decides)

/-! ### One-to-many relations -/

theorem o2mMeta_keeps {n : BNode F} {f : Str} : Keeps (o2mMeta n f) s (∀ d, n.get f = .ok d → IsInts d) := by
  unfold o2mMeta
  refine ite_keeps (fun e => ?_) fun e => ?_
  · obtain ⟨c, hc⟩ := has_iff.1 e
    refine (lift_keeps hc (demand_keeps _ _ _)).iff ?_
    rw [isInt_iff]
    constructor
    · intro x d hd; rw [hc] at hd; injection hd with hd; exact hd ▸ x
    · intro x; exact x c hc
  · exact (pure_keeps true).iff ⟨fun _ d hd => absurd ⟨d, hd⟩ (not_has_iff.1 e), fun _ => rfl⟩

theorem o2mPair_keeps {n : BNode F} : Keeps (o2mPair n) s
    ((¬ Has n (chars! "sizes") ∧ ¬ Has n (chars! "offsets")) ∨
      ∃ a b, n.get (chars! "sizes") = .ok a ∧ n.get (chars! "offsets") = .ok b ∧ a.numElements = b.numElements) := by
  unfold o2mPair
  simp only
  by_cases h1 : Has n (chars! "sizes") <;> by_cases h2 : Has n (chars! "offsets")
  · rw [has_iff.2 h1, has_iff.2 h2]
    obtain ⟨a, ha⟩ := h1
    obtain ⟨b, hb⟩ := h2
    simp only [Bool.or_self, Bool.and_self, Bool.not_true, if_true, Bool.false_eq_true, if_false]
    refine (lift_keeps ha (lift_keeps hb (demand_keeps _ _ _))).iff ?_
    rw [beq_iff_eq]
    constructor
    · intro e; exact .inr ⟨a, b, ha, hb, e⟩
    · rintro (⟨h, -⟩ | ⟨a', b', ha', hb', e⟩)
      · exact absurd ⟨a, ha⟩ h
      · rw [ha] at ha'; rw [hb] at hb'
        injection ha' with ha'; injection hb' with hb'
        rw [ha', hb']; exact e
  · rw [has_iff.2 h1, not_has_iff.2 h2]
    simp only [Bool.or_false, Bool.and_false, Bool.not_false, if_true]
    intro v
    refine (err_does _ _ v).bind fun _ => Does.pure _ fun _ hw => ⟨⟨fun x => absurd x (by simp), ?_⟩, hw⟩
    rintro (⟨h, -⟩ | ⟨a, b, ha, hb, -⟩)
    · exact absurd h1 h
    · exact absurd ⟨b, hb⟩ h2
  · rw [not_has_iff.2 h1, has_iff.2 h2]
    simp only [Bool.or_true, Bool.false_and, Bool.not_false, if_true]
    intro v
    refine (err_does _ _ v).bind fun _ => Does.pure _ fun _ hw => ⟨⟨fun x => absurd x (by simp), ?_⟩, hw⟩
    rintro (⟨-, h⟩ | ⟨a, b, ha, hb, -⟩)
    · exact absurd h2 h
    · exact absurd ⟨a, ha⟩ h1
  · rw [not_has_iff.2 h1, not_has_iff.2 h2]
    simp only [Bool.or_self, Bool.false_eq_true, if_false]
    exact (pure_keeps true).iff ⟨fun _ => .inl ⟨h1, h2⟩, fun _ => rfl⟩

theorem o2mData_keeps (l : List (Str × BNode F)) :
    Keeps (o2mData l) s (∃ k ∈ l, k.1 ∉ relationNames ∧ IsNums k.2) := by
  induction l with
  | nil => exact (pure_keeps false).iff (by simp)
  | cons k l ih =>
    obtain ⟨name, c⟩ := k
    intro v
    unfold o2mData
    simp only
    have hb : (!o2mPaths.contains name && c.isNumber) = true ↔ name ∉ relationNames ∧ IsNums c := by
      rw [Bool.and_eq_true, isNumber_iff]
      simp [o2mPaths, relationNames]
    generalize (!o2mPaths.contains name && c.isNumber) = here at hb
    have rest : Does (do
        let rest ← o2mData l
        pure (here || rest) : V Bool) s (W v) fun b t =>
          (b = true ↔ ∃ k ∈ (name, c) :: l, k.1 ∉ relationNames ∧ IsNums k.2) ∧ W v t := by
      refine ih.seq fun r hr => ?_
      refine Does.pure _ fun t hw => ⟨?_, hw⟩
      rw [Bool.or_eq_true, hb, hr]
      simp
    cases here
    · exact rest
    · exact (note_does _ _ v).bind fun _ => rest

theorem o2mVerify_joins {n : BNode F} : Joins (o2mVerify n) s (IsRelation n) := by
  intro v
  refine (demand_keeps _ _ _).seq fun r0 h0 => ?_
  refine (Keeps.all _ fun f _ => o2mMeta_keeps).seq fun r1 h1 => ?_
  refine o2mPair_keeps.seq fun r2 h2 => ?_
  refine (o2mData_keeps _).seq fun r3 h3 => ?_
  refine (demand_keeps _ _ _).seq fun r4 h4 => ?_
  refine finish_joins ?_
  simp only [Bool.and_eq_true, h0, h1, h2, h3, h4, isObject_iff]
  unfold IsRelation
  constructor
  · rintro ⟨⟨⟨a, b⟩, c⟩, d⟩
    obtain ⟨ks, rfl⟩ := a
    exact ⟨⟨ks, rfl⟩, b, c, d⟩
  · rintro ⟨⟨ks, rfl⟩, b, c, d⟩; exact ⟨⟨⟨⟨ks, rfl⟩, b⟩, c⟩, d⟩

theorem o2mField_keeps {p f : Str} {n : BNode F} (hf : f ≠ vkey) :
    Keeps (o2mField p n f) s (∃ c, n.get f = .ok c ∧ IsRelation c) :=
  fieldPattern hf (withChild hf fun _ _ => reported hf o2mVerify_joins.decides)

end
end Conduit.Mesh
