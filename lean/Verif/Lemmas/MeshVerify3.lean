import Verif.Lemmas.MeshVerify2
/-
What the checks of coordsets and topologies decide.
-/
namespace Conduit.Mesh
open Log (Info)

section
variable {F : Type} {s φ ψ : Prop}

/-- A check that starts from a fresh report and leaves one that does not contradict it. -/
def Leaves (act : V Bool) (s φ : Prop) : Prop :=
  Does act s (W true) fun b t => (b = true ↔ φ) ∧ (b = true → verdict t = true)

theorem Keeps.leaves {act : V Bool} (h : Keeps act s φ) : Leaves act s φ :=
  (h true).conseq (fun _ => id) fun _ _ x => ⟨x.1, fun _ => x.2⟩
theorem Verifies.leaves {act : V Bool} (h : Verifies act s φ) : Leaves act s φ :=
  Does.conseq h (fun _ _ => trivial) fun _ _ x => ⟨x.1, fun hb => by rw [x.2.verdict]; exact hb⟩
theorem Leaves.iff {act : V Bool} (h : Leaves act s φ) (e : φ ↔ ψ) : Leaves act s ψ := by rwa [← propext e]

theorem finish_leaves {b : Bool} (h : b = true ↔ φ) :
    Does (V.finish b) s (fun t => b = true → verdict t = true) fun r t => (r = true ↔ φ) ∧ Marked t r := fun t ht =>
  (finish_of' (s := s) (v := verdict t) h ht) t rfl

/-- A check that leaves the verdict alone, in any state of it. -/
theorem Keeps.under {act : V Bool} {R : Bool → Prop} (h : Keeps act s φ) :
    Does act s (fun t => R (verdict t)) fun b t => (b = true ↔ φ) ∧ R (verdict t) := fun t ht =>
  ⟨fun a t' e => by
    have := (h (verdict t) t rfl).1 a t' e
    exact ⟨this.1, by rw [show verdict t' = verdict t from this.2]; exact ht⟩, (h (verdict t) t rfl).2⟩

theorem liftAny {α β : Type} {r : Res α} {f : α → V β} {P : Info → Prop} {R : β → Info → Prop}
    (hs : s → ∃ a, r = .ok a) (h : ∀ a, r = .ok a → Does (f a) s P R) : Does (V.lift r >>= f) s P R :=
  (Does.lift r hs).bind fun a => Does.pull (h a)

theorem Keeps.liftAny {α : Type} {r : Res α} {f : α → V Bool} (hs : s → ∃ a, r = .ok a)
    (h : ∀ a, r = .ok a → Keeps (f a) s φ) : Keeps (V.lift r >>= f) s φ :=
  fun v => Mesh.liftAny hs fun a e => h a e v

theorem note_keeps {p m : Str} {act : V Bool} (h : Keeps act s φ) : Keeps (V.note p m >>= fun _ => act) s φ :=
  fun v => (note_does p m v).bind fun _ => h v
theorem opt_keeps {p m : Str} {act : V Bool} (h : Keeps act s φ) : Keeps (V.opt p m >>= fun _ => act) s φ :=
  fun v => (opt_does p m v).bind fun _ => h v
theorem err_keeps {p m : Str} (h : ¬ φ) : Keeps (V.err p m >>= fun _ => pure false) s φ :=
  fun v => (err_does p m v).bind fun _ =>
    Does.pure _ fun _ hw => ⟨⟨fun x => absurd x (by simp), fun x => absurd x h⟩, hw⟩

theorem obj_of_get {n c : BNode F} {f : Str} (h : n.get f = .ok c) : ∃ ks, n = .obj ks ∧ (f, c) ∈ ks := by
  unfold BNode.get at h
  cases e : n.kids.find? fun k => k.1 == f with
  | none => rw [e] at h; exact absurd h (by simp)
  | some k =>
    rw [e] at h
    injection h with h
    have hm := List.mem_of_find?_eq_some e
    have hk : k.1 = f := by have := List.find?_some e; simpa using this
    cases n with
    | obj ks => exact ⟨ks, rfl, by rw [← hk, ← h]; exact hm⟩
    | _ => simp [BNode.kids] at hm

theorem nonempty_of_get {n c : BNode F} {f : Str} (h : n.get f = .ok c) : ∃ ks, n = .obj ks ∧ ks ≠ [] := by
  obtain ⟨ks, e, hm⟩ := obj_of_get h
  exact ⟨ks, e, List.ne_nil_of_mem hm⟩

theorem get_inj {n a b : BNode F} {f : Str} (h : n.get f = .ok a) (h' : n.get f = .ok b) : a = b := by
  rw [h] at h'; injection h'

theorem hasOneOf_single {n : BNode F} {f x : Str} : HasOneOf n f [x] ↔ n.get f = .ok (.str x) := by
  simp [HasOneOf]

theorem opt_ints {n : BNode F} {f : Str} : (Has n f → HasInts n f) ↔ ∀ d, n.get f = .ok d → IsInts d := by
  constructor
  · intro h d hd
    obtain ⟨t, l, e⟩ := h ⟨d, hd⟩
    exact ⟨t, l, get_inj hd e⟩
  · rintro h ⟨d, hd⟩
    obtain ⟨t, l, rfl⟩ := h d hd
    exact ⟨t, l, hd⟩

theorem opt_nums {n : BNode F} {f : Str} :
    (Has n f → ∃ c, n.get f = .ok c ∧ IsNums c) ↔ ∀ d, n.get f = .ok d → IsNums d := by
  constructor
  · intro h d hd
    obtain ⟨c, e, hc⟩ := h ⟨d, hd⟩
    exact get_inj e hd ▸ hc
  · rintro h ⟨d, hd⟩; exact ⟨d, hd, h d hd⟩

theorem logicalDims_verifies {c : BNode F} : Verifies (logicalDimsVerify c) s (IsDims c) := by
  refine reset_then ?_
  refine (integerField_keeps (by decide)).seq fun r1 h1 => ?_
  refine (optional_keeps fun _ => integerField_keeps (by decide)).seq fun r2 h2 => ?_
  refine (optional_keeps fun _ => integerField_keeps (by decide)).seq fun r3 h3 => ?_
  refine finish_of ?_
  rw [Bool.and_eq_true, Bool.and_eq_true, h1, h2, h3, opt_ints, opt_ints, and_assoc]
  rfl

theorem dims_obj {c : BNode F} (h : IsDims c) : ∃ ks, c = .obj ks ∧ ks ≠ [] := by
  obtain ⟨⟨t, l, e⟩, -⟩ := h
  exact nonempty_of_get e

theorem objectDims_keeps {p f : Str} {n : BNode F} (hf : f ≠ vkey) :
    Keeps (objectAnd p n f logicalDimsVerify) s (HasDims n f) := by
  refine (objectAnd_keeps hf fun ks _ => logicalDims_verifies.decides).iff ?_
  constructor
  · rintro ⟨ks, h, -, hd⟩; exact ⟨_, h, hd⟩
  · rintro ⟨d, h, hd⟩
    obtain ⟨ks, rfl, hk⟩ := dims_obj hd
    exact ⟨ks, h, hk, hd⟩

theorem existsDims_keeps {p f : Str} {n : BNode F} (hf : f ≠ vkey) :
    Keeps (existsAnd p n f logicalDimsVerify) s (HasDims n f) :=
  existsAnd_keeps hf fun _ _ => logicalDims_verifies.decides

theorem axes_verifies {p pre : Str} {c : BNode F} (hp : ∀ ax ∈ coordinateAxes, pre ++ ax ≠ vkey) :
    Verifies (axesVerify p pre c) s (∀ ax ∈ axisNames, ∀ d, c.get (pre ++ ax) = .ok d → IsNums d) := by
  refine reset_then ?_
  refine (Keeps.all _ fun ax hax => optional_keeps fun _ => numberField_keeps (hp ax hax)).seq fun r hr => ?_
  refine finish_of ?_
  rw [hr]
  simp only [opt_nums]
  rfl

theorem coordsetUniform_verifies {c : BNode F} : Verifies (coordsetUniform c) s
    (c.get (chars! "type") = .ok (.str (chars! "uniform")) ∧ HasDims c (chars! "dims") ∧
    (∀ o, c.get (chars! "origin") = .ok o → ∀ ax ∈ axisNames, ∀ d, o.get ax = .ok d → IsNums d) ∧
    ∀ o, c.get (chars! "spacing") = .ok o → ∀ ax ∈ axisNames, ∀ d, o.get ('d' :: ax) = .ok d → IsNums d) := by
  refine reset_then ?_
  refine (enumField_keeps (by decide)).seq fun r1 h1 => ?_
  refine (objectDims_keeps (by decide)).seq fun r2 h2 => ?_
  refine (ifHas_keeps fun o _ => opt_keeps ((axes_verifies (by decide)).decides.sub (by decide))).seq fun r3 h3 => ?_
  refine (ifHas_keeps fun o _ => opt_keeps ((axes_verifies (by decide)).decides.sub (by decide))).seq fun r4 h4 => ?_
  refine finish_of ?_
  simp only [Bool.and_eq_true, h1, h2, h3, h4, and_assoc, hasOneOf_single]
  rfl

theorem coordsetRectilinear_verifies {c : BNode F} : Verifies (coordsetRectilinear c) s
    (c.get (chars! "type") = .ok (.str (chars! "rectilinear")) ∧
    ∃ v, c.get (chars! "values") = .ok v ∧ members v ≠ [] ∧ ∀ d ∈ members v, IsNums d) := by
  refine reset_then ?_
  refine (enumField_keeps (by decide)).seq fun r1 h1 => ?_
  have key : Keeps (V.andAlso (objectField (chars! "mesh::coordset::rectilinear") c (chars! "values") true) do
      let c ← V.lift (c.get (chars! "values"))
      V.all (fun k => V.demand k.2.isNumber (chars! "mesh::coordset::rectilinear")
        (chars! "value child " ++ quote k.1 ++ chars! " is not a number array")) c.items) s
      (∃ v, c.get (chars! "values") = .ok v ∧ members v ≠ [] ∧ ∀ d ∈ members v, IsNums d) := by
    by_cases hn : ∃ v, c.get (chars! "values") = .ok v ∧ ObjCond v true false 0
    · obtain ⟨v, hv, ho⟩ := hn
      refine (Keeps.andAlso (objectField_keeps (by decide)) fun _ =>
        lift_keeps hv (Keeps.all _ fun k _ => demand_keeps _ _ _)).iff ?_
      constructor
      · rintro ⟨-, x⟩
        refine ⟨v, hv, ho.2.1 rfl, fun d hd => ?_⟩
        obtain ⟨k, hk, rfl⟩ := mem_items.1 hd
        exact isNumber_iff.1 (x k hk)
      · rintro ⟨v', hv', hne, x⟩
        obtain rfl := get_inj hv hv'
        exact ⟨⟨v, hv, ho⟩, fun k hk => isNumber_iff.2 (x k.2 (mem_items.2 ⟨k, hk, rfl⟩))⟩
    · refine (Keeps.andAlso (ψ := False) (objectField_keeps (by decide)) fun x => absurd x hn).iff ?_
      constructor
      · intro x; exact absurd x.1 hn
      · rintro ⟨v, hv, hne, -⟩
        refine absurd ⟨v, hv, ?_, fun _ => hne, fun h => absurd rfl h⟩ hn
        cases v with
        | obj ks => exact .inl ⟨ks, rfl⟩
        | list ks => exact .inr ⟨rfl, ks, rfl⟩
        | _ => exact absurd rfl hne
  refine key.seq fun r2 h2 => ?_
  refine finish_of ?_
  rw [Bool.and_eq_true, h1, h2, hasOneOf_single]

theorem coordsetExplicit_verifies {c : BNode F} : Verifies (coordsetExplicit c) s
    (c.get (chars! "type") = .ok (.str (chars! "explicit")) ∧ ∃ v, c.get (chars! "values") = .ok v ∧ IsMCArray v) := by
  refine reset_then ?_
  refine (enumField_keeps (by decide)).seq fun r1 h1 => ?_
  refine (mcarrayField_keeps (by decide)).seq fun r2 h2 => ?_
  refine finish_of ?_
  rw [Bool.and_eq_true, h1, h2, hasOneOf_single]

/-- A check that looks at the type first. -/
theorem dispatch {p q f : Str} {n : BNode F} {vals : List Str} {body : Str → V Bool} {β : Type} {k : Bool → V β}
    {R : β → Info → Prop} (hf : f ≠ vkey)
    (hb : ∀ x ∈ vals, n.get f = .ok (.str x) → Leaves (body x) s φ) (hno : φ → HasOneOf n f vals)
    (hk : ∀ b, (b = true ↔ φ) → Does (k b) s (fun t => b = true → verdict t = true) R) :
    Does (do
      let r0 ← existsAnd p n f (enumVerify q vals)
      let res ← (if r0 = true then do
          let c ← V.lift (n.get f)
          let x ← V.lift c.asString
          body x
        else pure false : V Bool)
      k res) s (W true) R := by
  refine (existsEnum_keeps hf).seq fun r hr => ?_
  refine Does.bind (Q := fun b t => (b = true ↔ φ) ∧ (b = true → verdict t = true)) ?_ fun b => Does.pull (hk b)
  cases r
  · exact Does.pure _ fun t _ => ⟨⟨fun x => absurd x (by simp), fun x => absurd (hr.2 (hno x)) (by simp)⟩, fun x => absurd x (by simp)⟩
  · obtain ⟨x, hx, e⟩ := hr.1 rfl
    exact lift_then e (lift_then (a := x) rfl (hb x hx e))

theorem coordset_verifies {c : BNode F} : Verifies (coordsetVerify c) s (IsCoordset c) := by
  refine reset_then ?_
  refine dispatch (φ := IsCoordset c)
    (body := fun x => if x = chars! "uniform" then coordsetUniform c
      else if x = chars! "rectilinear" then coordsetRectilinear c
      else if x = chars! "explicit" then coordsetExplicit c
      else pure true) (by decide) ?_ ?_ fun b hb => finish_leaves hb
  · intro x hx e
    simp only [coordTypes, List.mem_cons, List.not_mem_nil, or_false] at hx
    rcases hx with rfl | rfl | rfl
    · simp only [if_true]
      refine coordsetUniform_verifies.leaves.iff ?_
      unfold IsCoordset; simp [e]
    · rw [if_neg (by decide), if_pos rfl]
      refine coordsetRectilinear_verifies.leaves.iff ?_
      unfold IsCoordset; simp [e]
    · rw [if_neg (by decide), if_neg (by decide), if_pos rfl]
      refine coordsetExplicit_verifies.leaves.iff ?_
      unfold IsCoordset; simp [e]
  · rintro (h | h | h)
    · exact ⟨_, by decide, h.1⟩
    · exact ⟨_, by decide, h.1⟩
    · exact ⟨_, by decide, h.1⟩

/-! ### Topologies -/

theorem topologyImplicit_verifies {kind : Str} {n : BNode F} : Verifies (topologyImplicit kind n) s
    (HasStr n (chars! "coordset") ∧ n.get (chars! "type") = .ok (.str kind)) := by
  refine reset_then ?_
  refine (stringField_keeps (by decide)).seq fun r1 h1 => ?_
  refine (enumField_keeps (by decide)).seq fun r2 h2 => ?_
  refine finish_of ?_
  rw [Bool.and_eq_true, h1, h2, hasOneOf_single]

theorem finish_then_decides {act : V Bool} (h : Decides act s φ) : Decides (act >>= V.finish) s φ :=
  h.seq fun _ hr => finish_decides hr

theorem topologyStructured_verifies {n : BNode F} : Verifies (topologyStructured n) s
    (HasStr n (chars! "coordset") ∧ n.get (chars! "type") = .ok (.str (chars! "structured")) ∧
      ∃ e, n.get (chars! "elements") = .ok e ∧ HasDims e (chars! "dims")) := by
  refine reset_then ?_
  refine (stringField_keeps (by decide)).seq fun r1 h1 => ?_
  refine (enumField_keeps (by decide)).seq fun r2 h2 => ?_
  have key := objectAnd_keeps (s := s) (p := chars! "mesh::topology::structured") (n := n) (f := chars! "elements")
    (g := fun c => do
      let r ← objectAnd (chars! "mesh::topology::structured") c (chars! "dims") logicalDimsVerify
      V.finish r) (φ := fun e => HasDims e (chars! "dims")) (by decide)
    fun ks _ => finish_then_decides (objectDims_keeps (by decide)).decides
  refine key.seq fun r3 h3 => ?_
  refine finish_of ?_
  rw [Bool.and_eq_true, Bool.and_eq_true, h1, h2, h3, hasOneOf_single, and_assoc]
  refine and_congr_right fun _ => and_congr_right fun _ => ?_
  constructor
  · rintro ⟨ks, h, -, hd⟩; exact ⟨_, h, hd⟩
  · rintro ⟨d, h, e, he, hd⟩
    obtain ⟨ks, rfl, hk⟩ := nonempty_of_get he
    exact ⟨ks, h, hk, e, he, hd⟩

theorem existsShape_keeps {p : Str} {n : BNode F} :
    Keeps (existsAnd p n (chars! "shape") shapeVerify) s (HasOneOf n (chars! "shape") shapeNames) :=
  existsEnum_keeps (by decide)

theorem asInt32_iff {c : BNode F} {x : Int} : c.asInt32 = .ok x ↔ ∃ l, c = .ints int32 (x :: l) := by
  cases c with
  | ints t l =>
    unfold BNode.asInt32
    by_cases h : t = int32
    · subst h
      cases l with
      | nil => simp
      | cons v l =>
        simp
    · simp [h]
  | _ => simp [BNode.asInt32]

theorem shapeMap_verifies {m : BNode F} (hs : s → ∀ d ∈ members m, ∃ v l, d = .ints int32 (v :: l)) :
    Verifies (shapeMapVerify m) s (IsShapeMap m) := by
  refine reset_then ?_
  refine objectSelf_joins.seq fun r0 h0 => ?_
  refine (Keeps.all (φ := fun k : Str × BNode F => k.1 ∈ shapeNames ∧ ∃ v l, k.2 = .ints int32 (v :: l)) _
    fun k hk => ?_).seq fun r1 h1 => ?_
  · refine Keeps.liftAny (fun x => ?_) fun a ha => ?_
    · obtain ⟨v, l, e⟩ := hs x k.2 (mem_items.2 ⟨k, hk, rfl⟩)
      exact ⟨v, asInt32_iff.2 ⟨l, e⟩⟩
    · obtain ⟨l, e⟩ := asInt32_iff.1 ha
      refine ite_keeps (fun hc => ?_) fun hc => ?_
      · exact note_keeps ((pure_keeps true).iff ⟨fun _ => ⟨List.contains_iff_mem.1 hc, a, l, e⟩, fun _ => rfl⟩)
      · refine err_keeps fun x => ?_
        have h3 : shapeTypes.contains k.1 = true := List.contains_iff_mem.2 x.1
        rw [hc] at h3
        exact absurd h3 (by simp)
  · refine finish_of' ?_ fun hb => by rw [Bool.and_eq_true] at hb; rw [hb.1]; rfl
    rw [Bool.and_eq_true, h0, h1]
    unfold IsShapeMap
    constructor
    · rintro ⟨⟨ks, rfl, hne⟩, h⟩; exact ⟨hne, h⟩
    · rintro ⟨hne, h⟩
      cases m with
      | obj ks => exact ⟨⟨ks, rfl, hne⟩, h⟩
      | _ => exact absurd rfl hne

theorem shapeRange_mem {A : Arith F} {l : List (Str × BNode F)} {range : List Int}
    (h : shapeRange A l = .ok range) (x : Int) :
    x ∈ range ↔ ∃ k ∈ l, k.2.toInt32 A = .ok x := by
  induction l generalizing range with
  | nil => injection h with h; subst h; simp
  | cons k l ih =>
    obtain ⟨v, hv, h⟩ := Res.bind_eq_ok.1 h
    obtain ⟨vs, hvs, h⟩ := Res.bind_eq_ok.1 h
    injection h with h; subst h
    simp only [List.mem_cons, ih hvs, exists_eq_or_imp, hv, Res.ok.injEq]
    rw [eq_comm]

theorem shapeRange_total {A : Arith F} {l : List (Str × BNode F)}
    (h : ∀ k ∈ l, ∃ v, k.2.toInt32 A = .ok v) : ∃ range, shapeRange A l = .ok range := by
  induction l with
  | nil => exact ⟨[], rfl⟩
  | cons k l ih =>
    obtain ⟨v, hv⟩ := h k (by simp)
    obtain ⟨vs, hvs⟩ := ih fun k hk => h k (List.mem_cons_of_mem _ hk)
    exact ⟨v :: vs, by unfold shapeRange; rw [hv, hvs]; rfl⟩

theorem toInt32_ints {A : Arith F} {t : IntTy} {v : Int} {l : List Int} :
    (BNode.ints t (v :: l) : BNode F).toInt32 A = .ok (int32.cast (int64.cast v)) := rfl

theorem cast32_64 (v : Int) : int32.cast (int64.cast v) = int32.cast v := by
  simp only [IntTy.cast, int32, int64, IntWidth.card, true_and]
  split <;> split <;> split <;> omega

theorem shapesNode_decides {A : Arith F} {c m : BNode F}
    (hs : s → (∀ k ∈ m.items, ∃ v, k.2.toInt32 A = .ok v) ∧ ∀ y, c ≠ .str y) :
    Decides (shapesNode A c m) s (∃ t l, c = .ints t l ∧ ∀ x ∈ l, ∃ k ∈ m.items, k.2.toInt32 A = .ok (int32.cast x)) := by
  refine Decides.seq (leafSelf_joins.decides.iff isInt_iff) fun r0 h0 => ?_
  refine liftAny (fun x => shapeRange_total (hs x).1) fun range hr => ?_
  refine liftAny (fun x => ?_) fun shapes hsh => ?_
  · cases c with
    | str y => exact absurd rfl ((hs x).2 y)
    | _ => exact ⟨_, rfl⟩
  refine Decides.seq (Decides.all (φ := fun x => x ∈ range) _ fun x _ => (demand_keeps _ _ _).decides.iff (by simp))
    fun r1 h1 => ?_
  have fin : (r0 && r1) = true ↔
      ∃ t l, c = .ints t l ∧ ∀ x ∈ l, ∃ k ∈ m.items, k.2.toInt32 A = .ok (int32.cast x) := by
    rw [Bool.and_eq_true, h0, h1]
    constructor
    · rintro ⟨⟨t, l, rfl⟩, h⟩
      injection hsh with hsh; subst hsh
      exact ⟨t, l, rfl, fun x hx => (shapeRange_mem hr _).1 (h _ (List.mem_map_of_mem hx))⟩
    · rintro ⟨t, l, rfl, h⟩
      injection hsh with hsh; subst hsh
      refine ⟨⟨t, l, rfl⟩, fun y hy => ?_⟩
      obtain ⟨x, hx, rfl⟩ := List.mem_map.1 hy
      exact (shapeRange_mem hr _).2 (h x hx)
  simp only
  cases hb : (r0 && r1)
  · rw [hb] at fin
    exact Does.pure _ fun _ _ => fin
  · rw [hb] at fin
    refine Decides.seq (Decides.all (φ := fun _ => True) _ fun k _ =>
      (note_keeps ((pure_keeps true).iff (by simp))).decides) fun _ _ => Does.pure _ fun _ _ => fin

theorem mixedElements_decides {A : Arith F} {n : BNode F} (hs : s → MixedSafe n) :
    Decides (mixedElements A n) s (IsMixed n) := by
  refine Decides.seq existsShape_keeps.decides fun r1 h1 => ?_
  refine Decides.seq (existsAnd_keeps (by decide) fun m hm =>
    (shapeMap_verifies fun x => (hs x).1 m hm).decides).decides fun r2 h2 => ?_
  refine Decides.seq (existsAnd_keeps (φ := fun c => ∃ m, n.get (chars! "shape_map") = .ok m ∧
      ∃ t l, c = .ints t l ∧ ∀ x ∈ l, ∃ k ∈ m.items, k.2.toInt32 A = .ok (int32.cast x)) (by decide)
    fun c hc => ?_).decides fun r3 h3 => ?_
  · refine liftAny (fun x => ((hs x).2 c hc).1) fun m hm => ?_
    refine (shapesNode_decides (A := A) fun x => ⟨fun k hk => ?_, ((hs x).2 c hc).2⟩).iff ?_
    · obtain ⟨v, l, e⟩ := (hs x).1 m hm k.2 (mem_items.2 ⟨k, hk, rfl⟩)
      rw [e]; exact ⟨_, toInt32_ints⟩
    · constructor
      · intro x; exact ⟨m, hm, x⟩
      · rintro ⟨m', hm', x⟩; obtain rfl := get_inj hm hm'; exact x
  · refine Does.pure _ fun _ _ => ?_
    rw [Bool.and_eq_true, Bool.and_eq_true, h1, h2, h3]
    unfold IsMixed
    constructor
    · rintro ⟨⟨a, m, hm, hsm⟩, c, hc, m', hm', t, l, rfl, h⟩
      obtain rfl := get_inj hm hm'
      refine ⟨a, m, hm, hsm, t, l, hc, fun x hx => ?_⟩
      obtain ⟨ks, rfl⟩ : ∃ ks, m = .obj ks := by
        cases m with
        | obj ks => exact ⟨ks, rfl⟩
        | _ => exact absurd rfl hsm.1
      obtain ⟨k, hk, e⟩ := h x hx
      obtain ⟨-, v, r, e2⟩ := hsm.2 k hk
      refine ⟨k, hk, v, r, e2, ?_⟩
      rw [e2, toInt32_ints, cast32_64] at e
      injection e with e; exact e.symm
    · rintro ⟨a, m, hm, hsm, t, l, hc, h⟩
      refine ⟨⟨a, m, hm, hsm⟩, _, hc, m, hm, t, l, rfl, fun x hx => ?_⟩
      obtain ⟨ks, rfl⟩ : ∃ ks, m = .obj ks := by
        cases m with
        | obj ks => exact ⟨ks, rfl⟩
        | _ => exact absurd rfl hsm.1
      obtain ⟨k, hk, v, r, e2, e⟩ := h x hx
      exact ⟨k, hk, by rw [e2, toInt32_ints, cast32_64, e]⟩

theorem mixedNode_does {A : Arith F} {n c : BNode F} (hc : n.get (chars! "elements") = .ok c)
    (hs : s → MixedSafe c ∧ ∀ d, n.get (chars! "subelements") = .ok d → MixedSafe d) (v : Bool) :
    Does (mixedNode A n) s (W v) fun r t => (((r.1 = true ↔ IsMixed c ∧ IsRelation c) ∧
      (r.2 = true ↔ ∀ d, n.get (chars! "subelements") = .ok d → IsMixed d ∧ IsRelation d)) ∧ W v t) := by
  refine lift_then hc ?_
  refine ((mixedElements_decides fun x => (hs x).1).sub (by decide)).seq fun r1 h1 => ?_
  refine (o2mField_keeps (by decide)).seq fun r2 h2 => ?_
  refine (ifHas_keeps (φ := fun d => IsMixed d ∧ IsRelation d) fun d hd => ?_).seq fun r3 h3 => ?_
  · intro w
    refine ((mixedElements_decides fun x => (hs x).2 d hd).sub (by decide)).seq fun a ha => ?_
    refine (o2mField_keeps (by decide)).seq fun b hb => ?_
    refine Does.pure _ fun t hw => ⟨?_, hw⟩
    rw [Bool.and_eq_true, ha, hb]
    refine and_congr_right fun _ => ⟨?_, fun h => ⟨d, hd, h⟩⟩
    rintro ⟨d', hd', h⟩; exact get_inj hd' hd ▸ h
  · refine Does.pure _ fun t hw => ⟨⟨?_, h3⟩, hw⟩
    rw [Bool.and_eq_true, h1, h2]
    refine and_congr_right fun _ => ⟨?_, fun h => ⟨c, hc, h⟩⟩
    rintro ⟨d', hd', h⟩; exact get_inj hd' hc ▸ h

theorem subNode_decides {n : BNode F} (hs : s → FacesSafe n) : Decides (subNode n) s (IsFaces n) := by
  refine finish_then_decides ?_
  cases hn : n.hasChild (chars! "shape")
  · refine Does.pure _ fun _ _ => ⟨fun x => absurd x (by simp), fun x => ?_⟩
    exact absurd ⟨_, x.1⟩ (not_has_iff.1 hn)
  · obtain ⟨c, hc⟩ := has_iff.1 hn
    simp only [if_true]
    refine Decides.seq existsShape_keeps.decides fun r1 h1 => ?_
    refine Decides.seq (integerField_keeps (by decide)).decides fun r2 h2 => ?_
    refine lift_then hc ?_
    refine liftAny (fun x => ?_) fun y hy => ?_
    · obtain ⟨z, rfl⟩ := hs x c hc; exact ⟨z, rfl⟩
    · obtain rfl : c = .str y := by
        cases c with
        | str z => injection hy with hy; rw [hy]
        | _ => exact absurd hy (by simp [BNode.asString])
      refine Decides.seq o2mVerify_joins.decides fun r4 h4 => ?_
      refine Does.pure _ fun _ _ => ?_
      simp only [Bool.and_eq_true, h1, h2, h4, beq_iff_eq]
      unfold IsFaces ShapeIs HasOneOf
      constructor
      · rintro ⟨⟨⟨-, b⟩, rfl⟩, d⟩; exact ⟨hc, b, d⟩
      · rintro ⟨a, b, d⟩
        have := get_inj hc a
        injection this with this
        exact ⟨⟨⟨⟨_, by decide, a⟩, b⟩, this⟩, d⟩

theorem hasShape_iff {n : BNode F} {x : Str} : hasShape n x = true ↔ ShapeIs n x := by
  unfold hasShape ShapeIs
  cases n.get (chars! "shape") with
  | ok c => cases c <;> simp
  | error => simp
  | ub => simp

theorem faces_obj {c : BNode F} (h : IsFaces c) : ∃ ks, c = .obj ks ∧ ks ≠ [] := nonempty_of_get h.1

theorem polySub_none {topo : BNode F} (hs : s → ∀ e, topo.get (chars! "subelements") = .ok e → FacesSafe e) :
    Keeps (polySub none topo) s (∃ e, topo.get (chars! "subelements") = .ok e ∧ IsFaces e) := by
  refine (objectAnd_keeps (φ := IsFaces) (by decide) fun ks hk => ?_).iff ?_
  · refine finish_then_decides ?_
    simp only
    cases hn : (BNode.obj ks).hasChild (chars! "shape")
    · refine Does.pure _ fun _ _ => ⟨fun x => absurd x (by simp), fun x => ?_⟩
      exact absurd ⟨_, x.1⟩ (not_has_iff.1 hn)
    · exact subNode_decides fun x => hs x _ hk
  · constructor
    · rintro ⟨ks, h, -, hd⟩; exact ⟨_, h, hd⟩
    · rintro ⟨d, h, hd⟩
      obtain ⟨ks, rfl, hk⟩ := faces_obj hd
      exact ⟨ks, h, hk, hd⟩

theorem polySub_some {topo : BNode F} {nm : Str} (hnm : nm ≠ vkey)
    (hs : s → ∀ e f, topo.get (chars! "subelements") = .ok e → e.get nm = .ok f → FacesSafe f) :
    Keeps (polySub (some nm) topo) s (∃ f, (∃ e, topo.get (chars! "subelements") = .ok e ∧ e.get nm = .ok f) ∧ IsFaces f) := by
  refine (objectAnd_keeps (φ := fun e => ∃ f, e.get nm = .ok f ∧ IsFaces f) (by decide) fun ks hk => ?_).iff ?_
  · refine finish_then_decides ?_
    simp only
    cases hn : (BNode.obj ks).hasChild nm
    · refine Does.pure _ fun _ _ => ⟨fun x => absurd x (by simp), ?_⟩
      rintro ⟨f, hf, -⟩
      exact absurd ⟨_, hf⟩ (not_has_iff.1 hn)
    · obtain ⟨f, hf⟩ := has_iff.1 hn
      refine lift_then hf ?_
      refine ((subNode_decides fun x => hs x _ _ hk hf).subAny fun _ => hnm).iff ?_
      constructor
      · intro x; exact ⟨f, hf, x⟩
      · rintro ⟨f', hf', x⟩; exact get_inj hf' hf ▸ x
  · constructor
    · rintro ⟨ks, h, -, f, hf, hd⟩; exact ⟨f, ⟨_, h, hf⟩, hd⟩
    · rintro ⟨f, ⟨e, h, hf⟩, hd⟩
      obtain ⟨ks, rfl, hk⟩ := nonempty_of_get hf
      exact ⟨ks, h, hk, f, hf, hd⟩

theorem shapeIs_inj {n : BNode F} {x y : Str} (h : ShapeIs n x) (h' : ShapeIs n y) : x = y := by
  have := get_inj h h'; injection this

theorem polyNode_does {name : Option Str} {n topo : BNode F} {nodeInfo : V Bool → V Bool} {faces : BNode F → Prop}
    (h1 : Keeps (nodeInfo (o2mVerify n)) s (IsRelation n))
    (h2 : ShapeIs n (chars! "polyhedral") → Keeps (polySub name topo) s (∃ f, faces f ∧ IsFaces f)) (v : Bool) :
    Does (polyNode name n nodeInfo topo) s (W v) fun r t => ((r.1 = true ∧ r.2 = true) ↔
      ((ShapeIs n (chars! "polygonal") → IsRelation n) ∧
        (ShapeIs n (chars! "polyhedral") → IsRelation n ∧ ∃ f, faces f ∧ IsFaces f))) ∧ W v t := by
  unfold polyNode
  by_cases hg : ShapeIs n (chars! "polygonal")
  · have hh : ¬ ShapeIs n (chars! "polyhedral") := fun h => absurd (shapeIs_inj hg h) (by decide)
    rw [if_pos (by rw [hasShape_iff.2 hg]; rfl)]
    refine h1.seq fun r hr => ?_
    rw [if_neg (by rw [hasShape_iff]; exact hh)]
    refine Does.bind (Does.pure (Q := fun a t => a = true ∧ W v t) true fun t hw => ⟨rfl, hw⟩) fun a => ?_
    refine Does.pull fun ha => Does.pure _ fun t hw => ⟨?_, hw⟩
    subst ha
    simp [hr, hg, hh]
  · by_cases hh : ShapeIs n (chars! "polyhedral")
    · rw [if_pos (by rw [hasShape_iff.2 hh]; simp)]
      refine h1.seq fun r hr => ?_
      rw [if_pos (hasShape_iff.2 hh)]
      refine (h2 hh).seq fun a ha => ?_
      refine Does.pure _ fun t hw => ⟨?_, hw⟩
      simp [hr, ha, hg, hh]
    · have e1 : hasShape n (chars! "polygonal") = false := by
        rw [← Bool.not_eq_true, hasShape_iff]; exact hg
      have e2 : hasShape n (chars! "polyhedral") = false := by
        rw [← Bool.not_eq_true, hasShape_iff]; exact hh
      rw [if_neg (by rw [e1, e2]; simp)]
      exact Does.pure _ fun t hw => ⟨by simp [hg, hh], hw⟩

theorem groupsLoop_keeps {topo : BNode F} (l : List (Str × BNode F)) (er : Bool) (hn : ∀ k ∈ l, k.1 ≠ vkey)
    (hs : s → ∀ e, topo.get (chars! "subelements") = .ok e → ∀ k ∈ l, ShapeIs k.2 (chars! "polyhedral") →
      ∀ f, e.get k.1 = .ok f → FacesSafe f) :
    Keeps (groupsLoop topo l er) s (er = true ∧ ∀ k ∈ l, IsElements k.2 fun f =>
      ∃ e, topo.get (chars! "subelements") = .ok e ∧ e.get k.1 = .ok f) := by
  induction l generalizing er with
  | nil => exact (pure_keeps er).iff (by simp)
  | cons k l ih =>
    obtain ⟨name, c⟩ := k
    have hname : name ≠ vkey := hn (name, c) (by simp)
    intro v
    unfold groupsLoop
    refine ((existsShape_keeps.decides.subAny fun _ => hname).sub (by decide)).seq fun r1 h1 => ?_
    refine (((integerField_keeps (by decide)).decides.subAny fun _ => hname).sub (by decide)).seq fun r2 h2 => ?_
    refine (polyNode_does (faces := fun f => ∃ e, topo.get (chars! "subelements") = .ok e ∧ e.get name = .ok f)
      ((o2mVerify_joins.decides.subAny fun _ => hname).sub (by decide))
      (fun hp => polySub_some hname fun x e f he hf => hs x e he (name, c) (by simp) hp f hf) v).bind fun r3 => ?_
    refine Does.pull fun h3 => ?_
    refine Does.bind (sub_keeps_of (Q := fun _ => True) (by decide)
      (sub_any (Q := fun _ => True) (fun _ => hname) (valid_any _)) v) fun _ => ?_
    refine Does.pull fun _ => ?_
    refine (ih _ (fun k hk => hn k (List.mem_cons_of_mem _ hk)) fun x e he k hk =>
      hs x e he k (List.mem_cons_of_mem _ hk)) v |>.conseq (fun _ => id) fun b t x => ⟨?_, x.2⟩
    rw [x.1]
    have e0 : (er && r3.2 && (r1 && r2 && r3.1 && (er && r3.2))) = true ↔ er = true ∧ r1 = true ∧ r2 = true ∧ (r3.1 = true ∧ r3.2 = true) := by
      simp only [Bool.and_eq_true]
      constructor
      · rintro ⟨⟨a, b⟩, ⟨⟨c, d⟩, e⟩, -⟩; exact ⟨a, c, d, e, b⟩
      · rintro ⟨a, c, d, e, b⟩; exact ⟨⟨a, b⟩, ⟨⟨c, d⟩, e⟩, a, b⟩
    rw [e0, h1, h2, h3]
    simp only [List.mem_cons, forall_eq_or_imp, IsElements]
    constructor
    · rintro ⟨⟨a, b, c, d⟩, e⟩; exact ⟨a, ⟨b, c, d⟩, e⟩
    · rintro ⟨a, ⟨b, c, d⟩, e⟩; exact ⟨⟨a, b, c, d⟩, e⟩

theorem topologyUnstructured_verifies {A : Arith F} {n : BNode F} (hp : ∀ c, n.get (chars! "elements") = .ok c →
      ∀ k ∈ c.kids, k.1 ≠ vkey) (hs : s → TopologySafe n) :
    Verifies (topologyUnstructured A n) s
      (HasStr n (chars! "coordset") ∧ n.get (chars! "type") = .ok (.str (chars! "unstructured")) ∧ HasElements n) := by
  refine reset_then ?_
  refine (stringField_keeps (by decide)).seq fun r1 h1 => ?_
  refine (enumField_keeps (by decide)).seq fun r2 h2 => ?_
  refine Does.bind (Q := fun b t => (b = true ↔ HasElements n) ∧ W true t) ?_ fun r3 => Does.pull fun h3 => ?_
  · by_cases hn : ∃ ks, n.get (chars! "elements") = .ok (.obj ks) ∧ ks ≠ []
    · obtain ⟨ks, hk, hne⟩ := hn
      refine (objectField_plain (by decide)).seq fun r hr => ?_
      rw [hr.2 ⟨ks, hk, hne⟩, if_pos rfl]
      refine lift_then hk ?_
      have hsome : HasElements n ↔ (
          ((Has (.obj ks) (chars! "shape") ∧ IsElements (.obj ks) (fun s => n.get (chars! "subelements") = .ok s) ∧
              (ShapeIs (.obj ks) (chars! "mixed") → (IsMixed (.obj ks) ∧ IsRelation (.obj ks)) ∧
                ∀ s, n.get (chars! "subelements") = .ok s → IsMixed s ∧ IsRelation s)) ∨
           (¬ Has (.obj ks) (chars! "shape") ∧ Has (.obj ks) (chars! "element_types")) ∨
           (¬ Has (.obj ks) (chars! "shape") ∧ ¬ Has (.obj ks) (chars! "element_types") ∧
              ∀ k ∈ ks, IsElements k.2 fun s =>
                ∃ e, n.get (chars! "subelements") = .ok e ∧ e.get k.1 = .ok s))) := by
        unfold HasElements
        constructor
        · rintro ⟨c, hc, -, h⟩
          obtain rfl := get_inj hk hc
          exact h
        · intro h; exact ⟨_, hk, hne, h⟩
      refine Does.bind (Q := fun r t => (r.1 = true ∧ r.2 = true ↔ HasElements n) ∧ W true t) ?_
        fun r => Does.pull fun h => ?_
      · rw [hsome]
        by_cases hsh : Has (.obj ks) (chars! "shape")
        · rw [if_pos (has_iff.2 hsh)]
          refine (existsShape_keeps.decides.sub (by decide)).seq fun a ha => ?_
          refine ((integerField_keeps (by decide)).decides.sub (by decide)).seq fun b hb => ?_
          by_cases hm : ShapeIs (.obj ks) (chars! "mixed")
          · rw [if_pos (hasShape_iff.2 hm)]
            refine (mixedNode_does hk (fun x => ((hs x) _ hk).1 hm) true).bind fun m => ?_
            refine Does.pull fun h => Does.pure _ fun t hw => ⟨?_, hw⟩
            have e1 : ¬ ShapeIs (.obj ks) (chars! "polygonal") := fun h => absurd (shapeIs_inj hm h) (by decide)
            have e2 : ¬ ShapeIs (.obj ks) (chars! "polyhedral") := fun h => absurd (shapeIs_inj hm h) (by decide)
            simp only [Bool.and_eq_true, ha, hb, h.1, h.2, hsh, hm, e1, e2, IsElements, true_and, not_true, false_and,
              or_false, false_imp_iff, and_true, true_imp_iff]
            constructor
            · rintro ⟨⟨⟨⟨a, b⟩, c⟩, d⟩, -⟩; exact ⟨⟨a, b⟩, c, d⟩
            · rintro ⟨⟨a, b⟩, c, d⟩; exact ⟨⟨⟨⟨a, b⟩, c⟩, d⟩, d⟩
          · rw [if_neg (by rw [hasShape_iff]; exact hm)]
            refine (polyNode_does (faces := fun f => n.get (chars! "subelements") = .ok f)
              (nodeInfo := fun act => V.sub (chars! "elements") act) (o2mVerify_joins.decides.sub (by decide))
              (fun hp => polySub_none fun x e he => ((((hs x) _ hk).2 e he).1 hp)) true).bind fun m => ?_
            refine Does.pull fun h => Does.pure _ fun t hw => ⟨?_, hw⟩
            have e0 : ((a && b && m.1 && m.2) = true ∧ true = true) ↔ a = true ∧ b = true ∧ (m.1 = true ∧ m.2 = true) := by
              simp only [Bool.and_eq_true, and_true, and_assoc]
            rw [e0, ha, hb, h]
            simp only [hsh, hm, IsElements, true_and, not_true, false_and, or_false, false_imp_iff, and_true]
        · rw [if_neg (by rw [has_iff]; exact hsh)]
          by_cases het : Has (.obj ks) (chars! "element_types")
          · rw [if_pos (has_iff.2 het)]
            exact Does.pure _ fun t hw => ⟨by simp [hsh, het], hw⟩
          · rw [if_neg (by rw [has_iff]; exact het)]
            refine (groupsLoop_keeps (topo := n) ks true (hp _ hk) fun x e he k hk' =>
              (((hs x) _ hk).2 e he).2 k hk').seq fun g hg => ?_
            refine Does.pure _ fun t hw => ⟨?_, hw⟩
            simp only [hg, hsh, het, true_and, false_and, false_or, not_false_iff, and_true]
      · refine Does.bind (sub_keeps_of (Q := fun _ => True) (by decide) (valid_any _) true) fun _ => ?_
        refine Does.pull fun _ => Does.pure _ fun t hw => ⟨?_, hw⟩
        rw [Bool.and_eq_true, h]
    · refine (Keeps.andAlso (ψ := False) (objectField_plain (by decide)) fun x => absurd x hn).iff ?_ true
      constructor
      · intro x; exact absurd x.1 hn
      · rintro ⟨c, hc, hk, -⟩
        cases c with
        | obj ks => exact absurd ⟨ks, hc, hk⟩ hn
        | _ => exact absurd rfl hk
  · refine finish_of ?_
    rw [Bool.and_eq_true, Bool.and_eq_true, h1, h2, h3, hasOneOf_single, and_assoc]

theorem topology_verifies {A : Arith F} {n : BNode F} (hp : ∀ c, n.get (chars! "elements") = .ok c →
      ∀ k ∈ c.kids, k.1 ≠ vkey) (hs : s → TopologySafe n) :
    Verifies (topologyVerify A n) s (IsTopology n) := by
  refine reset_then ?_
  refine dispatch (φ := HasStr n (chars! "coordset") ∧
    (HasOneOf n (chars! "type") [chars! "points", chars! "uniform", chars! "rectilinear"] ∨
      (n.get (chars! "type") = .ok (.str (chars! "structured")) ∧
        ∃ e, n.get (chars! "elements") = .ok e ∧ HasDims e (chars! "dims")) ∨
      (n.get (chars! "type") = .ok (.str (chars! "unstructured")) ∧ HasElements n)))
    (body := fun s => if s = chars! "points" then topologyImplicit (chars! "points") n
      else if s = chars! "uniform" then topologyImplicit (chars! "uniform") n
      else if s = chars! "rectilinear" then topologyImplicit (chars! "rectilinear") n
      else if s = chars! "structured" then topologyStructured n
      else if s = chars! "unstructured" then topologyUnstructured A n
      else pure true) (by decide) ?_ ?_ ?_
  · intro x hx e
    simp only [topoTypes, List.mem_cons, List.not_mem_nil, or_false] at hx
    rcases hx with rfl | rfl | rfl | rfl | rfl
    · rw [if_pos rfl]
      exact topologyImplicit_verifies.leaves.iff (by simp [e, HasOneOf])
    · rw [if_neg (by decide), if_pos rfl]
      exact topologyImplicit_verifies.leaves.iff (by simp [e, HasOneOf])
    · rw [if_neg (by decide), if_neg (by decide), if_pos rfl]
      exact topologyImplicit_verifies.leaves.iff (by simp [e, HasOneOf])
    · rw [if_neg (by decide), if_neg (by decide), if_neg (by decide), if_pos rfl]
      exact topologyStructured_verifies.leaves.iff (by simp [e, HasOneOf])
    · rw [if_neg (by decide), if_neg (by decide), if_neg (by decide), if_neg (by decide), if_pos rfl]
      exact (topologyUnstructured_verifies hp hs).leaves.iff (by simp [e, HasOneOf])
  · rintro ⟨-, h | h | h⟩
    · obtain ⟨x, hx, e⟩ := h
      refine ⟨x, ?_, e⟩
      simp only [List.mem_cons, List.not_mem_nil, or_false] at hx
      simp only [topoTypes, List.mem_cons]
      rcases hx with h | h | h <;> simp [h]
    · exact ⟨_, by decide, h.1⟩
    · exact ⟨_, by decide, h.1⟩
  · intro b hb
    have key : Keeps (if n.hasChild (chars! "grid_function") = true then do
        V.opt (chars! "mesh::topology") (chars! "includes grid_function")
        stringField (chars! "mesh::topology") n (chars! "grid_function")
      else pure true) s (Has n (chars! "grid_function") → HasStr n (chars! "grid_function")) :=
      optional_keeps fun _ => opt_keeps (stringField_keeps (by decide))
    refine (key.under (R := fun v => b = true → v = true)).bind fun r2 => Does.pull fun h2 => ?_
    refine Does.conseq (finish_leaves (φ := IsTopology n) ?_) (fun t ht x => ?_) fun _ _ x => x
    · rw [Bool.and_eq_true, hb, h2]
      unfold IsTopology
      rw [and_assoc]
    · rw [Bool.and_eq_true] at x; exact ht x.1

end
end Conduit.Mesh
