import Verif.Lemmas.SchemaCompare
import Verif.Props.SchemaLayout
/-
Property theorems C18, C19: Schema::equals and Schema::compatible.
Specification: Verif/Spec/Compare.lean.
-/
namespace Conduit
open Spec Spec.Tree Schema

/-- every schema a client can build has distinct names in every object -/
theorem reachable_distinct (r : RSchema) (h : r.Reachable) : Distinct (RSchema.abs r) :=
  distinct_abs r (reachable_wf h)

/-- ... and `has_path` as used by the comparisons is the one of the real tables -/
theorem C15_has_path_tables (r : RSchema) (h : r.Reachable) (p : Str) :
    r.hasPath p = .ok (Schema.hasPath (RSchema.abs r) p) :=
  hasPath_refines _ r p (Nat.le_refl _) (reachable_wf h)

theorem layoutExample_distinct : Distinct layoutExample :=
  .obj _ (by decide) (by
    intro e he
    simp only [List.mem_cons, List.not_mem_nil, or_false] at he
    rcases he with rfl | rfl | rfl
    · exact .leaf _
    · refine .lst _ (fun c hc => ?_)
      simp only [List.mem_cons, List.not_mem_nil, or_false] at hc
      rcases hc with rfl | rfl <;> exact .leaf _
    · exact .leaf _)

theorem layoutExample_noSlash : NoSlash layoutExample :=
  .obj _ (by decide) (by
    intro e he
    simp only [List.mem_cons, List.not_mem_nil, or_false] at he
    rcases he with rfl | rfl | rfl
    · exact .leaf _
    · refine .lst _ (fun c hc => ?_)
      simp only [List.mem_cons, List.not_mem_nil, or_false] at hc
      rcases hc with rfl | rfl <;> exact .leaf _
    · exact .leaf _)

/-! ### C18 -/

/-- C18 (partial: child names without '/'): `equals` never throws and is true
    exactly when the two schemas describe the same tree. -/
theorem C18_equals_same_partial (a b : Schema) (ha : Distinct a) (hb : Distinct b)
    (sa : NoSlash a) (sb : NoSlash b) :
    (∃ r, equals a b = .ok r) ∧ (equals a b = .ok true ↔ Same a b) := by
  obtain ⟨r, h1, h2⟩ := equals_iff _ a b (Nat.le_refl _) ⟨ha, sa⟩ ⟨hb, sb⟩
  refine ⟨⟨r, h1⟩, ?_⟩
  rw [h1, ← h2]; cases r <;> simp

/-- C18 (partial: child names without '/'): reflexive, symmetric, transitive. -/
theorem C18_equals_equivalence_partial :
    (∀ a : Schema, Distinct a → NoSlash a → equals a a = .ok true) ∧
    (∀ a b : Schema, Distinct a → NoSlash a → Distinct b → NoSlash b → equals a b = equals b a) ∧
    (∀ a b c : Schema, Distinct a → NoSlash a → Distinct b → NoSlash b → Distinct c → NoSlash c →
      equals a b = .ok true → equals b c = .ok true → equals a c = .ok true) := by
  refine ⟨?_, ?_, ?_⟩
  · intro a da sa
    exact (C18_equals_same_partial a a da da sa sa).2.2 (Same.refl a)
  · intro a b da sa db sb
    obtain ⟨r1, h1, k1⟩ := equals_iff _ a b (Nat.le_refl _) ⟨da, sa⟩ ⟨db, sb⟩
    obtain ⟨r2, h2, k2⟩ := equals_iff _ b a (Nat.le_refl _) ⟨db, sb⟩ ⟨da, sa⟩
    rw [h1, h2]; congr 1
    have : r1 = true ↔ r2 = true := by rw [k1, k2]; exact ⟨Same.symm, Same.symm⟩
    cases r1 <;> cases r2 <;> simp_all
  · intro a b c da sa db sb dc sc h1 h2
    rw [(C18_equals_same_partial _ _ da dc sa sc).2]
    exact Same.trans ((C18_equals_same_partial _ _ da db sa sb).2.1 h1)
      ((C18_equals_same_partial _ _ db dc sb sc).2.1 h2)

/-- C18: a leaf equals exactly the leaves with the same six fields. -/
theorem C18_equals_leaf (d : DataType) (b : Schema) : equals (.leaf d) b = .ok true ↔ b = .leaf d := by
  rw [equals.eq_def]
  cases b with
  | leaf e => simp only [Res.ok.injEq, dt_equals_iff, Tree.leaf.injEq]; exact eq_comm
  | obj e => simp
  | lst e => simp

example : Distinct layoutExample ∧ NoSlash layoutExample := ⟨layoutExample_distinct, layoutExample_noSlash⟩

-- two objects that differ only in the order of their children are equal
example : Same (.obj [(chars! "a", .leaf {}), (chars! "b", .lst [])])
    (.obj [(chars! "b", .lst []), (chars! "a", .leaf {})]) := by
  refine .obj _ _ (fun n => by simp [or_comm]) (fun n a b ha hb => ?_)
  simp only [List.lookup_cons, List.lookup_nil] at ha hb
  by_cases h1 : (n == chars! "a") = true
  · have : n = chars! "a" := by simpa using h1
    subst this
    simp at ha hb; subst ha hb; exact .leaf _
  · by_cases h2 : (n == chars! "b") = true
    · have : n = chars! "b" := by simpa using h2
      subst this
      simp at ha hb; subst ha hb; exact .lst _ _ rfl (by simp)
    · simp [h1, h2] at ha

/-- a one-child object whose child name is "a/b" (built by `add_child`) -/
def slashSchema : RSchema := .object [(chars! "a/b", 0)] [chars! "a/b"] [RSchema.empty]

theorem slashSchema_reachable : slashSchema.Reachable :=
  ⟨[([], .addChild (chars! "a/b"))], slashSchema, [], rfl, rfl⟩

/-- C18 fails with slashes in names: a reachable schema is not equal to itself. -/
theorem C18_not_reflexive :
    ∃ s : RSchema, s.Reachable ∧ equals (RSchema.abs s) (RSchema.abs s) = .ok false := by
  refine ⟨slashSchema, slashSchema_reachable, ?_⟩
  have e : splitPath (chars! "a/b") = (chars! "a", chars! "b") := by decide
  rw [equals.eq_def]
  simp [slashSchema, RSchema.abs, RSchema.abss, allM, hasPath, RSchema.cullSlash, e, List.lookup_cons]

/-! ### C19 -/

/-- C19: for trees with slash-free names `compatible` never throws and is true
    exactly when every shared position can hold the other's data. -/
theorem C19_compatible_fits_partial (a b : Schema) (ha : Distinct a) (hb : Distinct b)
    (sa : NoSlash a) (sb : NoSlash b) :
    (∃ r, compatible a b = .ok r) ∧ (compatible a b = .ok true ↔ Fits a b) := by
  obtain ⟨r, h1, h2⟩ := compatible_iff _ a b (Nat.le_refl _) ⟨ha, sa⟩ ⟨hb, sb⟩
  refine ⟨⟨r, h1⟩, ?_⟩
  rw [h1, ← h2]; cases r <;> simp

theorem follow_fits : ∀ (ss : List Step) (a b x y : Tree), Fits a b → follow a ss = some x → follow b ss = some y →
    Fits x y
  | [], a, b, x, y, h, hx, hy => by
    simp [follow] at hx hy; subst hx hy; exact h
  | s :: ss, a, b, x, y, h, hx, hy => by
    cases h with
    | leaf d e => cases s <;> simp [follow] at hx
    | lst as bs hl h =>
      cases s with
      | name n => simp [follow] at hx
      | idx i =>
        rw [follow] at hx hy
        cases ha : as[i]? with
        | none => simp [ha] at hx
        | some a' =>
          cases hb : bs[i]? with
          | none => simp [hb] at hy
          | some b' =>
            simp only [ha] at hx; simp only [hb] at hy
            exact follow_fits ss a' b' x y (h i a' b' ha hb) hx hy
    | obj as bs h =>
      cases s with
      | idx n => simp [follow] at hx
      | name i =>
        rw [follow] at hx hy
        cases ha : as.lookup i with
        | none => simp [ha] at hx
        | some a' =>
          cases hb : bs.lookup i with
          | none => simp [hb] at hy
          | some b' =>
            simp only [ha] at hx; simp only [hb] at hy
            exact follow_fits ss a' b' x y (h i a' b' ha hb) hx hy

/-- C19: if `a.compatible(b)`, then wherever both trees have a node at the same
    path, a leaf of `b` meets a leaf of `a` of the same type and element size and
    with at least as many elements. -/
theorem C19_compatible_leaves_partial (a b : Schema) (ha : Distinct a) (hb : Distinct b)
    (sa : NoSlash a) (sb : NoSlash b) (h : compatible a b = .ok true)
    (ss : List Step) (x : Tree) (e : DataType)
    (hx : follow a ss = some x) (hy : follow b ss = some (.leaf e)) :
    ∃ d, x = .leaf d ∧ d.id = e.id ∧ d.ele = e.ele ∧ e.n ≤ d.n := by
  have hf := follow_fits ss a b x _ ((C19_compatible_fits_partial a b ha hb sa sb).2.1 h) hx hy
  cases hf with
  | leaf d _ h1 h2 h3 => exact ⟨d, rfl, h1, h2, h3⟩

/-- C19: reflexive (slash-free names). -/
theorem C19_compatible_refl_partial (a : Schema) (ha : Distinct a) (sa : NoSlash a) :
    compatible a a = .ok true :=
  (C19_compatible_fits_partial a a ha ha sa sa).2.2 (Fits.refl a)

/-- C19: transitive when the middle schema has every name of the right one. -/
theorem C19_compatible_trans_partial (a b c : Schema) (ha : Distinct a) (hb : Distinct b) (hc : Distinct c)
    (sa : NoSlash a) (sb : NoSlash b) (sc : NoSlash c) (hcov : Covers b c)
    (h1 : compatible a b = .ok true) (h2 : compatible b c = .ok true) : compatible a c = .ok true :=
  (C19_compatible_fits_partial a c ha hc sa sc).2.2
    (Fits.trans ((C19_compatible_fits_partial a b ha hb sa sb).2.1 h1)
      ((C19_compatible_fits_partial b c hb hc sb sc).2.1 h2) hcov)

/-- C19 fails as stated: compatibility is not transitive, because names the middle
    schema lacks are not compared. -/
theorem C19_not_transitive :
    ∃ a b c : Schema, Distinct a ∧ Distinct b ∧ Distinct c ∧ NoSlash a ∧ NoSlash b ∧ NoSlash c ∧
      compatible a b = .ok true ∧ compatible b c = .ok true ∧ compatible a c = .ok false := by
  have d1 : ∀ d, Distinct (.obj [(chars! "x", .leaf d)]) := fun d =>
    .obj _ (by simp) (by simp; exact .leaf _)
  have n1 : ∀ d, NoSlash (.obj [(chars! "x", .leaf d)]) := fun d =>
    .obj _ (by simp) (by simp; exact .leaf _)
  refine ⟨.obj [(chars! "x", .leaf (DataType.ofId .int32 1))], .obj [],
    .obj [(chars! "x", .leaf (DataType.ofId .float64 1))], d1 _, .obj _ (by simp) (by simp), d1 _,
    n1 _, .obj _ (by simp) (by simp), n1 _, ?_, ?_, ?_⟩
  · rw [compatible.eq_def]; simp [allM]
  · rw [compatible.eq_def]; simp [allM, hasPath, RSchema.cullSlash]
  · obtain ⟨r, h1, h2⟩ := compatible_iff _ _ _ (Nat.le_refl _)
      ⟨d1 (DataType.ofId .int32 1), n1 _⟩ ⟨d1 (DataType.ofId .float64 1), n1 _⟩
    rw [h1]
    cases r with
    | false => rfl
    | true =>
      have := h2.1 rfl
      cases this with
      | obj _ _ h =>
        have := h (chars! "x") _ _ (by simp; rfl) (by simp; rfl)
        cases this with
        | leaf _ _ h => revert h; decide

example : compatible layoutExample layoutExample = .ok true :=
  C19_compatible_refl_partial _ layoutExample_distinct layoutExample_noSlash

end Conduit
