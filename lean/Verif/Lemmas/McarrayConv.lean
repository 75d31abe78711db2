import Verif.Model.McarrayConv
import Verif.Lemmas.SetSchema
import Verif.Props.NodeUpdate
/-
The layout conversions: schema building, and update into a node with the same components.
-/
namespace Conduit.MCArray
open Conduit Spec Schema Node

/-! ### the schema -/

theorem split_plain {n : Str} (h : '/' ∉ n) : splitPath n = (n, []) := by
  have : find '/' n = none := by
    unfold find
    rw [List.findIdx?_eq_none_iff]
    intro x hx
    simp only [beq_eq_false_iff_ne, ne_eq]
    rintro rfl; exact h hx
  simp [splitPath, splitString, this]

theorem cull_plain {n : Str} (h : '/' ∉ n) : RSchema.cullSlash n = n := by
  cases n with
  | nil => rfl
  | cons c r => rw [RSchema.cullSlash, if_neg]; rintro rfl; simp at h

/-- The object schema with entries `l`. -/
def Flat (l : List (Str × DataType)) (r : RSchema) : Prop :=
  ∃ mp, r.initObject = .object mp (l.map Prod.fst) (l.map fun e => .leaf e.2) ∧ ∀ n, n ∉ l.map Prod.fst → RSchema.mfind n mp = none

theorem schemaPut_plain {l : List (Str × DataType)} {r : RSchema} (hr : Flat l r) (n : Str) (d : DataType)
    (hn : '/' ∉ n) (hl : n ∉ l.map Prod.fst) (hd : d.id ≠ .object ∧ d.id ≠ .list) :
    ∃ r', schemaPut r n d = .ok r' ∧ Flat (l ++ [(n, d)]) r' ∧ ∃ mp, r' = .object mp ((l ++ [(n, d)]).map Prod.fst) ((l ++ [(n, d)]).map fun e => .leaf e.2) := by
  obtain ⟨mp, h1, h2⟩ := hr
  have hset : RSchema.setDtype RSchema.empty d = .leaf d := by
    unfold RSchema.setDtype; split <;> simp_all
  have hfind : RSchema.mfind n (RSchema.mset n ((l.map fun e => RSchema.leaf e.2).length : Int) mp) = some (l.length : Int) := by
    simp [RSchema.mfind, RSchema.mset]
  have hhas : RSchema.hasPath (.object mp (l.map Prod.fst) (l.map fun e => .leaf e.2)) n = .ok false := by
    rw [RSchema.hasPath, cull_plain hn, split_plain hn, h2 n hl]
  have hf : RSchema.fetchAt r [] n = .ok (.object (RSchema.mset n ((l.map fun e => RSchema.leaf e.2).length : Int) mp)
      (l.map Prod.fst ++ [n]) ((l.map fun e => RSchema.leaf e.2) ++ [RSchema.empty]), [l.length]) := by
    rw [RSchema.fetchAt]
    simp only [RSchema.getAt, split_plain hn, h1, hhas, ne_eq, not_true_eq_false, and_false, dite_false, Bool.false_eq_true, if_false,
      RSchema.pushChild, RSchema.childIndex, hfind, RSchema.putAt, dite_true, List.nil_append]
    simp
  have key : schemaPut r n d = .ok (.object (RSchema.mset n ((l.map fun e => RSchema.leaf e.2).length : Int) mp)
      ((l ++ [(n, d)]).map Prod.fst) ((l ++ [(n, d)]).map fun e => .leaf e.2)) := by
    rw [schemaPut, hf, Res.bind_ok, hset]
    simp [RSchema.putAt]
  refine ⟨_, key, ⟨_, rfl, ?_⟩, ⟨_, rfl⟩⟩
  intro k hk
  simp only [List.map_append, List.map_cons, List.map_nil, List.mem_append, List.mem_singleton, not_or] at hk
  have : RSchema.mfind k mp = none := h2 k hk.1
  simp only [RSchema.mfind, RSchema.mset, RSchema.merase, List.lookup_cons] at this ⊢
  rw [beq_false_of_ne hk.2]
  simp only
  rw [List.lookup_eq_none_iff] at this ⊢
  intro p hp
  exact this p (List.mem_filter.mp hp).1

theorem toSchemaE_flat : ∀ l : List (Str × DataType),
    toSchemaE (l.map Prod.fst) (l.map fun e => RSchema.leaf e.2) = l.map fun e => (e.1, Tree.leaf e.2)
  | [] => rfl
  | (n, d) :: l => by simp only [List.map_cons, toSchemaE, toSchema, toSchemaE_flat l]

theorem layout_plain : ∀ (cs l : List (Str × DataType)) (r : RSchema), Flat l r → (∀ e ∈ cs, '/' ∉ e.1) →
    ((l ++ cs).map Prod.fst).Nodup → (∀ e ∈ cs, e.2.id ≠ .object ∧ e.2.id ≠ .list) → cs ≠ [] →
    ∃ r', layoutSchema cs r = .ok r' ∧ toSchema r' = .obj ((l ++ cs).map fun e => (e.1, Tree.leaf e.2))
  | [], _, _, _, _, _, _, h => absurd rfl h
  | (n, d) :: cs, l, r, hr, h1, h2, h3, _ => by
    have hnl : n ∉ l.map Prod.fst := by
      intro h
      simp only [List.map_append, List.map_cons] at h2
      have := (List.nodup_append.mp h2).2.2 n h n (List.mem_cons_self)
      exact this rfl
    obtain ⟨r1, a1, a2, mp, a3⟩ := schemaPut_plain hr n d (h1 _ List.mem_cons_self) hnl (h3 _ List.mem_cons_self)
    rw [layoutSchema, a1, Res.bind_ok]
    cases cs with
    | nil => exact ⟨r1, rfl, by rw [a3, toSchema, toSchemaE_flat]⟩
    | cons e cs =>
      have := layout_plain (e :: cs) (l ++ [(n, d)]) r1 a2 (fun x hx => h1 x (List.mem_cons_of_mem _ hx))
        (by simpa using h2) (fun x hx => h3 x (List.mem_cons_of_mem _ hx)) (by simp)
      simpa using this

theorem flat_empty : Flat [] RSchema.empty := ⟨[], rfl, fun _ _ => rfl⟩

/-! ### update into a node with the same components -/

/-- `ds` has, at the position of every component, a leaf of the same type and count. -/
theorem updateE_compat (x : Info) : ∀ (es ds : List (Str × Node)) (m : Mem),
    (∀ e ∈ es, ∃ y d, e.2 = .leaf y d) →
    (∀ e ∈ es, ∃ i c, posOf ds e.1 = some i ∧ ds[i]? = some (e.1, c) ∧ c.dtype.id = e.2.dtype.id ∧ c.dtype.n ≥ e.2.dtype.n ∧ ∃ y d, c = .leaf y d) →
    updateE es (.obj x ds) m = updateCompatibleE es (.obj x ds) m
  | [], _, _, _, _ => rfl
  | (n, c) :: es, ds, m, hl, hd => by
    obtain ⟨y, d, hc⟩ := hl _ List.mem_cons_self
    obtain ⟨i, c', p1, p2, p3, p4, z, d', hc'⟩ := hd _ List.mem_cons_self
    simp only at hc p1 p2 p3 p4
    subst hc hc'
    simp only [dtype] at p3 p4
    have hset : ds.set i (n, .leaf z d') = ds := by
      apply List.ext_getElem?
      intro k
      rw [List.getElem?_set]
      split
      · rename_i h; subst h
        have := (List.getElem?_eq_some_iff.mp p2).1
        rw [if_pos this, p2]
      · rfl
    have hu : update (.leaf y d) (.leaf z d') m = updateCompatible (.leaf y d) (.leaf z d') m := by
      rw [update, updateCompatible]
      by_cases he : d.id = .empty
      · rw [if_pos he, updateLeaf, if_pos he]
      · have hc : (Node.leaf z d').dtype.id = d.id ∧ (Node.leaf z d').dtype.n ≥ d.n := ⟨p3, p4⟩
        rw [if_neg he, if_pos hc]
    have hk : ∀ r, updateCompatible (.leaf y d) (.leaf z d') m = .ok r → r.2 = .leaf z d' := by
      intro r hr
      rw [updateCompatible] at hr
      split at hr
      · cases hr; rfl
      · split at hr
        · rename_i he hc
          rw [updateLeaf, if_neg he, if_pos hc] at hr
          split at hr
          · cases hr
          · obtain ⟨a, b, hb⟩ := Res.bind_eq_ok.1 hr
            cases hb; rfl
        · cases hr; rfl
    rw [updateE, updateCompatibleE]
    simp only [addChild, p1, Res.bind_ok, p2, Option.getD_some, hu]
    cases hr : updateCompatible (.leaf y d) (.leaf z d') m with
    | ok r =>
      simp only [Res.bind_ok, hk r hr, hset]
      exact updateE_compat x es ds r.1 (fun e he => hl e (List.mem_cons_of_mem _ he)) (fun e he => hd e (List.mem_cons_of_mem _ he))
    | error => rfl
    | ub => rfl

end Conduit.MCArray
