import Verif.Lemmas.Partition
import Verif.Lemmas.ResMonad
import Mathlib.Data.List.Nodup
import Mathlib.Data.List.Perm.Basic
/-
Splitting a selection of any kind keeps its elements; sets of values.
-/
namespace Conduit.Part
open Conduit.Mesh
variable {F : Type}

/-! ### sets of values -/

theorem insertNew_mem (v x : Int) : ∀ l : List Int, x ∈ insertNew v l ↔ x = v ∨ x ∈ l
  | [] => by simp [insertNew]
  | a :: l => by
    unfold insertNew
    split
    · simp
    · split
      · rename_i h
        subst h
        simp
      · rw [List.mem_cons, insertNew_mem v x l, List.mem_cons]
        constructor
        · rintro (h | h | h)
          · exact .inr (.inl h)
          · exact .inl h
          · exact .inr (.inr h)
        · rintro (h | h | h)
          · exact .inr (.inl h)
          · exact .inl h
          · exact .inr (.inr h)

theorem insertNew_sorted (v : Int) : ∀ {l : List Int}, l.Pairwise (· < ·) → (insertNew v l).Pairwise (· < ·)
  | [], _ => by simp [insertNew]
  | a :: l, h => by
    obtain ⟨h1, h2⟩ := List.pairwise_cons.mp h
    unfold insertNew
    split
    · rename_i hv
      refine List.pairwise_cons.mpr ⟨fun x hx => ?_, h⟩
      rcases List.mem_cons.mp hx with rfl | hx
      · exact hv
      · have := h1 x hx
        omega
    · split
      · exact h
      · refine List.pairwise_cons.mpr ⟨fun x hx => ?_, insertNew_sorted v h2⟩
        rcases (insertNew_mem v x l).mp hx with rfl | hx
        · omega
        · exact h1 x hx

theorem unique_lt : ∀ l : List Int, (unique l).Pairwise (· < ·)
  | [] => List.Pairwise.nil
  | v :: l => insertNew_sorted v (unique_lt l)

theorem unique_mem : ∀ {l : List Int} {v : Int}, v ∈ unique l ↔ v ∈ l
  | [], v => by simp [unique]
  | a :: l, v => by
    have ih := unique_mem (l := l) (v := v)
    have e : unique (a :: l) = insertNew a (unique l) := rfl
    rw [e, insertNew_mem, ih, List.mem_cons]

theorem unique_nodup (l : List Int) : (unique l).Nodup := (unique_lt l).imp fun h => by omega

theorem unique_sorted (l : List Int) : (unique l).Pairwise (· ≤ ·) := (unique_lt l).imp fun h => by omega

/-- The set is determined by its members. -/
theorem unique_eq {l m : List Int} (hs : m.Pairwise (· < ·)) (h : ∀ v, v ∈ l ↔ v ∈ m) : unique l = m := by
  have hm : m.Nodup := hs.imp (fun h => by omega)
  have p : (unique l).Perm m := (List.perm_ext_iff_of_nodup (unique_nodup l) hm).mpr fun v => by rw [unique_mem, h]
  exact p.eq_of_pairwise (fun a b _ _ h1 h2 => by omega) (unique_sorted l) (hs.imp fun h => by omega)

/-! ### values of a field -/

theorem positions_mem {v x : Int} {vals : List Int} : x ∈ positionsOf v vals ↔ ∃ n : Nat, x = n ∧ vals[n]? = some v := by
  unfold positionsOf
  simp only [List.mem_map, List.mem_filter, List.mem_range, beq_iff_eq]
  constructor
  · rintro ⟨n, ⟨_, h⟩, rfl⟩
    exact ⟨n, rfl, h⟩
  · rintro ⟨n, rfl, h⟩
    exact ⟨n, ⟨(List.getElem?_eq_some_iff.mp h).1, h⟩, rfl⟩

theorem positions_nodup (v : Int) (vals : List Int) : (positionsOf v vals).Nodup := by
  unfold positionsOf
  refine List.Pairwise.map _ ?_ (List.nodup_range.filter _)
  intro a b h e
  exact h (by exact_mod_cast e)

/-- The elements of the values are all the elements, each once. -/
theorem positions_all (vals : List Int) :
    ((unique vals).flatMap fun v => positionsOf v vals).Perm ((List.range vals.length).map fun n : Nat => (n : Int)) := by
  apply (List.perm_ext_iff_of_nodup ?_ ?_).mpr
  · intro x
    simp only [List.mem_flatMap, positions_mem, unique_mem, List.mem_map, List.mem_range]
    constructor
    · rintro ⟨v, _, n, rfl, h⟩
      exact ⟨n, (List.getElem?_eq_some_iff.mp h).1, rfl⟩
    · rintro ⟨n, h, rfl⟩
      exact ⟨vals[n], List.getElem_mem h, n, rfl, List.getElem?_eq_getElem h⟩
  · rw [List.nodup_flatMap]
    refine ⟨fun v _ => positions_nodup v vals, (unique_nodup vals).imp ?_⟩
    intro u v huv
    simp only [Function.onFun]
    rw [List.disjoint_left]
    intro x h1 h2
    obtain ⟨n, rfl, e1⟩ := positions_mem.mp h1
    obtain ⟨m, e, e2⟩ := positions_mem.mp h2
    have : n = m := by exact_mod_cast e
    subst this
    rw [e1] at e2
    exact huv (Option.some.inj e2)
  · refine List.Pairwise.map _ ?_ List.nodup_range
    intro a b h e
    exact h (by exact_mod_cast e)

/-! ### parts of a selection -/

theorem selected_part (s : Sel) (k : Kind) (mesh : BNode F) : selected (part s k) mesh = selected s mesh := rfl

theorem fieldApplies_part (s : Sel) (k : Kind) (name : Str) (mesh : BNode F) :
    fieldApplies (part s k) name mesh = fieldApplies s name mesh := rfl

theorem caught_ok {α : Type} {r : Res α} {d a : α} (h : caught r d = .ok a) : r = .ok a ∨ (r = .error ∧ a = d) := by
  cases r with
  | ok x => exact .inl h
  | error => exact .inr ⟨rfl, by cases h; rfl⟩
  | ub => cases h

theorem bind_error_iff {α β γ γ' : Type} {x : Res α} {f : α → Res β} {g : β → γ} (g' : β → γ')
    (h : (x >>= fun a => f a >>= fun b => Res.ok (g b)) = .error) : (x >>= fun a => f a >>= fun b => Res.ok (g' b)) = .error := by
  cases x with
  | error => rfl
  | ub => cases h
  | ok a =>
    simp only [Res.bind_ok] at h ⊢
    cases e : f a with
    | error => rfl
    | ub => rw [e] at h; cases h
    | ok b => rw [e] at h; cases h

/-- The elements of a box, an explicit or a range selection of which the topology is known. -/
theorem ids_logical (A : Arith F) {s : Sel} {mesh : BNode F} {t : Str × BNode F} {d a b : I3} (ht : selected s mesh = .ok t)
    (hd : logicalDims A mesh t.2 = .ok d) (e : s.kind = .logical a b) : elementIds A s mesh = .ok (boxIds d a b) := by
  unfold elementIds
  simp only [e, ht, Res.bind_ok, hd, caught]

theorem ids_explicit (A : Arith F) {s : Sel} {mesh : BNode F} {t : Str × BNode F} {n : Int} {l : List Int} (ht : selected s mesh = .ok t)
    (hn : length A mesh t.2 = .ok n) (e : s.kind = .explicit l) : elementIds A s mesh = .ok (l.filter fun e => decide (e < n)) := by
  unfold elementIds
  simp only [e, ht, Res.bind_ok, hn, caught]

theorem ids_ranges (A : Arith F) {s : Sel} {mesh : BNode F} {t : Str × BNode F} {n : Int} {r : List (Int × Int)} (ht : selected s mesh = .ok t)
    (hn : length A mesh t.2 = .ok n) (e : s.kind = .ranges r) : elementIds A s mesh = .ok ((rangeIds r).filter fun e => decide (e < n)) := by
  unfold elementIds
  simp only [e, ht, Res.bind_ok, hn, caught]
  rfl

/-- Splitting keeps the elements: the parts have them all and no others, as often as before. -/
theorem split_ids (A : Arith F) {s : Sel} {mesh : BNode F} {ids : List Int} {len : Int} {ps : List Sel}
    (hf : ∀ name value ranks, s.kind ≠ .field name value ranks)
    (hl : selLength A s mesh = .ok len) (h0 : 0 < len) (hb : ∀ a b, s.kind = .logical a b → 1 < len)
    (hi : elementIds A s mesh = .ok ids) (hs : split A s mesh = .ok ps) :
    ∃ p0 p1 i0 i1, ps = [p0, p1] ∧ (∃ k0 k1, p0 = part s k0 ∧ p1 = part s k1 ∧ (∀ n v q, k0 ≠ .field n v q) ∧ ∀ n v q, k1 ≠ .field n v q) ∧ elementIds A p0 mesh = .ok i0 ∧ elementIds A p1 mesh = .ok i1 ∧ (i0 ++ i1).Perm ids ∧
      ((∀ a b, s.kind ≠ .logical a b) → i0 ++ i1 = ids) := by
  unfold selLength at hl
  unfold elementIds at hi
  unfold split at hs
  split at hl
  · -- logical
    rename_i a b e
    simp only [e] at hi hs
    have h1 := hb a b e
    cases hl
    obtain ⟨b0, a1, e1, hp⟩ := splitLogical_spec h1
    rw [e1] at hs
    cases hs
    rcases caught_ok hi with h | ⟨h, rfl⟩
    · obtain ⟨t, ht, h⟩ := Res.bind_eq_ok.mp h
      obtain ⟨d, hd, h⟩ := Res.bind_eq_ok.mp h
      cases h
      exact ⟨_, _, boxIds d a b0, boxIds d a1 b, rfl, ⟨_, _, rfl, rfl, (fun _ _ _ h => by cases h), (fun _ _ _ h => by cases h)⟩, ids_logical A (s := part s _) ht hd rfl, ids_logical A (s := part s _) ht hd rfl,
        hp d, fun h => absurd e (h a b)⟩
    · refine ⟨_, _, [], [], rfl, ⟨_, _, rfl, rfl, (fun _ _ _ h => by cases h), (fun _ _ _ h => by cases h)⟩, ?_, ?_, by simp, fun _ => rfl⟩
      · show caught (selected s mesh >>= fun t => logicalDims A mesh t.2 >>= fun d => .ok (boxIds d a b0)) [] = _
        rw [bind_error_iff _ h]; rfl
      · show caught (selected s mesh >>= fun t => logicalDims A mesh t.2 >>= fun d => .ok (boxIds d a1 b)) [] = _
        rw [bind_error_iff _ h]; rfl
  · -- explicit
    rename_i l e
    simp only [e] at hi hs
    rcases caught_ok hi with h | ⟨h, rfl⟩
    · obtain ⟨t, ht, h⟩ := Res.bind_eq_ok.mp h
      obtain ⟨n, hn, h⟩ := Res.bind_eq_ok.mp h
      cases h
      simp only [ht, Res.bind_ok, hn, caught] at hs
      cases hs
      have key : ∀ q : List Int, elementIds A (part s (.explicit (q.filter fun e => decide (e < n)))) mesh =
          .ok (q.filter fun e => decide (e < n)) := fun q => by
        rw [ids_explicit A (s := part s _) ht hn rfl, List.filter_filter]
        simp
      refine ⟨_, _, _, _, rfl, ⟨_, _, rfl, rfl, (fun _ _ _ h => by cases h), (fun _ _ _ h => by cases h)⟩, key _, key _, ?_, ?_⟩
      · rw [← List.filter_append, List.take_append_drop]
      · intro _
        rw [← List.filter_append, List.take_append_drop]
    · have h' : (selected s mesh >>= fun t => length A mesh t.2) = .error := by
        have := bind_error_iff (fun n => n) h
        simpa [show (fun t : Str × BNode F => length A mesh t.2 >>= fun b => Res.ok b) = fun t => length A mesh t.2 from
          funext fun t => by cases length A mesh t.2 <;> rfl] using this
      rw [h'] at hs
      simp only [caught, Res.bind_ok] at hs
      cases hs
      have key : ∀ q : List Int, elementIds A (part s (.explicit q)) mesh = .ok [] := fun q => by
        show caught (selected s mesh >>= fun t => length A mesh t.2 >>= fun n => .ok (q.filter fun e => decide (e < n))) [] = _
        rw [bind_error_iff _ h]
        rfl
      exact ⟨_, _, [], [], rfl, ⟨_, _, rfl, rfl, (fun _ _ _ h => by cases h), (fun _ _ _ h => by cases h)⟩, key _, key _, by simp, fun _ => rfl⟩
  · -- ranges
    rename_i r e
    simp only [e] at hi hs
    cases hl
    obtain ⟨n, p, _, _, e1, e2⟩ := splitRanges_spec (r := r) (by omega)
    rw [e1] at hs
    cases hs
    rcases caught_ok hi with h | ⟨h, rfl⟩
    · obtain ⟨t, ht, h⟩ := Res.bind_eq_ok.mp h
      obtain ⟨m, hm, h⟩ := Res.bind_eq_ok.mp h
      cases h
      refine ⟨_, _, _, _, rfl, ⟨_, _, rfl, rfl, (fun _ _ _ h => by cases h), (fun _ _ _ h => by cases h)⟩, ids_ranges A (s := part s _) ht hm rfl, ids_ranges A (s := part s _) ht hm rfl, ?_, ?_⟩
      · rw [← List.filter_append, e2]
        exact List.Perm.refl _
      · intro _
        rw [← List.filter_append, e2]
        rfl
    · have key : ∀ q, elementIds A (part s (.ranges q)) mesh = .ok [] := fun q => by
        show caught (selected s mesh >>= fun t => length A mesh t.2 >>= fun n => .ok ((q.flatMap fun p => upTo p.1 p.2).filter fun e => decide (e < n))) [] = _
        rw [bind_error_iff _ h]
        rfl
      exact ⟨_, _, _, _, rfl, ⟨_, _, rfl, rfl, (fun _ _ _ h => by cases h), (fun _ _ _ h => by cases h)⟩, key _, key _, by simp, fun _ => rfl⟩
  · rename_i name value ranks e
    exact absurd e (hf name value ranks)

/-- A field selection splits into one for each value; they have each element of the field once. -/
theorem split_field (A : Arith F) {s : Sel} {mesh : BNode F} {name : Str} {ranks : Option (List Int)} {vals : List Int}
    (e : s.kind = .field name none ranks) (ha : fieldApplies s name mesh = .ok true) (hv : fieldValues A name mesh = .ok vals) :
    ∃ ids, split A s mesh = .ok ((unique vals).map fun v => part s (.field name (some v) ranks)) ∧
      ((unique vals).map fun v => part s (.field name (some v) ranks)).mapM (fun p => elementIds A p mesh) = .ok ids ∧
      ids = (unique vals).map (fun v => positionsOf v vals) ∧
      ids.flatten.Perm ((List.range vals.length).map fun n : Nat => (n : Int)) := by
  refine ⟨(unique vals).map (fun v => positionsOf v vals), ?_, ?_, rfl, ?_⟩
  · unfold split
    simp only [e, ha, Res.bind_ok, hv, if_true]
  · generalize unique vals = l
    induction l with
    | nil => rfl
    | cons v l ih =>
      simp only [List.map_cons, List.mapM_cons, ih, Res.bind_ok]
      have : elementIds A (part s (.field name (some v) ranks)) mesh = .ok (positionsOf v vals) := by
        unfold elementIds
        simp only [part]
        show (fieldApplies s name mesh >>= _) = _
        simp only [ha, Res.bind_ok, if_true, hv, Option.getD_some]
      rw [this]
      rfl
  · have := positions_all vals
    rw [List.flatMap_def] at this
    exact this

/-- Splitting the selection of one value keeps its elements and their order, if the field has no more values than the
    topology has elements. -/
theorem split_value (A : Arith F) {s : Sel} {mesh : BNode F} {name : Str} {v : Int} {ranks : Option (List Int)} {vals : List Int}
    {t : Str × BNode F} {n : Int}
    (e : s.kind = .field name (some v) ranks) (ha : fieldApplies s name mesh = .ok true) (hv : fieldValues A name mesh = .ok vals)
    (ht : selected s mesh = .ok t) (hn : length A mesh t.2 = .ok n) (hle : (vals.length : Int) ≤ n) :
    ∃ p0 p1 i0 i1, split A s mesh = .ok [p0, p1] ∧ elementIds A p0 mesh = .ok i0 ∧ elementIds A p1 mesh = .ok i1 ∧
      elementIds A s mesh = .ok (i0 ++ i1) := by
  have hi : elementIds A s mesh = .ok (positionsOf v vals) := by
    unfold elementIds
    simp only [e, ha, Res.bind_ok, if_true, hv, Option.getD_some]
  have inside : ∀ x ∈ positionsOf v vals, x < n := by
    intro x hx
    obtain ⟨m, rfl, hm⟩ := positions_mem.mp hx
    have := (List.getElem?_eq_some_iff.mp hm).1
    omega
  have keep : ∀ q : List Int, (∀ x ∈ q, x < n) → elementIds A (part s (.explicit q)) mesh = .ok q := fun q hq => by
    rw [ids_explicit A (s := part s _) ht hn rfl, List.filter_eq_self.mpr]
    intro x hx
    exact decide_eq_true (hq x hx)
  refine ⟨part s (.explicit ((positionsOf v vals).take ((positionsOf v vals).length / 2))),
    part s (.explicit ((positionsOf v vals).drop ((positionsOf v vals).length / 2))), _, _, ?_,
    keep _ fun x hx => inside x (List.mem_of_mem_take hx), keep _ fun x hx => inside x (List.mem_of_mem_drop hx), ?_⟩
  · unfold split
    simp only [e, ha, Res.bind_ok, if_true, hi]
  · rw [hi, List.take_append_drop]

end Conduit.Part
