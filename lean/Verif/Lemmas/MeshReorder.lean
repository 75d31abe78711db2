import Verif.Model.MeshReorder
import Verif.Spec.MeshReorder
import Verif.Lemmas.MeshLoop
import Verif.Lemmas.ResMonad
import Mathlib.Data.List.Induction
import Mathlib.Data.List.Perm.Subperm
/-
Lemmas on the reordering of elements.
-/
namespace Conduit.Mesh
variable {F : Type}

/-! ### lists without repetitions -/

theorem eraseDups_snoc (l : List Nat) (a : Nat) :
    (l ++ [a]).eraseDups = if a ∈ l then l.eraseDups else l.eraseDups ++ [a] := by
  rw [List.eraseDups_append]
  split
  · simp [List.removeAll, *]
  · have : ([a] : List Nat).eraseDups = [a] := by rw [List.eraseDups_cons]; simp
    simp [List.removeAll, this, *]

theorem eraseDups_nodup (l : List Nat) : l.eraseDups.Nodup := by
  induction l using List.reverseRecOn with
  | nil => simp
  | append_singleton l a ih =>
    rw [eraseDups_snoc]
    split
    · exact ih
    · rename_i h
      rw [List.nodup_append]
      refine ⟨ih, by simp, ?_⟩
      intro x hx y hy
      simp only [List.mem_singleton] at hy
      subst hy
      intro e; subst e
      exact h (List.mem_eraseDups.1 hx)

theorem idxOf_snoc {l : List Nat} {a b : Nat} (h : b ∈ l) : (l ++ [a]).idxOf b = l.idxOf b :=
  List.idxOf_append_of_mem h

/-- The numbers of the points in terms of what was seen. -/
structure Seen (npts : Nat) (seen : List Nat) (s : Renum) : Prop where
  points : s.points = seen.eraseDups.map (fun p : Nat => (p : Int))
  conn : s.conn = seen.map fun p => (seen.eraseDups.idxOf p : Int)
  old2new : s.old2new = (List.range npts).map fun id => if id ∈ seen then (seen.eraseDups.idxOf id : Int) else -1

theorem pick_nat {α : Type} (l : List α) (i : Nat) (v : α) (h : l[i]? = some v) : pick l (i : Int) = .ok v := by
  simp [pick, h]

theorem visitPoint_ok {npts p : Nat} {seen : List Nat} {s : Renum} (h : Seen npts seen s) (hp : p < npts) :
    ∃ s', visitPoint (p : Int) s = .ok s' ∧ Seen npts (seen ++ [p]) s' := by
  have hpick : pick s.old2new (p : Int) = .ok (if p ∈ seen then (seen.eraseDups.idxOf p : Int) else -1) := by
    apply pick_nat
    rw [h.old2new, List.getElem?_map, List.getElem?_range hp]; rfl
  unfold visitPoint
  rw [hpick, Res.bind_ok]
  by_cases hm : p ∈ seen
  · have hne : ¬ ((seen.eraseDups.idxOf p : Int) = -1) := by omega
    rw [if_pos hm, if_neg hne]
    have he : (seen ++ [p]).eraseDups = seen.eraseDups := by rw [eraseDups_snoc, if_pos hm]
    refine ⟨_, rfl, ⟨by rw [he]; exact h.points, ?_, ?_⟩⟩
    · simp only [he, List.map_append, h.conn, List.map_cons, List.map_nil]
    · simp only [he]
      rw [h.old2new]
      apply List.map_congr_left
      intro id _
      by_cases e : id = p
      · subst e; simp [hm]
      · simp [e]
  · rw [if_neg hm, if_pos rfl]
    have he : (seen ++ [p]).eraseDups = seen.eraseDups ++ [p] := by rw [eraseDups_snoc, if_neg hm]
    have hnm : p ∉ seen.eraseDups := fun hx => hm (List.mem_eraseDups.1 hx)
    have hidx : (seen.eraseDups ++ [p]).idxOf p = seen.eraseDups.length := by
      rw [List.idxOf_append_of_notMem hnm]; simp
    have hlen : s.points.length = seen.eraseDups.length := by rw [h.points]; simp
    have hput : put s.old2new (p : Int) (s.points.length : Int) = .ok (s.old2new.set p (seen.eraseDups.length : Int)) := by
      unfold put
      rw [if_pos ⟨by omega, by rw [h.old2new]; simp; omega⟩, hlen]; rfl
    rw [hput, Res.bind_ok]
    refine ⟨_, rfl, ⟨?_, ?_, ?_⟩⟩
    · simp only [he, h.points, List.map_append, List.map_cons, List.map_nil]
    · simp only [he, List.map_append, List.map_cons, List.map_nil, hidx, hlen]
      congr 1
      rw [h.conn]
      apply List.map_congr_left
      intro q hq
      rw [idxOf_snoc (List.mem_eraseDups.2 hq)]
    · simp only [he]
      apply List.ext_getElem?
      intro id
      by_cases hid : id < npts
      · rw [List.getElem?_map, List.getElem?_range hid]
        by_cases e : id = p
        · subst e
          rw [List.getElem?_set_self (by rw [h.old2new]; simpa using hid)]
          simp [hidx]
        · rw [List.getElem?_set_ne (by omega), h.old2new, List.getElem?_map, List.getElem?_range hid]
          simp only [Option.map_some, List.mem_append, List.mem_singleton, e, or_false]
          by_cases hs : id ∈ seen
          · rw [if_pos hs, if_pos hs, idxOf_snoc (List.mem_eraseDups.2 hs)]
          · rw [if_neg hs, if_neg hs]
      · rw [List.getElem?_eq_none (by rw [List.length_set, h.old2new]; simp; omega), List.getElem?_eq_none (by simp; omega)]

/-- Element `c` in the arrays. -/
def CellAt (conn sizes offs : List Int) (c : Nat) (el : List Nat) : Prop :=
  pick sizes (c : Int) = .ok (el.length : Int) ∧ ∃ o : Nat, pick offs (c : Int) = .ok (o : Int) ∧
    ∀ (i p : Nat), el[i]? = some p → pick conn ((o : Int) + (i : Int)) = .ok (p : Int)

theorem visitElement_ok {npts c : Nat} {conn sizes offs : List Int} {el seen : List Nat} {s : Renum}
    (h : Seen npts seen s) (hc : CellAt conn sizes offs c el) (hp : ∀ p ∈ el, p < npts) :
    ∃ s', visitElement conn sizes offs (c : Int) s = .ok s' ∧ Seen npts (seen ++ el) s' := by
  obtain ⟨h1, o, h2, h3⟩ := hc
  unfold visitElement
  rw [h1, Res.bind_ok]
  unfold forTo
  have key : ∀ m, m ≤ el.length → ∃ s', (List.range m).foldlM (fun a (d : Nat) => do
      let o ← pick offs (c : Int)
      let id ← pick conn (o + (d : Int))
      visitPoint id a) s = .ok s' ∧ Seen npts (seen ++ el.take m) s' := by
    intro m
    induction m with
    | zero => intro _; exact ⟨s, rfl, by simpa using h⟩
    | succ m ih =>
      intro hm
      obtain ⟨s1, e1, i1⟩ := ih (by omega)
      have hm' : el[m]? = some el[m] := List.getElem?_eq_getElem (by omega)
      obtain ⟨s2, e2, i2⟩ := visitPoint_ok i1 (hp el[m] (List.getElem_mem _))
      refine ⟨s2, ?_, ?_⟩
      · rw [List.range_succ, List.foldlM_append, e1]
        simp [h2, h3 m _ hm', e2]
      · rw [List.take_succ, hm', ← List.append_assoc]; exact i2
  obtain ⟨s', e, i⟩ := key el.length (Nat.le_refl _)
  rw [List.take_length] at i
  refine ⟨s', ?_, i⟩
  simpa using e

theorem visitAll_ok {npts : Nat} {conn sizes offs : List Int} {els : List (List Nat)} :
    ∀ (order : List Nat) (start : Nat) (seen : List Nat) (s : Renum), Seen npts seen s →
      (∀ c ∈ order, CellAt conn sizes offs c (els.getD c []) ∧ ∀ p ∈ els.getD c [], p < npts) →
      ∃ s', visitAll conn sizes offs (order.map (fun c : Nat => (c : Int))) (start : Int) s =
          .ok (s', (picked els order).map (fun e => (e.length : Int)),
            (List.range order.length).map fun j => ((start + ((picked els order).take j).flatten.length : Nat) : Int)) ∧
        Seen npts (seen ++ (picked els order).flatten) s'
  | [], start, seen, s, h, _ => ⟨s, rfl, by simpa [picked] using h⟩
  | c :: order, start, seen, s, h, hc => by
    obtain ⟨h1, h2⟩ := hc c (by simp)
    obtain ⟨s1, e1, i1⟩ := visitElement_ok h h1 h2
    obtain ⟨s2, e2, i2⟩ := visitAll_ok order (start + (els.getD c []).length) _ s1 i1 (fun c hc' => hc c (by simp [hc']))
    refine ⟨s2, ?_, ?_⟩
    · simp only [List.map_cons, visitAll]
      rw [e1, Res.bind_ok, h1.1, Res.bind_ok]
      have : ((start : Int) + ((els.getD c []).length : Int)) = ((start + (els.getD c []).length : Nat) : Int) := by omega
      rw [this, e2, Res.bind_ok]
      simp only [picked, List.map_cons, List.length_cons, List.range_succ_eq_map, List.take_zero, List.flatten_nil,
        List.length_nil, Nat.add_zero, List.map_map, Function.comp_def, List.take_succ_cons, List.flatten_cons,
        List.length_append, Nat.add_assoc, Nat.succ_eq_add_one]
    · rw [List.append_assoc] at i2
      simpa [picked] using i2

theorem seen_start (npts : Nat) : Seen npts [] ⟨List.replicate npts (-1), [], []⟩ :=
  ⟨rfl, rfl, by
    apply List.ext_getElem?
    intro i
    simp only [List.getElem?_replicate, List.getElem?_map, List.not_mem_nil, if_false]
    split <;> simp [List.getElem?_range, *]⟩

/-! ### types -/

theorem holds_cast_eq {t : IntTy} {a : Int} (h : t.Holds a) : t.cast a = a := by
  obtain ⟨s, w⟩ := t
  cases s <;> cases w <;> simp only [IntTy.Holds, IntTy.cast, IntWidth.card] at * <;> simp <;> omega

theorem holds_le {t : IntTy} {a b : Int} (h : t.Holds b) (h0 : 0 ≤ a) (hab : a ≤ b) : t.Holds a := by
  obtain ⟨s, w⟩ := t
  cases s <;> cases w <;> simp only [IntTy.Holds] at * <;> omega

theorem idx_holds {n : Nat} (h : Idx n) : int64.Holds (n : Int) := by
  unfold Idx at h
  simp only [IntTy.Holds, int64]
  omega

/-- The place of a number in a list without repetitions is at most some number in it. -/
theorem idxOf_le_mem {l : List Nat} (hn : l.Nodup) {p : Nat} (hp : p ∈ l) : ∃ q ∈ l, l.idxOf p ≤ q := by
  by_contra hc
  have hlt : ∀ q ∈ l, q < l.idxOf p := by
    intro q hq
    by_contra h
    exact hc ⟨q, hq, by omega⟩
  have hs : l ⊆ List.range (l.idxOf p) := fun q hq => by simpa using hlt q hq
  have := (hn.subperm hs).length_le
  rw [List.length_range] at this
  have := List.idxOf_lt_length_iff.2 hp
  omega

/-! ### slices -/

theorem sliceList_ok {α : Type} (l : List α) (ids : List Nat) (h : ∀ i ∈ ids, i < l.length) :
    ∃ l', sliceList l (ids.map (fun i : Nat => (i : Int))) = .ok l' ∧ l'.length = ids.length ∧
      ∀ (k id : Nat), ids[k]? = some id → ∃ v, l[id]? = some v ∧ l'[k]? = some v := by
  induction ids with
  | nil => exact ⟨[], rfl, rfl, by simp⟩
  | cons i ids ih =>
    obtain ⟨l', e, hl, hk⟩ := ih (fun j hj => h j (by simp [hj]))
    have hi : l[i]? = some (l[i]'(h i (by simp))) := List.getElem?_eq_getElem _
    refine ⟨l[i]'(h i (by simp)) :: l', ?_, by simp [hl], ?_⟩
    · unfold sliceList at e ⊢
      rw [List.map_cons, List.mapM_cons, pick_nat _ _ _ hi, Res.bind_ok, e, Res.bind_ok]
      rfl
    · intro k id hk'
      cases k with
      | zero => simp at hk'; subst hk'; exact ⟨_, hi, rfl⟩
      | succ k => simpa using hk k id (by simpa using hk')

theorem sliceArray_ok (c : BNode F) (n : Nat) (ids : List Nat) (hc : Column c n) (h : ∀ i ∈ ids, i < n) :
    ∃ c', sliceArray c (ids.map (fun i : Nat => (i : Int))) = .ok c' ∧ SlicedColumn c ids c' := by
  rcases hc with ⟨t, l, rfl, hl⟩ | ⟨w, l, rfl, hl⟩
  · obtain ⟨l', e, hl', hk⟩ := sliceList_ok l ids (fun i hi => Nat.lt_of_lt_of_le (h i hi) hl)
    refine ⟨.ints t l', by simp [sliceArray, e, Res.map'], rfl, hl', fun k id hid => ?_⟩
    obtain ⟨v, h1, h2⟩ := hk k id hid
    exact ⟨.inl v, by simp [elemAt, h1], by simp [elemAt, h2]⟩
  · obtain ⟨l', e, hl', hk⟩ := sliceList_ok l ids (fun i hi => Nat.lt_of_lt_of_le (h i hi) hl)
    refine ⟨.flts w l', by simp [sliceArray, e, Res.map'], rfl, hl', fun k id hid => ?_⟩
    obtain ⟨v, h1, h2⟩ := hk k id hid
    exact ⟨.inr v, by simp [elemAt, h1], by simp [elemAt, h2]⟩

theorem mapM_res {α β : Type} (f : α → Res β) (P : α → β → Prop) :
    ∀ l : List α, (∀ a ∈ l, ∃ b, f a = .ok b ∧ P a b) → ∃ bs, l.mapM f = .ok bs ∧ List.Forall₂ P l bs
  | [], _ => ⟨[], rfl, .nil⟩
  | a :: l, h => by
    obtain ⟨b, e, p⟩ := h a (by simp)
    obtain ⟨bs, es, ps⟩ := mapM_res f P l (fun a ha => h a (by simp [ha]))
    exact ⟨b :: bs, by rw [List.mapM_cons, e, Res.bind_ok, es, Res.bind_ok]; rfl, .cons p ps⟩

theorem forall2_get {α β : Type} {P : α → β → Prop} {l : List α} {m : List β} (h : List.Forall₂ P l m) :
    ∀ (i : Nat) a b, l[i]? = some a → m[i]? = some b → P a b := by
  induction h with
  | nil => intro i a b ha; simp at ha
  | cons p _ ih =>
    intro i a b ha hb
    cases i with
    | zero => simp at ha hb; subst ha; subst hb; exact p
    | succ i => exact ih i a b (by simpa using ha) (by simpa using hb)

theorem forall2_names {P : BNode F → BNode F → Prop} {l m : List (Str × BNode F)}
    (h : List.Forall₂ (fun k k' => k'.1 = k.1 ∧ P k.2 k'.2) l m) : m.map (·.1) = l.map (·.1) := by
  induction h with
  | nil => rfl
  | cons p _ ih => simp [p.1, ih]

theorem sliceField_ok (v : BNode F) (n : Nat) (ids : List Nat) (hv : Table v n) (h : ∀ i ∈ ids, i < n) :
    ∃ v', sliceField v (ids.map (fun i : Nat => (i : Int))) = .ok v' ∧ Sliced v ids v' := by
  rcases hv with hc | ⟨k, ks, rfl, hc⟩
  · obtain ⟨v', e, hs⟩ := sliceArray_ok v n ids hc h
    refine ⟨v', ?_, .inl hs⟩
    rcases hc with ⟨t, l, rfl, _⟩ | ⟨w, l, rfl, _⟩ <;> exact e
  · obtain ⟨bs, e, hs⟩ := mapM_res (fun k : Str × BNode F => do
        let v ← sliceArray k.2 (ids.map (fun i : Nat => (i : Int)))
        Res.ok (k.1, v)) (fun k k' => k'.1 = k.1 ∧ SlicedColumn k.2 ids k'.2) (k :: ks) (by
      intro a ha
      obtain ⟨c', e, hs⟩ := sliceArray_ok a.2 n ids (hc a ha) h
      exact ⟨(a.1, c'), by rw [e]; rfl, rfl, hs⟩)
    refine ⟨.obj bs, ?_, .inr ⟨_, bs, rfl, rfl, ?_, fun i a b ha hb => (forall2_get hs i a b ha hb).2⟩⟩
    · simp only [sliceField]
      rw [e]; rfl
    · exact forall2_names (P := fun a b => SlicedColumn a ids b) hs

end Conduit.Mesh
