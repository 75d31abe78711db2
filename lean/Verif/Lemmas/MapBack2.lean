import Verif.Lemmas.MapBack
/-
Elements and points found again; what a new domain gives to an original one.
-/
namespace Conduit.Back
open Conduit.Mesh Conduit.Part Conduit.Merge Conduit.Comb
variable {F : Type}

/-! ### elements -/

theorem last_mem {q : Nat} {s : Nat × Nat} : ∀ {W : List (Nat × (Nat × Nat))}, last q W = some s → (q, s) ∈ W
  | [], h => by cases h
  | w :: W, h => by
    rw [last] at h
    split at h
    case h_1 s' hl => cases h; exact List.mem_cons_of_mem _ (last_mem hl)
    case h_2 hl =>
      split at h
      case isTrue he => cases h; rw [← he]; simp
      · cases h

theorem last_table (tbl : List (Nat × Nat)) (s q : Nat) :
    last q ((tbl.zipIdx s).map fun x => (x.2, x.1)) = if s ≤ q then tbl[q - s]? else none := by
  induction tbl generalizing s with
  | nil => simp [last]
  | cons a tbl ih =>
    rw [List.zipIdx_cons, List.map_cons, last, ih]
    by_cases h1 : s + 1 ≤ q
    · have h2 : q - s = (q - (s + 1)) + 1 := by omega
      rw [if_pos h1, if_pos (show s ≤ q by omega), h2, List.getElem?_cons_succ]
      cases tbl[q - (s + 1)]? with
      | some x => rfl
      | none => simp only; rw [if_neg (by omega)]
    · rw [if_neg h1]
      by_cases h2 : s = q
      · subst h2; simp
      · simp only; rw [if_neg h2, if_neg (by omega)]

theorem storeElements_ok (A : Arith F) {ins vs : List (BNode F)} {cnt : Nat → Nat} {v0 old : BNode F} (hv : ValsOf ins vs) (h0 : vs[0]? = some v0)
    (hvs : Vals vs cnt v0) (tbl : List (Nat × Nat)) (hpos : 0 < tbl.length) (hW : ∀ x ∈ tbl, (∃ v, vs[x.1]? = some v) ∧ x.2 < cnt x.1)
    (ho : old = .empty ∨ (Alike v0 old ∧ Exact old tbl.length)) :
    ∃ out, storeElements A ins tbl old = .ok out ∧ Alike v0 out ∧ Exact out tbl.length ∧
      ∀ (q : Nat) s v, tbl[q]? = some s → vs[s.1]? = some v → rowAt out q = rowAt v s.2 := by
  have hlast : ∀ q, last q (tbl.zipIdx.map fun x => (x.2, x.1)) = tbl[q]? := by
    intro q
    have := last_table tbl 0 q
    simpa using this
  have hmem : ∀ w ∈ tbl.zipIdx.map fun x => (x.2, x.1), tbl[w.1]? = some w.2 := by
    rintro ⟨q, s⟩ hw
    obtain ⟨⟨a, b⟩, h1, h2⟩ := List.mem_map.1 hw
    cases h2
    exact List.mem_zipIdx_iff_getElem?.1 h1
  obtain ⟨out, o1, o2, o3, o4⟩ := store_ok A.zero hv hvs (tbl.zipIdx.map fun x => (x.2, x.1)) tbl.length hpos
    (fun w hw => (List.getElem?_eq_some_iff.1 (hmem w hw)).1) (fun w hw => hW _ (List.mem_of_getElem? (hmem w hw)))
    (fun q s h => last_mem h) ho
  refine ⟨out, ?_, o2, o3, fun q s v h1 h2 => ?_⟩
  · cases hv with
    | nil => simp at h0
    | @cons f0 v fs vs p q =>
      simp only [List.getElem?_cons_zero, Option.some.injEq] at h0
      subst h0
      rw [storeElements]
      simp only [p, Res.bind_ok]
      rw [List.map_map] at o1
      exact o1
  · exact (o4 q (List.getElem?_eq_some_iff.1 h1).1).1 s v (by rw [hlast]; exact h1) h2

theorem flatten_unique {ms : List (List Nat)} (h : ms.flatten.Nodup) {i k i' k' q : Nat} (h1 : IdAt ms i k q) (h2 : IdAt ms i' k' q) :
    i = i' ∧ k = k' := by
  induction ms generalizing i i' with
  | nil => obtain ⟨m, e, _⟩ := h1; simp at e
  | cons m ms ih =>
    rw [List.flatten_cons, List.nodup_append] at h
    obtain ⟨n1, n2, n3⟩ := h
    have key : ∀ {j r}, IdAt (m :: ms) (j + 1) r q → q ∈ ms.flatten := by
      rintro j r ⟨l, e1, e2⟩
      exact List.mem_flatten.2 ⟨l, List.mem_of_getElem? (by simpa using e1), List.mem_of_getElem? e2⟩
    have key0 : ∀ {r}, IdAt (m :: ms) 0 r q → m[r]? = some q := by
      rintro r ⟨l, e1, e2⟩
      simp at e1; rw [e1]; exact e2
    cases i with
    | zero =>
      cases i' with
      | zero =>
        refine ⟨rfl, ?_⟩
        have a := key0 h1; have b := key0 h2
        exact (List.getElem?_inj (List.getElem?_eq_some_iff.1 a).1 n1).1 (a.trans b.symm)
      | succ i' => exact absurd rfl (n3 q (List.mem_of_getElem? (key0 h1)) q (key h2))
    | succ i =>
      cases i' with
      | zero => exact absurd rfl (n3 q (List.mem_of_getElem? (key0 h2)) q (key h1))
      | succ i' =>
        obtain ⟨e1, e2⟩ := ih n2 (i := i) (i' := i') (by obtain ⟨l, a, b⟩ := h1; exact ⟨l, by simpa using a, b⟩)
          (by obtain ⟨l, a, b⟩ := h2; exact ⟨l, by simpa using a, b⟩)
        exact ⟨by omega, e2⟩

theorem idAt_of_mem {ms : List (List Nat)} {q : Nat} (h : q ∈ ms.flatten) : ∃ i k, IdAt ms i k q := by
  obtain ⟨m, h1, h2⟩ := List.mem_flatten.1 h
  obtain ⟨i, hi⟩ := List.getElem?_of_mem h1
  obtain ⟨k, hk⟩ := List.getElem?_of_mem h2
  exact ⟨i, k, m, hi, hk⟩

theorem flatten_length_sum (ms : List (List Nat)) : ((ms.map ints).map (·.length)).sum = ms.flatten.length := by
  induction ms with
  | nil => rfl
  | cons m ms ih => rw [List.map_cons, List.map_cons, List.sum_cons, ih, List.flatten_cons, List.length_append]; simp [ints]

/-- Numbers that are those below `n`, each once: the table tells where each one is. -/
theorem elemTable_ok (ms : List (List Nat)) (n : Nat) (h : ms.flatten.Perm (List.range n)) :
    ∃ tbl, elemTable (ms.map ints) = .ok tbl ∧ tbl.length = n ∧
      (∀ i k q, IdAt ms i k q → tbl[q]? = some (i, k)) ∧ ∀ s ∈ tbl, ∃ q, IdAt ms s.1 s.2 q := by
  have hlen : ms.flatten.length = n := by rw [h.length_eq]; simp
  have hnd : ms.flatten.Nodup := h.nodup_iff.2 List.nodup_range
  have hlt : ∀ q, q ∈ ms.flatten ↔ q < n := fun q => by rw [h.mem_iff]; simp
  have hid : ∀ {i k q}, IdAt ms i k q → q < n := by
    rintro i k q ⟨m, h1, h2⟩
    exact (hlt q).1 (List.mem_flatten.2 ⟨m, List.mem_of_getElem? h1, List.mem_of_getElem? h2⟩)
  obtain ⟨tbl, t1, t2, t3⟩ := fold_put (fun (acc : List (Nat × Nat)) (w : Int × (Nat × Nat)) => put acc w.1 w.2) id (natWrites 0 ms) n
    (fun w _ acc => rfl) (by
      rintro ⟨q, i, k⟩ hw
      obtain ⟨i', e, hi⟩ := (natWrites_mem ms 0 q i k).1 hw
      exact hid hi) (List.replicate n (0, 0)) (by simp)
  have hl : ∀ i k q, IdAt ms i k q → last q (natWrites 0 ms) = some (i, k) := by
    intro i k q hi
    cases hlast : last q (natWrites 0 ms) with
    | none => exact absurd rfl (last_none hlast (q, (i, k)) ((natWrites_mem ms 0 q i k).2 ⟨i, by simp, hi⟩))
    | some s =>
      obtain ⟨i', e, hi'⟩ := (natWrites_mem ms 0 q s.1 s.2).1 (last_mem hlast)
      rw [Nat.zero_add] at e; subst e
      obtain ⟨e1, e2⟩ := flatten_unique hnd hi hi'
      rw [e1, e2]
  refine ⟨tbl, ?_, t2, fun i k q hi => by rw [t3, hl i k q hi]; rfl, fun s hs => ?_⟩
  · unfold elemTable
    rw [pointWrites_eq, flatten_length_sum, hlen]
    exact t1
  · obtain ⟨q, hq⟩ := List.getElem?_of_mem hs
    have hqn : q < n := by rw [← t2]; exact (List.getElem?_eq_some_iff.1 hq).1
    obtain ⟨i, k, hi⟩ := idAt_of_mem ((hlt q).2 hqn)
    rw [t3, hl i k q hi] at hq
    cases hq
    exact ⟨q, hi⟩

/-! ### points -/

theorem storePoints_ok (A : Arith F) {ins vs : List (BNode F)} {cnt : Nat → Nat} {v0 old : BNode F} (hv : ValsOf ins vs) (h0 : vs[0]? = some v0)
    (hvs : Vals vs cnt v0) (ms : List (List Nat)) (n : Nat) (hpos : 0 < n) (hlen : ms.length = vs.length) (hq : ∀ i k q, IdAt ms i k q → q < n)
    (hsz : ∀ (i : Nat) m, ms[i]? = some m → m.length = cnt i) (ho : old = .empty ∨ (Alike v0 old ∧ Exact old n)) :
    ∃ out, storePoints A ins (ms.map ints) (n : Int) old = .ok out ∧ Alike v0 out ∧ Exact out n ∧ ∀ q, q < n →
      (∀ s v, last q (natWrites 0 ms) = some s → vs[s.1]? = some v → rowAt out q = rowAt v s.2) ∧
      (last q (natWrites 0 ms) = none → old ≠ .empty → rowAt out q = rowAt old q) := by
  have hid : ∀ w ∈ natWrites 0 ms, IdAt ms w.2.1 w.2.2 w.1 := by
    rintro ⟨q, i, k⟩ hw
    obtain ⟨i', e, hi⟩ := (natWrites_mem ms 0 q i k).1 hw
    rw [Nat.zero_add] at e; subst e
    exact hi
  obtain ⟨out, o1, o2, o3, o4⟩ := store_ok A.zero hv hvs (natWrites 0 ms) n hpos (fun w hw => hq _ _ _ (hid w hw))
    (fun w hw => by
      obtain ⟨m, h1, h2⟩ := hid w hw
      have hi : w.2.1 < vs.length := by rw [← hlen]; exact (List.getElem?_eq_some_iff.1 h1).1
      exact ⟨⟨_, List.getElem?_eq_getElem hi⟩, by rw [← hsz _ m h1]; exact (List.getElem?_eq_some_iff.1 h2).1⟩)
    (fun q s h => last_mem h) ho
  refine ⟨out, ?_, o2, o3, o4⟩
  cases hv with
  | nil => simp at h0
  | @cons f0 v fs vs p q =>
    simp only [List.getElem?_cons_zero, Option.some.injEq] at h0
    subst h0
    cases ms with
    | nil => simp at hlen
    | cons m ms =>
      have hl := forall2_length q
      have hw := pointWrites_eq (m :: ms) 0
      rw [List.map_cons] at hw ⊢
      simp only [storePoints]
      rw [if_neg (by simp only [List.length_cons, List.length_map] at hlen ⊢; omega)]
      simp only [p, Res.bind_ok]
      rw [hw, Int.toNat_natCast]
      exact o1

/-! ### what is taken from a field -/

theorem lenCol_of {c d : BNode F} {n m : Nat} (hc : Column c m) (h1 : d.ety = c.ety) (h2 : d.numElements = n) : LikeCol c d ∧ LenCol d n := by
  rcases hc with ⟨t, l, rfl, _⟩ | ⟨t, l, rfl, _⟩
  · cases d with
    | ints t' l' =>
      simp only [BNode.ety, Option.some.injEq, ETy.i.injEq] at h1
      subst h1
      exact ⟨.inl ⟨t', l, l', rfl, rfl⟩, .inl ⟨t', l', rfl, h2⟩⟩
    | _ => simp [BNode.ety] at h1
  · cases d with
    | flts t' l' =>
      simp only [BNode.ety, Option.some.injEq, ETy.f.injEq] at h1
      subst h1
      exact ⟨.inr ⟨t', l, l', rfl, rfl⟩, .inr ⟨t', l', rfl, h2⟩⟩
    | _ => simp [BNode.ety] at h1

theorem exact_table {v : BNode F} {n : Nat} (h : Exact v n) : Table v n := by
  rcases h with h | ⟨k, ks, rfl, h⟩
  · exact .inl (lenCol_column h)
  · exact .inr ⟨k, ks, rfl, fun c hc => lenCol_column (h c hc)⟩

theorem slice_like (v : BNode F) (n : Nat) (ids : List Nat) (hv : Table v n) (h : ∀ i ∈ ids, i < n) :
    ∃ v', sliceField v (ints ids) = .ok v' ∧ Alike v v' ∧ Exact v' ids.length ∧ ∀ (k id : Nat), ids[k]? = some id → rowAt v' k = rowAt v id := by
  rcases hv with hc | ⟨k, kt, rfl, hv⟩
  · obtain ⟨v', e, h1, h2, h3⟩ := sliceArray_ok v n ids hc h
    obtain ⟨l1, l2⟩ := lenCol_of hc h1 h2
    refine ⟨v', ?_, .inl l1, .inl l2, fun k id hk => ?_⟩
    · rcases hc with ⟨t, l, rfl, _⟩ | ⟨w, l, rfl, _⟩ <;> exact e
    · obtain ⟨x, x1, x2⟩ := h3 k id hk
      exact rowAt_like (like_symm l1) _ _ (x2.trans x1.symm)
  · obtain ⟨ks', e, hs⟩ := mapM_res (fun k : Str × BNode F => do
        let v ← sliceArray k.2 (ids.map (fun i : Nat => (i : Int)))
        Res.ok (k.1, v)) (fun k k' => k'.1 = k.1 ∧ SlicedColumn k.2 ids k'.2) (k :: kt) (by
      intro a ha
      obtain ⟨c', e, hs⟩ := sliceArray_ok a.2 n ids (hv a ha) h
      exact ⟨(a.1, c'), by rw [e]; rfl, rfl, hs⟩)
    have hl : ks'.length = (k :: kt).length := (forall2_length hs).symm
    have h2 : ∀ (i : Nat) a b, (k :: kt)[i]? = some a → ks'[i]? = some b → SlicedColumn a.2 ids b.2 :=
      fun i a b ha hb => (forall2_get hs i a b ha hb).2
    have hn : ∀ (i : Nat) a b, (k :: kt)[i]? = some a → ks'[i]? = some b → b.1 = a.1 := fun i a b ha hb => (forall2_get hs i a b ha hb).1
    have hc : ∀ (i : Nat) a b, (k :: kt)[i]? = some a → ks'[i]? = some b → LikeCol a.2 b.2 ∧ LenCol b.2 ids.length := by
      intro i a b ha hb
      obtain ⟨g1, g2, _⟩ := h2 i a b ha hb
      exact lenCol_of (hv a (List.mem_of_getElem? ha)) g1 g2
    have hout : sliceField (.obj (k :: kt)) (ints ids) = .ok (.obj ks') := by
      show (do let l ← (k :: kt).mapM _; Res.ok (BNode.obj l)) = _
      exact congrArg (fun r => r >>= fun l => Res.ok (BNode.obj l)) e
    cases ks' with
    | nil => simp at hl
    | cons k' kt' =>
      refine ⟨_, hout, .inr ⟨k, kt, _, rfl, rfl, forall2_of hl.symm fun i a b ha hb => ⟨(hn i a b ha hb).symm, (hc i a b ha hb).1⟩⟩,
        .inr ⟨k', kt', rfl, ?_⟩, ?_⟩
      · intro c hcm
        obtain ⟨i, hi⟩ := List.getElem?_of_mem hcm
        have hi' : i < (k :: kt).length := by rw [← hl]; exact (List.getElem?_eq_some_iff.1 hi).1
        exact (hc i _ c (List.getElem?_eq_getElem hi') hi).2
      · intro j id hj
        show (k' :: kt').map (fun c => (c.1, elemAt c.2 j)) = (k :: kt).map fun c => (c.1, elemAt c.2 id)
        refine List.ext_getElem? fun i => ?_
        rw [List.getElem?_map, List.getElem?_map]
        by_cases hi : i < (k :: kt).length
        · have ha := List.getElem?_eq_getElem hi
          have hb := List.getElem?_eq_getElem (hl.symm ▸ hi)
          obtain ⟨_, _, g3⟩ := h2 i _ _ ha hb
          obtain ⟨x, x1, x2⟩ := g3 j id hj
          rw [ha, hb]; simp only [Option.map_some]
          rw [x1, x2, hn i _ _ ha hb]
        · rw [List.getElem?_eq_none (by omega), List.getElem?_eq_none (by omega)]; rfl

/-- A field copied for some of its entries. -/
theorem copy_like (op : Opts) (hop : op.fields = []) (name : Str) (f : BNode F) (assoc t : Str) (v : BNode F) (hf : FieldOf f assoc t v) (n : Nat)
    (hv : Table v n) (ids : List Nat) (hi : ∀ i ∈ ids, i < n) (out : BNode F) :
    ∃ f' v', copyField op (name, f) (ints ids) out = .ok (out.setChild name f') ∧ FieldOf f' assoc t v' ∧ Alike v v' ∧ Exact v' ids.length ∧
      ∀ (k id : Nat), ids[k]? = some id → rowAt v' k = rowAt v id := by
  obtain ⟨v', e, h1, h2, h3⟩ := slice_like v n ids hv hi
  obtain ⟨b1, b2⟩ := base_gets f (out.getOrEmpty name) hf
  refine ⟨([chars! "association", chars! "grid_function", chars! "volume_dependent", chars! "topology"].foldl
    (fun (n : BNode F) k => match f.get k with | .ok v => n.setChild k v | _ => n) (out.getOrEmpty name)).setChild
      (chars! "values") v', v', ?_, ⟨?_, ?_, ?_⟩, h1, h2, h3⟩
  · unfold copyField
    rw [if_neg (fun h => h.1 hop)]
    rw [hf.values, Res.bind_ok, e, Res.bind_ok]; rfl
  · rw [get_setChild_other _ _ _ _ (by decide)]; exact b1
  · rw [get_setChild_other _ _ _ _ (by decide)]; exact b2
  · exact get_setChild_same _ _ _

end Conduit.Back
