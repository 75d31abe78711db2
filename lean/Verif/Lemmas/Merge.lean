import Verif.Lemmas.NodeUpdate2
/-
Facts about `overlay` and `merge` on values: entries, paths, idempotence.
-/
namespace Conduit
open Spec Schema Node

/-! ### overlay -/

theorem entry_overlayE (ss : List (Str × Val)) (n : Str) : ∀ ds : List (Str × Val),
    entry n (overlayE ss ds) = (entry n ds).map (fun d => match entry n ss with | some s => overlay s d | none => d)
  | [] => rfl
  | (k, d) :: ds => by
    simp only [overlayE, entry]
    split
    · rename_i h; subst h; rfl
    · exact entry_overlayE ss n ds

theorem getElem_overlayL : ∀ (ss ds : List Val) (i : Nat),
    (overlayL ss ds)[i]? = ds[i]?.map (fun d => match ss[i]? with | some s => overlay s d | none => d)
  | ss, [], i => by simp [overlayL]
  | [], d :: ds, i => by simp [overlayL]
  | s :: ss, d :: ds, 0 => by simp [overlayL]
  | s :: ss, d :: ds, i + 1 => by simpa [overlayL] using getElem_overlayL ss ds i

theorem overlay_leaf_at : ∀ (p : List Step) (s d : Val) (id : TypeId) (e : Endian) (es : List (List (Option UInt8))),
    at? d p = some (.leaf id e es) →
    at? (overlay s d) p = some (match at? s p with | some v => overlay v (.leaf id e es) | none => .leaf id e es)
  | [], s, d, id, e, es, h => by
    simp only [at?, Option.some.injEq] at h; subst h; simp only [at?]
  | .key n :: p, s, d, id, e, es, h => by
    cases d with
    | leaf _ _ _ => simp [at?] at h
    | lst _ => simp [at?] at h
    | obj ds =>
      simp only [at?] at h
      cases hc : entry n ds with
      | none => simp [hc] at h
      | some c =>
        simp only [hc] at h
        cases s with
        | leaf _ _ _ => simp only [overlay, at?, hc, h]
        | lst _ => simp only [overlay, at?, hc, h]
        | obj ss =>
          simp only [overlay, at?, entry_overlayE, hc, Option.map_some]
          cases hs : entry n ss with
          | none => simp only [h]
          | some s => exact overlay_leaf_at p s c id e es h
  | .idx i :: p, s, d, id, e, es, h => by
    cases d with
    | leaf _ _ _ => simp [at?] at h
    | obj _ => simp [at?] at h
    | lst ds =>
      simp only [at?] at h
      cases hc : ds[i]? with
      | none => simp [hc] at h
      | some c =>
        simp only [hc] at h
        cases s with
        | leaf _ _ _ => simp only [overlay, at?, hc, h]
        | obj _ => simp only [overlay, at?, hc, h]
        | lst ss =>
          simp only [overlay, at?, getElem_overlayL, hc, Option.map_some]
          cases hs : ss[i]? with
          | none => simp only [h]
          | some s => exact overlay_leaf_at p s c id e es h

/-! ### merge: entries -/

theorem entry_mem {n : Str} {v : Val} : ∀ {es : List (Str × Val)}, entry n es = some v → (n, v) ∈ es
  | [], h => by simp [entry] at h
  | (k, d) :: es, h => by
    unfold entry at h
    split at h
    · rename_i hk; subst hk; simp at h; simp [h]
    · exact List.mem_cons_of_mem _ (entry_mem h)

theorem entry_names {n : Str} {v : Val} {es : List (Str × Val)} (h : entry n es = some v) : n ∈ es.map Prod.fst :=
  List.mem_map.2 ⟨_, entry_mem h, rfl⟩

theorem entry_mergeE (n : Str) : ∀ (ss ds : List (Str × Val)), (ss.map Prod.fst).Nodup →
    entry n (mergeE ss ds) = match entry n ss with
      | some s => some (merge s ((entry n ds).getD emptyV))
      | none => entry n ds
  | [], ds, _ => by simp [mergeE, entry]
  | (k, s) :: ss, ds, h => by
    simp only [List.map_cons, List.nodup_cons] at h
    simp only [mergeE]
    rw [entry_mergeE n ss _ h.2]
    by_cases hk : k = n
    · subst hk
      rw [entry_none h.1, entry_upsert_self]; simp [entry]
    · rw [entry_upsert_ne (Ne.symm hk)]; simp [entry, hk]

theorem names_mergeE : ∀ (ss ds : List (Str × Val)), (ss.map Prod.fst).Nodup →
    (mergeE ss ds).map Prod.fst = ds.map Prod.fst ++ (ss.map Prod.fst).filter (fun n => n ∉ ds.map Prod.fst)
  | [], ds, _ => by simp [mergeE]
  | (k, s) :: ss, ds, h => by
    simp only [List.map_cons, List.nodup_cons] at h
    simp only [mergeE]
    rw [names_mergeE ss _ h.2, names_upsert]
    by_cases hk : k ∈ ds.map Prod.fst
    · simp only [if_pos hk, List.map_cons]
      rw [List.filter_cons_of_neg (by simpa using hk)]
    · simp only [if_neg hk, List.map_cons]
      rw [List.filter_cons_of_pos (by simpa using hk), List.append_assoc]
      congr 1
      simp only [List.cons_append, List.nil_append, List.cons.injEq, true_and]
      apply List.filter_congr
      intro x hx
      have : x ≠ k := fun he => h.1 (he ▸ hx)
      simp [this]

theorem assoc_ext : ∀ (a b : List (Str × Val)), (a.map Prod.fst).Nodup → a.map Prod.fst = b.map Prod.fst →
    (∀ n, entry n a = entry n b) → a = b
  | [], [], _, _, _ => rfl
  | [], _ :: _, _, h, _ => by simp at h
  | _ :: _, [], _, h, _ => by simp at h
  | (k, v) :: a, (j, w) :: b, hn, h, he => by
    simp only [List.map_cons, List.cons.injEq, List.nodup_cons] at h hn
    obtain ⟨h1, h2⟩ := h
    subst h1
    have hv := he k
    simp only [entry, if_true, Option.some.injEq] at hv
    subst hv
    rw [assoc_ext a b hn.2 h2]
    intro n
    have := he n
    simp only [entry] at this
    by_cases hk : k = n
    · subst hk
      rw [entry_none hn.1, entry_none (by rw [← h2]; exact hn.1)]
    · rwa [if_neg hk, if_neg hk] at this

theorem getElem_mergeL : ∀ (ss ds : List Val) (i : Nat),
    (mergeL ss ds)[i]? = match ss[i]? with
      | some s => some (merge s (ds[i]?.getD emptyV))
      | none => ds[i]?
  | [], ds, i => by simp [mergeL]
  | s :: ss, [], 0 => by simp [mergeL]
  | s :: ss, [], i + 1 => by
    have := getElem_mergeL ss [] i
    simpa [mergeL] using this
  | s :: ss, d :: ds, 0 => by simp [mergeL]
  | s :: ss, d :: ds, i + 1 => by simpa [mergeL] using getElem_mergeL ss ds i

/-! ### merge: paths -/

theorem overLeaf_empty {id : TypeId} {es : List (List (Option UInt8))} {w : Val} (h : id ≠ .empty) :
    overLeaf id es emptyV w = w := overLeaf_else (by intro e es' he; injection he with he; exact h he.symm)

theorem distinct_entry {n : Str} {v : Val} : ∀ {es : List (Str × Val)}, DistinctVE es → entry n es = some v → DistinctV v
  | [], _, h => by simp [entry] at h
  | (k, d) :: es, hd, h => by
    unfold entry at h
    split at h
    · simp at h; subst h; exact hd.1
    · exact distinct_entry hd.2 h

theorem distinct_item {v : Val} : ∀ {cs : List Val} {i : Nat}, DistinctVL cs → cs[i]? = some v → DistinctV v
  | [], i, _, h => by simp at h
  | c :: cs, 0, hd, h => by simp at h; subst h; exact hd.1
  | c :: cs, i + 1, hd, h => distinct_item (cs := cs) (i := i) hd.2 (by simpa using h)

theorem at_empty (p : List Step) : (at? emptyV p).getD emptyV = emptyV := by
  cases p with
  | nil => rfl
  | cons a p => simp [emptyV, at?]

theorem merge_leaf_at : ∀ (p : List Step) (s d : Val) (id : TypeId) (e : Endian) (es : List (List (Option UInt8))),
    DistinctV s → id ≠ .empty → at? s p = some (.leaf id e es) →
    at? (merge s d) p = some (overLeaf id es ((at? d p).getD emptyV) (.leaf id e es))
  | [], s, d, id, e, es, hs, hid, h => by
    simp only [at?, Option.some.injEq] at h; subst h
    simp only [at?, merge, hid, if_false, Option.getD_some]
  | .key n :: p, s, d, id, e, es, hs, hid, h => by
    cases s with
    | leaf _ _ _ => simp [at?] at h
    | lst _ => simp [at?] at h
    | obj ss =>
      simp only [at?] at h
      cases hc : entry n ss with
      | none => simp [hc] at h
      | some c =>
        simp only [hc] at h
        have hne : ss.isEmpty = false := by
          cases ss with
          | nil => simp [entry] at hc
          | cons a l => rfl
        simp only [merge, hne, Bool.false_eq_true, if_false, at?, entry_mergeE n ss _ hs.1, hc]
        rw [merge_leaf_at p c _ id e es (distinct_entry hs.2 hc) hid h]
        congr 2
        cases d with
        | leaf a b c =>
          simp only [entries, entry, Option.getD_none, at?]
          exact at_empty p
        | lst ds =>
          simp only [entries, entry, Option.getD_none, at?]
          exact at_empty p
        | obj ds =>
          simp only [entries, at?]
          cases entry n ds with
          | none => simp only [Option.getD_none]; exact at_empty p
          | some d' => rfl
  | .idx i :: p, s, d, id, e, es, hs, hid, h => by
    cases s with
    | leaf _ _ _ => simp [at?] at h
    | obj _ => simp [at?] at h
    | lst ss =>
      simp only [at?] at h
      cases hc : ss[i]? with
      | none => simp [hc] at h
      | some c =>
        simp only [hc] at h
        have hne : ss.isEmpty = false := by
          cases ss with
          | nil => simp at hc
          | cons a l => rfl
        simp only [merge, hne, Bool.false_eq_true, if_false, at?, getElem_mergeL, hc]
        rw [merge_leaf_at p c _ id e es (distinct_item hs hc) hid h]
        congr 2
        cases d with
        | leaf a b c =>
          simp only [items, List.getElem?_nil, Option.getD_none, at?]
          exact at_empty p
        | obj ds =>
          simp only [items, List.getElem?_nil, Option.getD_none, at?]
          exact at_empty p
        | lst ds =>
          simp only [items, at?]
          cases ds[i]? with
          | none => simp only [Option.getD_none]; exact at_empty p
          | some d' => rfl

theorem merge_silent_at : ∀ (p : List Step) (s d v : Val), DistinctV s → Silent s p → at? d p = some v →
    at? (merge s d) p = some v
  | [], s, d, v, hs, hq, h => by
    cases s with
    | leaf id e es => simp only [Silent] at hq; simp only [merge, hq, if_true]; exact h
    | obj ss => simp only [Silent] at hq; subst hq; simpa [merge] using h
    | lst ss => simp only [Silent] at hq; subst hq; simpa [merge] using h
  | .key n :: p, s, d, v, hs, hq, h => by
    cases s with
    | leaf id e es => simp only [Silent] at hq; simp only [merge, hq, if_true]; exact h
    | lst ss => simp only [Silent] at hq; subst hq; simpa [merge] using h
    | obj ss =>
      cases hss : ss.isEmpty with
      | true => simp only [merge, hss, if_true]; exact h
      | false =>
        cases d with
        | leaf _ _ _ => simp [at?] at h
        | lst _ => simp [at?] at h
        | obj ds =>
          simp only [at?] at h
          cases hc : entry n ds with
          | none => simp [hc] at h
          | some c =>
            simp only [hc] at h
            simp only [merge, hss, Bool.false_eq_true, if_false, at?, entries, entry_mergeE n ss _ hs.1, hc, Option.getD_some]
            cases he : entry n ss with
            | none => exact h
            | some s' =>
              simp only [Silent, he] at hq
              exact merge_silent_at p s' c v (distinct_entry hs.2 he) hq h
  | .idx i :: p, s, d, v, hs, hq, h => by
    cases s with
    | leaf id e es => simp only [Silent] at hq; simp only [merge, hq, if_true]; exact h
    | obj ss => simp only [Silent] at hq; subst hq; simpa [merge] using h
    | lst ss =>
      cases hss : ss.isEmpty with
      | true => simp only [merge, hss, if_true]; exact h
      | false =>
        cases d with
        | leaf _ _ _ => simp [at?] at h
        | obj _ => simp [at?] at h
        | lst ds =>
          simp only [at?] at h
          cases hc : ds[i]? with
          | none => simp [hc] at h
          | some c =>
            simp only [hc] at h
            simp only [merge, hss, Bool.false_eq_true, if_false, at?, items, getElem_mergeL, hc, Option.getD_some]
            cases he : ss[i]? with
            | none => exact h
            | some s' =>
              simp only [Silent, he] at hq
              exact merge_silent_at p s' c v (distinct_item hs he) hq h

/-! ### merge: idempotence -/

theorem entries_obj (es : List (Str × Val)) : entries (.obj es) = es := rfl
theorem items_lst (es : List Val) : items (.lst es) = es := rfl

theorem overLeaf_idem {id : TypeId} {es : List (List (Option UInt8))} {d : Val} {e : Endian} :
    overLeaf id es (overLeaf id es d (.leaf id e es)) (.leaf id e es) = overLeaf id es d (.leaf id e es) := by
  have key : ∀ e' (t : List (List (Option UInt8))), overLeaf id es (.leaf id e' (es ++ t)) (.leaf id e es) = .leaf id e' (es ++ t) := by
    intro e' t
    simp [overLeaf]
  have key0 : overLeaf id es (.leaf id e es) (.leaf id e es) = .leaf id e es := by
    simp [overLeaf]
  conv => lhs; rw [overLeaf.eq_def id es d]
  conv => rhs; rw [overLeaf.eq_def]
  split
  · split
    · rename_i h; obtain ⟨h1, h2⟩ := h; subst h1; exact key _ _
    · exact key0
  · exact key0

mutual
theorem merge_idem : ∀ (s d : Val), DistinctV s → DistinctV d → merge s (merge s d) = merge s d
  | .leaf id e es, d, hs, hd => by
    by_cases h : id = .empty
    · simp only [merge, h, if_true]
    · simp only [merge, h, if_false]; exact overLeaf_idem
  | .obj ss, d, hs, hd => by
    cases hss : ss.isEmpty with
    | true => simp only [merge, hss, if_true]
    | false =>
      simp only [merge, hss, Bool.false_eq_true, if_false, entries_obj]
      congr 1
      have hde := distinct_entries hd
      have hm := distinct_mergeE ss _ hs.2 hde
      refine (assoc_ext _ _ hm.1 ?_ ?_).symm
      · rw [names_mergeE ss (mergeE ss (entries d)) hs.1]
        have : (ss.map Prod.fst).filter (fun n => n ∉ (mergeE ss (entries d)).map Prod.fst) = [] := by
          rw [List.filter_eq_nil_iff]
          intro n hn
          rw [names_mergeE ss _ hs.1]
          simp only [decide_eq_true_eq, List.mem_append, List.mem_filter, hn, true_and]
          intro hc
          exact hc (Classical.em _)
        rw [this, List.append_nil]
      · intro n
        rw [entry_mergeE n ss (mergeE ss (entries d)) hs.1, entry_mergeE n ss (entries d) hs.1]
        cases hc : entry n ss with
        | none => rfl
        | some s =>
          simp only [Option.getD_some]
          rw [merge_idemE ss n s hs.2 hc _ (distinct_getD hde.2)]
  | .lst ss, d, hs, hd => by
    cases hss : ss.isEmpty with
    | true => simp only [merge, hss, if_true]
    | false =>
      simp only [merge, hss, Bool.false_eq_true, if_false, items_lst]
      rw [merge_idemL ss _ hs (distinct_items hd)]
theorem merge_idemE : ∀ (ss : List (Str × Val)) (n : Str) (s : Val), DistinctVE ss → entry n ss = some s → ∀ d : Val, DistinctV d →
    merge s (merge s d) = merge s d
  | [], n, s, hs, h, d, hd => by simp [entry] at h
  | (k, s') :: ss, n, s, hs, h, d, hd => by
    by_cases hk : k = n
    · simp only [entry, hk, if_true, Option.some.injEq] at h
      rw [← h]; exact merge_idem s' d hs.1 hd
    · simp only [entry, hk, if_false] at h
      exact merge_idemE ss n s hs.2 h d hd
theorem merge_idemL : ∀ (ss ds : List Val), DistinctVL ss → DistinctVL ds → mergeL ss (mergeL ss ds) = mergeL ss ds
  | [], ds, hs, hd => by simp only [mergeL]
  | s :: ss, [], hs, hd => by
    simp only [mergeL]
    rw [merge_idem s emptyV hs.1 trivial, merge_idemL ss [] hs.2 trivial]
  | s :: ss, d :: ds, hs, hd => by
    simp only [mergeL]
    rw [merge_idem s d hs.1 hd.1, merge_idemL ss ds hs.2 hd.2]
end

mutual
theorem fits_merge : ∀ (s d : Val), DistinctV s → Fits s (merge s d)
  | .leaf id e es, d, hs => trivial
  | .obj ss, d, hs => by
    cases ss with
    | nil => exact ⟨fun h => absurd rfl h, trivial⟩
    | cons a l =>
      simp only [merge, List.isEmpty_cons, Bool.false_eq_true, if_false]
      exact ⟨fun _ => rfl, fits_mergeE (a :: l) (mergeE (a :: l) (entries d)) hs (fun n s hn => by
        refine ⟨(entry n (entries d)).getD emptyV, ?_⟩
        show entry n (mergeE (a :: l) (entries d)) = _
        rw [entry_mergeE n _ _ hs.1, hn])⟩
  | .lst ss, d, hs => by
    cases ss with
    | nil => trivial
    | cons a l =>
      simp only [merge, List.isEmpty_cons, Bool.false_eq_true, if_false]
      exact fits_mergeL (a :: l) (items d) hs
theorem fits_mergeE : ∀ (ss ds : List (Str × Val)), DistinctV (.obj ss) →
    (∀ n s, entry n ss = some s → ∃ d, entry n ds = some (merge s d)) → FitsE ss ds
  | [], ds, hs, h => trivial
  | (k, s) :: ss, ds, hs, h => by
    have h1 := hs.1
    simp only [List.map_cons, List.nodup_cons] at h1
    refine ⟨?_, fits_mergeE ss ds ⟨h1.2, hs.2.2⟩ ?_⟩
    · intro d hd
      obtain ⟨d', h'⟩ := h k s (by simp [entry])
      rw [h'] at hd; injection hd with hd; rw [← hd]
      exact fits_merge s d' hs.2.1
    · intro n s' hn
      refine h n s' ?_
      have : k ≠ n := by rintro rfl; exact h1.1 (entry_names hn)
      simp [entry, this, hn]
theorem fits_mergeL : ∀ (ss ds : List Val), DistinctVL ss → FitsL ss (mergeL ss ds)
  | [], ds, hs => trivial
  | s :: ss, [], hs => by simp only [mergeL]; exact ⟨fits_merge s _ hs.1, fits_mergeL ss [] hs.2⟩
  | s :: ss, d :: ds, hs => by simp only [mergeL]; exact ⟨fits_merge s _ hs.1, fits_mergeL ss ds hs.2⟩
end

end Conduit
