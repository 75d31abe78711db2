import Verif.Lemmas.NodeUpdate
/-
update gives the merged value (C26): the induction.
-/
namespace Conduit
open Spec Schema Node

/-! ### values -/

theorem fits_empty (s : Val) : Fits s emptyV := by
  cases s with
  | leaf id e es => trivial
  | obj ss =>
    refine ⟨fun _ => rfl, ?_⟩
    show FitsE ss []
    induction ss with
    | nil => trivial
    | cons a ss ih => obtain ⟨n, s⟩ := a; exact ⟨by simp [entry], ih⟩
  | lst ss => cases ss <;> trivial

theorem entry_upsert_ne {n k : Str} (h : k ≠ n) (f : Val → Val) : ∀ ds : List (Str × Val), entry k (upsert n f ds) = entry k ds
  | [] => by simp [upsert, entry, Ne.symm h]
  | (j, d) :: ds => by
    unfold upsert
    split
    · rename_i hj; subst hj; simp [entry, Ne.symm h]
    · simp only [entry]; rw [entry_upsert_ne h f ds]

theorem entry_upsert_self {n : Str} (f : Val → Val) : ∀ ds : List (Str × Val),
    entry n (upsert n f ds) = some (f ((entry n ds).getD emptyV))
  | [] => by simp [upsert, entry]
  | (j, d) :: ds => by
    unfold upsert
    split
    · rename_i hj; subst hj; simp [entry]
    · rename_i hj; simp only [entry, if_neg hj]; exact entry_upsert_self f ds

theorem fitsE_upsert {n : Str} {f : Val → Val} {ds : List (Str × Val)} : ∀ {ss : List (Str × Val)}, n ∉ ss.map Prod.fst →
    FitsE ss ds → FitsE ss (upsert n f ds)
  | [], _, _ => trivial
  | (k, s) :: ss, hn, h => by
    simp only [List.map_cons, List.mem_cons, not_or] at hn
    refine ⟨?_, fitsE_upsert hn.2 h.2⟩
    rw [entry_upsert_ne (Ne.symm hn.1)]
    exact h.1

theorem upsert_split {n : Str} {f : Val → Val} {d : Val} {B : List (Str × Val)} : ∀ {A : List (Str × Val)}, n ∉ A.map Prod.fst →
    upsert n f (A ++ (n, d) :: B) = A ++ (n, f d) :: B
  | [], _ => by simp [upsert]
  | (k, c) :: A, h => by
    simp only [List.map_cons, List.mem_cons, not_or] at h
    simp only [List.cons_append, upsert, if_neg (Ne.symm h.1), upsert_split h.2]

theorem upsert_new {n : Str} {f : Val → Val} : ∀ {A : List (Str × Val)}, n ∉ A.map Prod.fst →
    upsert n f A = A ++ [(n, f emptyV)]
  | [], _ => by simp [upsert]
  | (k, c) :: A, h => by
    simp only [List.map_cons, List.mem_cons, not_or] at h
    simp only [List.cons_append, upsert, if_neg (Ne.symm h.1), upsert_new h.2]

theorem names_upsert {n : Str} {f : Val → Val} : ∀ ds : List (Str × Val),
    (upsert n f ds).map Prod.fst = if n ∈ ds.map Prod.fst then ds.map Prod.fst else ds.map Prod.fst ++ [n]
  | [] => by simp [upsert]
  | (k, d) :: ds => by
    unfold upsert
    by_cases hk : k = n
    · simp [hk]
    · simp only [if_neg hk, List.map_cons, names_upsert ds, List.mem_cons, Ne.symm hk, false_or]
      split <;> simp

theorem nodup_upsert {n : Str} {f : Val → Val} {ds : List (Str × Val)} (h : (ds.map Prod.fst).Nodup) :
    ((upsert n f ds).map Prod.fst).Nodup := by
  rw [names_upsert]
  split
  · exact h
  · rename_i hn
    rw [List.nodup_append]
    exact ⟨h, by simp, fun a ha b hb => by simp at hb; subst hb; exact fun he => hn (he ▸ ha)⟩

theorem distinctVE_upsert {n : Str} {f : Val → Val} (hf : ∀ d, DistinctV d → DistinctV (f d)) : ∀ ds : List (Str × Val),
    DistinctVE ds → DistinctVE (upsert n f ds)
  | [], _ => ⟨hf _ trivial, trivial⟩
  | (k, d) :: ds, h => by
    unfold upsert
    split
    · exact ⟨hf d h.1, h.2⟩
    · exact ⟨h.1, distinctVE_upsert hf ds h.2⟩

theorem distinct_entries {d : Val} (h : DistinctV d) : DistinctV (.obj (entries d)) := by
  cases d with
  | leaf id e es => exact ⟨List.nodup_nil, trivial⟩
  | obj ds => exact h
  | lst ds => exact ⟨List.nodup_nil, trivial⟩

theorem distinct_items {d : Val} (h : DistinctV d) : DistinctVL (items d) := by
  cases d with
  | leaf id e es => trivial
  | obj ds => trivial
  | lst ds => exact h

mutual
theorem distinct_merge : ∀ (s d : Val), DistinctV s → DistinctV d → DistinctV (merge s d)
  | .leaf id e es, d, hs, hd => by
    rw [merge]
    split
    · exact hd
    · unfold overLeaf
      split
      · split <;> trivial
      · trivial
  | .obj ss, d, hs, hd => by
    rw [merge]
    split
    · exact hd
    · exact distinct_mergeE ss (entries d) hs.2 (distinct_entries hd)
  | .lst ss, d, hs, hd => by
    rw [merge]
    split
    · exact hd
    · exact distinct_mergeL ss (items d) hs (distinct_items hd)
theorem distinct_mergeE : ∀ (ss ds : List (Str × Val)), DistinctVE ss → DistinctV (.obj ds) → DistinctV (.obj (mergeE ss ds))
  | [], ds, hs, hd => hd
  | (n, s) :: ss, ds, hs, hd =>
    distinct_mergeE ss _ hs.2 ⟨nodup_upsert hd.1, distinctVE_upsert (fun d h => distinct_merge s d hs.1 h) ds hd.2⟩
theorem distinct_mergeL : ∀ (ss ds : List Val), DistinctVL ss → DistinctVL ds → DistinctVL (mergeL ss ds)
  | [], ds, hs, hd => hd
  | s :: ss, [], hs, hd => ⟨distinct_merge s _ hs.1 trivial, distinct_mergeL ss [] hs.2 trivial⟩
  | s :: ss, d :: ds, hs, hd => ⟨distinct_merge s d hs.1 hd.1, distinct_mergeL ss ds hs.2 hd.2⟩
end

/-! ### steps -/

theorem ready_new (m : Mem) : Ready m new :=
  ⟨⟨by simp, by simp, by simp, fun h => absurd rfl h⟩, by simp [new, places, leafPlaces], fun h => absurd rfl h,
    clean_new, by rw [show owned new = [] by rfl]; exact good_nil m, trivial⟩

theorem places_new : places new = [] := rfl
theorem owned_new : owned new = [] := rfl
theorem blocks_new : blocks new = [] := rfl
theorem val_new (m : Mem) : val m new = emptyV := rfl

theorem pair_new (c : Node) : Pair c new := by
  refine ⟨⟨?_, ?_⟩, ?_, ?_⟩ <;> simp [places_new, owned_new, blocks_new]

/-- a leaf replaced by a compact copy -/
theorem leafReplace_spec {sx : Info} {s : DataType} {dest : Node} {m : Mem} (hs : SrcOK m (.leaf sx s) dest)
    (hd : Ready m dest) (he : s.id ≠ .empty) :
    ∃ m' d', compactTo (.leaf sx s) dest m = .ok (m', d') ∧ Upd m m' dest d' ∧ Ready m' d' ∧
      val m' d' = val m (.leaf sx s) := by
  obtain ⟨m', d', h1, h2, h3⟩ := compactTo_copied (.leaf sx s) dest m hs.readable hd.good hs.own
  obtain ⟨f1, f2, f3⟩ := h3.fresh hd.clean
  have hleaf : ∃ x', d' = .leaf x' { s.compactTo with offset := 0 } := by
    cases d' with
    | leaf x' d'' =>
      simp only [schema, Schema.compactTo, compactAt, he, if_false] at h2
      injection h2 with h2; exact ⟨x', by rw [h2]⟩
    | obj x' es => simp [schema, Schema.compactTo, compactAt, he] at h2
    | lst x' es => simp [schema, Schema.compactTo, compactAt, he] at h2
  obtain ⟨x', rfl⟩ := hleaf
  refine ⟨m', _, h1, ⟨h3.frame.1, ?_, ?_, fun p hp => Or.inr (f3 p hp), fun b hb => Or.inr (h3.blocks b hb),
    fun pl hpl => Or.inr (fun b i hh => h3.blocks b (has_blocks _ pl hpl b i hh))⟩,
    ⟨h3.readable, ?_, fun _ => rfl, f1, f2, trivial⟩, h3.val⟩
  · intro b i hb hn _; exact (h3.frame.2 b hb hn).2 i
  · intro b hb hn hv
    obtain ⟨bs, hbs⟩ := hv
    apply live_of_size (k := bs.length)
    rw [(h3.frame.2 b hb hn).1]; simp [Mem.size, hbs]
  · simp only [places, leafPlaces, DataType.compactTo]
    rw [List.pairwise_iff_getElem]
    intro i j hi hj hij blk k
    simp only [List.getElem_map, List.getElem_range]
    rintro ⟨p, hp, rfl, a1, a2⟩ ⟨q, hq, -, b1, b2⟩
    simp only at hp hq a1 a2 b1 b2
    rw [hp] at hq; injection hq with hq; subst hq
    have : (s.id.bytes : Int) * ((i : Int) + 1) ≤ s.id.bytes * j := Int.mul_le_mul_of_nonneg_left (by omega) (by omega)
    rw [Int.mul_add] at this
    omega

theorem overLeaf_else {id : TypeId} {es : List (List (Option UInt8))} {d w : Val} (h : ∀ e es', d ≠ .leaf id e es') :
    overLeaf id es d w = w := by
  unfold overLeaf
  split
  · split
    · rename_i h1; obtain ⟨h1, _⟩ := h1; subst h1; exact absurd rfl (h _ _)
    · rfl
  · rfl

theorem updateLeaf_spec {sx : Info} {s : DataType} {dest : Node} {m : Mem} (hs : SrcOK m (.leaf sx s) dest)
    (hd : Ready m dest) :
    ∃ m' d', updateLeaf sx s dest m = .ok (m', d') ∧ Upd m m' dest d' ∧ Ready m' d' ∧
      val m' d' = merge (val m (.leaf sx s)) (val m dest) := by
  by_cases he : s.id = .empty
  · exact ⟨m, dest, by simp [updateLeaf, he], Upd.refl _ _, hd, by simp [val, he, merge]⟩
  · have hsn : 0 ≤ s.n := hs.readable.2.2.1
    by_cases hc : dest.dtype.id = s.id ∧ dest.dtype.n ≥ s.n
    · cases dest with
      | obj x ds => exact absurd hc.1.symm hs.readable.1
      | lst x ds => exact absurd hc.1.symm hs.readable.2.1
      | leaf x d =>
        obtain ⟨hid, hle⟩ := hc
        simp only [dtype] at hid hle
        have hde : d.id ≠ .empty := by rw [hid]; exact he
        obtain ⟨m', h1, h2, h3, h4⟩ := leafCopy_spec hs.readable hd.readable hd.nat hd.sep hs.share he hid hle
        refine ⟨m', _, h1, ⟨by rw [h2.1]; exact Nat.le_refl _, fun b i _ _ hb => h3 b i hb, ?_, fun p hp => Or.inl hp,
          fun p hp => Or.inl hp, fun p hp => Or.inl hp⟩, ⟨readable_shape h2 _ hd.readable, hd.sep, hd.nat, hd.clean,
            ⟨hd.good.1, fun p hp => ⟨(hd.good.2 p hp).1, ?_⟩⟩, hd.tidy⟩, ?_⟩
        · intro b hb _ hv
          obtain ⟨bs, hbs⟩ := hv
          apply live_of_size (k := bs.length)
          rw [h2.2]; simp [Mem.size, hbs]
        · obtain ⟨bs, hbs⟩ := (hd.good.2 p hp).2
          apply live_of_size (k := bs.length)
          rw [h2.2]; simp [Mem.size, hbs]
        · simp only [val, he, hde, if_false, merge, overLeaf]
          rw [if_pos ⟨hid, by rw [elems_length, elems_length]; omega⟩, h4, elems_length]
    · obtain ⟨m', d', h1, h2, h3, h4⟩ := leafReplace_spec hs hd he
      refine ⟨m', d', ?_, h2, h3, ?_⟩
      · unfold updateLeaf; rw [if_neg he, if_neg hc]; exact h1
      · rw [h4]
        simp only [val, he, if_false, merge]
        cases dest with
        | obj x ds => simp only [val]; rw [overLeaf_else (by simp)]
        | lst x ds => simp only [val]; rw [overLeaf_else (by simp)]
        | leaf x d =>
          simp only [val]
          simp only [dtype] at hc
          split
          · rw [overLeaf_else]; intro e es' h; injection h with h; exact he h.symm
          · simp only [overLeaf]
            rw [if_neg]
            rintro ⟨h5, h6⟩
            have := hd.readable.2.2.1
            rw [elems_length, elems_length] at h6
            exact hc ⟨h5, by omega⟩

theorem ownInfo_lst {m : Mem} {x : Info} (hc : CleanInfo x) (hg : GoodOwners m (ownPtr x)) : Ready m (.lst x []) := by
  rw [ready_lst]
  exact ⟨⟨hc, hg, by simp⟩, by simp, List.Pairwise.nil⟩

/-- appending a new node to a list -/
theorem ready_append {m : Mem} {x : Info} {P : List Node} (h : Ready m (.lst x P)) :
    Ready m (.lst x (P ++ [new])) ∧ Upd m m (.lst x P) (.lst x (P ++ [new])) := by
  constructor
  · rw [ready_lst] at h ⊢
    obtain ⟨o, h1, h2⟩ := h
    refine ⟨⟨o.clean, o.good, fun p hp c hc q hq => ?_⟩, fun c hc => ?_, ?_⟩
    · rcases List.mem_append.1 hc with hc | hc
      · exact o.own p hp c hc q hq
      · simp at hc; subst hc; simp [owned_new] at hq
    · rcases List.mem_append.1 hc with hc | hc
      · exact h1 c hc
      · simp at hc; subst hc; exact ready_new m
    · rw [List.pairwise_append]
      exact ⟨h2, by simp, fun a _ b hb => by simp at hb; subst hb; exact pair_new a⟩
  · refine ⟨Nat.le_refl _, fun _ _ _ _ _ => rfl, fun _ _ _ h => h, fun p hp => Or.inl ?_, fun p hp => Or.inl ?_, fun p hp => Or.inl ?_⟩
    · simpa [owned, ownedL_eq, owned_new] using hp
    · simpa [blocks, blocksL_eq, blocks_new] using hp
    · simpa [places, placesL_eq, places_new] using hp

theorem ready_append_entry {m : Mem} {x : Info} {P : List (Str × Node)} (n : Str) (h : Ready m (.obj x P)) :
    Ready m (.obj x (P ++ [(n, new)])) ∧ Upd m m (.obj x P) (.obj x (P ++ [(n, new)])) := by
  rw [ready_obj] at h
  obtain ⟨h1, h2⟩ := ready_append h
  exact ⟨by rw [ready_obj]; simpa using h1, upd_obj (by simpa using h2)⟩

/-- a leaf (or an empty list) that becomes an object or list keeps its buffer -/
theorem ready_shell {m : Mem} {d : Node} {x : Info} (h : Ready m d) (hx : d.info = x) (ho : owned d = ownPtr x) :
    Ready m (.lst x []) ∧ Upd m m d (.lst x []) := by
  subst hx
  constructor
  · apply ownInfo_lst
    · cases d with
      | leaf x d => exact h.clean.1
      | obj x d => exact h.clean.1
      | lst x d => exact h.clean.1
    · rw [← ho]; exact h.good
  · refine ⟨Nat.le_refl _, fun _ _ _ _ _ => rfl, fun _ _ _ h => h, fun p hp => Or.inl ?_, fun p hp => ?_, fun p hp => ?_⟩
    · rw [ho]; simpa [owned, ownedL] using hp
    · simp [blocks, blocksL] at hp
    · simp [places, placesL] at hp

theorem addChild_spec {m : Mem} {dest : Node} (n : Str) (hd : Ready m dest) (hdis : DistinctV (val m dest))
    (hit : items (val m dest) = []) :
    ∃ x A c B, addChild dest n = .ok (x, A ++ (n, c) :: B, A.length) ∧ Ready m (.obj x (A ++ (n, c) :: B)) ∧
      Upd m m dest (.obj x (A ++ (n, c) :: B)) ∧
      (∀ f, upsert n f (entries (val m dest)) = valE m A ++ (n, f (val m c)) :: valE m B) ∧
      val m c = (entry n (entries (val m dest))).getD emptyV := by
  cases dest with
  | leaf x d =>
    obtain ⟨h1, h2⟩ := ready_shell hd (x := x) rfl rfl
    have h1' : Ready m (.obj x []) := by rw [ready_obj]; exact h1
    obtain ⟨h3, h4⟩ := ready_append_entry n h1'
    have h2' : Upd m m (.leaf x d) (.obj x []) :=
      ⟨h2.len, h2.keep, h2.live, by simpa [owned, ownedE, ownedL] using h2.own, by simp [blocks, blocksE], by simp [places, placesE]⟩
    have he : entries (val m (.leaf x d)) = [] := by simp only [val]; split <;> rfl
    refine ⟨x, [], new, [], rfl, h3, h2'.trans h4, ?_, ?_⟩
    · intro f; rw [he]; simp [upsert, valE, val_new]
    · rw [he]; rfl
  | lst x cs =>
    have hcs : cs = [] := by
      simp only [val, items, valL_eq, List.map_eq_nil_iff] at hit; exact hit
    subst hcs
    have h1' : Ready m (.obj x []) := by rw [ready_obj]; exact hd
    obtain ⟨h3, h4⟩ := ready_append_entry n h1'
    have h2' : Upd m m (.lst x []) (.obj x []) := by
      have := Upd.refl m (.lst x [])
      exact ⟨this.len, this.keep, this.live, by simpa [owned, ownedE, ownedL] using this.own, by simp [blocks, blocksE], by simp [places, placesE]⟩
    refine ⟨x, [], new, [], rfl, h3, h2'.trans h4, ?_, rfl⟩
    intro f; simp [val, valL, entries, upsert, valE, val_new]
  | obj x ds =>
    simp only [addChild]
    cases hpos : Node.posOf ds n with
    | none =>
      have hn := posOf_none hpos
      obtain ⟨h3, h4⟩ := ready_append_entry n hd
      refine ⟨x, ds, new, [], rfl, h3, h4, ?_, ?_⟩
      · intro f
        simp only [val, entries]
        rw [upsert_new (by rw [names_valE]; exact hn)]; simp [valE, val_new]
      · simp only [val, entries]
        rw [entry_none (by rw [names_valE]; exact hn)]; rfl
    | some i =>
      obtain ⟨A, d, B, rfl, rfl, hA⟩ := posOf_some hpos
      refine ⟨x, A, d, B, rfl, hd, Upd.refl _ _, ?_, ?_⟩
      · intro f
        simp only [val, entries, valE_append, valE]
        rw [upsert_split (by rw [names_valE]; exact hA)]
      · simp only [val, entries, valE_append, valE]
        rw [entry_split (by rw [names_valE]; exact hA)]; rfl

theorem initList_spec {m : Mem} {dest : Node} (hd : Ready m dest) (hnl : ∀ x cs, dest ≠ .lst x cs) :
    ∃ m1 x1, initList dest m = .ok (m1, x1, []) ∧ Upd m m1 dest (.lst x1 []) ∧ Ready m1 (.lst x1 []) := by
  have hid : dest.dtype.id ≠ .list := by
    cases dest with
    | leaf x d => exact hd.readable.2.1
    | obj x d => simp [dtype]
    | lst x d => exact absurd rfl (hnl _ _)
  have hcomp : dest.dtype.compatible { id := .list } = false := by
    simp [DataType.compatible, hid]
  by_cases hrel : (dest.info.data.isSome || (dest.dtype.id == .object || dest.dtype.id == .list)) = true
  · obtain ⟨m1, a1, a2⟩ := releaseMem_spec dest m hd.good
    refine ⟨m1, dest.releasedInfo, ?_, ⟨by rw [a2.1]; exact Nat.le_refl _, ?_, ?_, ?_, ?_, ?_⟩, ?_⟩
    · simp only [initList, init, hcomp, hrel, a1, bind_ok, if_true, Bool.false_eq_true, if_false]; rfl
    · intro b i hb hn _; exact a2.byte hn i
    · intro b hb hn hv
      obtain ⟨bs, hbs⟩ := hv
      exact ⟨bs, by rw [a2.2 b hn]; exact hbs⟩
    · simp [owned, ownPtr, releasedInfo_clean hd.clean, ownedL]
    · simp [blocks, blocksL]
    · simp [places, placesL]
    · apply ownInfo_lst
      · intro h; rw [releasedInfo_clean hd.clean] at h; cases h
      · simp only [ownPtr, releasedInfo_clean hd.clean, Bool.false_eq_true, if_false]; exact good_nil _
  · cases dest with
    | obj x d => simp [dtype] at hrel
    | lst x d => exact absurd rfl (hnl _ _)
    | leaf x d =>
      simp only [Bool.not_eq_true] at hrel
      have hx : x.data = none := by
        simp only [Bool.or_eq_false_iff, info] at hrel
        cases hx : x.data with
        | none => rfl
        | some q => simp [hx] at hrel
      obtain ⟨h1, h2⟩ := ready_shell hd (x := x) rfl rfl
      refine ⟨m, x, ?_, h2, h1⟩
      have hrel' : ¬ ((Node.leaf x d).info.data.isSome || ((Node.leaf x d).dtype.id == .object || (Node.leaf x d).dtype.id == .list)) = true := by
        rw [hrel]; simp
      simp only [initList, init, hcomp, if_neg hrel', Bool.false_eq_true, if_false, bind_ok]; rfl

/-! ### the induction -/

theorem overlap_getD {ds : List (Str × Val)} {n : Str} {s : Val} (h : ∀ d, entry n ds = some d → Fits s d) :
    Fits s ((entry n ds).getD emptyV) := by
  cases he : entry n ds with
  | none => exact fits_empty s
  | some d => exact h d he

theorem distinct_getD {n : Str} : ∀ {ds : List (Str × Val)}, DistinctVE ds → DistinctV ((entry n ds).getD emptyV)
  | [], _ => trivial
  | (k, d) :: ds, h => by
    unfold entry
    split
    · exact h.1
    · exact distinct_getD h.2

mutual
theorem update_spec : ∀ (src dest : Node) (m : Mem), SrcOK m src dest → Ready m dest → Fits (val m src) (val m dest) →
    DistinctV (val m src) → DistinctV (val m dest) →
    ∃ m' d', update src dest m = .ok (m', d') ∧ Upd m m' dest d' ∧ Ready m' d' ∧ val m' d' = merge (val m src) (val m dest)
  | .leaf sx s, dest, m, hs, hd, _, _, _ => by
    obtain ⟨m', d', h⟩ := updateLeaf_spec hs hd
    exact ⟨m', d', by rw [update]; exact h.1, h.2⟩
  | .obj sx es, dest, m, hs, hd, hf, ds, dd => by
    obtain ⟨m', d', h1, h2, h3, h4⟩ := updateE_spec es dest m sx hs hd
      (fun h => hf.1 (by simp only [valE_eq]; simpa using h)) hf.2 ds dd
    refine ⟨m', d', by rw [update]; exact h1, h2, h3, ?_⟩
    rw [h4]
    simp only [val, merge]
    cases es <;> simp [valE]
  | .lst sx cs, dest, m, hs, hd, hf, ds, dd => by
    by_cases hl : ∃ x ds, dest = .lst x ds
    · obtain ⟨x, ds', rfl⟩ := hl
      obtain ⟨m', ds'', h1, h2, h3, h4, _⟩ := updateL_spec cs ds' [] m x sx hs hd hf ds dd
      refine ⟨m', .lst x ds'', by rw [update, h1, bind_ok], h2, h3, ?_⟩
      simp only [val, merge, h4, items]
      cases cs <;> simp [valL, mergeL]
    · have hnl : ∀ x ds, dest ≠ .lst x ds := fun x ds h => hl ⟨x, ds, h⟩
      have hit : items (val m dest) = [] := by
        cases dest with
        | leaf x d => simp only [val]; split <;> rfl
        | obj x d => rfl
        | lst x d => exact absurd rfl (hnl _ _)
      cases hcs : cs with
      | nil =>
        refine ⟨m, dest, ?_, Upd.refl _ _, hd, by simp [val, valL, merge]⟩
        cases dest with
        | leaf x d => simp [update]
        | obj x d => simp [update]
        | lst x d => exact absurd rfl (hnl _ _)
      | cons c0 cs0 =>
        rw [← hcs]
        obtain ⟨m1, x1, a1, a2, a3⟩ := initList_spec hd hnl
        have hs1 := hs.after a2
        have vS : val m1 (.lst sx cs) = val m (.lst sx cs) := val_same _ (a2.same hs)
        obtain ⟨m', ds'', h1, h2, h3, h4, _⟩ := updateL_spec cs [] [] m1 x1 sx hs1 a3 (by
            cases hv : valL m1 cs <;> trivial)
          (by have := ds; rw [← vS] at this; exact this) trivial
        refine ⟨m', .lst x1 ds'', ?_, a2.trans h2, h3, ?_⟩
        · have hup : update (.lst sx cs) dest m = (do
              let r ← dest.initList m
              let s ← updateL cs r.2.2 r.1
              .ok (s.1, .lst r.2.1 s.2)) := by
            cases dest with
            | leaf x d => rw [update]; simp [hcs]; simp
            | obj x d => rw [update]; simp [hcs]; simp
            | lst x d => exact absurd rfl (hnl _ _)
          rw [hup, a1, bind_ok, h1, bind_ok]
        · simp only [val] at vS; injection vS with vS
          simp only [val, merge, hit, h4, vS]
          rw [hcs]; simp [valL]
theorem updateE_spec : ∀ (es : List (Str × Node)) (dest : Node) (m : Mem) (sx : Info), SrcOK m (.obj sx es) dest → Ready m dest →
    (es ≠ [] → items (val m dest) = []) → FitsE (valE m es) (entries (val m dest)) →
    DistinctV (.obj (valE m es)) → DistinctV (val m dest) →
    ∃ m' d', updateE es dest m = .ok (m', d') ∧ Upd m m' dest d' ∧ Ready m' d' ∧
      val m' d' = if es.isEmpty then val m dest else .obj (mergeE (valE m es) (entries (val m dest)))
  | [], dest, m, sx, hs, hd, hi, hf, ds, dd => ⟨m, dest, rfl, Upd.refl _ _, hd, by simp⟩
  | (n, c) :: es, dest, m, sx, hs, hd, hi, hf, ds, dd => by
    simp only [valE, DistinctV, DistinctVE, List.map_cons, List.nodup_cons, names_valE] at ds
    obtain ⟨⟨hn, hnd⟩, dsc, dse⟩ := ds
    have hi' := hi (by simp)
    obtain ⟨x, A, d, B, a1, a2, a3, a4, a5⟩ := addChild_spec n hd dd hi'
    have hs0 := hs.after a3
    -- the child
    have hrd : Ready m d := by
      have := a2; rw [ready_obj, ready_lst] at this; exact this.2.1 d (by simp)
    have hsc : SrcOK m c d := hs0.sub hs.readable.1 (by intro b hb; simp [blocks, blocksE, hb])
      (by intro a ha; simp [places, placesE, ha])
      (by intro p hp; simp [owned, ownedE_eq, ownedL_eq, hp]) (by intro p hp; simp [places, placesE_eq, placesL_eq, hp])
    obtain ⟨m1, d1, b1, b2, b3, b4⟩ := update_spec c d m hsc hrd (by rw [a5]; exact overlap_getD hf.1) dsc
      (by rw [a5]; exact distinct_getD (distinct_entries dd).2)
    obtain ⟨c1, c2, c3, c4⟩ := replace_entry a2 b2 b3
    have hse : SrcOK m (.obj sx es) dest := hs.sub hs.readable.2 (by intro b hb; simp only [blocks, blocksE] at hb ⊢; simp [hb])
      (by intro b hb; simp only [places, placesE] at hb ⊢; simp [hb]) (fun _ h => h) (fun _ h => h)
    have u1 := a3.trans c2
    have hse1 := hse.after u1
    have vS : valE m1 es = valE m es := by
      have := val_same _ (u1.same hse); simp only [val] at this; injection this
    have vD : val m1 (.obj x (A ++ (n, d1) :: B)) = .obj (upsert n (fun d => merge (val m c) d) (entries (val m dest))) := by
      simp only [val]
      rw [a4, valE_append]
      simp only [valE, c3, c4, b4]
    have dd1 : DistinctV (val m1 (.obj x (A ++ (n, d1) :: B))) := by
      rw [vD]
      exact ⟨nodup_upsert (distinct_entries dd).1, distinctVE_upsert (fun d h => distinct_merge _ d dsc h) _ (distinct_entries dd).2⟩
    obtain ⟨m2, d2, e1, e2, e3, e4⟩ := updateE_spec es (.obj x (A ++ (n, d1) :: B)) m1 sx hse1 c1 (fun _ => rfl)
      (by rw [vD, vS]; exact fitsE_upsert (by rw [names_valE]; exact hn) hf.2)
      (by rw [vS]; exact ⟨by rw [names_valE]; exact hnd, dse⟩) dd1
    refine ⟨m2, d2, ?_, u1.trans e2, e3, ?_⟩
    · rw [updateE, a1, bind_ok]
      simp only [List.getElem?_append_right (Nat.le_refl _), Nat.sub_self, List.getElem?_cons_zero, Option.getD_some, b1, bind_ok]
      have hset : (A ++ (n, d) :: B).set A.length (n, d1) = A ++ (n, d1) :: B := by simp
      rw [hset]; exact e1
    · rw [e4, vD, vS]
      simp only [entries, valE, mergeE, List.isEmpty_cons, Bool.false_eq_true, if_false]
      cases es <;> simp [valE, mergeE]
theorem updateL_spec : ∀ (cs ds P : List Node) (m : Mem) (x sx : Info), SrcOK m (.lst sx cs) (.lst x (P ++ ds)) →
    Ready m (.lst x (P ++ ds)) → FitsL (valL m cs) (valL m ds) → DistinctV (.lst (valL m cs)) → DistinctVL (valL m ds) →
    ∃ m' ds', updateL cs ds m = .ok (m', ds') ∧ Upd m m' (.lst x (P ++ ds)) (.lst x (P ++ ds')) ∧
      Ready m' (.lst x (P ++ ds')) ∧ valL m' ds' = mergeL (valL m cs) (valL m ds) ∧ valL m' P = valL m P
  | [], ds, P, m, x, sx, hs, hd, hf, dsr, dd => by
    refine ⟨m, ds, by rw [updateL], Upd.refl _ _, hd, by simp [valL, mergeL], rfl⟩
  | c :: cs, [], P, m, x, sx, hs, hd, hf, dsr, dd => by
    simp only [List.append_nil] at hs hd ⊢
    obtain ⟨a1, a2⟩ := ready_append hd
    have hs0 := hs.after a2
    have hsc : SrcOK m c new := hs0.sub hs.readable.1 (by intro b hb; simp [blocks, blocksL, hb])
      (by intro a ha; simp [places, placesL, ha]) (by simp [owned_new]) (by simp [places_new])
    obtain ⟨m1, d1, b1, b2, b3, b4⟩ := update_spec c new m hsc (ready_new m) (fits_empty _) dsr.1 trivial
    obtain ⟨c1, c2, c3⟩ := replace_child (A := P) (B := []) a1 b2 b3
    have hse : SrcOK m (.lst sx cs) (.lst x P) := hs.sub hs.readable.2 (by intro b hb; simp only [blocks, blocksL] at hb ⊢; simp [hb])
      (by intro b hb; simp only [places, placesL] at hb ⊢; simp [hb]) (fun _ h => h) (fun _ h => h)
    have u1 := a2.trans c2
    have vS : valL m1 cs = valL m cs := by
      have := val_same _ (u1.same hse); simp only [val] at this; injection this
    have hse1 := hse.after u1
    obtain ⟨m2, ds2, e1, e2, e3, e4, e5⟩ := updateL_spec cs [] (P ++ [d1]) m1 x sx (by simpa using hse1) (by simpa using c1)
      (by rw [vS]; cases hv : valL m cs <;> trivial) (by rw [vS]; exact dsr.2) trivial
    refine ⟨m2, d1 :: ds2, by rw [updateL, b1, bind_ok, e1, bind_ok], ?_, by simpa using e3, ?_, ?_⟩
    · have := u1.trans (by simpa using e2 : Upd m1 m2 (.lst x (P ++ [d1])) (.lst x (P ++ d1 :: ds2)))
      exact this
    · simp only [valL_eq, List.map_append, List.map_cons, List.map_nil] at e5
      have h5 := List.append_inj' e5 rfl
      simp only [valL, mergeL, e4, vS]
      rw [(List.cons.inj h5.2).1, b4, val_new]
    · simp only [valL_eq, List.map_append, List.map_cons, List.map_nil] at e5 ⊢
      have h5 := List.append_inj' e5 rfl
      rw [h5.1]
      apply List.map_congr_left; intro y hy; exact c3 y (Or.inl hy)
  | c :: cs, d :: ds, P, m, x, sx, hs, hd, hf, dsr, dd => by
    have hrd : Ready m d := by
      have := hd; rw [ready_lst] at this; exact this.2.1 d (by simp)
    have hsc : SrcOK m c d := hs.sub hs.readable.1 (by intro b hb; simp [blocks, blocksL, hb])
      (by intro a ha; simp [places, placesL, ha]) (by intro p hp; simp [owned, ownedL_eq, hp])
      (by intro p hp; simp [places, placesL_eq, hp])
    obtain ⟨m1, d1, b1, b2, b3, b4⟩ := update_spec c d m hsc hrd hf.1 dsr.1 dd.1
    obtain ⟨c1, c2, c3⟩ := replace_child hd b2 b3
    have hse : SrcOK m (.lst sx cs) (.lst x (P ++ d :: ds)) := hs.sub hs.readable.2 (by intro b hb; simp only [blocks, blocksL] at hb ⊢; simp [hb])
      (by intro b hb; simp only [places, placesL] at hb ⊢; simp [hb]) (fun _ h => h) (fun _ h => h)
    have vS : valL m1 cs = valL m cs := by
      have := val_same _ (c2.same hse); simp only [val] at this; injection this
    have vD : valL m1 ds = valL m ds := by
      simp only [valL_eq]; apply List.map_congr_left; intro y hy; exact c3 y (Or.inr hy)
    have hse1 := hse.after c2
    obtain ⟨m2, ds2, e1, e2, e3, e4, e5⟩ := updateL_spec cs ds (P ++ [d1]) m1 x sx (by simpa using hse1) (by simpa using c1)
      (by rw [vS, vD]; exact hf.2) (by rw [vS]; exact dsr.2) (by rw [vD]; exact dd.2)
    refine ⟨m2, d1 :: ds2, by rw [updateL, b1, bind_ok, e1, bind_ok], ?_, by simpa using e3, ?_, ?_⟩
    · exact c2.trans (by simpa using e2 : Upd m1 m2 (.lst x (P ++ d1 :: ds)) (.lst x (P ++ d1 :: ds2)))
    · simp only [valL_eq, List.map_append, List.map_cons, List.map_nil] at e5
      have h5 := List.append_inj' e5 rfl
      simp only [valL, mergeL, e4, vS, vD]
      rw [(List.cons.inj h5.2).1, b4]
    · simp only [valL_eq, List.map_append, List.map_cons, List.map_nil] at e5 ⊢
      have h5 := List.append_inj' e5 rfl
      rw [h5.1]
      apply List.map_congr_left; intro y hy; exact c3 y (Or.inl hy)
end

end Conduit
