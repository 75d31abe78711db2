import Verif.Lemmas.UpdateCompatible
import Verif.Lemmas.NodeIO
/-
`update` of a node into a node laid out by its own compacted schema: nothing is
reallocated, the elements end up one after the other.
-/
namespace Conduit
open Spec Spec.Tree Schema Node

/-! ### `update_compatible` never changes the tree -/

mutual
theorem updateCompatible_id : ∀ (src dest : Node) (m m' : Mem) (d' : Node),
    updateCompatible src dest m = .ok (m', d') → d' = dest
  | .obj x es, dest, m, m', d', h => by
    rw [updateCompatible] at h
    exact updateCompatibleE_id es dest m m' d' h
  | .lst x cs, dest, m, m', d', h => by
    unfold updateCompatible at h
    cases dest with
    | lst y ds =>
      simp only at h
      cases hr : updateCompatibleL cs ds m with
      | ok r =>
        rw [hr, bind_ok] at h
        have := updateCompatibleL_id cs ds m r.1 r.2 hr
        simp only [Res.ok.injEq, Prod.mk.injEq] at h
        rw [← h.2, this]
      | error => rw [hr] at h; cases h
      | ub => rw [hr] at h; cases h
    | leaf y d => simp only [Res.ok.injEq, Prod.mk.injEq] at h; exact h.2.symm
    | obj y d => simp only [Res.ok.injEq, Prod.mk.injEq] at h; exact h.2.symm
  | .leaf x d, dest, m, m', d', h => by
    rw [updateCompatible] at h
    split at h
    · simp only [Res.ok.injEq, Prod.mk.injEq] at h; exact h.2.symm
    · rename_i he
      split at h
      · rename_i hc
        unfold updateLeaf at h
        rw [if_neg he, if_pos hc] at h
        split at h
        · cases h
        · generalize hs : Mem.stridedCopy _ _ _ _ _ _ _ _ _ = w at h
          cases w with
          | ok w =>
            rw [bind_ok] at h
            simp only [Res.ok.injEq, Prod.mk.injEq] at h; exact h.2.symm
          | error => cases h
          | ub => cases h
      · simp only [Res.ok.injEq, Prod.mk.injEq] at h; exact h.2.symm
theorem updateCompatibleE_id : ∀ (es : List (Str × Node)) (dest : Node) (m m' : Mem) (d' : Node),
    updateCompatibleE es dest m = .ok (m', d') → d' = dest
  | [], dest, m, m', d', h => by
    simp only [updateCompatibleE, Res.ok.injEq, Prod.mk.injEq] at h; exact h.2.symm
  | (n, c) :: es, dest, m, m', d', h => by
    unfold updateCompatibleE at h
    cases dest with
    | obj x ds =>
      simp only at h
      cases hp : posOf ds n with
      | none => rw [hp] at h; exact updateCompatibleE_id es _ m m' d' h
      | some i =>
        rw [hp] at h
        simp only at h
        generalize hu : updateCompatible c _ m = w at h
        cases w with
        | ok w =>
          rw [bind_ok] at h
          have h1 := updateCompatibleE_id es _ _ m' d' h
          obtain ⟨w1, w2⟩ := w
          have h2 := updateCompatible_id c _ m _ _ hu
          have hi := List.findIdx?_eq_some_iff_getElem.1 hp
          obtain ⟨hlt, hk, _⟩ := hi
          have hk : (ds[i]).1 = n := by simpa using hk
          simp only [List.getElem?_eq_getElem hlt, Option.getD_some] at h2
          rw [h1, h2]
          congr 1
          rw [← hk]
          exact List.set_getElem_self hlt
        | error => cases h
        | ub => cases h
    | leaf x d => exact updateCompatibleE_id es _ m m' d' h
    | lst x d => exact updateCompatibleE_id es _ m m' d' h
theorem updateCompatibleL_id : ∀ (cs ds : List Node) (m m' : Mem) (ds' : List Node),
    updateCompatibleL cs ds m = .ok (m', ds') → ds' = ds
  | [], ds, m, m', ds', h => by
    simp only [updateCompatibleL, Res.ok.injEq, Prod.mk.injEq] at h; exact h.2.symm
  | _ :: _, [], m, m', ds', h => by
    simp only [updateCompatibleL, Res.ok.injEq, Prod.mk.injEq] at h; exact h.2.symm
  | c :: cs, d :: ds, m, m', ds', h => by
    unfold updateCompatibleL at h
    generalize hu : updateCompatible c d m = w at h
    cases w with
    | ok w =>
      rw [bind_ok] at h
      generalize hv : updateCompatibleL cs ds w.1 = v at h
      cases v with
      | ok v =>
        rw [bind_ok] at h
        simp only [Res.ok.injEq, Prod.mk.injEq] at h
        rw [← h.2, updateCompatible_id c d m w.1 w.2 hu, updateCompatibleL_id cs ds w.1 v.1 v.2 hv]
      | error => cases h
      | ub => cases h
    | error => cases h
    | ub => cases h
end

/-! ### when `update` is `update_compatible` -/

mutual
/-- Everything `src` has is in `dest` with the same type and at least as many elements. -/
def Match : Node → Node → Prop
  | .leaf _ s, d => s.id = .empty ∨ (d.dtype.id = s.id ∧ s.n ≤ d.dtype.n)
  | .obj _ es, d => ∃ x ds, d = .obj x ds ∧ MatchE es ds
  | .lst _ cs, d => ∃ x ds, d = .lst x ds ∧ MatchL cs ds
def MatchE : List (Str × Node) → List (Str × Node) → Prop
  | [], _ => True
  | (n, c) :: es, ds => (∃ i d, posOf ds n = some i ∧ ds[i]? = some (n, d) ∧ Match c d) ∧ MatchE es ds
def MatchL : List Node → List Node → Prop
  | [], _ => True
  | _ :: _, [] => False
  | c :: cs, d :: ds => Match c d ∧ MatchL cs ds
end

mutual
theorem update_match : ∀ (src dest : Node) (m : Mem), Match src dest → update src dest m = updateCompatible src dest m
  | .leaf x s, dest, m, h => by
    rw [update, updateCompatible]
    by_cases he : s.id = .empty
    · rw [if_pos he, updateLeaf, if_pos he]
    · rw [if_neg he, if_pos]
      rcases h with h | h
      · exact absurd h he
      · exact ⟨h.1, h.2⟩
  | .obj x es, dest, m, h => by
    obtain ⟨y, ds, rfl, h⟩ := h
    rw [update, updateCompatible]
    exact updateE_match es y ds m h
  | .lst x cs, dest, m, h => by
    obtain ⟨y, ds, rfl, h⟩ := h
    unfold update updateCompatible
    simp only
    rw [updateL_match cs ds m h]
theorem updateE_match : ∀ (es : List (Str × Node)) (y : Info) (ds : List (Str × Node)) (m : Mem), MatchE es ds →
    updateE es (.obj y ds) m = updateCompatibleE es (.obj y ds) m
  | [], y, ds, m, _ => rfl
  | (n, c) :: es, y, ds, m, h => by
    obtain ⟨⟨i, d, h1, h2, h3⟩, h4⟩ := h
    unfold updateE updateCompatibleE
    simp only [Node.addChild, h1, bind_ok, h2, Option.getD_some]
    rw [update_match c d m h3]
    generalize hu : updateCompatible c d m = w
    cases w with
    | ok w =>
      rw [bind_ok, bind_ok]
      rw [updateCompatible_id c d m w.1 w.2 hu]
      have hs : ds.set i (n, d) = ds := by
        obtain ⟨hlt, hg⟩ := List.getElem?_eq_some_iff.1 h2
        rw [← hg]; exact List.set_getElem_self hlt
      rw [hs]
      exact updateE_match es y ds w.1 h4
    | error => rfl
    | ub => rfl
theorem updateL_match : ∀ (cs ds : List Node) (m : Mem), MatchL cs ds → updateL cs ds m = updateCompatibleL cs ds m
  | [], ds, m, _ => rfl
  | _ :: _, [], m, h => absurd h (by simp [MatchL])
  | c :: cs, d :: ds, m, h => by
    unfold updateL updateCompatibleL
    rw [update_match c d m h.1]
    cases updateCompatible c d m with
    | ok w =>
      rw [bind_ok, bind_ok, updateL_match cs ds w.1 h.2]
    | error => rfl
    | ub => rfl
end

/-! ### the compacted layout matches -/

theorem names_walkE (p : Option Ptr) : ∀ es : List (Str × Schema), (walkE p es).map Prod.fst = es.map Prod.fst
  | [] => rfl
  | (n, c) :: es => by simp [walkE, names_walkE p es]

theorem names_compactAtE : ∀ (es : List (Str × Schema)) (off : Int), (compactAtE es off).map Prod.fst = es.map Prod.fst
  | [], _ => rfl
  | (n, c) :: es, off => by simp [compactAtE, names_compactAtE es]

theorem names_schemaE' : ∀ es : List (Str × Node), (schemaE es).map Prod.fst = es.map Prod.fst
  | [] => rfl
  | (n, c) :: es => by simp [schemaE, names_schemaE' es]

mutual
theorem match_compact (p : Option Ptr) : ∀ (n : Node) (al : Bool) (off : Int) (m : Mem), DistinctV (val m n) →
    Match n (walk p al (compactAt n.schema off))
  | .leaf x d, al, off, m, _ => by
    by_cases he : d.id = .empty
    · exact Or.inl he
    · right
      simp only [schema, compactAt, if_neg he, walk, dtype, DataType.compactTo]
      exact ⟨trivial, Int.le_refl _⟩
  | .obj x es, al, off, m, h => by
    refine ⟨_, _, rfl, ?_⟩
    simp only [val, DistinctV] at h
    exact match_compactE p es [] off m (by simpa [names_valE] using h.1) (by simp) h.2
  | .lst x cs, al, off, m, h => by
    refine ⟨_, _, rfl, ?_⟩
    simp only [val, DistinctV] at h
    exact match_compactL p cs off m h
/-- `A`: the entries laid out before -/
theorem match_compactE (p : Option Ptr) : ∀ (es A : List (Str × Node)) (off : Int) (m : Mem),
    (es.map Prod.fst).Nodup → (∀ n ∈ es.map Prod.fst, n ∉ A.map Prod.fst) → DistinctVE (valE m es) →
    MatchE es (A ++ walkE p (compactAtE (schemaE es) off))
  | [], _, _, _, _, _, _ => trivial
  | (n, c) :: es, A, off, m, h1, h2, h3 => by
    simp only [List.map_cons, List.nodup_cons] at h1
    have hA := h2 n (by simp)
    refine ⟨⟨A.length, walk p false (compactAt c.schema off), posOf_split hA, ?_, match_compact p c false off m h3.1⟩, ?_⟩
    · simp [schemaE, compactAtE, walkE]
    · have := match_compactE p es (A ++ [(n, walk p false (compactAt c.schema off))]) (off + c.schema.totalBytesCompact) m h1.2
        (fun k hk => by
          simp only [List.map_append, List.map_cons, List.map_nil, List.mem_append, List.mem_singleton, not_or]
          exact ⟨h2 k (by simp [hk]), fun he => h1.1 (he ▸ hk)⟩) h3.2
      rw [List.append_assoc] at this
      simp only [schemaE, compactAtE, walkE, total_compactAt]
      exact this
theorem match_compactL (p : Option Ptr) : ∀ (cs : List Node) (off : Int) (m : Mem), DistinctVL (valL m cs) →
    MatchL cs (walkL p (compactAtL (schemaL cs) off))
  | [], _, _, _ => trivial
  | c :: cs, off, m, h => ⟨match_compact p c false off m h.1, match_compactL p cs _ m h.2⟩
end

/-! ### where the elements of a compacted layout are -/

mutual
theorem place_compact (p : Ptr) : ∀ (s : Schema) (al : Bool) (off : Int), CountsOK s →
    ∀ pl ∈ places (walk (some p) al (compactAt s off)), ∀ b i, pl.Has b i →
      b = p.blk ∧ p.off + off ≤ i ∧ i < p.off + off + totalBytesCompact s
  | .leaf d, al, off, hc, pl, hpl, b, i, hh => by
    have hn : 0 ≤ d.n := hc d (by simp [leaves])
    rw [compactAt] at hpl
    split at hpl
    · simp [walk, places, leafPlaces] at hpl
    · rename_i he
      simp only [walk, places, leafPlaces, DataType.compactTo, List.mem_map, List.mem_range] at hpl
      obtain ⟨j, hj, rfl⟩ := hpl
      obtain ⟨q, hq, h1, h2, h3⟩ := hh
      simp only [Option.some.injEq] at hq
      subst hq
      simp only at h2 h3
      have a1 : 0 ≤ (d.id.bytes : Int) * j := Int.mul_nonneg (by omega) (by omega)
      have a2 : (d.id.bytes : Int) * (j + 1) ≤ d.id.bytes * d.n := Int.mul_le_mul_of_nonneg_left (by omega) (by omega)
      rw [Int.mul_add] at a2
      simp only [totalBytesCompact, he, if_false, DataType.bytesCompact]
      refine ⟨h1, by omega, by omega⟩
  | .obj es, al, off, hc, pl, hpl, b, i, hh => place_compactE p es off hc pl hpl b i hh
  | .lst cs, al, off, hc, pl, hpl, b, i, hh => place_compactL p cs off hc pl hpl b i hh
theorem place_compactE (p : Ptr) : ∀ (es : List (Str × Schema)) (off : Int), CountsOK (.obj es) →
    ∀ pl ∈ placesE (walkE (some p) (compactAtE es off)), ∀ b i, pl.Has b i →
      b = p.blk ∧ p.off + off ≤ i ∧ i < p.off + off + totalBytesCompactE es
  | [], off, hc, pl, hpl, b, i, hh => by simp [compactAtE, walkE, placesE] at hpl
  | (n, c) :: es, off, hc, pl, hpl, b, i, hh => by
    obtain ⟨h1, h2⟩ := countsE hc
    have t1 := total_nonneg _ h1
    have t2 := total_nonnegE _ h2
    simp only [compactAtE, walkE, placesE, List.mem_append, total_compactAt] at hpl
    simp only [totalBytesCompactE]
    rcases hpl with hpl | hpl
    · have := place_compact p c false off h1 pl hpl b i hh
      exact ⟨this.1, by omega, by omega⟩
    · have := place_compactE p es _ h2 pl hpl b i hh
      exact ⟨this.1, by omega, by omega⟩
theorem place_compactL (p : Ptr) : ∀ (es : List Schema) (off : Int), CountsOK (.lst es) →
    ∀ pl ∈ placesL (walkL (some p) (compactAtL es off)), ∀ b i, pl.Has b i →
      b = p.blk ∧ p.off + off ≤ i ∧ i < p.off + off + totalBytesCompactL es
  | [], off, hc, pl, hpl, b, i, hh => by simp [compactAtL, walkL, placesL] at hpl
  | c :: es, off, hc, pl, hpl, b, i, hh => by
    obtain ⟨h1, h2⟩ := countsL hc
    have t1 := total_nonneg _ h1
    have t2 := total_nonnegL _ h2
    simp only [compactAtL, walkL, placesL, List.mem_append, total_compactAt] at hpl
    simp only [totalBytesCompactL]
    rcases hpl with hpl | hpl
    · have := place_compact p c false off h1 pl hpl b i hh
      exact ⟨this.1, by omega, by omega⟩
    · have := place_compactL p es _ h2 pl hpl b i hh
      exact ⟨this.1, by omega, by omega⟩
end

mutual
theorem sep_compact (p : Ptr) : ∀ (s : Schema) (al : Bool) (off : Int), CountsOK s →
    (places (walk (some p) al (compactAt s off))).Pairwise NoShare
  | .leaf d, al, off, hc => by
    rw [compactAt]
    split
    · simp [walk, places, leafPlaces]
    · simp only [walk, places, leafPlaces, DataType.compactTo, List.pairwise_map]
      refine List.Pairwise.imp ?_ (List.pairwise_lt_range)
      rintro j k hjk b i ⟨q, hq, _, h2, h3⟩ ⟨q', hq', _, h2', h3'⟩
      simp only [Option.some.injEq] at hq hq'
      subst hq; subst hq'
      simp only at h2 h3 h2' h3'
      have a2 : (d.id.bytes : Int) * (j + 1) ≤ d.id.bytes * k := Int.mul_le_mul_of_nonneg_left (by omega) (by omega)
      rw [Int.mul_add] at a2
      omega
  | .obj es, al, off, hc => sep_compactE p es off hc
  | .lst cs, al, off, hc => sep_compactL p cs off hc
theorem sep_compactE (p : Ptr) : ∀ (es : List (Str × Schema)) (off : Int), CountsOK (.obj es) →
    (placesE (walkE (some p) (compactAtE es off))).Pairwise NoShare
  | [], off, hc => by simp [compactAtE, walkE, placesE]
  | (n, c) :: es, off, hc => by
    obtain ⟨h1, h2⟩ := countsE hc
    simp only [compactAtE, walkE, placesE, total_compactAt]
    rw [List.pairwise_append]
    refine ⟨sep_compact p c false off h1, sep_compactE p es _ h2, ?_⟩
    intro a ha b hb blk i h h'
    have x := place_compact p c false off h1 a ha blk i h
    have y := place_compactE p es _ h2 b hb blk i h'
    omega
theorem sep_compactL (p : Ptr) : ∀ (es : List Schema) (off : Int), CountsOK (.lst es) →
    (placesL (walkL (some p) (compactAtL es off))).Pairwise NoShare
  | [], off, hc => by simp [compactAtL, walkL, placesL]
  | c :: es, off, hc => by
    obtain ⟨h1, h2⟩ := countsL hc
    simp only [compactAtL, walkL, placesL, total_compactAt]
    rw [List.pairwise_append]
    refine ⟨sep_compact p c false off h1, sep_compactL p es _ h2, ?_⟩
    intro a ha b hb blk i h h'
    have x := place_compact p c false off h1 a ha blk i h
    have y := place_compactL p es _ h2 b hb blk i h'
    omega
end

mutual
theorem natSize_compact (p : Option Ptr) : ∀ (s : Schema) (al : Bool) (off : Int), NatSize (walk p al (compactAt s off))
  | .leaf d, al, off => by
    rw [compactAt]
    split
    · intro h; exact absurd rfl h
    · intro _; rfl
  | .obj es, al, off => natSize_compactE p es off
  | .lst cs, al, off => natSize_compactL p cs off
theorem natSize_compactE (p : Option Ptr) : ∀ (es : List (Str × Schema)) (off : Int), NatSizeE (walkE p (compactAtE es off))
  | [], _ => trivial
  | (_, c) :: es, off => ⟨natSize_compact p c false off, natSize_compactE p es _⟩
theorem natSize_compactL (p : Option Ptr) : ∀ (es : List Schema) (off : Int), NatSizeL (walkL p (compactAtL es off))
  | [], _ => trivial
  | c :: es, off => ⟨natSize_compact p c false off, natSize_compactL p es _⟩
end

mutual
theorem readable_compact {m : Mem} (p : Ptr) : ∀ (s : Schema) (al : Bool) (off : Int), (∀ d ∈ s.leaves, LeafOK d) →
    (∀ i : Int, p.off + off ≤ i → i < p.off + off + totalBytesCompact s → (m.byte p.blk i).isSome) →
    Readable m (walk (some p) al (compactAt s off))
  | .leaf d, al, off, hc, hb => by
    obtain ⟨hn, h1, h2⟩ := hc d (by simp [leaves])
    rw [compactAt]
    split
    · exact ⟨by simp, by simp, by simp, fun h => absurd rfl h⟩
    · rename_i he
      refine ⟨h1, h2, hn, fun _ e hm b hbm => ?_⟩
      simp only [elems, List.mem_map, List.mem_range, DataType.compactTo] at hm
      obtain ⟨j, hj, rfl⟩ := hm
      simp only [List.mem_map, List.mem_range] at hbm
      obtain ⟨k, hk, rfl⟩ := hbm
      have a1 : 0 ≤ (d.id.bytes : Int) * j := Int.mul_nonneg (by omega) (by omega)
      have a2 : (d.id.bytes : Int) * (j + 1) ≤ d.id.bytes * d.n := Int.mul_le_mul_of_nonneg_left (by omega) (by omega)
      rw [Int.mul_add] at a2
      simp only [totalBytesCompact, he, if_false, DataType.bytesCompact] at hb
      exact hb _ (by omega) (by omega)
  | .obj es, al, off, hc, hb => readable_compactE p es off hc hb
  | .lst cs, al, off, hc, hb => readable_compactL p cs off hc hb
theorem readable_compactE {m : Mem} (p : Ptr) : ∀ (es : List (Str × Schema)) (off : Int), (∀ d ∈ leavesE es, LeafOK d) →
    (∀ i : Int, p.off + off ≤ i → i < p.off + off + totalBytesCompactE es → (m.byte p.blk i).isSome) →
    ReadableE m (walkE (some p) (compactAtE es off))
  | [], _, _, _ => trivial
  | (n, c) :: es, off, hc, hb => by
    simp only [leavesE, List.mem_append] at hc
    have t1 := total_nonneg c (fun d hd => (hc d (.inl hd)).1)
    have t2 := total_nonnegE es (fun d hd => (hc d (.inr hd)).1)
    simp only [totalBytesCompactE] at hb
    simp only [compactAtE, walkE, total_compactAt]
    exact ⟨readable_compact p c false off (fun d hd => hc d (.inl hd)) (fun i h1 h2 => hb i (by omega) (by omega)),
      readable_compactE p es _ (fun d hd => hc d (.inr hd)) (fun i h1 h2 => hb i (by omega) (by omega))⟩
theorem readable_compactL {m : Mem} (p : Ptr) : ∀ (es : List Schema) (off : Int), (∀ d ∈ leavesL es, LeafOK d) →
    (∀ i : Int, p.off + off ≤ i → i < p.off + off + totalBytesCompactL es → (m.byte p.blk i).isSome) →
    ReadableL m (walkL (some p) (compactAtL es off))
  | [], _, _, _ => trivial
  | c :: es, off, hc, hb => by
    simp only [leavesL, List.mem_append] at hc
    have t1 := total_nonneg c (fun d hd => (hc d (.inl hd)).1)
    have t2 := total_nonnegL es (fun d hd => (hc d (.inr hd)).1)
    simp only [totalBytesCompactL] at hb
    simp only [compactAtL, walkL, total_compactAt]
    exact ⟨readable_compact p c false off (fun d hd => hc d (.inl hd)) (fun i h1 h2 => hb i (by omega) (by omega)),
      readable_compactL p es _ (fun d hd => hc d (.inr hd)) (fun i h1 h2 => hb i (by omega) (by omega))⟩
end

/-! ### its value after the update -/

mutual
theorem distinct_compact {m m' : Mem} (p : Option Ptr) : ∀ (n : Node) (al : Bool) (off : Int), DistinctV (val m n) →
    DistinctV (val m' (walk p al (compactAt n.schema off)))
  | .leaf x d, al, off, _ => by
    simp only [schema, compactAt]
    split
    · simp [walk, val, DistinctV]
    · rename_i he
      simp only [walk, val, DataType.compactTo, he, if_false, DistinctV]
  | .obj x es, al, off, h => by
    simp only [schema, compactAt, walk, val, DistinctV, names_valE, names_walkE, names_compactAtE, names_schemaE'] at h ⊢
    exact ⟨h.1, distinct_compactE p es off h.2⟩
  | .lst x cs, al, off, h => distinct_compactL p cs off h
theorem distinct_compactE {m m' : Mem} (p : Option Ptr) : ∀ (es : List (Str × Node)) (off : Int), DistinctVE (valE m es) →
    DistinctVE (valE m' (walkE p (compactAtE (schemaE es) off)))
  | [], _, _ => trivial
  | (_, c) :: es, off, h => ⟨distinct_compact p c false off h.1, distinct_compactE p es _ h.2⟩
theorem distinct_compactL {m m' : Mem} (p : Option Ptr) : ∀ (es : List Node) (off : Int), DistinctVL (valL m es) →
    DistinctVL (valL m' (walkL p (compactAtL (schemaL es) off)))
  | [], _, _ => trivial
  | c :: es, off, h => ⟨distinct_compact p c false off h.1, distinct_compactL p es _ h.2⟩
end

mutual
theorem overlay_compact {m m' : Mem} (p : Option Ptr) : ∀ (n : Node) (al : Bool) (off : Int), DistinctV (val m n) →
    overlay (val m n) (val m' (walk p al (compactAt n.schema off))) = val m n
  | .leaf x d, al, off, _ => by
    simp only [schema, compactAt]
    by_cases he : d.id = .empty
    · simp [walk, val, he, overlay]
    · simp only [walk, val, DataType.compactTo, he, if_false, overlay, overLeaf, true_and]
      rw [if_pos (by rw [elems_length, elems_length]; exact Nat.le_refl _)]
      rw [List.drop_eq_nil_of_le (by rw [elems_length, elems_length]; exact Nat.le_refl _), List.append_nil]
  | .obj x es, al, off, h => by
    simp only [schema, compactAt, walk, val, overlay]
    have := overlay_compactE (m := m) (m' := m') p es [] off (by simpa [names_valE] using h.1) (by simp) h.2
    rw [List.nil_append] at this
    rw [this]
  | .lst x cs, al, off, h => by
    simp only [schema, compactAt, walk, val, overlay]
    rw [overlay_compactL p cs off h]
theorem overlay_compactE {m m' : Mem} (p : Option Ptr) : ∀ (es A : List (Str × Node)) (off : Int),
    (es.map Prod.fst).Nodup → (∀ n ∈ es.map Prod.fst, n ∉ A.map Prod.fst) → DistinctVE (valE m es) →
    overlayE (valE m (A ++ es)) (valE m' (walkE p (compactAtE (schemaE es) off))) = valE m es
  | [], A, _, _, _, _ => by simp [schemaE, compactAtE, walkE, valE, overlayE]
  | (n, c) :: es, A, off, h1, h2, h3 => by
    simp only [List.map_cons, List.nodup_cons] at h1
    have hA := h2 n (by simp)
    simp only [schemaE, compactAtE, walkE, valE, overlayE]
    rw [valE_append, valE, entry_split (by rw [names_valE]; exact hA)]
    simp only
    rw [overlay_compact p c false off h3.1]
    congr 1
    have := overlay_compactE p es (A ++ [(n, c)]) (off + (compactAt c.schema off).totalBytesCompact) h1.2
      (fun k hk => by
        simp only [List.map_append, List.map_cons, List.map_nil, List.mem_append, List.mem_singleton, not_or]
        exact ⟨h2 k (by simp [hk]), fun he => h1.1 (he ▸ hk)⟩) h3.2 (m := m) (m' := m')
    rw [List.append_assoc, valE_append] at this
    exact this
theorem overlay_compactL {m m' : Mem} (p : Option Ptr) : ∀ (cs : List Node) (off : Int), DistinctVL (valL m cs) →
    overlayL (valL m cs) (valL m' (walkL p (compactAtL (schemaL cs) off))) = valL m cs
  | [], _, _ => rfl
  | c :: cs, off, h => by
    simp only [schemaL, compactAtL, walkL, valL, overlayL]
    rw [overlay_compact p c false off h.1, overlay_compactL p cs _ h.2]
end

/-- the whole step: `update` of a node into a part of a buffer that is laid out by its compacted schema -/
theorem update_compact {m : Mem} {n : Node} {p : Ptr} {al : Bool} {off : Int} (hr : Readable m n) (hd : DistinctV (val m n))
    (hb : p.blk ∉ blocks n) (hw : Readable m (walk (some p) al (compactAt n.schema off))) :
    ∃ m', update n (walk (some p) al (compactAt n.schema off)) m = .ok (m', walk (some p) al (compactAt n.schema off)) ∧
      Mem.SameShape m m' ∧
      (∀ b i, ¬ (b = p.blk ∧ p.off + off ≤ i ∧ i < p.off + off + totalBytesCompact n.schema) → m'.byte b i = m.byte b i) ∧
      val m' (walk (some p) al (compactAt n.schema off)) = val m n := by
  have hc := countsOK_of hr
  rw [update_match _ _ _ (match_compact (some p) n al off m hd)]
  obtain ⟨m', h1, h2, h3⟩ := updateCompatible_spec n (walk (some p) al (compactAt n.schema off)) m
    ⟨hr, hw, natSize_compact _ _ _ _, sep_compact p _ al off hc, fun a ha b hb' blk i hh hh' => by
      have x := place_compact p _ al off hc b hb' blk i hh'
      have y := has_blocks n a ha blk i hh
      exact hb (x.1 ▸ y)⟩ hd (distinct_compact (some p) n al off hd)
  refine ⟨m', h1, h2.shape, fun b i hbi => h2.keep b i (fun pl hpl hh => hbi (place_compact p _ al off hc pl hpl b i hh)), ?_⟩
  rw [h3, overlay_compact _ _ _ _ hd]

end Conduit
