import Verif.Lemmas.Partition7
/-
Targets of 0, and which domain a selection is of.
-/
namespace Conduit.Part
open Conduit.Mesh
variable {F : Type}

theorem mapChunks_zero {chunks : List (Int × Int)} (hc : ∀ c ∈ chunks, c.2 = -1 ∧ 1 ≤ c.1) (hne : chunks ≠ []) (h3 : chunks.length < 4294967296) :
    ∃ dests, mapChunks 0 chunks = .ok dests ∧ dests.length = chunks.length ∧ Ascending 0 0 dests := by
  have hpos : 1 ≤ chunks.length := by
    cases chunks with
    | nil => exact absurd rfl hne
    | cons _ _ => simp
  have hres : (chunks.map (·.2)).filter (· != -1) = [] := by
    rw [List.filter_eq_nil_iff]
    intro d hd
    obtain ⟨c, h, rfl⟩ := List.mem_map.mp hd
    simp [(hc c h).1]
  have h0 : nextId [] 0 = 0 := by decide
  have hu : uint32.cast (((0 : Nat) : Int) - 1) = 4294967295 := by decide
  unfold mapChunks
  simp only [hres, chunks_count fun c h => (hc c h).1, h0, hu]
  rw [if_neg (by omega), if_pos (by omega)]
  refine ⟨_, rfl, group_length _, ?_⟩
  have key := group_one chunks (reserved := [0]) (d := 0) (rem := (chunks.map (·.1)).sum)
      (per := Int.tdiv (chunks.map (·.1)).sum (max ((0 : Nat) : Int) 1)) (remT := 4294967295) (running := 0) hc hne rfl (by omega) (by
        rw [show max ((0 : Nat) : Int) 1 = 1 from rfl, Int.tdiv_one, Int.zero_add])
  have hl : (group [0] 0 (chunks.map (·.1)).sum (Int.tdiv (chunks.map (·.1)).sum (max ((0 : Nat) : Int) 1)) 4294967295 0 chunks).length = chunks.length :=
    group_length _
  generalize group [0] 0 (chunks.map (·.1)).sum (Int.tdiv (chunks.map (·.1)).sum (max ((0 : Nat) : Int) 1)) 4294967295 0 chunks = r at key hl
  have : r = List.replicate chunks.length 0 := List.eq_replicate_iff.mpr ⟨hl, key⟩
  subst this
  refine ⟨List.pairwise_replicate.mpr (.inr (by omega)), ?_⟩
  intro v
  rw [List.mem_replicate]
  omega

theorem execute_zero (A : Arith F) {ss : List (Sel × Dom F)} (hin : ∀ p ∈ ss, Inside A p.2.mesh p.1 ∧ Counted A p)
    (hne : ss ≠ []) (h3 : ss.length < 4294967296) :
    ∃ out, execute A 0 ss = .ok out ∧ Spread 1 (elementsOfAll A ss) out := by
  obtain ⟨cs, hcs, hf⟩ := mapM_forall (f := fun p : Sel × Dom F => chunkOf A p.1 p.2) (P := ChunkFor A) (l := ss)
    fun p hp => chunk_ok A (hin p hp).1 (hin p hp).2
  have hlen := hf.length_eq
  obtain ⟨dests, hd, hdl, hda⟩ := mapChunks_zero (chunks := cs.map fun c => c.2) (by
    intro c hc
    obtain ⟨x, hx, rfl⟩ := List.mem_map.mp hc
    obtain ⟨p, _, hp⟩ := forall2_mem hf x hx
    exact ⟨hp.2.2.2.1, hp.2.2.1⟩) (by
    intro h0
    have := List.length_eq_zero_iff.mpr h0
    rw [List.length_map] at this
    exact hne (List.length_eq_zero_iff.mp (by omega))) (by rw [List.length_map]; omega)
  rw [List.length_map] at hdl
  have hu : unique dests = upTo 0 (((1 : Nat) : Int) - 1) := ascending_unique hda
  exact ⟨_, by unfold execute; simp only [hcs, Res.bind_ok, hd], spread_of A hf hdl hu⟩

/-- A target of 0 is one domain. -/
theorem plan_zero (A : Arith F) {mesh opts : BNode F} {doms : List (Dom F)} {ns : Dom F → Int} {fuel : Nat}
    (hd : domsOf mesh = .ok doms) (hne : doms ≠ []) (hall : ∀ d ∈ doms, HasElements A d.mesh (ns d))
    (hs : opts.hasChild (chars! "selections") = false) (ht : optTarget A opts = .ok (some 0))
    (h3 : doms.length < 4294967296) :
    ∃ out, plan A (fuel + 1) mesh opts = .ok (some (some out)) ∧
      Spread 1 (doms.flatMap fun d => domainElements d (ns d)) out := by
  obtain ⟨ss, e, hl, hin, hel, hle⟩ := defaults A ns hall
  have hcnt := free_count fun p hp => inside_free (hin p hp).1
  have hne' : ss ≠ [] := by
    rintro rfl
    exact hne (List.length_eq_zero_iff.mp hl.symm)
  have hi : initPlan A mesh opts = .ok (some (ss, 0)) := by
    unfold initPlan
    simp only [hd, Res.bind_ok, hs, Bool.false_eq_true, if_false, e, ht, Option.getD_some]
  obtain ⟨out, g2, g3⟩ := execute_zero A hin hne' (by omega)
  refine ⟨out, ?_, by rw [← hel]; exact g3⟩
  have g1 : splitAll A 0 (fuel + 1) ss = .ok (some ss) := by
    unfold splitAll
    simp
  unfold plan
  simp only [hi, Res.bind_ok, g1, g2]

theorem target_number (A : Arith F) {opts : BNode F} {ty : IntTy} {v : Int} {l : List Int}
    (h : opts.get (chars! "target") = .ok (.ints ty (v :: l))) :
    optTarget A opts = .ok (some (if v ≤ 0 then 0 else (v % 4294967296).toNat)) := by
  unfold optTarget
  rw [h]
  simp only
  congr 2
  unfold uint32 IntTy.cast
  simp [IntWidth.card]
  split
  · rw [show max 0 v = 0 by omega]
    rfl
  · rw [show max 0 v = v by omega]

/-- A selection of numbers or ranges of one domain is of the first that has its id. -/
theorem place_one (A : Arith F) {s : Sel} (ha : s.any = false) (hk : (∃ l, s.kind = .explicit l) ∨ ∃ r, s.kind = .ranges r) :
    ∀ doms : List (Dom F), place A s doms = .ok (match doms.find? fun d => d.id == s.domain with
      | some d => [(s, d)]
      | none => [])
  | [] => rfl
  | d :: doms => by
    have happ : applicable A s d.mesh = .ok (some s) := by
      unfold applicable
      rcases hk with ⟨l, e⟩ | ⟨r, e⟩ <;> rw [e]
    unfold place
    by_cases h : d.id = s.domain
    · rw [if_pos (Or.inl h), List.find?_cons_of_pos (by simpa using h)]
      rcases hk with ⟨l, e⟩ | ⟨r, e⟩ <;>
        simp only [happ, Res.bind_ok, e, ha, Bool.false_eq_true, if_false]
    · rw [if_neg (by simp [h, ha]), List.find?_cons_of_neg (by simpa using h)]
      exact place_one A ha hk doms

theorem mapM_len {α β : Type} {f : α → Res β} : ∀ {l : List α} {r : List β}, l.mapM f = .ok r → r.length = l.length
  | [], r, h => by
    cases h
    rfl
  | a :: l, r, h => by
    rw [List.mapM_cons] at h
    obtain ⟨x, hx, h⟩ := Res.bind_eq_ok.mp h
    obtain ⟨y, hy, h⟩ := Res.bind_eq_ok.mp h
    cases h
    rw [List.length_cons, List.length_cons, mapM_len hy]

end Conduit.Part
