import Verif.Lemmas.Partition6
/-
Plans without selections, with selections inside the mesh, and by a field.
-/
namespace Conduit.Part
open Conduit.Mesh
variable {F : Type}

theorem get_has {n v : BNode F} {name : Str} (h : n.get name = .ok v) : n.hasChild name = true := by
  unfold BNode.get at h
  unfold BNode.hasChild
  cases hf : n.kids.find? fun k => k.1 == name with
  | none =>
    rw [hf] at h
    cases h
  | some k => exact List.any_eq_true.mpr ⟨k, List.mem_of_find?_eq_some hf, List.find?_some (p := fun k : Str × BNode F => k.1 == name) hf⟩

theorem prod_pos {a b c : Int} (ha : 1 ≤ a) (hb : 1 ≤ b) (hc : 1 ≤ c) : 1 ≤ a * b * c := by
  have := Int.mul_pos (Int.mul_pos (show 0 < a by omega) (show 0 < b by omega)) (show 0 < c by omega)
  omega

/-- The selection of all elements has them. -/
theorem all_inside (A : Arith F) {d : Dom F} {n : Int} (h : HasElements A d.mesh n) :
    ∃ s, allElements A d = .ok s ∧ Inside A d.mesh s ∧ Counted A (s, d) ∧ elementIds A s d.mesh = .ok (upTo 0 (n - 1)) ∧ 1 ≤ n := by
  obtain ⟨ts, tname, topo, rest, dims, name, css, cset, b, m, hts, hk, hc, hcss, hcs, hb, hd, hi, hj, hkk, rfl, hm, hm1⟩ := h
  have hn := length_dims A hd
  have hp := prod_pos hi hj hkk
  have hsel : ∀ s : Sel, s.topology = tname → selected s d.mesh = .ok (tname, topo) := by
    intro s hs
    unfold selected
    rw [if_pos (get_has hts)]
    simp only [hts, Res.bind_ok, hk, hs]
    by_cases he : tname = []
    · rw [if_pos he]
    · have hg : ts.get tname = .ok topo := by
        unfold BNode.get
        rw [hk]
        simp
      rw [if_neg he, if_pos (get_has hg), hg]
      rfl
  cases b with
  | true =>
    have hall : allElements A d = .ok ⟨some true, d.id, tname, false, .logical ⟨0, 0, 0⟩ ⟨dims.i - 1, dims.j - 1, dims.k - 1⟩⟩ := by
      unfold allElements
      simp only [hts, Res.bind_ok, hk, hc, BNode.asString, hcss, hcs, hb, hd, if_true]
      rw [if_pos (by omega), if_pos (by omega), if_pos (by omega)]
    have hs := hsel ⟨some true, d.id, tname, false, .logical ⟨0, 0, 0⟩ ⟨dims.i - 1, dims.j - 1, dims.k - 1⟩⟩ rfl
    have hid := ids_logical A hs hd rfl
    rw [box_whole (by omega) (by omega) (by omega)] at hid
    refine ⟨_, hall, ⟨_, hs, dims, hd, ?_⟩, ⟨fun _ => ⟨_, _, _, hs, hn, hid, List.Perm.refl _⟩, m, hm, hm1⟩, hid, hp⟩
    simp only
    omega
  | false =>
    have hall : allElements A d = .ok ⟨some true, d.id, tname, false, .ranges [(0, dims.i * dims.j * dims.k - 1)]⟩ := by
      unfold allElements
      simp only [hts, Res.bind_ok, hk, hc, BNode.asString, hcss, hcs, hb, hn, Bool.false_eq_true, if_false]
    have hs := hsel ⟨some true, d.id, tname, false, .ranges [(0, dims.i * dims.j * dims.k - 1)]⟩ rfl
    have hid := ids_ranges A hs hn rfl
    rw [rangeIds_filter (fun q hq => by rw [List.mem_singleton.mp hq]; simp only; omega)] at hid
    have e : rangeIds [((0 : Int), dims.i * dims.j * dims.k - 1)] = upTo 0 (dims.i * dims.j * dims.k - 1) := by simp [rangeIds]
    rw [e] at hid
    refine ⟨_, hall, ⟨_, hs, _, _, rfl, hn, ?_⟩, ⟨fun _ => ⟨_, _, _, hs, hn, hid, List.Perm.refl _⟩, m, hm, hm1⟩, hid, hp⟩
    simp only
    omega

theorem target_small {A : Arith F} {opts : BNode F} {t : Nat} (h : optTarget A opts = .ok (some t)) : t < 4294967296 := by
  have key : ∀ v : Int, (uint32.cast v).toNat < 4294967296 := by
    intro v
    unfold uint32 IntTy.cast
    simp [IntWidth.card]
    omega
  unfold optTarget at h
  split at h <;> first | (cases h; exact key _) | cases h

theorem defaults (A : Arith F) (ns : Dom F → Int) : ∀ {doms : List (Dom F)}, (∀ d ∈ doms, HasElements A d.mesh (ns d)) →
    ∃ ss : List (Sel × Dom F), (doms.mapM fun d => do .ok (← allElements A d, d)) = .ok ss ∧ ss.length = doms.length ∧
      (∀ p ∈ ss, Inside A p.2.mesh p.1 ∧ Counted A p) ∧
      elementsOfAll A ss = doms.flatMap (fun d => domainElements d (ns d)) ∧ doms.length ≤ (elementsOfAll A ss).length
  | [], _ => ⟨[], rfl, rfl, (fun _ h => by cases h), rfl, Nat.zero_le _⟩
  | d :: doms, h => by
    obtain ⟨ss, e, hl, hin, hel, hle⟩ := defaults A ns fun x hx => h x (List.mem_cons_of_mem _ hx)
    obtain ⟨s, hs, h1, h2, h3, h4⟩ := all_inside A (h d (List.mem_cons_self))
    refine ⟨(s, d) :: ss, ?_, by simp [hl], ?_, ?_, ?_⟩
    · rw [List.mapM_cons, e, hs]
      rfl
    · intro p hp
      rcases List.mem_cons.mp hp with rfl | hp
      · exact ⟨h1, h2⟩
      · exact hin p hp
    · unfold elementsOfAll at hel ⊢
      rw [List.flatMap_cons, List.flatMap_cons, hel, elements_ok A (p := (s, d)) h3]
      rfl
    · unfold elementsOfAll at hle ⊢
      rw [List.flatMap_cons, List.length_append, elements_ok A (p := (s, d)) h3, List.length_map, upTo_length, List.length_cons]
      omega

/-- Without selections: the elements of all domains, spread over as many domains as wanted. -/
theorem plan_default (A : Arith F) {mesh opts : BNode F} {doms : List (Dom F)} {t : Option Nat} {ns : Dom F → Int} {fuel : Nat}
    (hd : domsOf mesh = .ok doms) (hne : doms ≠ []) (hall : ∀ d ∈ doms, HasElements A d.mesh (ns d))
    (hs : opts.hasChild (chars! "selections") = false) (ht : optTarget A opts = .ok t) (h1 : 1 ≤ t.getD doms.length)
    (h2 : t.getD doms.length ≤ (doms.flatMap fun d => domainElements d (ns d)).length)
    (h3 : doms.length < 4294967296) (hf : t.getD doms.length ≤ fuel) :
    ∃ out, plan A fuel mesh opts = .ok (some (some out)) ∧
      Spread (t.getD doms.length) (doms.flatMap fun d => domainElements d (ns d)) out := by
  obtain ⟨ss, e, hl, hin, hel, hle⟩ := defaults A ns hall
  have hcnt := free_count fun p hp => inside_free (hin p hp).1
  have hne' : ss ≠ [] := by
    rintro rfl
    exact hne (List.length_eq_zero_iff.mp hl.symm)
  have hi : initPlan A mesh opts = .ok (some (ss, t.getD doms.length)) := by
    unfold initPlan
    simp only [hd, Res.bind_ok, hs, Bool.false_eq_true, if_false, e, ht, hcnt, hl]
  rw [← hel] at h2
  obtain ⟨ss', out, g1, g2, g3⟩ := spread_all A hin hne' h1 h2 (by
    cases t with
    | none => exact h3
    | some t => exact target_small ht) hf
  refine ⟨out, ?_, by rw [← hel]; exact g3⟩
  unfold plan
  simp only [hi, Res.bind_ok, g1, g2]

/-- With selections inside the mesh: their elements, spread over as many domains as wanted. -/
theorem plan_selections (A : Arith F) {mesh opts : BNode F} {ss : List (Sel × Dom F)} {target fuel : Nat}
    (hi : initPlan A mesh opts = .ok (some (ss, target))) (hne : ss ≠ [])
    (hin : ∀ p ∈ ss, Inside A p.2.mesh p.1 ∧ p.1.whole ≠ some true ∧ ∃ m, allLengths A p.2.mesh = .ok m ∧ 1 ≤ m)
    (h1 : 1 ≤ target) (h2 : target ≤ (elementsOfAll A ss).length) (h3 : target < 4294967296) (hf : target ≤ fuel) :
    ∃ out, plan A fuel mesh opts = .ok (some (some out)) ∧ Spread target (elementsOfAll A ss) out := by
  obtain ⟨ss', out, g1, g2, g3⟩ := spread_all A (fun p hp => ⟨(hin p hp).1, fun h => absurd h (hin p hp).2.1, (hin p hp).2.2⟩) hne h1 h2 h3 hf
  refine ⟨out, ?_, g3⟩
  unfold plan
  simp only [hi, Res.bind_ok, g1, g2]

/-- More domains wanted than there are elements, all of them in boxes: the splitting does not come to an end. -/
theorem plan_hangs (A : Arith F) {mesh opts : BNode F} {ss : List (Sel × Dom F)} {target : Nat}
    (hi : initPlan A mesh opts = .ok (some (ss, target))) (hne : ss ≠ [])
    (hin : ∀ p ∈ ss, Inside A p.2.mesh p.1 ∧ ∃ a b, p.1.kind = .logical a b) (h : (elementsOfAll A ss).length < target) (fuel : Nat) :
    plan A fuel mesh opts = .ok none := by
  unfold plan
  simp only [hi, Res.bind_ok, splitAll_hangs A target fuel hne hin h]

/-! ### by a field -/

theorem fieldApplies_congr {s s' : Sel} {name : Str} {mesh : BNode F} (h : s.topology = s'.topology) :
    fieldApplies s name mesh = fieldApplies s' name mesh := by
  unfold fieldApplies selected
  rw [h]

/-- The parts of a field selection of a domain. -/
def fieldParts (topo name : Str) (ranks : Option (List Int)) (vals : List Int) (d : Dom F) : List (Sel × Dom F) :=
  (unique vals).map fun v => (⟨some false, d.id, topo, false, .field name (some v) ranks⟩, d)

/-- A field selection of any domain applied to the domains. -/
theorem place_any (A : Arith F) {w : Option Bool} {name : Str} {ranks : Option (List Int)} {topo : Str} (vals : Dom F → List Int) :
    ∀ {doms : List (Dom F)} (i : Int),
    (∀ d ∈ doms, ∀ i, fieldApplies ⟨w, i, topo, true, .field name none ranks⟩ name d.mesh = .ok true ∧ fieldValues A name d.mesh = .ok (vals d)) →
    place A ⟨w, i, topo, true, .field name none ranks⟩ doms = .ok (doms.flatMap fun d => fieldParts topo name ranks (vals d) d)
  | [], _, _ => rfl
  | d :: doms, i, h => by
    have ih := place_any A vals (doms := doms) d.id (fun x hx => h x (List.mem_cons_of_mem _ hx))
    have h1 : applicable A ⟨w, i, topo, true, .field name none ranks⟩ d.mesh = .ok (some ⟨w, i, topo, true, .field name none ranks⟩) := by
      unfold applicable
      simp only [(h d (List.mem_cons_self) i).1, Res.bind_ok, if_true]
    have h2 : split A ⟨w, d.id, topo, true, .field name none ranks⟩ d.mesh =
        .ok ((unique (vals d)).map fun v => ⟨some false, d.id, topo, false, .field name (some v) ranks⟩) := by
      unfold split
      simp only [(h d (List.mem_cons_self) d.id).1, Res.bind_ok, if_true, (h d (List.mem_cons_self) d.id).2, part]
    unfold place
    rw [if_pos (Or.inr rfl)]
    simp only [h1, Res.bind_ok, if_true, h2, ih, List.map_map, List.flatMap_cons]
    rfl

/-- All chunks have their domains: they go there. -/
theorem mapChunks_named {chunks : List (Int × Int)} (h : ∀ c ∈ chunks, c.2 ≠ -1) :
    mapChunks (countTargets (chunks.map (·.2))) chunks = .ok (chunks.map (·.2)) := by
  unfold mapChunks
  simp only [if_true]
  congr 1
  generalize nextId (List.filter (fun x => x != -1) (List.map (fun x => x.2) chunks)) 0 = d
  generalize (d :: List.filter (fun x => x != -1) (List.map (fun x => x.2) chunks)) = r
  induction chunks with
  | nil => rfl
  | cons c cs ih =>
    rw [List.map_cons]
    unfold numberAll
    rw [if_neg (h c (List.mem_cons_self)), ih fun x hx => h x (List.mem_cons_of_mem _ hx)]

theorem int32_id {v : Int} (h0 : 0 ≤ v) (h1 : v < 2147483648) : int32.cast v = v := by
  unfold int32 IntTy.cast
  simp [IntWidth.card]
  omega

theorem rank_ok {v : Int} {name : Str} {ranks : Option (List Int)} {a b c d} (h0 : 0 ≤ v) :
    ∃ r, destRank ⟨a, b, c, d, .field name (some v) ranks⟩ = .ok r := by
  unfold destRank
  cases ranks with
  | none => exact ⟨_, rfl⟩
  | some l =>
    simp only
    by_cases hl : l.length = 0
    · rw [if_pos hl]
      exact ⟨_, rfl⟩
    · rw [if_neg hl]
      have h1 : 0 ≤ Int.tmod v l.length := Int.tmod_nonneg _ h0
      have h2 : Int.tmod v l.length < l.length := Int.tmod_lt_of_pos v (b := (l.length : Int)) (by omega)
      unfold pick
      rw [if_pos h1, List.getElem?_eq_getElem (by omega)]
      exact ⟨_, rfl⟩

theorem mapM_ok {α β : Type} {f : α → Res β} {g : α → β} : ∀ {l : List α}, (∀ a ∈ l, f a = .ok (g a)) → l.mapM f = .ok (l.map g)
  | [], _ => rfl
  | a :: l, h => by
    rw [List.mapM_cons, h a (List.mem_cons_self), mapM_ok fun x hx => h x (List.mem_cons_of_mem _ hx)]
    rfl

/-- All chunks have their domains, and no more are wanted: they go there. -/
theorem mapChunks_all {target : Nat} {chunks : List (Int × Int)} (h : ∀ c ∈ chunks, c.2 ≠ -1) (ht : target ≤ countTargets (chunks.map (·.2))) :
    mapChunks target chunks = .ok (chunks.map (·.2)) := by
  have hok : ∃ dests, mapChunks target chunks = .ok dests := by
    unfold mapChunks
    simp only
    by_cases h1 : countTargets (chunks.map (·.2)) = target
    · rw [if_pos h1]
      exact ⟨_, rfl⟩
    · rw [if_neg h1, if_pos (by omega)]
      exact ⟨_, rfl⟩
  obtain ⟨dests, hd⟩ := hok
  obtain ⟨hl, hr⟩ := mapChunks_respects hd
  rw [hd]
  congr 1
  apply List.ext_getElem hl
  intro i h1 h2
  refine (hr i _ _ (List.getElem?_eq_getElem h2) (List.getElem?_eq_getElem h1)).1 ?_
  rw [List.getElem_map]
  exact h _ (List.getElem_mem _)

/-- The elements of the domains that have a value. -/
def elementsWith (doms : List (Dom F)) (vals : Dom F → List Int) (v : Int) : List (Nat × Int) :=
  doms.flatMap fun d => (positionsOf v (vals d)).map fun e => (d.idx, e)

theorem filter_one : ∀ {l : List Int} {v : Int}, l.Nodup → l.filter (· == v) = if v ∈ l then [v] else []
  | [], v, _ => by simp
  | a :: l, v, h => by
    obtain ⟨h1, h2⟩ := List.nodup_cons.mp h
    by_cases e : a = v
    · subst e
      rw [List.filter_cons_of_pos (by simp), filter_one h2, if_neg h1, if_pos (List.mem_cons_self)]
    · rw [List.filter_cons_of_neg (by simpa using e), filter_one h2]
      simp [Ne.symm e]

theorem positions_none {v : Int} {vals : List Int} (h : v ∉ vals) : positionsOf v vals = [] := by
  rw [List.eq_nil_iff_forall_not_mem]
  intro x hx
  obtain ⟨n, _, hn⟩ := positions_mem.mp hx
  exact h (List.mem_of_getElem? hn)

/-- The chunks of the domains by value. -/
def valuePairs (doms : List (Dom F)) (vals : Dom F → List Int) : List (Dom F × Int) :=
  doms.flatMap fun d => (unique (vals d)).map fun v => (d, v)

theorem valuePairs_filter (doms : List (Dom F)) (vals : Dom F → List Int) (v : Int) :
    piecesElements (((valuePairs doms vals).filter fun q => q.2 == v).map fun q => ⟨q.1.idx, positionsOf q.2 (vals q.1)⟩) =
      elementsWith doms vals v := by
  unfold piecesElements elementsWith valuePairs
  induction doms with
  | nil => rfl
  | cons d doms ih =>
    rw [List.flatMap_cons, List.filter_append, List.map_append, List.flatMap_append, ih, List.flatMap_cons]
    congr 1
    rw [List.filter_map]
    have e : ((fun q : Dom F × Int => q.2 == v) ∘ fun v => (d, v)) = fun x => x == v := rfl
    rw [e, filter_one (unique_nodup _)]
    by_cases h : v ∈ vals d
    · rw [if_pos (unique_mem.mpr h)]
      simp
    · rw [if_neg (fun hm => h (unique_mem.mp hm)), positions_none h]
      simp

/-- By a field of all domains: every element goes to the domain that is its value. -/
theorem plan_field (A : Arith F) {mesh opts l o : BNode F} {doms : List (Dom F)} {topo name : Str} {ranks : Option (List Int)} {t : Option Nat}
    {vals : Dom F → List Int} {fuel : Nat}
    (hd : domsOf mesh = .ok doms) (hs : opts.get (chars! "selections") = .ok l) (hl : l = .list [o] ∨ ∃ k, l = .obj [(k, o)])
    (hty : o.get (chars! "type") = .ok (.str (chars! "field")))
    (hi : initSel A o (chars! "field") = .ok (some ⟨none, 0, topo, true, .field name none ranks⟩))
    (ha : ∀ d ∈ doms, fieldApplies ⟨none, 0, topo, true, .field name none ranks⟩ name d.mesh = .ok true ∧
      fieldValues A name d.mesh = .ok (vals d) ∧ (∃ x, selected ⟨none, 0, topo, true, .field name none ranks⟩ d.mesh = .ok x) ∧
      ∀ v ∈ vals d, 0 ≤ v ∧ v < 2147483648)
    (ht : optTarget A opts = .ok t) (hle : ∀ n, t = some n → n ≤ (unique (doms.flatMap vals)).length) :
    ∃ out, plan A (fuel + 1) mesh opts = .ok (some (some out)) ∧ out.map (·.1) = unique (doms.flatMap vals) ∧
      ∀ p ∈ out, piecesElements p.2 = elementsWith doms vals p.1 := by
  have hpl := place_any A (w := none) (name := name) (ranks := ranks) (topo := topo) vals (doms := doms) 0
    (fun d hd i => ⟨(fieldApplies_congr rfl).trans (ha d hd).1, (ha d hd).2.1⟩)
  let sel : Dom F × Int → Sel × Dom F := fun q => (⟨some false, q.1.id, topo, false, .field name (some q.2) ranks⟩, q.1)
  have hss : (doms.flatMap fun d => fieldParts topo name ranks (vals d) d) = (valuePairs doms vals).map sel := by
    unfold valuePairs fieldParts
    rw [List.map_flatMap]
    congr 1
    funext d
    rw [List.map_map]
    rfl
  have hmem : ∀ q ∈ valuePairs doms vals, q.1 ∈ doms ∧ q.2 ∈ vals q.1 := by
    intro q hq
    obtain ⟨d, hd, hq⟩ := List.mem_flatMap.mp hq
    obtain ⟨v, hv, rfl⟩ := List.mem_map.mp hq
    exact ⟨hd, unique_mem.mp hv⟩
  have hdest : ∀ q ∈ valuePairs doms vals, destDomain (sel q).1 = q.2 := by
    intro q hq
    obtain ⟨h1, h2⟩ := hmem q hq
    have := (ha q.1 h1).2.2.2 q.2 h2
    exact int32_id this.1 this.2
  have hdds : ((valuePairs doms vals).map sel).map (fun p => destDomain p.1) = (valuePairs doms vals).map (·.2) := by
    rw [List.map_map]
    exact List.map_congr_left fun q hq => hdest q hq
  have hcount : countTargets ((valuePairs doms vals).map (·.2)) = (unique (doms.flatMap vals)).length := by
    unfold countTargets
    rw [List.countP_eq_zero.mpr, List.filter_eq_self.mpr, Nat.zero_add]
    · congr 1
      apply unique_eq
      · have := (unique_sorted (doms.flatMap vals)).and (unique_nodup (doms.flatMap vals))
        exact this.imp fun h => by omega
      · intro v
        rw [unique_mem, List.mem_flatMap, List.mem_map]
        constructor
        · rintro ⟨q, hq, rfl⟩
          exact ⟨q.1, hmem q hq⟩
        · rintro ⟨d, hd, hv⟩
          exact ⟨(d, v), List.mem_flatMap.mpr ⟨d, hd, List.mem_map.mpr ⟨v, unique_mem.mpr hv, rfl⟩⟩, rfl⟩
    · intro v hv
      obtain ⟨q, hq, rfl⟩ := List.mem_map.mp hv
      obtain ⟨h1, h2⟩ := hmem q hq
      have := (ha q.1 h1).2.2.2 q.2 h2
      simp
      omega
    · intro v hv
      obtain ⟨q, hq, rfl⟩ := List.mem_map.mp hv
      obtain ⟨h1, h2⟩ := hmem q hq
      have := (ha q.1 h1).2.2.2 q.2 h2
      simp
      omega
  have hinit : initPlan A mesh opts = .ok (some ((valuePairs doms vals).map sel, t.getD (unique (doms.flatMap vals)).length)) := by
    have hsel : optionSels A doms [o] = .ok (some ((valuePairs doms vals).map sel)) := by
      unfold optionSels
      rw [if_pos (get_has hty)]
      simp only [hty, Res.bind_ok, BNode.asString, hi, hpl, caught, optionSels, List.append_nil, hss]
    unfold initPlan
    rcases hl with rfl | ⟨k, rfl⟩ <;>
      simp only [hd, Res.bind_ok, get_has hs, if_true, hs, List.map_cons, List.map_nil, hsel, ht, hdds, hcount]
  have htle : t.getD (unique (doms.flatMap vals)).length ≤ (unique (doms.flatMap vals)).length := by
    cases t with
    | none => exact Nat.le_refl _
    | some n => exact hle n rfl
  have hsplit : splitAll A (t.getD (unique (doms.flatMap vals)).length) (fuel + 1) ((valuePairs doms vals).map sel) =
      .ok (some ((valuePairs doms vals).map sel)) := by
    unfold splitAll
    simp only [hdds, hcount, if_pos (Or.inr htle)]
  let chunk : Dom F × Int → Piece × Int × Int := fun q =>
    (⟨q.1.idx, positionsOf q.2 (vals q.1)⟩, ((positionsOf q.2 (vals q.1)).length : Int), q.2)
  have hchunk : ((valuePairs doms vals).map sel).mapM (fun p => chunkOf A p.1 p.2) = .ok ((valuePairs doms vals).map chunk) := by
    have := mapM_ok (f := fun p : Sel × Dom F => chunkOf A p.1 p.2) (l := (valuePairs doms vals).map sel)
      (g := fun p => match p.1.kind with | .field _ (some v) _ => chunk (p.2, v) | _ => chunk (p.2, 0)) ?_
    · rw [this, List.map_map]
      rfl
    · intro p hp
      obtain ⟨q, hq, rfl⟩ := List.mem_map.mp hp
      obtain ⟨h1, h2⟩ := hmem q hq
      obtain ⟨a1, a2, ⟨x, a3⟩, a4⟩ := ha q.1 h1
      obtain ⟨r, hr⟩ := rank_ok (v := q.2) (name := name) (ranks := ranks) (a := some false) (b := q.1.id) (c := topo) (d := false) (a4 q.2 h2).1
      have hap : fieldApplies (sel q).1 name q.1.mesh = .ok true := (fieldApplies_congr rfl).trans a1
      have hse : selected (sel q).1 q.1.mesh = .ok x := by
        rw [← a3]
        rfl
      have hid : elementIds A (sel q).1 q.1.mesh = .ok (positionsOf q.2 (vals q.1)) := by
        unfold elementIds
        simp only [sel]
        rw [show fieldApplies ⟨some false, q.1.id, topo, false, .field name (some q.2) ranks⟩ name q.1.mesh = .ok true from hap]
        simp only [Res.bind_ok, if_true, a2, Option.getD_some]
      have hw : getWhole A (sel q).1 q.1.mesh = .ok false := rfl
      have hr' : destRank (sel q).1 = .ok r := hr
      show chunkOf A (sel q).1 q.1 = .ok (chunk (q.1, q.2))
      unfold chunkOf
      simp only [hr', Res.bind_ok, hw, Bool.false_eq_true, if_false, hse, hid, hdest q hq, chunk]
  have hmap : mapChunks (t.getD (unique (doms.flatMap vals)).length) (((valuePairs doms vals).map chunk).map fun c => c.2) =
      .ok ((valuePairs doms vals).map (·.2)) := by
    rw [mapChunks_all]
    · rw [List.map_map, List.map_map]
      rfl
    · intro c hc
      obtain ⟨x, hx, rfl⟩ := List.mem_map.mp hc
      obtain ⟨q, hq, rfl⟩ := List.mem_map.mp hx
      obtain ⟨h1, h2⟩ := hmem q hq
      have := (ha q.1 h1).2.2.2 q.2 h2
      simp only [chunk]
      omega
    · rw [List.map_map, List.map_map]
      exact Nat.le_trans htle (Nat.le_of_eq hcount.symm)
  refine ⟨assemble ((valuePairs doms vals).map (·.2)) (((valuePairs doms vals).map chunk).map (·.1)), ?_, ?_, ?_⟩
  · unfold plan execute
    simp only [hinit, Res.bind_ok, hsplit, hchunk, hmap]
  · unfold assemble
    rw [List.map_map]
    have : unique ((valuePairs doms vals).map (·.2)) = unique (doms.flatMap vals) := by
      apply unique_eq
      · have := (unique_sorted (doms.flatMap vals)).and (unique_nodup (doms.flatMap vals))
        exact this.imp fun h => by omega
      · intro v
        rw [unique_mem, List.mem_flatMap, List.mem_map]
        constructor
        · rintro ⟨q, hq, rfl⟩
          exact ⟨q.1, hmem q hq⟩
        · rintro ⟨d, hd, hv⟩
          exact ⟨(d, v), List.mem_flatMap.mpr ⟨d, hd, List.mem_map.mpr ⟨v, unique_mem.mpr hv, rfl⟩⟩, rfl⟩
    rw [← this]
    simp [Function.comp_def]
  · intro p hp
    unfold assemble at hp
    obtain ⟨v, hv, rfl⟩ := List.mem_map.mp hp
    rw [← valuePairs_filter]
    congr 1
    rw [List.map_map, List.zip_map', List.filter_map, List.map_map]
    rfl

end Conduit.Part
