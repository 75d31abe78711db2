import Verif.Lemmas.AdjsetBase
import Verif.Lemmas.MeshCoords
import Verif.Lemmas.ResMonad
import Verif.Spec.Adjset
/-
Adjacency sets: reading groups, renaming them, writing them.
-/
namespace Conduit.Mesh
variable {F κ β : Type}

/-! ### reading -/

theorem leafInts_fits (A : Arith F) (t : IntTy) (l : List Int) (h : ∀ v ∈ l, int64.cast v = v) :
    leafInts A (.ints t l) = .ok l := by
  simp only [leafInts]
  congr 1
  exact (List.map_congr_left h).trans (List.map_id' l)

theorem hasGroups_names {n : BNode F} {gs : List Group} {ks : List (Str × BNode F)} (hl : ks.length = gs.length)
    (h : ∀ (i : Nat) k g, ks[i]? = some k → gs[i]? = some g → IsGroup k g) : ks.map (·.1) = gs.map (·.name) := by
  apply List.ext_getElem?
  intro i
  rw [List.getElem?_map, List.getElem?_map]
  by_cases hi : i < ks.length
  · rw [List.getElem?_eq_getElem hi, List.getElem?_eq_getElem (hl ▸ hi)]
    exact congrArg some (h i _ _ (List.getElem?_eq_getElem hi) (List.getElem?_eq_getElem (hl ▸ hi))).1
  · rw [List.getElem?_eq_none (by omega), List.getElem?_eq_none (by omega)]; rfl

/-- A group is found under its name. -/
theorem group_get {gs : List Group} {ks : List (Str × BNode F)} (hl : ks.length = gs.length)
    (h : ∀ (i : Nat) k g, ks[i]? = some k → gs[i]? = some g → IsGroup k g) (hn : (gs.map (·.name)).Nodup)
    (g : Group) (hg : g ∈ gs) : ∃ c, (BNode.obj ks).get g.name = .ok c ∧ IsGroup (g.name, c) g := by
  obtain ⟨i, hi⟩ := List.mem_iff_getElem?.mp hg
  have hlt := (List.getElem?_eq_some_iff.mp hi).1
  have hk : ks[i]? = some ks[i] := List.getElem?_eq_getElem (by omega)
  have hG := h i _ g hk hi
  have hks : ks[i] = (g.name, ks[i].2) := by rw [← hG.1]
  refine ⟨ks[i].2, get_obj_nodup ks i _ _ ?_ (hk.trans (congrArg some hks)), ?_⟩
  · rw [hasGroups_names (n := .obj ks) hl h]; exact hn
  · exact ⟨rfl, hG.2⟩

theorem readGroup_ok (A : Arith F) (t : IntTy) (gs : List Group) (hf : Fits t gs) (g : Group) (hg : g ∈ gs) (c : BNode F)
    (h : IsGroup (g.name, c) g) : readGroup A c = .ok (g.neighbors, g.values) := by
  obtain ⟨_, t1, t2, h1, h2⟩ := h
  unfold readGroup
  simp only at h1 h2
  rw [h1, Res.bind_ok, leafInts_fits A t1 _ (fun v hv => (hf g hg v (by simp [hv])).1), Res.bind_ok, h2, Res.bind_ok,
    leafInts_fits A t2 _ (fun v hv => (hf g hg v (by simp [hv])).1), Res.bind_ok]

/-- The groups in the order of their names. -/
def byName (gs : List Group) : List Group := sortBy (fun a b => Matset.strLt a.name b.name) gs

theorem byName_perm (gs : List Group) : (byName gs).Perm gs := sortBy_perm _ _

theorem sortedNames_eq {gs : List Group} {ks : List (Str × BNode F)} (hl : ks.length = gs.length)
    (h : ∀ (i : Nat) k g, ks[i]? = some k → gs[i]? = some g → IsGroup k g) :
    sortedNames (.obj ks) = (byName gs).map (·.name) := by
  unfold sortedNames byName
  rw [← sortBy_map, ← hasGroups_names (n := .obj ks) hl h]
  rfl

theorem foldlM_names (l : List Group) (f : β → Str → Res β) (g : β → Group → β) (m : β)
    (h : ∀ x ∈ l, ∀ m, f m x.name = .ok (g m x)) : (l.map (·.name)).foldlM f m = .ok (l.foldl g m) := by
  induction l generalizing m with
  | nil => rfl
  | cons x l ih =>
    rw [List.map_cons, List.foldlM_cons, h x (by simp), Res.bind_ok, ih _ (fun x hx => h x (by simp [hx]))]
    rfl

/-- The map `to_pairwise` makes. -/
def pairMap (gs : List Group) : List (Int × List Int) :=
  (byName gs).foldl (fun m g => pairGroup g.neighbors g.values m) []

theorem pairValues_eq (A : Arith F) (t : IntTy) {gs : List Group} {ks : List (Str × BNode F)} (hl : ks.length = gs.length)
    (h : ∀ (i : Nat) k g, ks[i]? = some k → gs[i]? = some g → IsGroup k g) (hn : (gs.map (·.name)).Nodup) (hf : Fits t gs) :
    pairValues A (.obj ks) (sortedNames (.obj ks)) = .ok (pairMap gs) := by
  rw [sortedNames_eq hl h]
  unfold pairValues pairMap
  apply foldlM_names
  intro g hg m
  have hg' := (byName_perm gs).mem_iff.mp hg
  obtain ⟨c, hc, hG⟩ := group_get hl h hn g hg'
  rw [hc, Res.bind_ok, readGroup_ok A t gs hf g hg' c hG, Res.bind_ok]

/-- One group of the map `to_maxshare` makes. -/
def entityGroup (m : List (Int × List Int)) (g : Group) : List (Int × List Int) :=
  g.values.foldl (fun m v => mapMod intLt v [] (fun s => g.neighbors.foldl (fun s d => setInsert d s) s) m) m

/-- The map from entities to sets of neighbors. -/
def entityMap (gs : List Group) : List (Int × List Int) := (byName gs).foldl entityGroup []

theorem entitySets_eq (A : Arith F) (t : IntTy) {gs : List Group} {ks : List (Str × BNode F)} (hl : ks.length = gs.length)
    (h : ∀ (i : Nat) k g, ks[i]? = some k → gs[i]? = some g → IsGroup k g) (hn : (gs.map (·.name)).Nodup) (hf : Fits t gs) :
    entitySets A (.obj ks) (sortedNames (.obj ks)) = .ok (entityMap gs) := by
  rw [sortedNames_eq hl h]
  unfold entitySets entityMap
  apply foldlM_names
  intro g hg m
  have hg' := (byName_perm gs).mem_iff.mp hg
  obtain ⟨c, hc, hG⟩ := group_get hl h hn g hg'
  rw [hc, Res.bind_ok, readGroup_ok A t gs hf g hg' c hG, Res.bind_ok]
  rfl

/-- All values, groups in the order of their names. -/
def allValues (gs : List Group) : List Int := (byName gs).flatMap (·.values)

theorem foldl_flatMap' (l : List Group) (f : β → Int → β) (m : β) :
    l.foldl (fun m g => g.values.foldl f m) m = (l.flatMap (·.values)).foldl f m := by
  induction l generalizing m with
  | nil => rfl
  | cons g l ih => rw [List.foldl_cons, ih, List.flatMap_cons, List.foldl_append]

theorem setValues_eq (A : Arith F) (t : IntTy) (esets : List (Int × List Int)) {gs : List Group} {ks : List (Str × BNode F)}
    (hl : ks.length = gs.length)
    (h : ∀ (i : Nat) k g, ks[i]? = some k → gs[i]? = some g → IsGroup k g) (hn : (gs.map (·.name)).Nodup) (hf : Fits t gs) :
    setValues A (.obj ks) esets (sortedNames (.obj ks)) = .ok ((allValues gs).foldl (addValue esets) []) := by
  rw [sortedNames_eq hl h]
  unfold setValues allValues
  rw [← foldl_flatMap']
  apply foldlM_names
  intro g hg m
  have hg' := (byName_perm gs).mem_iff.mp hg
  obtain ⟨c, hc, _, t1, t2, h1, h2⟩ := group_get hl h hn g hg'
  simp only at h2
  rw [hc, Res.bind_ok, h2, Res.bind_ok, leafInts_fits A t2 _ (fun v hv => (hf g hg' v (by simp [hv])).1), Res.bind_ok]

/-! ### canonicalize -/

theorem foldlM_range_states {α : Type} (f : α → Nat → Res α) (st : Nat → α) (n : Nat)
    (h : ∀ i, i < n → f (st i) i = .ok (st (i + 1))) : (List.range n).foldlM f (st 0) = .ok (st n) := by
  induction n with
  | zero => rfl
  | succ n ih =>
    rw [List.range_succ, List.foldlM_append, ih (fun i hi => h i (by omega)), Res.bind_ok]
    simp only [List.foldlM_cons, List.foldlM_nil]
    rw [h n (by omega)]
    rfl

/-- Every group gets the name of its neighbors, if these names are distinct and no group has the name another one
    is to get. -/
theorem canonicalGroups_ok (A : Arith F) (dom : Int) (ks : List (Str × BNode F)) (nbs : Nat → List Int)
    (hread : ∀ (i : Nat) k, ks[i]? = some k → ∃ c, k.2.get (chars! "neighbors") = .ok c ∧ leafInts A c = .ok (nbs i))
    (hnew : ∀ i j, i < j → j < ks.length → canonicalName dom (nbs i) ≠ canonicalName dom (nbs j))
    (hold : ∀ (i j : Nat) k, i < j → ks[j]? = some k → k.1 ≠ canonicalName dom (nbs i)) :
    canonicalGroups A dom ks = .ok (ks.mapIdx fun i k => (canonicalName dom (nbs i), k.2)) := by
  have key := foldlM_range_states (canonicalStep A dom)
    (fun i => ks.mapIdx fun j k => if j < i then (canonicalName dom (nbs j), k.2) else k) ks.length ?_
  · have h0 : (ks.mapIdx fun j k => if j < 0 then (canonicalName dom (nbs j), k.2) else k) = ks := by
      apply List.ext_getElem?; intro j; rw [List.getElem?_mapIdx]; cases ks[j]? <;> simp
    have hn : (ks.mapIdx fun j k => if j < ks.length then (canonicalName dom (nbs j), k.2) else k) =
        ks.mapIdx fun i k => (canonicalName dom (nbs i), k.2) := by
      apply List.ext_getElem?; intro j; rw [List.getElem?_mapIdx, List.getElem?_mapIdx]
      by_cases hj : j < ks.length
      · simp [hj]
      · simp [List.getElem?_eq_none (Nat.le_of_not_lt hj)]
    simp only [h0] at key
    rw [hn] at key
    exact key
  · intro i hi
    have hk := List.getElem?_eq_getElem hi
    obtain ⟨c, hc1, hc2⟩ := hread i _ hk
    unfold canonicalStep
    have hget : (ks.mapIdx fun j k => if j < i then (canonicalName dom (nbs j), k.2) else k)[i]? = some ks[i] := by
      rw [List.getElem?_mapIdx, hk]; simp
    rw [Res.ofIdx, hget]
    simp only [Res.bind_ok]
    rw [hc1, Res.bind_ok, hc2, Res.bind_ok]
    by_cases he : ks[i].1 = canonicalName dom (nbs i)
    · rw [if_pos he]
      congr 1
      apply List.ext_getElem?; intro j; rw [List.getElem?_mapIdx, List.getElem?_mapIdx]
      by_cases hj : j < ks.length
      · rw [List.getElem?_eq_getElem hj]
        simp only [Option.map_some, Option.some.injEq]
        by_cases hji : j < i
        · rw [if_pos hji, if_pos (by omega)]
        · rw [if_neg hji]
          by_cases hje : j = i
          · subst hje; rw [if_pos (by omega), ← he]
          · rw [if_neg (by omega)]
      · simp [List.getElem?_eq_none (Nat.le_of_not_lt hj)]
    · rw [if_neg he, if_neg]
      · congr 1
        apply List.ext_getElem?; intro j
        rw [List.getElem?_set, List.getElem?_mapIdx, List.getElem?_mapIdx]
        by_cases hji : i = j
        · subst hji
          rw [if_pos rfl, if_pos (by simpa using hi), hk]
          simp
        · rw [if_neg hji]
          by_cases hj : j < ks.length
          · rw [List.getElem?_eq_getElem hj]
            simp only [Option.map_some, Option.some.injEq]
            by_cases hlt : j < i
            · rw [if_pos hlt, if_pos (by omega)]
            · rw [if_neg hlt, if_neg (by omega)]
          · simp [List.getElem?_eq_none (Nat.le_of_not_lt hj)]
      · rw [List.any_eq_true]
        rintro ⟨x, hx, hxe⟩
        have hxe : x.1 = canonicalName dom (nbs i) := by simpa using hxe
        obtain ⟨j, hj⟩ := List.mem_iff_getElem?.mp hx
        rw [List.getElem?_mapIdx] at hj
        cases hkj : ks[j]? with
        | none => rw [hkj] at hj; simp at hj
        | some y =>
          rw [hkj] at hj
          simp only [Option.map_some, Option.some.injEq] at hj
          by_cases hlt : j < i
          · rw [if_pos hlt] at hj
            rw [← hj] at hxe
            exact hnew j i hlt hi hxe
          · rw [if_neg hlt] at hj
            subst hj
            by_cases hje : j = i
            · subst hje
              rw [hk] at hkj
              injection hkj with hkj
              rw [hkj] at he
              exact he hxe
            · exact hold i j y (by omega) hkj hxe

theorem template_get (n : BNode F) (v : BNode F) :
    (BNode.obj (template n ++ [(chars! "groups", v)])).get (chars! "groups") = .ok v := by
  unfold BNode.get
  simp only [BNode.kids]
  rw [List.find?_append, List.find?_eq_none.mpr]
  · simp
  · intro k hk
    have := (List.mem_filter.mp hk).2
    simpa using this

theorem putKid_template (n : BNode F) (v w : BNode F) :
    putKid (template n ++ [(chars! "groups", v)]) (chars! "groups") w = template n ++ [(chars! "groups", w)] := by
  unfold putKid
  rw [List.map_append]
  congr 1
  · refine (List.map_congr_left fun k hk => ?_).trans (List.map_id' _)
    have := (List.mem_filter.mp hk).2
    rw [if_neg (by simpa using this)]

theorem find?_filter_of {α : Type} (p q : α → Bool) (l : List α) (h : ∀ a, p a = true → q a = true) :
    (l.filter q).find? p = l.find? p := by
  induction l with
  | nil => rfl
  | cons a l ih =>
    rw [List.filter_cons]
    split
    · rw [List.find?_cons, List.find?_cons, ih]
    · rename_i hq
      rw [List.find?_cons, ih]
      cases hp : p a with
      | false => rfl
      | true => exact absurd (h a hp) hq

/-- Everything but the groups is copied. -/
theorem template_rest (n : BNode F) (v : BNode F) (name : Str) (h : name ≠ chars! "groups") :
    (BNode.obj (template n ++ [(chars! "groups", v)])).get name = n.get name := by
  have hk : (BNode.obj (template n ++ [(chars! "groups", v)])).kids = template n ++ [(chars! "groups", v)] := rfl
  unfold BNode.get
  rw [hk]
  have hf : (template n).find? (fun k => k.1 == name) = n.kids.find? (fun k => k.1 == name) := by
    unfold template
    apply find?_filter_of
    intro a ha
    have : a.1 = name := by simpa using ha
    simp [this, h]
  rw [List.find?_append, hf]
  cases n.kids.find? (fun k => k.1 == name) with
  | some k => rfl
  | none => simp [Ne.symm h]

/-- The groups made from these lists. -/
def groupsOf (dom : Int) (l : List (List Int × List Int)) : List Group :=
  l.map fun e => ⟨canonicalName dom e.1, e.1, e.2⟩

/-- Writing groups and renaming them. -/
theorem finish_ok (A : Arith F) (dom : Int) (t : IntTy) (n : BNode F) (l : List (List Int × List Int))
    (hf : ∀ e ∈ l, ∀ v ∈ e.1 ++ e.2, int64.cast v = v ∧ t.cast v = v)
    (hd : ∀ (i j : Nat) a b, i < j → l[i]? = some a → l[j]? = some b → ¬ a.1.Perm b.1) :
    ∃ d, canonicalize A dom (.obj (template n ++ [(chars! "groups", .obj (numbered (l.map fun e => makeGroup t e.1 e.2)))]))
        = .ok d ∧ HasGroups d (groupsOf dom l) ∧ ∀ name, name ≠ chars! "groups" → d.get name = n.get name := by
  have hfit : ∀ e ∈ l, e.1.map t.cast = e.1 ∧ e.2.map t.cast = e.2 := by
    intro e he
    exact ⟨(List.map_congr_left fun v hv => (hf e he v (by simp [hv])).2).trans (List.map_id' _),
      (List.map_congr_left fun v hv => (hf e he v (by simp [hv])).2).trans (List.map_id' _)⟩
  have hks : ∀ i : Nat, (numbered (F := F) (l.map fun e => makeGroup t e.1 e.2))[i]? =
      (l[i]?).map fun e => (intText i, makeGroup t e.1 e.2) := by
    intro i; simp only [numbered, List.getElem?_mapIdx, List.getElem?_map, Option.map_map]; rfl
  have hlen : (numbered (F := F) (l.map fun e => makeGroup t e.1 e.2)).length = l.length := by simp [numbered]
  have hcan := canonicalGroups_ok A dom (numbered (l.map fun e => makeGroup t e.1 e.2))
    (fun i => ((l[i]?).map (·.1)).getD [])
    (by
      intro i k hk
      rw [hks] at hk
      cases he : l[i]? with
      | none => rw [he] at hk; simp at hk
      | some e =>
        rw [he] at hk
        simp only [Option.map_some, Option.some.injEq] at hk
        subst hk
        have hm := List.mem_of_getElem? he
        refine ⟨.ints t e.1, ?_, ?_⟩
        · show BNode.get (makeGroup t e.1 e.2) _ = _
          unfold makeGroup; rw [(hfit e hm).1]; rfl
        · exact leafInts_fits A t _ fun v hv => (hf e hm v (by simp [hv])).1)
    (by
      intro i j hij hj
      rw [hlen] at hj
      rw [List.getElem?_eq_getElem hj, List.getElem?_eq_getElem (by omega)]
      simp only [Option.map_some, Option.getD_some]
      intro hc
      exact hd i j _ _ hij (List.getElem?_eq_getElem (by omega)) (List.getElem?_eq_getElem hj) (canonicalName_inj dom _ _ hc))
    (by
      intro i j k _ hk
      rw [hks] at hk
      cases he : l[j]? with
      | none => rw [he] at hk; simp at hk
      | some e =>
        rw [he] at hk
        simp only [Option.map_some, Option.some.injEq] at hk
        subst hk
        exact (canonicalName_ne_intText dom _ j).symm)
  generalize hK : (numbered (F := F) (l.map fun e => makeGroup t e.1 e.2)) = K at *
  refine ⟨.obj (template n ++ [(chars! "groups",
    .obj (K.mapIdx fun i k => (canonicalName dom (((l[i]?).map (·.1)).getD []), k.2)))]), ?_, ?_, fun name hname => ?_⟩
  · unfold canonicalize
    rw [template_get, Res.bind_ok]
    simp only [BNode.kids]
    rw [hcan, Res.bind_ok, putKid_template]
  · refine ⟨_, template_get _ _, by simp [groupsOf, hlen], ?_⟩
    intro i k g hk hg
    rw [List.getElem?_mapIdx, hks] at hk
    simp only [groupsOf, List.getElem?_map] at hg
    cases he : l[i]? with
    | none => rw [he] at hk; simp at hk
    | some e =>
      rw [he] at hk hg
      simp only [Option.map_some, Option.some.injEq, Option.getD_some] at hk hg
      subst hk; subst hg
      have hm := List.mem_of_getElem? he
      refine ⟨rfl, t, t, ?_, ?_⟩
      · show BNode.get (makeGroup t e.1 e.2) _ = _
        unfold makeGroup; rw [(hfit e hm).1]; rfl
      · show BNode.get (makeGroup t e.1 e.2) _ = _
        unfold makeGroup; rw [(hfit e hm).2]; rfl
  · exact template_rest n _ name hname

end Conduit.Mesh
