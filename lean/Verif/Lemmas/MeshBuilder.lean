import Verif.Model.MeshBuilder
import Verif.Spec.MeshBuilder
import Verif.Lemmas.MeshPoints
import Verif.Lemmas.MeshReorder2
import Verif.Lemmas.MeshRead
/-
Lemmas on the topology builder and the search for elements.
-/
namespace Conduit.Mesh
variable {F : Type}

/-! ### the map of the points -/

theorem mapMod_length_new {κ β : Type} [DecidableEq κ] (lt : κ → κ → Bool) (k : κ) (d : β) (f : β → β) (m : List (κ × β))
    (h : ∀ e ∈ m, e.1 ≠ k) : (mapMod lt k d f m).length = m.length + 1 := by
  induction m with
  | nil => rfl
  | cons e m ih =>
    obtain ⟨k', v⟩ := e
    have hk : ¬ k = k' := fun hh => h (k', v) (by simp) hh.symm
    simp only [mapMod, if_neg hk]
    split
    · simp
    · simp [ih (fun e he => h e (by simp [he]))]

/-- The builder in terms of the points given to it. -/
structure BSeen (seen : List Nat) (b : Builder) : Prop where
  sorted : KSorted intLt b.oldToNew
  get : ∀ z v : Int, mapGet b.oldToNew z = some v ↔ ∃ p ∈ seen, z = (p : Int) ∧ v = (seen.eraseDups.idxOf p : Int)
  len : b.oldToNew.length = seen.eraseDups.length
  conn : b.conn = seen.map fun p => (seen.eraseDups.idxOf p : Int)

theorem addPoint_seen {seen : List Nat} {b : Builder} (h : BSeen seen b) (p : Nat) :
    BSeen (seen ++ [p]) (addPoint b (p : Int)) ∧ (addPoint b (p : Int)).sizes = b.sizes := by
  unfold addPoint newPointId
  by_cases hm : p ∈ seen
  · have hg : mapGet b.oldToNew (p : Int) = some (seen.eraseDups.idxOf p : Int) := (h.get _ _).2 ⟨p, hm, rfl, rfl⟩
    have he : (seen ++ [p]).eraseDups = seen.eraseDups := by rw [eraseDups_snoc, if_pos hm]
    rw [hg]
    refine ⟨⟨h.sorted, fun z v => ?_, by rw [he]; exact h.len, ?_⟩, rfl⟩
    · rw [h.get, he]
      constructor
      · rintro ⟨q, hq, e⟩; exact ⟨q, by simp [hq], e⟩
      · rintro ⟨q, hq, e⟩
        rcases List.mem_append.1 hq with hq | hq
        · exact ⟨q, hq, e⟩
        · simp at hq; subst hq; exact ⟨q, hm, e⟩
    · simp only [he, List.map_append, h.conn, List.map_cons, List.map_nil]
  · have hg : mapGet b.oldToNew (p : Int) = none := by
      cases hx : mapGet b.oldToNew (p : Int) with
      | none => rfl
      | some v =>
        obtain ⟨q, hq, e, _⟩ := (h.get _ _).1 hx
        have : q = p := by omega
        subst this; exact absurd hq hm
    have he : (seen ++ [p]).eraseDups = seen.eraseDups ++ [p] := by rw [eraseDups_snoc, if_neg hm]
    have hnm : p ∉ seen.eraseDups := fun hx => hm (List.mem_eraseDups.1 hx)
    have hidx : (seen.eraseDups ++ [p]).idxOf p = seen.eraseDups.length := by
      rw [List.idxOf_append_of_notMem hnm]; simp
    have hkey : ∀ e ∈ b.oldToNew, e.1 ≠ (p : Int) := by
      intro e he' hh
      have := (mem_iff_mapGet strictTot_int _ h.sorted e).1 he'
      rw [hh, hg] at this; cases this
    rw [hg]
    refine ⟨⟨mapMod_sorted strictTot_int _ _ _ _ h.sorted, fun z v => ?_, ?_, ?_⟩, rfl⟩
    · simp only
      rw [mapGet_mod strictTot_int _ _ _ _ h.sorted, h.len, he]
      by_cases hz : (p : Int) = z
      · rw [if_pos hz]
        constructor
        · intro hv
          simp at hv
          exact ⟨p, by simp, hz.symm, by rw [hidx, ← hv]⟩
        · rintro ⟨q, hq, e1, e2⟩
          have : q = p := by omega
          subst this
          rw [e2, hidx]
      · rw [if_neg hz, h.get]
        constructor
        · rintro ⟨q, hq, e1, e2⟩
          exact ⟨q, by simp [hq], e1, by rw [idxOf_snoc (List.mem_eraseDups.2 hq)]; exact e2⟩
        · rintro ⟨q, hq, e1, e2⟩
          rcases List.mem_append.1 hq with hq | hq
          · exact ⟨q, hq, e1, by rw [idxOf_snoc (List.mem_eraseDups.2 hq)] at e2; exact e2⟩
          · simp at hq; subst hq; exact absurd e1.symm hz
    · simp only
      rw [mapMod_length_new _ _ _ _ _ hkey, he, h.len]; simp
    · simp only [he, List.map_append, List.map_cons, List.map_nil, hidx, h.len]
      congr 1
      rw [h.conn]
      apply List.map_congr_left
      intro q hq
      rw [idxOf_snoc (List.mem_eraseDups.2 hq)]

theorem addPoints_seen (ids : List Nat) : ∀ {seen : List Nat} {b : Builder}, BSeen seen b →
    BSeen (seen ++ ids) ((ids.map fun p : Nat => (p : Int)).foldl addPoint b) ∧
      ((ids.map fun p : Nat => (p : Int)).foldl addPoint b).sizes = b.sizes := by
  induction ids with
  | nil => intro seen b h; simpa using h
  | cons p ids ih =>
    intro seen b h
    obtain ⟨h1, h2⟩ := addPoint_seen h p
    obtain ⟨h3, h4⟩ := ih h1
    rw [List.append_assoc] at h3
    exact ⟨h3, by rw [List.map_cons, List.foldl_cons, h4, h2]⟩

/-- A builder after these elements were added. -/
def buildAll (els : List (List Nat)) : Builder :=
  els.foldl (fun b el => (addElement b (el.map fun p : Nat => (p : Int))).2) .new

theorem build_from (els : List (List Nat)) : ∀ {done : List (List Nat)} {b : Builder}, BSeen done.flatten b →
    b.sizes = done.map (fun e => (e.length : Int)) →
    BSeen (done ++ els).flatten (els.foldl (fun b el => (addElement b (el.map fun p : Nat => (p : Int))).2) b) ∧
      (els.foldl (fun b el => (addElement b (el.map fun p : Nat => (p : Int))).2) b).sizes =
        (done ++ els).map fun e => (e.length : Int) := by
  induction els with
  | nil => intro done b h hs; simpa using ⟨h, hs⟩
  | cons el els ih =>
    intro done b h hs
    obtain ⟨h1, h2⟩ := addPoints_seen el h
    have := ih (done := done ++ [el]) (b := (addElement b (el.map fun p : Nat => (p : Int))).2) (by
      have e : (done ++ [el]).flatten = done.flatten ++ el := by simp
      rw [e]
      exact ⟨h1.sorted, h1.get, h1.len, h1.conn⟩) (by simp [addElement, h2, hs])
    simpa using this

theorem buildAll_seen (els : List (List Nat)) :
    BSeen els.flatten (buildAll els) ∧ (buildAll els).sizes = els.map fun e => (e.length : Int) := by
  have := build_from els (done := []) (b := .new) ⟨List.Pairwise.nil, fun z v => by simp [Builder.new, mapGet], rfl, rfl⟩ rfl
  exact this

/-! ### coordinates -/

theorem foldlM_picks (acc : List F) (m : List (Int × Int)) (val : Int × Int → F)
    (h : ∀ e ∈ m, pick acc e.1 = .ok (val e)) (coords : List F) :
    m.foldlM (fun (coords : List F) e => do
      let v ← pick acc e.1
      put coords e.2 v) coords = run (m.map fun e => (e.2, val e)) coords := by
  induction m generalizing coords with
  | nil => rfl
  | cons e m ih =>
    rw [List.foldlM_cons, h e (by simp), Res.bind_ok, List.map_cons, run_cons]
    cases put coords e.2 (val e) with
    | ok c => exact ih (fun e he => h e (by simp [he])) c
    | error => rfl
    | ub => rfl

theorem leafDoubles_ok (A : Arith F) (col : BNode F) (n : Nat) (h : Column col n) :
    ∃ acc, leafDoubles A col = .ok acc ∧ n ≤ acc.length ∧ ∀ i, valueAt A col i = acc[i]? := by
  rcases h with ⟨t, l, rfl, hl⟩ | ⟨w, l, rfl, hl⟩
  · exact ⟨_, rfl, by simpa using hl, fun i => by simp [valueAt]⟩
  · exact ⟨_, rfl, hl, fun i => rfl⟩

theorem selectAxis_ok (A : Arith F) {cset col : BNode F} {name : Str} {npts : Nat} {seen : List Nat} {b : Builder}
    (h : BSeen seen b) (hcol : LeafAt cset (chars! "values") name col) (hn : Column col npts) (hp : ∀ p ∈ seen, p < npts) :
    ∃ l, selectAxis A cset b.oldToNew name = .ok (name, .flts true l) ∧ l.length = seen.eraseDups.length ∧
      ∀ (q p : Nat), seen.eraseDups[q]? = some p → ∃ v, valueAt A col p = some v ∧ l[q]? = some v := by
  obtain ⟨vals, v1, v2⟩ := hcol
  obtain ⟨acc, a1, a2, a3⟩ := leafDoubles_ok A col npts hn
  have hmem : ∀ e ∈ b.oldToNew, ∃ p ∈ seen, e.1 = (p : Int) ∧ e.2 = (seen.eraseDups.idxOf p : Int) := by
    intro e he
    exact (h.get _ _).1 ((mem_iff_mapGet strictTot_int _ h.sorted e).1 he)
  have hpick : ∀ e ∈ b.oldToNew, pick acc e.1 = .ok (acc.getD e.1.toNat A.zero) := by
    intro e he
    obtain ⟨p, hp', e1, _⟩ := hmem e he
    rw [e1]
    have : p < acc.length := Nat.lt_of_lt_of_le (hp p hp') a2
    rw [pick_nat _ _ (acc[p]) (List.getElem?_eq_getElem this)]
    simp [List.getD_eq_getElem?_getD, List.getElem?_eq_getElem this]
  have hnd := eraseDups_nodup seen
  refine ⟨(List.range seen.eraseDups.length).map fun q => acc.getD (seen.eraseDups.getD q 0) A.zero, ?_, by simp, ?_⟩
  · unfold selectAxis
    rw [v1, Res.bind_ok, v2, Res.bind_ok, a1, Res.bind_ok, foldlM_picks acc _ _ hpick]
    rw [run_all (fun q => acc.getD (seen.eraseDups.getD q 0) A.zero)]
    · rw [List.length_replicate, h.len]; rfl
    · intro w hw
      obtain ⟨e, he, rfl⟩ := List.mem_map.1 hw
      obtain ⟨p, hp', e1, e2⟩ := hmem e he
      have hlt : seen.eraseDups.idxOf p < seen.eraseDups.length := List.idxOf_lt_length_iff.2 (List.mem_eraseDups.2 hp')
      simp only [e1, e2]
      rw [List.length_replicate, h.len]
      refine ⟨by omega, by omega, ?_⟩
      have hg : seen.eraseDups[seen.eraseDups.idxOf p]? = some p := by
        rw [List.getElem?_eq_getElem hlt]; simp
      simp [List.getD_eq_getElem?_getD, hg]
    · intro q hq
      rw [List.length_replicate, h.len] at hq
      rw [List.map_map, List.mem_map]
      have hmem' : seen.eraseDups[q] ∈ seen := List.mem_eraseDups.1 (List.getElem_mem hq)
      refine ⟨((seen.eraseDups[q] : Nat), (q : Int)), ?_, rfl⟩
      rw [mem_iff_mapGet strictTot_int _ h.sorted, h.get]
      exact ⟨_, hmem', rfl, by rw [hnd.idxOf_getElem]⟩
  · intro q p hq
    have hql : q < seen.eraseDups.length := (List.getElem?_eq_some_iff.1 hq).1
    have hps : p ∈ seen := List.mem_eraseDups.1 (List.mem_of_getElem? hq)
    have hpl : p < acc.length := Nat.lt_of_lt_of_le (hp p hps) a2
    refine ⟨acc[p], by rw [a3, List.getElem?_eq_getElem hpl], ?_⟩
    rw [List.getElem?_map, List.getElem?_range hql]
    simp [List.getD_eq_getElem?_getD, hq, List.getElem?_eq_getElem hpl]

/-! ### search -/

theorem takeIds_ok (conn : List Int) (o : Nat) (el : List Nat)
    (h : ∀ (i p : Nat), el[i]? = some p → pick conn ((o : Int) + (i : Int)) = .ok (p : Int)) :
    takeIds conn (el.length : Int) (o : Int) = .ok (el.map fun p : Nat => (p : Int)) := by
  unfold takeIds
  rw [forTo_collect conn o el h (fun v l => l ++ [v]) [], foldl_snoc]; rfl

theorem iterateSizes_ok (conn : List Int) : ∀ (els : List (List Nat)) (o : Nat),
    (∀ (i p : Nat), els.flatten[i]? = some p → conn[o + i]? = some (p : Int)) →
    iterateSizes conn (els.map fun e => (e.length : Int)) (o : Int) = .ok (els.map fun el => el.map fun p : Nat => (p : Int))
  | [], _, _ => rfl
  | el :: els, o, h => by
    have h1 : takeIds conn (el.length : Int) (o : Int) = .ok (el.map fun p : Nat => (p : Int)) := by
      apply takeIds_ok
      intro i p hp
      have := pick_nat conn (o + i) p (h i p (by
        rw [List.flatten_cons, List.getElem?_append_left (List.getElem?_eq_some_iff.1 hp).1, hp]))
      simpa using this
    have h2 := iterateSizes_ok conn els (o + el.length) (fun i p hp => by
      have := h (el.length + i) p (by
        rw [List.flatten_cons, List.getElem?_append_right (by omega), Nat.add_sub_cancel_left, hp])
      rw [← this]; congr 1; omega)
    simp only [List.map_cons, iterateSizes]
    rw [h1, Res.bind_ok]
    have : (o : Int) + max (el.length : Int) 0 = ((o + el.length : Nat) : Int) := by omega
    rw [this, h2, Res.bind_ok]

theorem iterate_ok (A : Arith F) {topo e : BNode F} {els : List (List Nat)} (h : Cells topo e els)
    (hz : e.hasChild (chars! "sizes") = false ∨ NatLeaf e (chars! "sizes") (els.map (·.length))) :
    iterateElements A topo = .ok (els.map fun el => el.map fun p : Nat => (p : Int)) := by
  obtain ⟨vc, c1, c2, _⟩ := h.conn.read A
  have hit : iterateSizes (els.flatten.map fun p : Nat => (p : Int)) (els.map fun e => (e.length : Int)) 0 =
      .ok (els.map fun el => el.map fun p : Nat => (p : Int)) :=
    iterateSizes_ok _ els 0 (fun i p hp => by simp only [Nat.zero_add, List.getElem?_map, hp]; rfl)
  unfold iterateElements
  rw [h.elements, Res.bind_ok, c1, Res.bind_ok, c2, Res.bind_ok]
  rcases hz with hz | hz
  · rw [hz]
    simp only [Bool.false_eq_true, if_false]
    rcases h.shape with ⟨s, k, hk, hs, hl⟩ | ⟨_, t, hs, _⟩
    · obtain ⟨k0, _, _, d, hi⟩ := fixed_shape hk
      rw [(shapeOfTopo_of h.elements hs).1, hi, Res.bind_ok, List.length_map, flatten_fixed _ k hl]
      have : (((els.length * k : Nat) : Int).tdiv (k : Int)).toNat = els.length := by
        rw [← Int.ofNat_tdiv, Nat.mul_div_cancel _ k0]; simp
      simp only [this]
      have e : (List.replicate els.length (k : Int)) = els.map fun e => (e.length : Int) := by
        symm
        rw [List.eq_replicate_iff]
        refine ⟨by simp, fun x hx => ?_⟩
        obtain ⟨el, hel, rfl⟩ := List.mem_map.1 hx
        rw [hl el hel]
      rw [e, hit]
    · have := hasChild_of_get _ _ _ hs
      rw [hz] at this; cases this
  · obtain ⟨vz, z1, z2, _⟩ := hz.read A
    rw [hasChild_of_get _ _ _ z1, if_pos rfl, z1, Res.bind_ok, z2, Res.bind_ok]
    have e : (els.map (·.length)).map (fun p : Nat => (p : Int)) = els.map fun e => (e.length : Int) := by
      rw [List.map_map]; rfl
    rw [e, hit]

/-- The results of a point query as they are stored. -/
def stored (r : List (Option Nat)) : List Int := r.map fun o => match o with | some q => (q : Int) | none => -1

theorem mapPoints_ok (r : List (Option Nat)) (el : List Nat) (hp : ∀ p ∈ el, p < r.length) (bad : Bool) (pre : List Int) :
    (el.map fun p : Nat => (p : Int)).foldlM (fun (s : Bool × List Int) pt => do
      let v ← pick (stored r) pt
      Res.ok (s.1 || v == -1, s.2 ++ [v])) (bad, pre) =
      .ok (bad || el.any (fun p => r.getD p none == none), pre ++ el.map fun p => match r.getD p none with | some q => (q : Int) | none => -1) := by
  induction el generalizing bad pre with
  | nil => simp
  | cons p el ih =>
    have hlt := hp p (by simp)
    have hpick : pick (stored r) (p : Int) = .ok (match r.getD p none with | some q => (q : Int) | none => -1) := by
      apply pick_nat
      simp [stored, List.getD_eq_getElem?_getD, List.getElem?_eq_getElem hlt]
    rw [List.map_cons, List.foldlM_cons, hpick, Res.bind_ok, Res.bind_ok, ih (fun q hq => hp q (by simp [hq]))]
    have hb : ((match r.getD p none with | some q => (q : Int) | none => -1) == -1) = (r.getD p none == none) := by
      cases r.getD p none with
      | none => rfl
      | some q => simp
    rw [hb]
    simp [Bool.or_assoc]

theorem sort_eq_iff (a b : List Nat) : sortBy intLt (a.map fun p : Nat => (p : Int)) = sortBy intLt (b.map fun p : Nat => (p : Int)) ↔ a.Perm b := by
  constructor
  · intro h
    have h1 := (sortBy_perm intLt (a.map fun p : Nat => (p : Int))).symm
    rw [h] at h1
    have h2 := h1.trans (sortBy_perm intLt _)
    have h3 := h2.map Int.toNat
    simpa [List.map_map, Function.comp_def] using h3
  · intro h
    exact sortBy_congr strictTot_int _ _ (h.map _)

theorem translated_of (r : List (Option Nat)) (el : List Nat) (hp : ∀ p ∈ el, p < r.length) :
    (el.any (fun p => r.getD p none == none) = true → ∀ m, ¬ Translated r el m) ∧
    (el.any (fun p => r.getD p none == none) = false → ∃ m, Translated r el m ∧
      (el.map fun p => match r.getD p none with | some q => (q : Int) | none => -1) = m.map fun p : Nat => (p : Int)) := by
  constructor
  · intro h m hm
    obtain ⟨p, hp', e⟩ := List.any_eq_true.1 h
    obtain ⟨i, hi⟩ := List.getElem?_of_mem hp'
    obtain ⟨q, hq, _⟩ := hm.2 i p hi
    simp [List.getD_eq_getElem?_getD, hq] at e
  · intro h
    have hs : ∀ p ∈ el, ∃ q, r[p]? = some (some q) := by
      intro p hp'
      have := List.any_eq_false.1 h p hp'
      have hlt := hp p hp'
      rw [List.getD_eq_getElem?_getD, List.getElem?_eq_getElem hlt] at this
      rw [List.getElem?_eq_getElem hlt]
      cases hx : r[p] with
      | none => simp [hx] at this
      | some q => exact ⟨q, rfl⟩
    refine ⟨el.map fun p => (r.getD p none).getD 0, ⟨by simp, fun i p hi => ?_⟩, ?_⟩
    · obtain ⟨q, hq⟩ := hs p (List.mem_of_getElem? hi)
      exact ⟨q, hq, by simp [hi, List.getD_eq_getElem?_getD, hq]⟩
    · rw [List.map_map]
      apply List.map_congr_left
      intro p hp'
      obtain ⟨q, hq⟩ := hs p hp'
      simp [List.getD_eq_getElem?_getD, hq]

theorem translated_unique (r : List (Option Nat)) (el m m' : List Nat) (h : Translated r el m) (h' : Translated r el m') : m = m' := by
  apply List.ext_getElem?
  intro i
  by_cases hi : i < el.length
  · obtain ⟨q, h1, h2⟩ := h.2 i el[i] (List.getElem?_eq_getElem hi)
    obtain ⟨q', h3, h4⟩ := h'.2 i el[i] (List.getElem?_eq_getElem hi)
    rw [h1] at h3
    have : q = q' := by simpa using h3
    rw [h2, h4, this]
  · rw [List.getElem?_eq_none (by rw [h.1]; omega), List.getElem?_eq_none (by rw [h'.1]; omega)]

/-- The hash of an element: of its points in ascending order. -/
def elementHash (el : List Nat) : Nat := Hash.hashIds (sortBy intLt (el.map fun p : Nat => (p : Int)))

theorem search_ok (A : Arith F) {topo1 e1 topo2 e2 : BNode F} {els1 els2 : List (List Nat)} (h1 : Cells topo1 e1 els1)
    (hz1 : e1.hasChild (chars! "sizes") = false ∨ NatLeaf e1 (chars! "sizes") (els1.map (·.length))) (h2 : Cells topo2 e2 els2)
    (hz2 : e2.hasChild (chars! "sizes") = false ∨ NatLeaf e2 (chars! "sizes") (els2.map (·.length)))
    (r : List (Option Nat)) (hr : ∀ el ∈ els2, ∀ p ∈ el, p < r.length) :
    ∃ out, search A topo1 topo2 (stored r) = .ok out ∧ out.length = els2.length ∧
      ∀ (j : Nat) (el : List Nat), els2[j]? = some el → ∃ v, out[j]? = some v ∧ (v = 0 ∨ v = 1) ∧
        (v = 1 ↔ ∃ m, Translated r el m ∧ ∃ el1 ∈ els1, elementHash el1 = elementHash m) := by
  unfold search
  rw [iterate_ok A h1 hz1, Res.bind_ok]
  simp only
  rw [iterate_ok A h2 hz2, Res.bind_ok]
  obtain ⟨out, e, hf⟩ := mapM_res (fun ids : List Int => do
    let m ← mapPoints (stored r) ids
    if m.1 then Res.ok 0
    else Res.ok (if (List.map (fun ids => Hash.hashIds (sortBy intLt ids)) (els1.map fun el => el.map fun p : Nat => (p : Int))).contains
      (Hash.hashIds (sortBy intLt m.2)) then (1 : Int) else 0))
    (fun ids v => ∀ el ∈ els2, ids = el.map (fun p : Nat => (p : Int)) → (v = 0 ∨ v = 1) ∧
        (v = 1 ↔ ∃ m, Translated r el m ∧ ∃ el1 ∈ els1, elementHash el1 = elementHash m))
    (els2.map fun el => el.map fun p : Nat => (p : Int)) (by
      intro ids hids
      obtain ⟨el, hel, rfl⟩ := List.mem_map.1 hids
      have hmp := mapPoints_ok r el (hr el hel) false []
      have hinj : ∀ el' : List Nat, el.map (fun p : Nat => (p : Int)) = el'.map (fun p : Nat => (p : Int)) → el' = el := by
        intro el' h
        have := congrArg (List.map Int.toNat) h
        simpa [List.map_map, Function.comp_def] using this.symm
      unfold mapPoints
      rw [hmp, Res.bind_ok]
      simp only [Bool.false_or, List.nil_append]
      obtain ⟨t1, t2⟩ := translated_of r el (hr el hel)
      cases hb : el.any (fun p => r.getD p none == none) with
      | true =>
        refine ⟨0, rfl, fun el' _ h' => ?_⟩
        have := hinj el' h'
        subst this
        refine ⟨.inl rfl, by simp, ?_⟩
        rintro ⟨m, hm, _⟩
        exact absurd hm (t1 hb m)
      | false =>
        obtain ⟨m, hm, em⟩ := t2 hb
        simp only [Bool.false_eq_true, if_false]
        refine ⟨_, rfl, fun el' _ h' => ?_⟩
        have := hinj el' h'
        subst this
        rw [em]
        have hcont : (List.map (fun ids => Hash.hashIds (sortBy intLt ids)) (els1.map fun el => el.map fun p : Nat => (p : Int))).contains
            (Hash.hashIds (sortBy intLt (m.map fun p : Nat => (p : Int)))) = true ↔ ∃ el1 ∈ els1, elementHash el1 = elementHash m := by
          rw [List.contains_iff_mem, List.map_map, List.mem_map]; rfl
        constructor
        · split <;> simp
        · by_cases hc : (List.map (fun ids => Hash.hashIds (sortBy intLt ids)) (els1.map fun el => el.map fun p : Nat => (p : Int))).contains
            (Hash.hashIds (sortBy intLt (m.map fun p : Nat => (p : Int)))) = true
          · rw [if_pos hc]
            exact ⟨fun _ => ⟨m, hm, hcont.1 hc⟩, fun _ => rfl⟩
          · rw [if_neg hc]
            constructor
            · intro h; simp at h
            · rintro ⟨m', hm', hx⟩
              rw [translated_unique r el' m' m hm' hm] at hx
              exact absurd (hcont.2 hx) hc)
  refine ⟨out, e, ?_, fun j el hj => ?_⟩
  · have := hf.length_eq
    simpa using this.symm
  · have hlen : out.length = els2.length := by have := hf.length_eq; simpa using this.symm
    have hjl : j < els2.length := (List.getElem?_eq_some_iff.1 hj).1
    have ho : out[j]? = some out[j] := List.getElem?_eq_getElem (by omega)
    exact ⟨out[j], ho, forall2_get hf j _ _ (by simp [hj]) ho el (List.mem_of_getElem? hj) rfl⟩

end Conduit.Mesh
