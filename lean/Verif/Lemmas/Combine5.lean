import Verif.Lemmas.Combine4
/-
Putting the chunks together.
-/
namespace Conduit.Comb
open Conduit.Mesh Conduit.Part Conduit.Merge
variable {F : Type}

/-! ### the fields of the result -/

theorem oneField_ok {o : MOps F} {tol : F} {tname csname : Str} {cs : List (Chunk F)} {topo cset : BNode F} {pts : List (V3 F)}
    {maps : List (List Nat)} {orig : List (Nat × Nat)} (h : Made o tol tname csname cs topo cset pts maps orig) (g : Str × List (BNode F))
    (hg : g ∈ groupFields (cs.map (·.mesh))) :
    ∃ r, oneField o.arith [(tname, cs.map fun c => (c.mesh, c.topo))] (.obj [(tname, topo)]) (.obj [(csname, cset)]) g = .ok r ∧
      (∀ f, r = some f → f.1 = g.1 ∧ FieldKept cs maps orig pts.length tname f.1 f.2) ∧
      ((∀ c ∈ cs, g.1 ∈ c.fields.map (·.1)) → r ≠ none) := by
  have hinv := groupFields_inv cs h.good
  have hg2 := hinv.group g hg
  obtain ⟨a1, a2, a3⟩ := group_all cs (fun c hc => (h.good c hc).names) g.1
  simp only [← hg2] at a1 a2 a3
  have hname : g.1 ∈ (cs.flatMap (·.fields)).map (·.1) := (hinv.names _).1 (List.mem_map_of_mem hg)
  obtain ⟨e, he, hee⟩ := List.mem_map.1 hname
  have hmem2 : e.2 ∈ g.2 := by
    rw [hg2]
    exact List.mem_map_of_mem (List.mem_filter.2 ⟨he, by simpa using hee⟩)
  unfold oneField
  cases hgl : g.2 with
  | nil => rw [hgl] at hmem2; cases hmem2
  | cons f0 fs =>
    have hf0 : ∃ c ∈ cs, (g.1, f0) ∈ c.fields := by
      have : f0 ∈ g.2 := by rw [hgl]; simp
      rw [hg2] at this
      obtain ⟨x, hx, rfl⟩ := List.mem_map.1 this
      obtain ⟨hx1, hx2⟩ := List.mem_filter.1 hx
      obtain ⟨c, hc, hxc⟩ := List.mem_flatMap.1 hx1
      refine ⟨c, hc, ?_⟩
      rw [← (by simpa using hx2 : x.1 = g.1)]; exact hxc
    obtain ⟨c, hc, hcf⟩ := hf0
    obtain ⟨a, v, hfo, _, _⟩ := (h.good c hc).good _ hcf
    have hfo : FieldOf f0 a tname v := hfo
    simp only
    rw [if_neg (fun hn => hn ⟨(hasChild_iff_get _ _).2 ⟨_, hfo.topology⟩, (hasChild_iff_get _ _).2 ⟨_, hfo.values⟩⟩)]
    have e1 : (BNode.obj [(tname, topo)]).get tname = .ok topo := by simp [BNode.get, BNode.kids]
    have e2 : (BNode.obj [(csname, cset)]).get csname = .ok cset := by simp [BNode.get, BNode.kids]
    have e3 : groupOf tname [(tname, cs.map fun c => (c.mesh, c.topo))] = some (cs.map fun c => (c.mesh, c.topo)) := by simp [groupOf]
    simp only [hfo.topology, e1, e2, e3, h.coordset, Res.bind_ok, BNode.asString]
    by_cases hl : (f0 :: fs).length = cs.length
    · rw [if_neg (by simp only [List.length_map] at hl ⊢; omega)]
      rw [hgl] at a2
      obtain ⟨f, f1, f2⟩ := combineField_ok h g.1 (f0 :: fs) (a2 hl)
      refine ⟨some (g.1, f), by rw [f1, Res.bind_ok], ?_, (fun _ h => by cases h)⟩
      rintro _ ⟨⟩
      exact ⟨rfl, f2⟩
    · rw [if_pos (by simp only [List.length_map] at hl ⊢; omega)]
      refine ⟨none, rfl, (fun f h => by cases h), fun hall => ?_⟩
      rw [hgl] at a3
      exact absurd (a3 hall) hl

theorem forall2_filterMap {α β : Type} {l : List (Str × α)} {rs : List (Option (Str × β))} (hn : (l.map (·.1)).Nodup)
    (h : List.Forall₂ (fun g r => ∀ f, r = some f → f.1 = g.1) l rs) : ((rs.filterMap id).map (·.1)).Nodup ∧ ∀ n, n ∈ (rs.filterMap id).map (·.1) → n ∈ l.map (·.1) := by
  induction h with
  | nil => simp
  | @cons g r l rs p q ih =>
    rw [List.map_cons, List.nodup_cons] at hn
    obtain ⟨i1, i2⟩ := ih hn.2
    cases r with
    | none => exact ⟨i1, fun n h => by rw [List.map_cons]; exact List.mem_cons_of_mem _ (i2 n h)⟩
    | some f =>
      have hf := p f rfl
      rw [List.filterMap_cons_some (by rfl : id (some f) = some f), List.map_cons, List.nodup_cons]
      refine ⟨⟨fun h => hn.1 (by rw [← hf]; exact i2 _ h), i1⟩, ?_⟩
      intro n h
      rw [List.mem_cons] at h
      rw [List.map_cons, List.mem_cons]
      rcases h with h | h
      · exact .inl (by rw [h, hf])
      · exact .inr (i2 n h)

theorem combineFields_ok {o : MOps F} {tol : F} {tname csname : Str} {cs : List (Chunk F)} {topo cset : BNode F} {pts : List (V3 F)}
    {maps : List (List Nat)} {orig : List (Nat × Nat)} (h : Made o tol tname csname cs topo cset pts maps orig) :
    ∃ fs, combineFields o.arith (cs.map (·.mesh)) [(tname, cs.map fun c => (c.mesh, c.topo))] (.obj [(tname, topo)]) (.obj [(csname, cset)]) = .ok fs ∧
      (fs.map (·.1)).Nodup ∧ (∀ name, (∀ c ∈ cs, name ∈ c.fields.map (·.1)) → ∃ f, (name, f) ∈ fs) ∧
      ∀ f ∈ fs, FieldKept cs maps orig pts.length tname f.1 f.2 := by
  have hinv := groupFields_inv cs h.good
  obtain ⟨rs, e1, e2⟩ := mapM_res (oneField o.arith [(tname, cs.map fun c => (c.mesh, c.topo))] (.obj [(tname, topo)]) (.obj [(csname, cset)]))
    (fun g r => (∀ f, r = some f → f.1 = g.1 ∧ FieldKept cs maps orig pts.length tname f.1 f.2) ∧
      ((∀ c ∈ cs, g.1 ∈ c.fields.map (·.1)) → r ≠ none)) (groupFields (cs.map (·.mesh))) (fun g hg => oneField_ok h g hg)
  have hlen := forall2_length e2
  refine ⟨rs.filterMap id, ?_, ?_, ?_, ?_⟩
  · unfold combineFields
    rw [if_pos, e1, Res.bind_ok]
    rw [List.all_eq_true]
    intro m hm
    obtain ⟨c, hc, rfl⟩ := List.mem_map.1 hm
    exact (hasChild_iff_get _ _).2 ⟨_, (h.good c hc).fields⟩
  · refine (forall2_filterMap hinv.nodup (forall2_of hlen ?_)).1
    intro i g r hg hr f hf
    exact ((forall2_get e2 i g r hg hr).1 f hf).1
  · intro name hall
    obtain ⟨c, hc⟩ : ∃ c, c ∈ cs := by
      have := h.chunks
      cases cs with
      | nil => simp at this
      | cons c l => exact ⟨c, by simp⟩
    obtain ⟨e, he, hee⟩ := List.mem_map.1 (hall c hc)
    have hn : name ∈ (groupFields (cs.map (·.mesh))).map (·.1) := by
      rw [hinv.names, ← hee]
      exact List.mem_map_of_mem (List.mem_flatMap.2 ⟨c, hc, he⟩)
    obtain ⟨g, hg, hgn⟩ := List.mem_map.1 hn
    obtain ⟨i, hi⟩ := List.getElem?_of_mem hg
    have hr := List.getElem?_eq_getElem (hlen ▸ (List.getElem?_eq_some_iff.1 hi).1)
    obtain ⟨p1, p2⟩ := forall2_get e2 i g _ hi hr
    have hne := p2 (by rw [hgn]; exact hall)
    cases hrr : rs[i]'(hlen ▸ (List.getElem?_eq_some_iff.1 hi).1) with
    | none => exact absurd hrr hne
    | some f =>
      refine ⟨f.2, List.mem_filterMap.2 ⟨some f, ?_, ?_⟩⟩
      · rw [← hrr]; exact List.getElem_mem _
      · have := (p1 f hrr).1
        rw [← hgn, ← this]; rfl
  · intro f hf
    obtain ⟨r, hr, hrf⟩ := List.mem_filterMap.1 hf
    obtain ⟨i, hi⟩ := List.getElem?_of_mem hr
    have hg := List.getElem?_eq_getElem (hlen.symm ▸ (List.getElem?_eq_some_iff.1 hi).1 : i < (groupFields (cs.map (·.mesh))).length)
    exact ((forall2_get e2 i _ r hg hi).1 f hrf).2

/-! ### where things came from -/

theorem domains_ok {A : Arith F} {cs : List (Chunk F)}
    (hd : ∀ c ∈ cs, ∀ st n, c.mesh.get (chars! "state") = .ok st → st.get (chars! "domain_id") = .ok n → ∃ d, n.toInt64 A = .ok d) :
    ∃ doms, ((cs.map (·.mesh)).zipIdx.mapM fun mi => domainId A mi.1 mi.2) = .ok doms ∧ doms.length = cs.length ∧
      ∀ (i : Nat) (c : Chunk F), cs[i]? = some c → ∃ d, doms[i]? = some d ∧ DomainIs A c i d := by
  obtain ⟨doms, e1, e2⟩ := mapM_res (fun mi : BNode F × Nat => domainId A mi.1 mi.2)
    (fun mi d => ∃ c, cs[mi.2]? = some c ∧ DomainIs A c mi.2 d) (cs.map (·.mesh)).zipIdx (by
      rintro ⟨m, i⟩ hmi
      have hm := List.mem_zipIdx_iff_getElem?.1 hmi
      simp only [List.getElem?_map, Option.map_eq_some_iff] at hm
      obtain ⟨c, hc, rfl⟩ := hm
      unfold domainId
      by_cases hst : ∃ st n, c.mesh.get (chars! "state") = .ok st ∧ st.get (chars! "domain_id") = .ok n
      · obtain ⟨st, n, h1, h2⟩ := hst
        obtain ⟨d, hd⟩ := hd c (List.mem_of_getElem? hc) st n h1 h2
        exact ⟨d, by simp only [getOrEmpty_ok h1, h2]; exact hd, c, hc, .inl ⟨st, n, h1, h2, hd⟩⟩
      · refine ⟨(i : Int), ?_, c, hc, .inr ⟨fun st n h1 h2 => hst ⟨st, n, h1, h2⟩, rfl⟩⟩
        have hno : ∀ d, ((c.mesh).getOrEmpty (chars! "state")).get (chars! "domain_id") ≠ .ok d := by
          intro d hdd
          by_cases hs : c.mesh.hasChild (chars! "state") = true
          · obtain ⟨st, h1⟩ := (hasChild_iff_get _ _).1 hs
            rw [getOrEmpty_ok h1] at hdd
            exact hst ⟨st, d, h1, hdd⟩
          · rw [getOrEmpty_none (by simpa using hs)] at hdd
            cases hdd
        split
        · next d hdd => exact absurd hdd (hno d)
        · rfl)
  have hlen := forall2_length e2
  rw [List.length_zipIdx, List.length_map] at hlen
  refine ⟨doms, e1, hlen.symm, ?_⟩
  intro i c hc
  have hi : i < cs.length := (List.getElem?_eq_some_iff.1 hc).1
  have hdd := List.getElem?_eq_getElem (hlen ▸ hi)
  have hz : (cs.map (·.mesh)).zipIdx[i]? = some (c.mesh, i) := by rw [List.getElem?_zipIdx, List.getElem?_map, hc]; simp
  obtain ⟨c', h1, h2⟩ := forall2_get e2 i _ _ hz hdd
  rw [hc] at h1; cases h1
  exact ⟨_, hdd, h2⟩

theorem originElements_ok {A : Arith F} {cs : List (Chunk F)} {tname : Str} {topo : BNode F} {orig : List (Nat × Nat)}
    (hd : ∀ c ∈ cs, ∀ st n, c.mesh.get (chars! "state") = .ok st → st.get (chars! "domain_id") = .ok n → ∃ d, n.toInt64 A = .ok d)
    (he : topo.get (chars! "element_map") = .ok (.ints int64 (flatPairs orig)))
    (ho : ∀ i j, (i, j) ∈ orig ↔ ∃ c, cs[i]? = some c ∧ j < c.els.length) :
    ∃ f, originElements A (cs.map (·.mesh)) (tname, topo) = .ok f ∧
      OriginKept A cs tname (chars! "element") f (fun k i j => orig[k]? = some (i, j)) orig.length := by
  obtain ⟨doms, d1, d2, d3⟩ := domains_ok hd
  obtain ⟨ds, e1, e2⟩ := mapM_res (fun x : Nat × Nat => pick doms (x.1 : Int)) (fun x d => ∃ c, cs[x.1]? = some c ∧ DomainIs A c x.1 d) orig (by
    rintro ⟨i, j⟩ hx
    obtain ⟨c, hc, _⟩ := (ho i j).1 hx
    obtain ⟨d, h1, h2⟩ := d3 i c hc
    exact ⟨d, pick_nat _ _ _ h1, c, hc, h2⟩)
  have hlen := forall2_length e2
  refine ⟨.obj [(chars! "topology", .str tname), (chars! "association", .str (chars! "element")),
    (chars! "values", .obj [(chars! "domains", .ints int64 ds), (chars! "ids", .ints int64 (orig.map fun x => (x.2 : Int)))])], ?_,
    _, ds, orig.map fun x => (x.2 : Int), ⟨rfl, rfl, rfl⟩, rfl, rfl, hlen.symm, by simp, ?_⟩
  · unfold originElements
    simp only [he, indexArray, if_pos, Res.bind_ok, d1, pairs_flat, mapM_map', e1, List.map_map]
    rfl
  · intro k hk
    have hx := List.getElem?_eq_getElem hk
    have hy := List.getElem?_eq_getElem (hlen ▸ hk)
    obtain ⟨c, h1, h2⟩ := forall2_get e2 k _ _ hx hy
    exact ⟨_, _, c, _, hx, h1, h2, hy, by rw [List.getElem?_map, hx]; rfl⟩

theorem originPoints_ok {o : MOps F} {tol : F} {cs : List (Chunk F)} {tname csname : Str} {topo cset : BNode F} {pts : List (V3 F)}
    {maps : List (List Nat)} (hin : ∀ c ∈ cs, Cart o c.cset c.n c.pts)
    (hd : ∀ c ∈ cs, ∀ st n, c.mesh.get (chars! "state") = .ok st → st.get (chars! "domain_id") = .ok n → ∃ d, n.toInt64 o.arith = .ok d)
    (ht : topo.get (chars! "coordset") = .ok (.str csname)) (hm : Merged o tol (inOf cs) cset pts maps) :
    ∃ f, originPoints o.arith (cs.map (·.mesh)) (tname, topo) (.obj [(csname, cset)]) = .ok f ∧
      OriginKept o.arith cs tname (chars! "vertex") f (fun q i k => IdAt maps i k q ∧ ∀ i' k', IdAt maps i' k' q → i' ≤ i) pts.length := by
  obtain ⟨doms, d1, d2, d3⟩ := domains_ok hd
  obtain ⟨hcov, hmap⟩ := merged_covers hm
  have hw := hcov.write
  have hdl : ∀ w ∈ natWrites 0 maps, w.2.1 < doms.length := by
    intro w h; rw [d2, ← hmap.sets]; exact (hw w h).2.1
  obtain ⟨ds, e1, e2, e3⟩ := fold_put (fun (acc : List Int) (w : Int × (Nat × Nat)) => do put acc w.1 (← pick doms (w.2.1 : Int)))
    (fun s => doms.getD s.1 0) (natWrites 0 maps) pts.length (by
      intro w h acc
      have := List.getElem?_eq_getElem (hdl w h)
      simp only [pick_nat _ _ _ this, Res.bind_ok, List.getD, this, Option.getD_some]) (fun w h => (hw w h).1) (List.replicate pts.length 0) (by simp)
  obtain ⟨is, f1, f2, f3⟩ := fold_put (fun (acc : List Int) (w : Int × (Nat × Nat)) => put acc w.1 (w.2.2 : Int))
    (fun s => (s.2 : Int)) (natWrites 0 maps) pts.length (fun w h acc => rfl) (fun w h => (hw w h).1) (List.replicate pts.length 0) (by simp)
  refine ⟨.obj [(chars! "topology", .str tname), (chars! "association", .str (chars! "vertex")),
    (chars! "values", .obj [(chars! "domains", .ints int64 ds), (chars! "ids", .ints int64 is)])], ?_,
    _, ds, is, ⟨rfl, rfl, rfl⟩, rfl, rfl, e2, f2, ?_⟩
  · have g2 : (BNode.obj [(csname, cset)]).get csname = .ok cset := by simp [BNode.get, BNode.kids]
    unfold originPoints
    simp only [ht, g2, Res.bind_ok, BNode.asString, getOrEmpty_ok hm.pointmaps, maps_read, d1, pointWrites_eq, Int.toNat_natCast, e1, f1,
      merged_length hm (fun x hx => by obtain ⟨c, hc, rfl⟩ := List.mem_map.1 hx; exact hin c hc)]
  · intro q hq
    obtain ⟨s, s1, s2, s3⟩ := hcov.last q hq
    have hi : s.1 < cs.length := by
      obtain ⟨m, h, _⟩ := s2
      rw [← hmap.sets]; exact (List.getElem?_eq_some_iff.1 h).1
    have hc := List.getElem?_eq_getElem hi
    obtain ⟨d, h1, h2⟩ := d3 s.1 _ hc
    refine ⟨s.1, s.2, _, d, ⟨s2, s3⟩, hc, h2, ?_, ?_⟩
    · rw [e3 q, s1]; simp [List.getD, h1]
    · rw [f3 q, s1]

/-! ### the whole -/

/-- A node without a child. -/
def strip (name : Str) : BNode F → BNode F
  | .obj cs => .obj (cs.filter fun c => !(c.1 == name))
  | c => c

theorem strip_get (n : BNode F) (name a : Str) (h : a ≠ name) : (strip name n).get a = n.get a := by
  cases n with
  | obj ks =>
    simp only [strip, BNode.get, BNode.kids]
    induction ks with
    | nil => rfl
    | cons k ks ih =>
      rw [List.filter_cons]
      by_cases hk : k.1 = name
      · rw [if_neg (by simp [hk]), List.find?_cons_of_neg (by simp [hk, h.symm]), ih]
      · rw [if_pos (by simp [hk])]
        by_cases ha : k.1 = a
        · rw [List.find?_cons_of_pos (by simp [ha]), List.find?_cons_of_pos (by simp [ha])]
        · rw [List.find?_cons_of_neg (by simp [ha]), List.find?_cons_of_neg (by simp [ha])]; exact ih
  | _ => rfl

theorem withoutIn_one (name k : Str) (v : BNode F) : withoutIn name (.obj [(k, v)]) = .obj [(k, strip name v)] := by
  cases v <;> rfl

/-- The kind of the topology and its elements, as they come out. -/
def Builds (A : Arith F) (cs : List (Chunk F)) (csname : Str) (poly : Bool) : Prop :=
  kindOf false 0 (cs.map (·.topo)) = .ok (if poly then .polygons else .fixed) ∧
  ∀ maps, Mapped cs maps → ∃ topo its, (if poly then buildPolygonal A ((cs.map (·.topo)).zip (maps.map ints)) csname
      else buildUnstructured A ((cs.map (·.topo)).zip (maps.map ints)) csname) = .ok topo ∧ TopoMade cs maps csname poly topo its

/-- The points are merged, and `Q` holds for the numbers they get. -/
def Unites (o : MOps F) (tol : F) (cs : List (Chunk F)) (Q : List (List Nat) → Prop) : Prop :=
  ∃ cset pts maps, execute o 32 tol ((inOf cs).map (·.cset)) = .ok (some cset) ∧ Merged o tol (inOf cs) cset pts maps ∧ Q maps

theorem combineUnstructured_ok {o : MOps F} {tol : F} {tname csname : Str} {cs : List (Chunk F)} {poly : Bool} (h2 : 2 ≤ cs.length)
    (hg : ∀ c ∈ cs, Good o tname csname c) (hb : Builds o.arith cs csname poly) {Q : List (List Nat) → Prop} (hQ : Unites o tol cs Q) :
    ∃ cset pts maps topo its, combineUnstructured o tol tname [(tname, cs.map fun c => (c.mesh, c.topo))] [(csname, cs.map (·.cset))]
        = .ok (.obj [(csname, cset)], .obj [(tname, topo)]) ∧ Merged o tol (inOf cs) cset pts maps ∧ Q maps ∧ TopoMade cs maps csname poly topo its := by
  obtain ⟨cset, pts, maps, m1, m2, m3⟩ := hQ
  have hmap := (merged_covers m2).2
  obtain ⟨hk, hbt⟩ := hb
  obtain ⟨topo, its, b1, b2⟩ := hbt maps hmap
  refine ⟨cset, pts, maps, topo, its, ?_, m2, m3, b2⟩
  have hcsets : (inOf cs).map (·.cset) = cs.map (·.cset) := by simp [inOf]
  rw [hcsets] at m1
  obtain ⟨c0, l, rfl⟩ : ∃ c0 l, cs = c0 :: l := by
    cases cs with
    | nil => simp at h2
    | cons c l => exact ⟨c, l, rfl⟩
  have e3 : groupOf tname [(tname, (c0 :: l).map fun c => (c.mesh, c.topo))] = some ((c0.mesh, c0.topo) :: l.map fun c => (c.mesh, c.topo)) := by
    simp [groupOf]
  have e4 : groupOf csname [(csname, (c0 :: l).map (·.cset))] = some ((c0 :: l).map (·.cset)) := by simp [groupOf]
  have hws : ((c0.mesh, c0.topo) :: l.map fun c => (c.mesh, c.topo)).mapM (fun t => working o.arith t.1 t.2)
      = .ok ((c0 :: l).map fun c => some c.topo) := by
    have : ((c0.mesh, c0.topo) :: l.map fun c => (c.mesh, c.topo)) = (c0 :: l).map fun c => (c.mesh, c.topo) := rfl
    rw [this, mapM_map']
    refine Meta.mapM_ok_map _ _ _ fun c hc => ?_
    have h := hg c hc
    unfold working
    rw [if_pos ⟨(hasChild_iff_get _ _).2 ⟨_, h.type⟩, (hasChild_iff_get _ _).2 ⟨_, h.coordset⟩⟩]
    simp only [h.type, Res.bind_ok, BNode.asString]
    rfl
  have hfm : ((c0 :: l).map fun c => some c.topo).filterMap id = (c0 :: l).map (·.topo) := by
    rw [List.filterMap_map]
    have : (id ∘ fun c : Chunk F => some c.topo) = fun c => some c.topo := rfl
    rw [this, ← List.filterMap_eq_map]; rfl
  have hts : ((c0.mesh, c0.topo) :: l.map fun c => (c.mesh, c.topo)).map (·.2) = (c0 :: l).map (·.topo) := by simp
  unfold combineUnstructured
  rw [e3]
  simp only [(hg c0 (by simp)).coordset, Res.bind_ok, BNode.asString, e4, m1, Option.getD_some, hws, hfm, hts, hk]
  rw [getOrEmpty_ok m2.pointmaps]
  rw [if_neg (fun h => h (by simp only [childrenOf, List.length_map]; exact hmap.sets))]
  rw [maps_read, Res.bind_ok]
  cases poly with
  | true => simp only [if_pos] at b1 ⊢; rw [b1]; rfl
  | false =>
    have b1' : buildUnstructured o.arith (((c0 :: l).map (·.topo)).zip (maps.map ints)) csname = .ok topo := b1
    have : (if (false : Bool) = true then Kind.polygons else Kind.fixed) = Kind.fixed := rfl
    simp only [this]; rw [b1']; rfl

theorem combine_ok {o : MOps F} {tol : F} {op : Opts} {implicit : Str → Str → List (BNode F) → Res (Option (BNode F × BNode F))} {domain : Int}
    {tname csname : Str} {cs : List (Chunk F)} {poly : Bool} (h2 : 2 ≤ cs.length) (hg : ∀ c ∈ cs, Good o tname csname c) (hf : FieldsAlike cs)
    (hd : ∀ c ∈ cs, ∀ st n, c.mesh.get (chars! "state") = .ok st → st.get (chars! "domain_id") = .ok n → ∃ d, n.toInt64 o.arith = .ok d)
    (hb : Builds o.arith cs csname poly) {Q : List (List Nat) → Prop} (hQ : Unites o tol cs Q) :
    ∃ out, combine o tol op implicit domain (cs.map (·.mesh)) = .ok out ∧ Combined o tol op tname csname domain poly Q cs out := by
  obtain ⟨cset, pts, maps, topo, its, u1, u2, uQ, u3⟩ := combineUnstructured_ok (tol := tol) h2 hg hb hQ
  have hmap := (merged_covers u2).2
  have hne : cs ≠ [] := by rintro rfl; simp at h2
  have hkept := kept_of hmap (fun c hc el hel p hp => ((hg c hc).elements.2 el hel).2 p hp) its u3.perm
  have hmade : Made o tol tname csname cs topo cset pts maps (its.map fun x => (x.2.1, x.2.2.1)) :=
    ⟨h2, hg, hf, u2, u3.coordset, u3.emap, hkept.all⟩
  obtain ⟨fs, f1, f2, f3, f4⟩ := combineFields_ok hmade
  obtain ⟨fe, fe1, fe2⟩ := originElements_ok (tname := tname) hd u3.emap hkept.all
  obtain ⟨fv, fv1, fv2⟩ := originPoints_ok (tname := tname) (fun c hc => (hg c hc).points) hd u3.coordset u2
  -- the fields with the numbers of the elements
  obtain ⟨fs', s1, s2, s3, s4, s5⟩ : ∃ fs' : List (Str × BNode F), (if fs.any fun f => f.1 == op.elementName then Res.ok fs
      else do .ok (fs ++ [(op.elementName, ← originElements o.arith (cs.map (·.mesh)) (tname, topo))])) = .ok fs' ∧ (fs'.map (·.1)).Nodup ∧
      (∀ f ∈ fs, f ∈ fs') ∧ (∃ f, (op.elementName, f) ∈ fs') ∧ ∀ f ∈ fs', f ∈ fs ∨ f = (op.elementName, fe) := by
    by_cases ha : (fs.any fun f => f.1 == op.elementName) = true
    · refine ⟨fs, by rw [if_pos ha], f2, fun _ h => h, ?_, fun _ h => .inl h⟩
      obtain ⟨f, h1, h2⟩ := List.any_eq_true.1 ha
      exact ⟨f.2, by rw [← (by simpa using h2 : f.1 = op.elementName)]; exact h1⟩
    · refine ⟨fs ++ [(op.elementName, fe)], by rw [if_neg ha, fe1, Res.bind_ok], ?_, fun f h => by simp [h], ⟨fe, by simp⟩, fun f h => by simpa using h⟩
      rw [List.map_append, List.nodup_append]
      refine ⟨f2, by simp, ?_⟩
      intro a h b hb' e
      simp at hb'
      obtain ⟨f, h1, h2⟩ := List.mem_map.1 h
      exact ha (List.any_eq_true.2 ⟨f, h1, by simp [h2, e, hb']⟩)
  obtain ⟨fs'', t1, t2, t3, t4, t5⟩ : ∃ fs'' : List (Str × BNode F), (if fs'.any fun f => f.1 == op.vertexName then Res.ok fs'
      else do .ok (fs' ++ [(op.vertexName, ← originPoints o.arith (cs.map (·.mesh)) (tname, topo) (.obj [(csname, cset)]))])) = .ok fs'' ∧
      (fs''.map (·.1)).Nodup ∧ (∀ f ∈ fs', f ∈ fs'') ∧ (∃ f, (op.vertexName, f) ∈ fs'') ∧ ∀ f ∈ fs'', f ∈ fs' ∨ f = (op.vertexName, fv) := by
    by_cases ha : (fs'.any fun f => f.1 == op.vertexName) = true
    · refine ⟨fs', by rw [if_pos ha], s2, fun _ h => h, ?_, fun _ h => .inl h⟩
      obtain ⟨f, h1, h2⟩ := List.any_eq_true.1 ha
      exact ⟨f.2, by rw [← (by simpa using h2 : f.1 = op.vertexName)]; exact h1⟩
    · refine ⟨fs' ++ [(op.vertexName, fv)], by rw [if_neg ha, fv1, Res.bind_ok], ?_, fun f h => by simp [h], ⟨fv, by simp⟩, fun f h => by simpa using h⟩
      rw [List.map_append, List.nodup_append]
      refine ⟨s2, by simp, ?_⟩
      intro a h b hb' e
      simp at hb'
      obtain ⟨f, h1, h2⟩ := List.mem_map.1 h
      exact ha (List.any_eq_true.2 ⟨f, h1, by simp [h2, e, hb']⟩)
  obtain ⟨c0, c1, l, rfl⟩ : ∃ c0 c1 l, cs = c0 :: c1 :: l := by
    match cs, h2 with
    | c0 :: c1 :: l, _ => exact ⟨c0, c1, l, rfl⟩
  have hc0 := hg c0 (by simp)
  refine ⟨.obj [(chars! "state", combinedState c0.mesh domain), (chars! "coordsets", withoutIn (chars! "pointmaps") (.obj [(csname, cset)])),
      (chars! "topologies", withoutIn (chars! "element_map") (.obj [(tname, topo)])), (chars! "fields", .obj fs'')], ?_, ?_, ?_⟩
  · have hr := recommended_ok (c0 :: c1 :: l) hg hne
    have hgt := groupTopologies_ok (c0 :: c1 :: l) hg hne
    have hgc := groupCoordsets_ok (c0 :: c1 :: l) hg hne
    have hn1 : nth (BNode.obj [(tname, c0.topo)]) 0 = .ok (tname, c0.topo) := rfl
    have hn2 : nth (BNode.obj [(tname, topo)]) 0 = .ok (tname, topo) := rfl
    have hinp : (c0 :: c1 :: l).map (·.mesh) = c0.mesh :: c1.mesh :: l.map (·.mesh) := rfl
    rw [hinp] at hr hgt hgc f1 s1 t1 ⊢
    unfold combine
    simp only [hc0.topologies, Res.bind_ok, hn1, hr, hgt, hgc, if_pos]
    rw [u1]
    simp only [Res.bind_ok, f1, hn2]
    rw [s1]
    simp only [Res.bind_ok]
    rw [t1]
    simp only [Res.bind_ok]
  · refine ⟨_, rfl, get_setChild_same _ _ _, ?_⟩
    intro c hc st0 k v hst hk hv
    simp at hc; subst hc
    rw [combinedState, getOrEmpty_ok hst, get_setChild_other _ _ _ _ hk]
    exact hv
  · refine ⟨strip (chars! "element_map") topo, strip (chars! "pointmaps") cset, fs'', cset, pts, maps, its.map fun x => (x.1, x.2.2.2),
      its.map fun x => (x.2.1, x.2.2.1), ⟨_, rfl, ?_⟩, ⟨_, rfl, ?_⟩, ?_, ?_, u2, uQ, ?_, ?_, ?_, hkept, ?_, rfl, t2, ?_, ?_, ?_, t4⟩
    · rw [withoutIn_one]; simp [BNode.get, BNode.kids]
    · rw [withoutIn_one]; simp [BNode.get, BNode.kids]
    · rw [strip_get _ _ _ (by decide)]; exact u3.type
    · rw [strip_get _ _ _ (by decide)]; exact u3.coordset
    · exact strip_get _ _ _ (by decide)
    · exact strip_get _ _ _ (by decide)
    · have he := u3.elements
      cases poly with
      | true =>
        simp only [if_pos] at he ⊢
        unfold Polys at he ⊢
        rw [strip_get _ _ _ (by decide)]; exact he
      | false =>
        have he' : Shapes topo (its.map fun x => (x.1, x.2.2.2)) := he
        show Shapes _ _
        unfold Shapes at he' ⊢
        rw [strip_get _ _ _ (by decide)]; exact he'
    · intro hp k i j s el c hk hel hc
      rw [List.getElem?_map, Option.map_eq_some_iff] at hk hel
      obtain ⟨x, hx, e⟩ := hk
      obtain ⟨y, hy, e'⟩ := hel
      rw [hx] at hy; cases hy
      simp at e e'
      obtain ⟨c', h1, h2⟩ := u3.shapes hp x (List.mem_of_getElem? hx)
      rw [e.1, hc] at h1; cases h1
      rw [← e'.1, h2]
    · intro name hall
      obtain ⟨f, hf⟩ := f3 name hall
      exact ⟨f, t3 _ (s3 _ hf)⟩
    · intro f hf
      rcases t5 f hf with h | rfl
      · rcases s5 f h with h | rfl
        · exact .inl (f4 f h)
        · exact .inr (.inl ⟨rfl, by simpa using fe2⟩)
      · exact .inr (.inr ⟨rfl, fv2⟩)
    · obtain ⟨f, hf⟩ := s4
      exact ⟨f, t3 _ hf⟩

end Conduit.Comb
