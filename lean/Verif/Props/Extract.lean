import Verif.Lemmas.Extract4
/-
C93: the partitioner takes elements out of a mesh.
-/
namespace Conduit.Part
open Conduit.Mesh
variable {F : Type}

theorem state_kept (mesh : BNode F) (dd : Int) : ∃ st, newState mesh dd = .ok st ∧
    ∀ (a b : Str × BNode F) (c : List (Str × BNode F)), a.1 = chars! "coordsets" → b.1 = chars! "topologies" →
      (∀ k ∈ c, k.1 = chars! "fields") →
      StateKept mesh (.obj ([a, b] ++ st ++ c)) dd ∧ ∀ name, name ≠ chars! "state" → (BNode.obj ([a, b] ++ st ++ c)).get name = (BNode.obj ([a, b] ++ c)).get name := by
  unfold newState
  cases hs : mesh.hasChild (chars! "state") with
  | false =>
    refine ⟨[], rfl, ?_⟩
    rintro ⟨a, x⟩ ⟨b, y⟩ c rfl rfl hc
    refine ⟨⟨fun _ => ?_, fun st hst => ?_⟩, fun _ _ => by simp⟩
    · simp only [BNode.hasChild, BNode.kids, List.append_nil, List.cons_append, List.nil_append, List.any_cons]
      rw [List.any_eq_false.2]
      · decide
      · intro k hk; rw [hc k hk]; decide
    · rw [get_error_of_not _ _ hs] at hst; cases hst
  | true =>
    obtain ⟨st, hst⟩ := (hasChild_iff_get _ _).1 hs
    rw [if_pos rfl, hst, Res.bind_ok]
    refine ⟨_, rfl, ?_⟩
    rintro ⟨a, x⟩ ⟨b, y⟩ c rfl rfl hc
    refine ⟨⟨(fun h => by rw [hs] at h; cases h), fun st' hst' => ?_⟩, ?_⟩
    · rw [hst] at hst'
      cases hst'
      refine ⟨_, rfl, fun h => if_pos h, fun h => ?_⟩
      rw [if_neg h]
      exact ⟨get_setChild_same _ _ _, fun k hk => get_setChild_other _ _ _ _ hk⟩
    · intro name hn
      have : (chars! "state" == name) = false := by rw [beq_eq_false_iff_ne]; exact Ne.symm hn
      unfold BNode.get BNode.kids
      simp only [List.cons_append, List.nil_append, List.find?_cons, this]

/-- **C93**: elements are taken out of a mesh: an unstructured one (elements of one shape, or polygons with offsets) or a grid of two or
    three dimensions.  The new mesh has the elements asked for in the order asked for, corner by corner; its points are the points of
    these elements, each once, in the old order; the coordinates are theirs.  The fields wanted of the topology have the values of these
    elements and points, in their types; the mapping tells the numbers they had, and the domain; there are no other fields.
    The state is kept.
    Missing for the full claim: matsets, polyhedra and boxes (C94). -/
theorem C93_extract_partial (A : Arith F) (o : Opts) (s : Sel) (mesh topo cset fields : BNode F) (tname csname shape : Str)
    (names : List Str) (npts : Nat) (els : List (List Nat)) (ids : List Nat)
    (hd : Domain s mesh tname topo csname cset) (hk : ∀ a b, s.kind ≠ .logical a b)
    (hids : elementIds A s mesh = .ok (ids.map fun i : Nat => (i : Int))) (hne : ids ≠ []) (hi : ∀ i ∈ ids, i < els.length)
    (hE : Elems A topo cset shape els) (hC : Coords A cset names npts) (hnp : Idx npts) (hp : ∀ el ∈ els, el ≠ [] ∧ ∀ p ∈ el, p < npts)
    (hfit : Idx (picked els ids).flatten.length)
    (hf : mesh.get (chars! "fields") = .ok fields) (hg : GoodFields o tname els.length npts fields.kids) :
    ∃ mesh' pts, extract A o s mesh = .ok (some (mesh', pts.map fun p : Nat => (p : Int))) ∧ Uses pts (picked els ids) ∧
      (∃ topo' els', LeafAt mesh' (chars! "topologies") tname topo' ∧
        topo'.get (chars! "type") = .ok (.str (chars! "unstructured")) ∧ topo'.get (chars! "coordset") = .ok (.str csname) ∧
        Reads topo' shape els' ∧ SameCorners (picked els ids) els' pts) ∧
      (∃ cset' vals, LeafAt mesh' (chars! "coordsets") csname cset' ∧ Lists A cset vals ∧ SlicedAxes vals names pts cset') ∧
      FieldsTaken o s.domain tname pts ids fields.kids (mesh'.getOrEmpty (chars! "fields")) ∧
      StateKept mesh mesh' (destDomain s) := by
  obtain ⟨hsel, htn, hcn, csets, hcs, hcset⟩ := hd
  have hcof : coordsetOf mesh topo = .ok (some cset) := by
    unfold coordsetOf
    rw [if_pos ((hasChild_iff_get _ _).2 ⟨_, hcn⟩), hcn]
    simp only [Res.bind_ok, BNode.asString]
    rw [if_pos ((hasChild_iff_get _ _).2 ⟨_, hcs⟩), hcs]
    simp only [Res.bind_ok]
    rw [if_pos ((hasChild_iff_get _ _).2 ⟨_, hcset⟩), hcset]
    rfl
  obtain ⟨pts, topo', v1, hu, v2, t1, t2, t3⟩ := points_topo A mesh topo cset shape csname els hE hcof npts hnp
    (fun el he => (hp el he).2) ids hi hfit
  have hmem : ∀ el ∈ picked els ids, el ∈ els := by
    intro el he
    simp only [picked, List.mem_map] at he
    obtain ⟨i, hm, rfl⟩ := he
    have := hi i hm
    rw [List.getD_eq_getElem?_getD, List.getElem?_eq_getElem this]
    exact List.getElem_mem _
  have hpts : ∀ p ∈ pts, p < npts := by
    intro p hpm
    obtain ⟨el, he, hpe⟩ := (hu.2 p).1 hpm
    exact (hp el (hmem el he)).2 p hpe
  have hpne : pts ≠ [] := by
    obtain ⟨i, l, rfl⟩ := List.exists_cons_of_ne_nil hne
    have hel : els.getD i [] ∈ picked els (i :: l) := List.mem_map_of_mem (List.mem_cons_self)
    obtain ⟨p, l', he⟩ := List.exists_cons_of_ne_nil (hp _ (hmem _ hel)).1
    exact List.ne_nil_of_mem ((hu.2 p).2 ⟨_, hel, by rw [he]; exact List.mem_cons_self⟩)
  obtain ⟨cset', vals, c1, c2, c3⟩ := coords_ok A cset names npts hC pts hpts
  obtain ⟨out, f1, f2⟩ := copyFields_ok o s.domain tname pts ids mesh fields hf els.length npts hg hi hpts hne hpne htn
  obtain ⟨st, s1, s2⟩ := state_kept mesh (destDomain s)
  have hty : ∃ ty, topo.get (chars! "type") = .ok (.str ty) := by
    rcases hE with ⟨ht, _⟩ | ⟨ed, hg, _⟩
    · exact ⟨_, ht⟩
    · cases hg with
      | uniform g ht => exact ⟨_, ht⟩
      | rectilinear g ht => exact ⟨_, ht⟩
      | structured ed names e d ht => exact ⟨_, ht⟩
  obtain ⟨ty, hty⟩ := hty
  have hfl : ∀ k ∈ fieldsKid out, k.1 = chars! "fields" := by
    intro k hkm
    cases out with
    | empty => cases hkm
    | _ => exact congrArg (·.1) (List.mem_singleton.1 hkm)
  have hext : extract A o s mesh = .ok (some (.obj ([(chars! "coordsets", .obj [(csname, cset')]),
      (chars! "topologies", .obj [(tname, topo')])] ++ st ++ fieldsKid out), ints pts)) := by
    unfold extract
    simp only [hsel, Res.bind_ok, hcs, hcn, BNode.asString, hcset, s1, hids, hty]
    cases hkk : s.kind with
    | logical a b => exact absurd hkk (hk a b)
    | explicit l => simp only [v1, c1, v2, Res.bind_ok, f1]; rfl
    | ranges l => simp only [v1, c1, v2, Res.bind_ok, f1]; rfl
    | field a b c => simp only [v1, c1, v2, Res.bind_ok, f1]; rfl
  obtain ⟨k1, k2⟩ := s2 (chars! "coordsets", .obj [(csname, cset')]) (chars! "topologies", .obj [(tname, topo')]) (fieldsKid out) rfl rfl hfl
  refine ⟨_, pts, hext, hu, ⟨topo', _, ⟨.obj [(tname, topo')], ?_, ?_⟩, t1, t2, t3, sameCorners_of hu⟩, ⟨cset', vals, ⟨.obj [(csname, cset')], ?_, ?_⟩, c2, c3⟩, ?_, k1⟩
  · rw [k2 _ (by decide)]; rfl
  · simp [BNode.get, BNode.kids]
  · rw [k2 _ (by decide)]; rfl
  · simp [BNode.get, BNode.kids]
  · have : (BNode.obj ([(chars! "coordsets", .obj [(csname, cset')]), (chars! "topologies", .obj [(tname, topo')])] ++ st ++ fieldsKid out)).getOrEmpty
        (chars! "fields") = out := by
      unfold BNode.getOrEmpty
      rw [k2 _ (by decide)]
      cases out <;> rfl
    rw [this]; exact f2

/-- **C93**, what it is for: corner `i` of new element `j` is where the corner of the old element was, along every axis. -/
theorem C93_corner_coordinates (vals cset' : BNode F) (names : List Str) (pts : List Nat) (old new : List (List Nat))
    (hc : SlicedAxes vals names pts cset') (hs : SameCorners old new pts) (j i p : Nat) (el : List Nat) (hj : old[j]? = some el)
    (hi : el[i]? = some p) (a : Str) (ha : a ∈ names) :
    ∃ el' q v c c' x, new[j]? = some el' ∧ el'[i]? = some q ∧ cset'.get (chars! "values") = .ok v ∧ vals.get a = .ok c ∧ v.get a = .ok c' ∧
      elemAt c p = some x ∧ elemAt c' q = some x := by
  obtain ⟨el', e1, _, e2⟩ := hs.2 j el hj
  obtain ⟨q, e3, e4⟩ := e2 i p hi
  obtain ⟨_, v, g1, _, g2⟩ := hc
  obtain ⟨c, c', g3, g4, _, _, g5⟩ := g2 a ha
  obtain ⟨x, x1, x2⟩ := g5 q p e4
  exact ⟨el', q, v, c, c', x, e1, e3, g1, g3, g4, x1, x2⟩

end Conduit.Part
