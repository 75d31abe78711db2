import Verif.Lemmas.Extract3
/-
The extraction of elements that are no box.
-/
namespace Conduit.Part
open Conduit.Mesh
variable {F : Type}

theorem cons2 {α β : Type} {f : α → β} {l : List α} {a b : β} (h : l.map f = [a, b]) : ∃ x y, l = [x, y] ∧ f x = a ∧ f y = b := by
  rcases l with _ | ⟨x, _ | ⟨y, _ | ⟨_, _⟩⟩⟩ <;> simp at h
  exact ⟨x, y, rfl, h.1, h.2⟩

theorem cons3 {α β : Type} {f : α → β} {l : List α} {a b c : β} (h : l.map f = [a, b, c]) :
    ∃ x y z, l = [x, y, z] ∧ f x = a ∧ f y = b ∧ f z = c := by
  rcases l with _ | ⟨x, _ | ⟨y, _ | ⟨z, _ | ⟨_, _⟩⟩⟩⟩ <;> simp at h
  exact ⟨x, y, z, rfl, h.1, h.2.1, h.2.2⟩

/-- What is read of a grid. -/
structure GridRead (A : Arith F) (mesh topo cset : BNode F) (ed : List Nat) : Prop where
  base : ∃ ty b, topo.get (chars! "type") = .ok (.str ty) ∧ baseOf ty = some b ∧
    ∃ m c, toUnstructured A b topo cset [] = .ok (m, c) ∧ Elements m ed
  dims : gridDims mesh topo = .ok ed.length
  logical : logicalDims A mesh topo = .ok ⟨(ed.getD 0 1 : Nat), (ed.getD 1 1 : Nat), (ed.getD 2 1 : Nat)⟩

theorem grid_read (A : Arith F) (mesh topo cset : BNode F) (ed : List Nat) (h : Grid A topo cset ed) (hl : ed.length = 2 ∨ ed.length = 3)
    (h1 : ∀ k ∈ ed, 1 ≤ k) (hf : ∀ k : Nat, k < count (ed.map (· + 1)) → (widestInt topo).cast k = k)
    (hc : coordsetOf mesh topo = .ok (some cset)) : GridRead A mesh topo cset ed := by
  cases h with
  | uniform g ht hu hlen =>
    have hg : g ≠ [] := by rintro rfl; simp [elemCounts] at hl
    obtain ⟨m, c, e1, _, e2, _⟩ := C71_uniform A topo cset [] g hu hg (fun a ha => (hlen a ha).1) (fun a ha => (hlen a ha).2)
      (by rw [← elemCounts_succ g (fun a ha => (hlen a ha).1)]; exact hf)
    refine ⟨⟨_, .uniform, ht, rfl, m, c, e1, e2⟩, ?_, ?_⟩
    · unfold gridDims
      simp only [hc, Res.bind_ok, hu.read.names, List.length_map, elemCounts]
    · unfold logicalDims
      simp only [ht, Res.bind_ok, BNode.asString, hc, hu.read.names]
      rw [if_pos (.inl trivial)]
      have := axesLoop_ok A cset true (g.map (·.name)) (g.map (·.len)) (by simp) (by simpa [elemCounts] using hl) (by
        intro i a n ha hn
        cases hx : g[i]? with
        | none => simp [hx] at ha
        | some x =>
          simp only [List.getElem?_map, hx, Option.map_some, Option.some.injEq] at ha hn
          obtain ⟨⟨v, ⟨c, d1, d2⟩, d3⟩, _⟩ := hu.axis i x hx
          have hi : i < 3 := by
            have := (List.getElem?_eq_some_iff.1 hx).1
            simp [elemCounts] at hl
            omega
          have e : logicalAxes.getD i [] = logical i := getD_of (logicalAxes_get i hi)
          unfold axisPoints
          rw [if_pos rfl, d1, Res.bind_ok, e, d2, Res.bind_ok, d3, ← hn]) (by
        intro n hn
        obtain ⟨a, ha, rfl⟩ := List.mem_map.1 hn
        exact (hlen a ha).1)
      rw [decide_true, this]
      simp only [List.map_map, elemCounts]
      rfl
  | rectilinear g ht hu hlen =>
    have hg : g ≠ [] := by rintro rfl; simp [elemCounts] at hl
    obtain ⟨m, c, e1, _, e2, _⟩ := C71_rectilinear A topo cset [] g hu hg hlen (by rw [← elemCounts_succ g hlen]; exact hf)
    refine ⟨⟨_, .rectilinear, ht, rfl, m, c, e1, e2⟩, ?_, ?_⟩
    · unfold gridDims
      simp only [hc, Res.bind_ok, hu.read.names, List.length_map, elemCounts]
    · unfold logicalDims
      simp only [ht, Res.bind_ok, BNode.asString, hc, hu.read.names]
      rw [if_pos (.inr trivial)]
      have := axesLoop_ok A cset false (g.map (·.name)) (g.map (·.len)) (by simp) (by simpa [elemCounts] using hl) (by
        intro i a n ha hn
        cases hx : g[i]? with
        | none => simp [hx] at ha
        | some x =>
          simp only [List.getElem?_map, hx, Option.map_some, Option.some.injEq] at ha hn
          subst ha
          obtain ⟨v, w, l, d1, d2, d3, _⟩ := hu.read.axis i x hx
          unfold axisPoints
          simp only [d1, d2, Res.bind_ok, BNode.numElements, d3, hn, Bool.false_eq_true, if_false]) (by
        intro n hn
        obtain ⟨a, ha, rfl⟩ := List.mem_map.1 hn
        exact hlen a ha)
      have d : decide (chars! "rectilinear" = chars! "uniform") = false := by decide
      rw [d, this]
      simp only [List.map_map, elemCounts]
      rfl
  | structured ed names e d ht hx hn hs he hd hk =>
    have hne : names ≠ [] := by rintro rfl; simp at hn; omega
    obtain ⟨m, e1, e2, _⟩ := C71_structured A topo cset [] names ed hx hn hne hs hf
    refine ⟨⟨_, .structured, ht, rfl, m, cset, e1, e2⟩, ?_, ?_⟩
    · unfold gridDims
      simp only [hc, Res.bind_ok, hx.read, hn]
    · obtain ⟨e', d', g1, g2, g3⟩ := hs
      rw [he] at g1; cases g1
      rw [hd] at g2; cases g2
      unfold logicalDims
      simp only [ht, Res.bind_ok, BNode.asString, he, hd]
      rw [if_neg (by decide), if_pos trivial]
      rcases ed with _ | ⟨a, _ | ⟨b, _ | ⟨c, _ | ⟨_, _⟩⟩⟩⟩ <;> simp at hl
      · obtain ⟨x, y, hk1, hk2, hk3⟩ := cons2 (f := fun k : Str × BNode F => k.1) (a := chars! "i") (b := chars! "j") hk
        obtain ⟨x, vx⟩ := x
        obtain ⟨y, vy⟩ := y
        simp only at hk2 hk3
        subst hk2 hk3
        obtain ⟨c0, _, x1, x2, _⟩ := g3 0 a rfl
        obtain ⟨c1, _, y1, y2, _⟩ := g3 1 b rfl
        have x0 : d.get (chars! "i") = .ok vx := by unfold BNode.get; rw [hk1]; rfl
        have y0 : d.get (chars! "j") = .ok vy := by unfold BNode.get; rw [hk1]; rfl
        rw [show Mesh.logical 0 = chars! "i" from rfl, x0] at x1; cases x1
        rw [show Mesh.logical 1 = chars! "j" from rfl, y0] at y1; cases y1
        have ha := h1 a (by simp)
        have hb := h1 b (by simp)
        rw [hk1]
        simp only [dimsLoop, show logicalAxes.findIdx? (· == chars! "i") = some 0 from by decide,
          show logicalAxes.findIdx? (· == chars! "j") = some 1 from by decide, x2, y2, Res.bind_ok, I3.set]
        rw [show max 1 (a : Int) = a by omega, show max 1 (b : Int) = b by omega]
        rfl
      · obtain ⟨x, y, z, hk1, hk2, hk3, hk4⟩ := cons3 (f := fun k : Str × BNode F => k.1) (a := chars! "i") (b := chars! "j") (c := chars! "k") hk
        obtain ⟨x, vx⟩ := x
        obtain ⟨y, vy⟩ := y
        obtain ⟨z, vz⟩ := z
        simp only at hk2 hk3 hk4
        subst hk2 hk3 hk4
        obtain ⟨c0, _, x1, x2, _⟩ := g3 0 a rfl
        obtain ⟨c1, _, y1, y2, _⟩ := g3 1 b rfl
        obtain ⟨c2, _, z1, z2, _⟩ := g3 2 c rfl
        have x0 : d.get (chars! "i") = .ok vx := by unfold BNode.get; rw [hk1]; rfl
        have y0 : d.get (chars! "j") = .ok vy := by unfold BNode.get; rw [hk1]; rfl
        have z0 : d.get (chars! "k") = .ok vz := by unfold BNode.get; rw [hk1]; rfl
        rw [show Mesh.logical 0 = chars! "i" from rfl, x0] at x1; cases x1
        rw [show Mesh.logical 1 = chars! "j" from rfl, y0] at y1; cases y1
        rw [show Mesh.logical 2 = chars! "k" from rfl, z0] at z1; cases z1
        have ha := h1 a (by simp)
        have hb := h1 b (by simp)
        have hcc := h1 c (by simp)
        rw [hk1]
        simp only [dimsLoop, show logicalAxes.findIdx? (· == chars! "i") = some 0 from by decide,
          show logicalAxes.findIdx? (· == chars! "j") = some 1 from by decide,
          show logicalAxes.findIdx? (· == chars! "k") = some 2 from by decide, x2, y2, z2, Res.bind_ok, I3.set]
        rw [show max 1 (a : Int) = a by omega, show max 1 (b : Int) = b by omega, show max 1 (c : Int) = c by omega]
        rfl

theorem reads_idx {topo : BNode F} {s : Str} {els : List (List Nat)} (h : Reads topo s els) : ∀ el ∈ els, ∀ p ∈ el, Idx p := by
  intro el hel p hp
  rcases h with ⟨e, n, tc, _, _, _, _, h5⟩ | ⟨_, _, ⟨ot, hE⟩, _⟩
  · exact (h5 el hel).2 p hp
  · obtain ⟨e', tc, conn, ts, sizes, offs, g1, g2, g3, g4, g5, g6, g7⟩ := hE
    obtain ⟨i, hi⟩ := List.getElem?_of_mem hel
    obtain ⟨k, hk⟩ := List.getElem?_of_mem hp
    obtain ⟨_, _, _, o, _, _, _, b4⟩ := g7 i el hi
    exact (b4 k p hk).2.2

/-- The points and the topology of the elements. -/
theorem points_topo (A : Arith F) (mesh topo cset : BNode F) (s csname : Str) (els : List (List Nat)) (hE : Elems A topo cset s els)
    (hc : coordsetOf mesh topo = .ok (some cset)) (npts : Nat) (hnp : Idx npts) (hp : ∀ el ∈ els, ∀ p ∈ el, p < npts) (ids : List Nat)
    (hi : ∀ i ∈ ids, i < els.length) (hfit : Idx (picked els ids).flatten.length) :
    ∃ pts topo', vertexIds A mesh topo (ints ids) = .ok (ints pts) ∧ Uses pts (picked els ids) ∧
      createTopo A mesh topo csname (ints ids) (ints pts) = .ok topo' ∧
      topo'.get (chars! "type") = .ok (.str (chars! "unstructured")) ∧ topo'.get (chars! "coordset") = .ok (.str csname) ∧
      Reads topo' s (renumbered pts (picked els ids)) := by
  have hpi : ∀ el ∈ els, ∀ p ∈ el, Idx p := fun el he p hpm => by
    have := hp el he p hpm
    unfold Idx at *; omega
  rcases hE with ⟨ht, hr⟩ | ⟨ed, hg, hl, h1, rfl, hge, hf⟩
  · obtain ⟨pts, e1, u⟩ := vertexIds_reads A mesh hr ht ids hi
    obtain ⟨topo', e2, t1, t2, t3⟩ := newTopo_reads A hr csname ids hi pts u hpi hfit
    refine ⟨pts, topo', e1, u, ?_, t1, t2, t3⟩
    unfold createTopo
    simp only [ht, Res.bind_ok, BNode.asString]
    rw [show baseOf (chars! "unstructured") = none by decide]
    exact e2
  · obtain ⟨⟨ty, b, ht, hb, m, c, hm, hel⟩, hd, hld⟩ := grid_read A mesh topo cset ed hg hl h1 hf hc
    obtain ⟨l, pts, e1, e2, u⟩ := gridPoints_ok A mesh topo ed els hl hd hld hge ids hi
    have hidx : Idx (count (ed.map (· + 1))) := by
      -- the last point is the last corner of the last element
      have hpos : InGrid ed (ed.map (· - 1)) := by
        clear hg hl hge hf hm hel hd hld
        induction ed with
        | nil => trivial
        | cons a l ih => exact ⟨by have := h1 a (by simp); show a - 1 < a; omega, ih (fun k hk => h1 k (by simp [hk]))⟩
      have hlast := hge.2 _ hpos
      have hmem := List.mem_of_getElem? hlast
      have hone : (List.replicate ed.length 1) ∈ corners ed.length := by rcases hl with h | h <;> rw [h] <;> decide
      have := hp _ hmem _ (List.mem_map_of_mem hone)
      have e : pointId (ed.map (· + 1)) (addIdx (ed.map (· - 1)) (List.replicate ed.length 1)) + 1 = count (ed.map (· + 1)) := by
        clear hg hl hge hf hm hel hd hld hlast hmem hone this hpos
        induction ed with
        | nil => rfl
        | cons a l ih =>
          have ih := ih (fun k hk => h1 k (by simp [hk]))
          have ha := h1 a (by simp)
          simp only [List.map_cons, List.length_cons, List.replicate_succ, addIdx, pointId, count]
          rw [← ih, Nat.mul_add]
          omega
      unfold Idx at *; omega
    have hr := reads_elements hl hel hge hidx
    obtain ⟨topo', e3, t1, t2, t3⟩ := newTopo_reads A hr csname ids hi pts u hpi hfit
    refine ⟨pts, topo', ?_, u, ?_, t1, t2, t3⟩
    · unfold vertexIds
      simp only [ht, Res.bind_ok, BNode.asString, hb, Option.isSome_some, if_true, e1, e2]
    · unfold createTopo
      simp only [ht, Res.bind_ok, BNode.asString, hb, hc, hm, e3]

theorem coords_ok (A : Arith F) (cset : BNode F) (names : List Str) (npts : Nat) (h : Coords A cset names npts) (pts : List Nat)
    (hp : ∀ p ∈ pts, p < npts) :
    ∃ cset' vals, explicitCoords A cset (ints pts) = .ok cset' ∧ Lists A cset vals ∧ SlicedAxes vals names pts cset' := by
  cases h with
  | explicit _ _ vals hx hne hv hcol =>
    obtain ⟨cset', e, hs⟩ := explicitCoords_ok A cset cset vals _ hx.type (.inl ⟨rfl, rfl⟩) names hx.read (axes_nodup _ _ hx.read) hne hv
      npts hcol pts hp
    exact ⟨cset', vals, e, .inl ⟨hx.type, hv⟩, hs⟩
  | uniform g hg hu =>
    obtain ⟨ex, h1, h2, h3⟩ := C70_uniform_explicit A cset g hu
    have he : coordsetToExplicit A cset = .ok ex := by
      simp only [coordsetToExplicit, hu.type, Res.bind_ok, BNode.asString]; exact h1
    have hm := toExplicit_uniform A cset g hu.read hu.noValues
    rw [h1] at hm
    have hg' : mapCoord (storeF A (widestFloat cset) true) g ≠ [] := by simpa [mapCoord] using hg
    have hax : axes ex = .ok (g.map (·.name)) := by
      injection hm with hm
      rw [hm, axes_explicitOf cset _ _ hg' (by rw [mapCoord_names]; exact hu.read.names), mapCoord_names]
    have hex : ∃ g' : List (Axis F), g'.map (·.name) = g.map (·.name) ∧ g'.map (·.len) = g.map (·.len) ∧ Explicit ex g' := by
      by_cases hl : HasLeaf cset (.f true)
      · exact ⟨g, rfl, rfl, h2 hl⟩
      · exact ⟨_, mapCoord_names _ _, mapCoord_lens _ _, h3 hl⟩
    obtain ⟨g', n1, n2, hE⟩ := hex
    have hg2 : g' ≠ [] := by rintro rfl; exact hg (by simpa using n1.symm)
    obtain ⟨a0, l0, rfl⟩ := List.exists_cons_of_ne_nil hg2
    obtain ⟨vals, _, _, hv, _⟩ := hE.2 0 a0 rfl
    have hcol : ∀ a ∈ g.map (·.name), ∃ c, vals.get a = .ok c ∧ Column c (count (g.map (·.len))) := by
      intro a ha
      rw [← n1] at ha
      obtain ⟨x, hx, rfl⟩ := List.mem_map.1 ha
      obtain ⟨i, hi⟩ := List.getElem?_of_mem hx
      obtain ⟨v, w, l, q1, q2, q3, _⟩ := hE.2 i x hi
      rw [hv] at q1; cases q1
      exact ⟨_, q2, .inr ⟨w, l, rfl, by rw [q3, n2]⟩⟩
    obtain ⟨cset', e, hs⟩ := explicitCoords_ok A cset ex vals _ hu.type (.inr ⟨.inl rfl, he⟩) _ hax (axes_nodup _ _ hax) (by simpa using hg) hv
      _ hcol pts hp
    exact ⟨cset', vals, e, .inr ⟨g, ex, hv, .inl ⟨hu, h2, h3⟩⟩, hs⟩
  | rectilinear g hg hu =>
    obtain ⟨ex, h1, hE⟩ := C70_rectilinear_explicit A cset g hu
    have he : coordsetToExplicit A cset = .ok ex := by
      simp only [coordsetToExplicit, hu.type, Res.bind_ok, BNode.asString]
      rw [if_neg (by decide), if_pos trivial]; exact h1
    have hm := toExplicit_rectilinear A cset g hu.read
    rw [h1] at hm
    have hax : axes ex = .ok (g.map (·.name)) := by
      injection hm with hm
      rw [hm, axes_explicitOf cset _ _ hg hu.read.names]
    obtain ⟨a0, l0, rfl⟩ := List.exists_cons_of_ne_nil hg
    obtain ⟨vals, _, _, hv, _⟩ := hE.2 0 a0 rfl
    have hcol : ∀ a ∈ (a0 :: l0).map (·.name), ∃ c, vals.get a = .ok c ∧ Column c (count ((a0 :: l0).map (·.len))) := by
      intro a ha
      obtain ⟨x, hx, rfl⟩ := List.mem_map.1 ha
      obtain ⟨i, hi⟩ := List.getElem?_of_mem hx
      obtain ⟨v, w, l, q1, q2, q3, _⟩ := hE.2 i x hi
      rw [hv] at q1; cases q1
      exact ⟨_, q2, .inr ⟨w, l, rfl, by rw [q3]⟩⟩
    obtain ⟨cset', e, hs⟩ := explicitCoords_ok A cset ex vals _ hu.type (.inr ⟨.inr rfl, he⟩) _ hax (axes_nodup _ _ hax) (by simp) hv
      _ hcol pts hp
    exact ⟨cset', vals, e, .inr ⟨_, ex, hv, .inr ⟨hu, hE⟩⟩, hs⟩

end Conduit.Part
