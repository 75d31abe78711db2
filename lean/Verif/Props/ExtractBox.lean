import Verif.Lemmas.ExtractBox3
import Verif.Props.ExtractEx
/-
C94: the partitioner takes a box out of a grid.
-/
namespace Conduit.Part
open Conduit.Mesh
variable {F : Type}

/-- **C94**, uniform grids (of two or three dimensions, with origin and spacing in the order of the axes): the box is a uniform grid
    with the elements of the box along each axis; it begins where its first point was and keeps the spacing; the origin of the
    elements (`elements/origin/i`, …) is moved.  Fields have the values of the elements and points of the box in the order of the new
    grid; the mapping tells their numbers.  Element `x` of the new grid is element `start + x`, and so for points.  The state is kept. -/
theorem C94_uniform_box_partial (A : Arith F) (o : Opts) (s : Sel) (mesh topo cset fields : BNode F) (tname csname : Str) (g : List (Axis F))
    (start stop : List Nat) (hd : Domain s mesh tname topo csname cset) (hk : s.kind = .logical (i3 start) (i3 stop))
    (ht : topo.get (chars! "type") = .ok (.str (chars! "uniform"))) (hu : Uniform A cset g) (hl : g.length = 2 ∨ g.length = 3)
    (hlen : ∀ a ∈ g, 2 ≤ a.len ∧ a.len < 2147483648)
    (hfit : ∀ k : Nat, k < count ((elemCounts g).map (· + 1)) → (widestInt topo).cast k = k)
    (hin : BoxIn (elemCounts g) start stop) (ho : InOrder cset (chars! "origin") (g.map (·.name)))
    (hs : InOrder cset (chars! "spacing") (g.map fun a => 'd' :: a.name)) (hO : OriginGood A topo)
    (hf : mesh.get (chars! "fields") = .ok fields)
    (hgf : GoodFields o tname (count (elemCounts g)) (count ((elemCounts g).map (· + 1))) fields.kids) :
    ∃ mesh' topo' cset' g' ids pts, extract A o s mesh = .ok (some (mesh', pts.map fun p : Nat => (p : Int))) ∧
      BoxOf (elemCounts g) start (boxLens start stop) ids ∧
      BoxOf ((elemCounts g).map (· + 1)) start ((boxLens start stop).map (· + 1)) pts ∧
      elementIds A s mesh = .ok (ids.map fun i : Nat => (i : Int)) ∧
      LeafAt mesh' (chars! "topologies") tname topo' ∧ LeafAt mesh' (chars! "coordsets") csname cset' ∧
      topo'.get (chars! "coordset") = .ok (.str csname) ∧ OriginMoved A topo topo' start ∧
      Uniform A cset' g' ∧ Grid A topo' cset' (boxLens start stop) ∧ CutUniform A start stop g g' ∧
      FieldsTaken o s.domain tname pts ids fields.kids (mesh'.getOrEmpty (chars! "fields")) ∧ StateKept mesh mesh' (destDomain s) := by
  have hlen1 : ∀ a ∈ g, 1 ≤ a.len ∧ a.len < 2147483648 := fun a ha => by have := hlen a ha; omega
  have hel : (elemCounts g).length = 2 ∨ (elemCounts g).length = 3 := by simpa [elemCounts] using hl
  have hgr := grid_read A mesh topo cset _ (.uniform g ht hu hlen1) hel (by
    intro k hk
    obtain ⟨a, ha, rfl⟩ := List.mem_map.1 hk
    have := hlen a ha
    omega) hfit (domain_coordset hd)
  obtain ⟨cset', g', u1, u2, u3, u4, u5⟩ := uniformCoords_ok A cset g start stop hu hlen1 hl hin ho hs
  obtain ⟨topo', t1, t2, t3, t4⟩ := boxTopo_ok A topo (chars! "uniform") csname start hO
  obtain ⟨mesh', c2, ids, pts, e1, e2, e3, e4, e5, e6, rfl, e7, e8⟩ := box_extract A o s mesh topo cset fields tname csname _ start stop hd hk hel hgr
    hin hf hgf _ _ topo' ht hu.type (by rw [if_pos (.inl rfl), t1]; rfl) (fun _ c => c = cset') (fun pts _ => ⟨cset', u1, rfl⟩)
  refine ⟨mesh', topo', _, g', ids, pts, e1, e2, e3, e4, e5, e6, t3, t4, u2, ?_, u3, e7, e8⟩
  rw [← u4]
  exact .uniform g' t2 u2 u5

/-- **C94**: if `origin + d * spacing` is exact, the points of the box are where they were. -/
theorem C94_uniform_exact (A : Arith F) (hA : ∀ (o s : F) (m n : Nat), A.lin (A.lin o m s) n s = A.lin o ((m + n : Nat) : Int) s)
    (start stop : List Nat) (g g' : List (Axis F)) (h : CutUniform A start stop g g') : CutAxes start stop g g' := by
  refine ⟨h.1, fun i a b ax h1 h2 h3 => ?_⟩
  obtain ⟨ax', e1, e2, e3, o, s, e4, e5⟩ := h.2 i a b ax h1 h2 h3
  exact ⟨ax', e1, e2, e3, fun d _ => by rw [e5, e4, e4, hA]⟩

/-- **C94**, rectilinear grids (of two or three dimensions, with values in the order of the axes): as for uniform grids, and the points
    are where they were. -/
theorem C94_rectilinear_box_partial (A : Arith F) (o : Opts) (s : Sel) (mesh topo cset fields : BNode F) (tname csname : Str) (g : List (Axis F))
    (start stop : List Nat) (hd : Domain s mesh tname topo csname cset) (hk : s.kind = .logical (i3 start) (i3 stop))
    (ht : topo.get (chars! "type") = .ok (.str (chars! "rectilinear"))) (hu : Rectilinear cset g) (hl : g.length = 2 ∨ g.length = 3)
    (hlen : ∀ a ∈ g, 2 ≤ a.len) (hfit : ∀ k : Nat, k < count ((elemCounts g).map (· + 1)) → (widestInt topo).cast k = k)
    (hin : BoxIn (elemCounts g) start stop) (ho : InOrder cset (chars! "values") (g.map (·.name))) (hO : OriginGood A topo)
    (hf : mesh.get (chars! "fields") = .ok fields)
    (hgf : GoodFields o tname (count (elemCounts g)) (count ((elemCounts g).map (· + 1))) fields.kids) :
    ∃ mesh' topo' cset' g' ids pts, extract A o s mesh = .ok (some (mesh', pts.map fun p : Nat => (p : Int))) ∧
      BoxOf (elemCounts g) start (boxLens start stop) ids ∧
      BoxOf ((elemCounts g).map (· + 1)) start ((boxLens start stop).map (· + 1)) pts ∧
      elementIds A s mesh = .ok (ids.map fun i : Nat => (i : Int)) ∧
      LeafAt mesh' (chars! "topologies") tname topo' ∧ LeafAt mesh' (chars! "coordsets") csname cset' ∧
      topo'.get (chars! "coordset") = .ok (.str csname) ∧ OriginMoved A topo topo' start ∧
      Rectilinear cset' g' ∧ Grid A topo' cset' (boxLens start stop) ∧ CutAxes start stop g g' ∧
      FieldsTaken o s.domain tname pts ids fields.kids (mesh'.getOrEmpty (chars! "fields")) ∧ StateKept mesh mesh' (destDomain s) := by
  have hlen1 : ∀ a ∈ g, 1 ≤ a.len := fun a ha => by have := hlen a ha; omega
  have hel : (elemCounts g).length = 2 ∨ (elemCounts g).length = 3 := by simpa [elemCounts] using hl
  have hgr := grid_read A mesh topo cset _ (.rectilinear g ht hu hlen1) hel (by
    intro k hk
    obtain ⟨a, ha, rfl⟩ := List.mem_map.1 hk
    have := hlen a ha
    omega) hfit (domain_coordset hd)
  obtain ⟨cset', g', u1, u2, u3, u4, u5⟩ := rectilinearCoords_ok cset g start stop hu hl hin ho
  obtain ⟨topo', t1, t2, t3, t4⟩ := boxTopo_ok A topo (chars! "rectilinear") csname start hO
  obtain ⟨mesh', c2, ids, pts, e1, e2, e3, e4, e5, e6, rfl, e7, e8⟩ := box_extract A o s mesh topo cset fields tname csname _ start stop hd hk hel hgr
    hin hf hgf _ _ topo' ht hu.type (by rw [if_pos (.inr rfl), t1]; rfl) (fun _ c => c = cset')
    (fun pts _ => ⟨cset', by rw [if_neg (by decide), if_pos rfl, u1], rfl⟩)
  refine ⟨mesh', topo', _, g', ids, pts, e1, e2, e3, e4, e5, e6, t3, t4, u2, ?_, u3, e7, e8⟩
  rw [← u4]
  exact .rectilinear g' t2 u2 u5

/-- **C94**, structured grids (of two or three dimensions): the box is a structured grid; its points have the coordinates they had.
    Missing: the origin of the elements is not kept (`C94_structured_origin_false`). -/
theorem C94_structured_box_partial (A : Arith F) (o : Opts) (s : Sel) (mesh topo cset fields e d vals : BNode F) (tname csname : Str)
    (names : List Str) (ed start stop : List Nat) (hd : Domain s mesh tname topo csname cset) (hk : s.kind = .logical (i3 start) (i3 stop))
    (ht : topo.get (chars! "type") = .ok (.str (chars! "structured"))) (hx : ExplicitAxes cset names) (hn : names.length = ed.length)
    (hst : Structured A topo ed) (he : topo.get (chars! "elements") = .ok e) (hdd : e.get (chars! "dims") = .ok d)
    (hdk : d.kids.map (·.1) = (List.range ed.length).map logical) (hl : ed.length = 2 ∨ ed.length = 3) (hpos : ∀ k ∈ ed, 1 ≤ k)
    (hfit : ∀ k : Nat, k < count (ed.map (· + 1)) → (widestInt topo).cast k = k) (hin : BoxIn ed start stop)
    (hv : cset.get (chars! "values") = .ok vals) (hcol : ∀ a ∈ names, ∃ c, vals.get a = .ok c ∧ Column c (count (ed.map (· + 1))))
    (hf : mesh.get (chars! "fields") = .ok fields) (hgf : GoodFields o tname (count ed) (count (ed.map (· + 1))) fields.kids) :
    ∃ mesh' topo' cset' ids pts, extract A o s mesh = .ok (some (mesh', pts.map fun p : Nat => (p : Int))) ∧
      BoxOf ed start (boxLens start stop) ids ∧ BoxOf (ed.map (· + 1)) start ((boxLens start stop).map (· + 1)) pts ∧
      elementIds A s mesh = .ok (ids.map fun i : Nat => (i : Int)) ∧
      LeafAt mesh' (chars! "topologies") tname topo' ∧ LeafAt mesh' (chars! "coordsets") csname cset' ∧
      topo'.get (chars! "coordset") = .ok (.str csname) ∧ Grid A topo' cset' (boxLens start stop) ∧ SlicedAxes vals names pts cset' ∧
      FieldsTaken o s.domain tname pts ids fields.kids (mesh'.getOrEmpty (chars! "fields")) ∧ StateKept mesh mesh' (destDomain s) := by
  have hgr := grid_read A mesh topo cset ed (.structured ed names e d ht hx hn hst he hdd hdk) hl hpos hfit (domain_coordset hd)
  have hne : names ≠ [] := by rintro rfl; simp at hn; omega
  obtain ⟨topo', t1, t2, t3, t4⟩ := boxStructured_ok A topo csname ed e d start stop hst he hdd hdk hl hin
  obtain ⟨mesh', cset', ids, pts, e1, e2, e3, e4, e5, e6, e9, e7, e8⟩ := box_extract A o s mesh topo cset fields tname csname ed start stop hd hk hl hgr
    hin hf hgf _ _ topo' ht hx.type (by rw [if_neg (by decide), if_pos rfl, t1]; rfl) (fun pts c => SlicedAxes vals names pts c) (by
      intro pts hp
      obtain ⟨c, c1, c2⟩ := explicitCoords_ok A cset cset vals _ hx.type (.inl ⟨rfl, rfl⟩) names hx.read (axes_nodup _ _ hx.read) hne hv _ hcol pts hp
      exact ⟨c, by rw [if_neg (by decide), if_neg (by decide), c1], c2⟩)
  refine ⟨mesh', topo', cset', ids, pts, e1, e2, e3, e4, e5, e6, t4, ?_, e9, e7, e8⟩
  refine t2 cset' names ⟨e9.1, hx.system, ?_⟩ hn
  obtain ⟨_, v', v1, v2, _⟩ := e9
  exact ⟨v', v1, fun k => by rw [v2]⟩

end Conduit.Part
