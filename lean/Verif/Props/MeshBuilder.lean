import Verif.Lemmas.MeshBuilder
import Verif.Props.MeshPoints
/-
C80: building a topology from selected elements (`topology::TopologyBuilder`).
C81: searching the elements of a topology in another one (`topology::search`).
-/
namespace Conduit.Mesh
variable {F : Type}

/-! ### C80 -/

/-- `add` returns the number of the element: that of the elements added before. -/
theorem C80_add (els : List (List Nat)) (ids : List Int) : (addElement (buildAll els) ids).1 = els.length := by
  simp [addElement, (buildAll_seen els).2]

theorem renumbered_flatten (pts : List Nat) (els : List (List Nat)) :
    (renumbered pts els).flatten = els.flatten.map (pts.idxOf ·) := by
  simp [renumbered, List.map_flatten]

theorem axisNames_nodup {names : List Str} (h : AxisNames names) : names.Nodup := by
  obtain ⟨s, hs, keep, rfl⟩ := h
  have h : ∀ s ∈ systems, s.Nodup := by decide
  exact (h s hs).sublist List.filter_sublist

/-- **C80**, part: if the coordset is explicit, `execute` makes a mesh of the elements that were added: in order, corner by
    corner with the coordinates they had, with points shared as before and no others. -/
theorem C80_build_partial (A : Arith F) (els : List (List Nat)) (cset : BNode F) (names : List Str) (cname tname shape : Str)
    (npts : Nat) (hx : ExplicitAxes cset names)
    (hcol : ∀ name ∈ names, ∃ col, LeafAt cset (chars! "values") name col ∧ Column col npts)
    (hpt : ∀ el ∈ els, ∀ p ∈ el, p < npts) (hi : Idx els.flatten.length)
    (hshape : (∃ k, (shape, k) ∈ fixedShapes ∧ ∀ el ∈ els, el.length = k) ∨ shape = chars! "polygonal") :
    ∃ out, (buildAll els).execute A cset cname tname shape = .ok (out, .new) ∧
      SelectedMesh A els cset names cname tname shape out := by
  obtain ⟨hb, hsz⟩ := buildAll_seen els
  have hflat : ∀ p ∈ els.flatten, p < npts := by
    intro p hp
    obtain ⟨el, h1, h2⟩ := List.mem_flatten.1 hp
    exact hpt el h1 p h2
  have hnd := eraseDups_nodup els.flatten
  generalize hO : els.flatten.eraseDups = old at *
  have hmem : ∀ p, p ∈ old ↔ p ∈ els.flatten := by intro p; rw [← hO]; exact List.mem_eraseDups
  have holdlen : old.length ≤ els.flatten.length :=
    (hnd.subperm (fun p hp => (hmem p).1 hp)).length_le
  -- the coordinates
  obtain ⟨cols, hc1, hc2⟩ := mapM_res (selectAxis A cset (buildAll els).oldToNew) (fun name kv => ∃ col l,
      LeafAt cset (chars! "values") name col ∧ kv = (name, .flts true l) ∧ l.length = old.length ∧
      ∀ (q p : Nat), old[q]? = some p → ∃ v, valueAt A col p = some v ∧ l[q]? = some v) names (by
    intro name hname
    obtain ⟨col, h1, h2⟩ := hcol name hname
    obtain ⟨l, h3, h4, h5⟩ := selectAxis_ok A hb h1 h2 hflat
    rw [hO] at h4 h5
    exact ⟨_, h3, col, l, h1, rfl, h4, h5⟩)
  -- the topology
  let e : BNode F := .obj [(chars! "shape", .str shape), (chars! "connectivity", .ints int64 (buildAll els).conn),
      (chars! "sizes", .ints int64 (buildAll els).sizes)]
  let topo : BNode F := .obj [(chars! "type", .str (chars! "unstructured")), (chars! "coordset", .str cname),
    (chars! "elements", e)]
  have hlens : (renumbered old els).map (·.length) = els.map (·.length) := by simp [renumbered]
  have hidx : ∀ p ∈ els.flatten, Idx (old.idxOf p) := by
    intro p hp
    have : old.idxOf p < old.length := List.idxOf_lt_length_iff.2 ((hmem p).2 hp)
    unfold Idx at hi ⊢; omega
  have hconn : NatLeaf e (chars! "connectivity") (renumbered old els).flatten := by
    refine ⟨int64, ?_, ?_⟩
    · rw [renumbered_flatten, List.map_map]
      show Res.ok (BNode.ints int64 (buildAll els).conn) = _
      rw [hb.conn, hO]; rfl
    · intro p hp
      rw [renumbered_flatten] at hp
      obtain ⟨q, hq, rfl⟩ := List.mem_map.1 hp
      exact ⟨idx_holds (hidx q hq), hidx q hq⟩
  have helen : ∀ el ∈ els, el.length ≤ els.flatten.length := by
    intro el hel
    have h := (List.sublist_flatten_of_mem hel).length_le
    exact h
  have hsizes : NatLeaf e (chars! "sizes") ((renumbered old els).map (·.length)) := by
    refine ⟨int64, ?_, ?_⟩
    · rw [hlens, List.map_map]
      show Res.ok (BNode.ints int64 (buildAll els).sizes) = _
      rw [hsz]; rfl
    · intro n hn
      rw [hlens] at hn
      obtain ⟨el, hel, rfl⟩ := List.mem_map.1 hn
      have := helen el hel
      have : Idx el.length := by unfold Idx at hi ⊢; omega
      exact ⟨idx_holds this, this⟩
  have hcells : Cells topo e (renumbered old els) := by
    refine ⟨rfl, rfl, rfl, hconn, ?_⟩
    rcases hshape with ⟨k, hk, hl⟩ | rfl
    · refine .inl ⟨shape, k, hk, rfl, fun el' hel' => ?_⟩
      simp only [renumbered, List.mem_map] at hel'
      obtain ⟨el, hel, rfl⟩ := hel'
      rw [List.length_map, hl el hel]
    · exact .inr ⟨rfl, hsizes⟩
  have hfl : (renumbered old els).flatten.length = els.flatten.length := by rw [renumbered_flatten, List.length_map]
  have hstart : ∀ p ∈ starts (renumbered old els), Idx p := by
    intro p hp
    have := starts_le _ p hp
    rw [hfl] at this
    unfold Idx at hi ⊢; omega
  have hwide : ∀ p ∈ starts (renumbered old els), (widestInt topo).Holds (p : Int) := by
    intro p hp
    refine C79_widest_64 topo true ?_ p (hstart p hp)
    exact .obj _ (chars! "elements") e _ (by simp) (.obj _ (chars! "sizes") (.ints int64 (buildAll els).sizes) _ (by simp) (.leaf _ _ rfl))
  have hinl := inline_cells A hcells (.inl rfl) hwide
  -- together
  let newcset : BNode F := .obj ((chars! "type", .str (chars! "explicit")) :: objKid (chars! "values") cols)
  let newtopo := withOffsets topo e (widestInt topo) (renumbered old els)
  have hg : ∀ (k : Str) (v : BNode F), (BNode.obj [(k, v)]).get k = .ok v := by
    intro k v; simp [BNode.get, BNode.kids]
  refine ⟨.obj [(chars! "coordsets", .obj [(cname, newcset)]), (chars! "topologies", .obj [(tname, newtopo)])], ?_,
    newtopo, newcset, renumbered old els, widestInt topo, old,
    ⟨_, rfl, hg _ _⟩, ⟨_, rfl, hg _ _⟩, ?_, ?_, ?_, ?_, rfl, hnd, ?_, by simp [renumbered], ?_, ?_⟩
  · unfold Builder.execute
    rw [hx.read, Res.bind_ok, hc1, Res.bind_ok]
    simp only
    rw [hinl, Res.bind_ok]
  · exact get_setChild_other _ _ _ _ (by decide)
  · exact get_setChild_other _ _ _ _ (by decide)
  · exact ⟨_, get_setChild_same _ _ _, get_setChild_other _ _ _ _ (by decide)⟩
  · obtain ⟨tc, c1, c2⟩ := hconn
    obtain ⟨ts, s1, s2⟩ := hsizes
    refine ⟨_, tc, _, ts, _, _, get_setChild_same _ _ _, by rw [get_setChild_other _ _ _ _ (by decide), c1],
      by rw [get_setChild_other _ _ _ _ (by decide), s1], get_setChild_same _ _ _, by rw [List.length_map, List.length_map], by rw [List.length_map, starts_length], ?_⟩
    intro c el hc
    have hcl : c < (renumbered old els).length := (List.getElem?_eq_some_iff.1 hc).1
    have hm : el.length ∈ (renumbered old els).map (·.length) := List.mem_map.2 ⟨el, List.mem_of_getElem? hc, rfl⟩
    refine ⟨by simp [hc], (s2 _ hm).1, (s2 _ hm).2, _, by rw [List.getElem?_map, starts_get _ c hcl]; rfl, ?_, ?_, ?_⟩
    · exact hwide _ (List.mem_of_getElem? (starts_get _ c hcl))
    · exact hstart _ (List.mem_of_getElem? (starts_get _ c hcl))
    · intro i p hp
      have hf := flatten_at _ c el hc i p hp
      have := c2 p (List.mem_of_getElem? hf)
      exact ⟨by rw [List.getElem?_map, hf]; rfl, this.1, this.2⟩
  · intro p hp
    obtain ⟨el, h1, h2⟩ := List.mem_flatten.1 ((hmem p).1 hp)
    exact ⟨el, h1, h2⟩
  · intro j el hj
    refine ⟨el.map (old.idxOf ·), by simp [renumbered, hj], by simp, fun i p hp => ?_⟩
    refine ⟨old.idxOf p, by simp [hp], ?_⟩
    have hpm : p ∈ old := (hmem p).2 (List.mem_flatten.2 ⟨el, List.mem_of_getElem? hj, List.mem_of_getElem? hp⟩)
    rw [List.getElem?_eq_getElem (List.idxOf_lt_length_iff.2 hpm)]
    simp
  · intro name hname
    obtain ⟨i, hi'⟩ := List.getElem?_of_mem hname
    have hlen := hc2.length_eq
    have hil : i < names.length := (List.getElem?_eq_some_iff.1 hi').1
    have hck : cols[i]? = some cols[i] := List.getElem?_eq_getElem (by omega)
    obtain ⟨col, l, h1, h2, h3, h4⟩ := forall2_get hc2 i _ _ hi' hck
    refine ⟨col, l, h1, ?_, h3, h4⟩
    have hne : cols ≠ [] := by intro h; rw [h, List.length_nil] at hlen; omega
    have hnames : cols.map (·.1) = names := by
      apply List.ext_getElem?
      intro k
      by_cases hk : k < names.length
      · obtain ⟨_, _, _, h2', _, _⟩ := forall2_get hc2 k _ _ (List.getElem?_eq_getElem hk) (List.getElem?_eq_getElem (by omega : k < cols.length))
        rw [List.getElem?_map, List.getElem?_eq_getElem (by omega : k < cols.length), h2', List.getElem?_eq_getElem hk]; rfl
      · rw [List.getElem?_eq_none (by simp; omega), List.getElem?_eq_none (by omega)]
    refine ⟨.obj cols, ?_, ?_⟩
    · cases cols with
      | nil => exact absurd rfl hne
      | cons k ks => rfl
    · exact get_obj_nodup cols i name _ (by rw [hnames]; exact axisNames_nodup hx.system) (by rw [hck, h2])

/-! ### C81 -/

/-- **C81**, part: an element of the second topology that is one of the first is always found. -/
theorem C81_found (A : Arith F) (topo1 e1 topo2 e2 : BNode F) (els1 els2 : List (List Nat)) (h1 : Cells topo1 e1 els1)
    (hz1 : e1.hasChild (chars! "sizes") = false ∨ NatLeaf e1 (chars! "sizes") (els1.map (·.length))) (h2 : Cells topo2 e2 els2)
    (hz2 : e2.hasChild (chars! "sizes") = false ∨ NatLeaf e2 (chars! "sizes") (els2.map (·.length)))
    (r : List (Option Nat)) (hr : ∀ el ∈ els2, ∀ p ∈ el, p < r.length) :
    ∃ out, search A topo1 topo2 (stored r) = .ok out ∧ out.length = els2.length ∧
      ∀ (j : Nat) (el m : List Nat), els2[j]? = some el → Translated r el m → OneOf els1 m → out[j]? = some 1 := by
  obtain ⟨out, e, hl, h⟩ := search_ok A h1 hz1 h2 hz2 r hr
  refine ⟨out, e, hl, fun j el m hj hm ho => ?_⟩
  obtain ⟨v, hv, _, hiff⟩ := h j el hj
  obtain ⟨el1, hel1, hp⟩ := ho
  rw [hv, hiff.2 ⟨m, hm, el1, hel1, by unfold elementHash; rw [(sort_eq_iff m el1).2 hp]⟩]

/-- An element with a point that was not found is never reported. -/
theorem C81_missing_point (A : Arith F) (topo1 e1 topo2 e2 : BNode F) (els1 els2 : List (List Nat)) (h1 : Cells topo1 e1 els1)
    (hz1 : e1.hasChild (chars! "sizes") = false ∨ NatLeaf e1 (chars! "sizes") (els1.map (·.length))) (h2 : Cells topo2 e2 els2)
    (hz2 : e2.hasChild (chars! "sizes") = false ∨ NatLeaf e2 (chars! "sizes") (els2.map (·.length)))
    (r : List (Option Nat)) (hr : ∀ el ∈ els2, ∀ p ∈ el, p < r.length) :
    ∃ out, search A topo1 topo2 (stored r) = .ok out ∧
      ∀ (j : Nat) (el : List Nat) (p : Nat), els2[j]? = some el → p ∈ el → r[p]? = some none → out[j]? = some 0 := by
  obtain ⟨out, e, _, h⟩ := search_ok A h1 hz1 h2 hz2 r hr
  refine ⟨out, e, fun j el p hj hp hn => ?_⟩
  obtain ⟨v, hv, h01, hiff⟩ := h j el hj
  rw [hv]
  rcases h01 with h0 | h1'
  · rw [h0]
  · obtain ⟨m, hm, _⟩ := hiff.1 h1'
    obtain ⟨i, hi⟩ := List.getElem?_of_mem hp
    obtain ⟨q, hq, _⟩ := hm.2 i p hi
    rw [hn] at hq; cases hq

/-- **C81**, part: if no two different elements have the same hash, exactly the elements of the second topology that are
    elements of the first are reported. -/
theorem C81_search_partial (A : Arith F) (topo1 e1 topo2 e2 : BNode F) (els1 els2 : List (List Nat)) (h1 : Cells topo1 e1 els1)
    (hz1 : e1.hasChild (chars! "sizes") = false ∨ NatLeaf e1 (chars! "sizes") (els1.map (·.length))) (h2 : Cells topo2 e2 els2)
    (hz2 : e2.hasChild (chars! "sizes") = false ∨ NatLeaf e2 (chars! "sizes") (els2.map (·.length)))
    (r : List (Option Nat)) (hr : ∀ el ∈ els2, ∀ p ∈ el, p < r.length)
    (hinj : ∀ el1 ∈ els1, ∀ el ∈ els2, ∀ m, Translated r el m → elementHash el1 = elementHash m → m.Perm el1) :
    ∃ out, search A topo1 topo2 (stored r) = .ok out ∧ out.length = els2.length ∧
      ∀ (j : Nat) (el : List Nat), els2[j]? = some el →
        (out[j]? = some 1 ↔ ∃ m, Translated r el m ∧ OneOf els1 m) ∧ (out[j]? = some 0 ↔ ¬ ∃ m, Translated r el m ∧ OneOf els1 m) := by
  obtain ⟨out, e, hl, h⟩ := search_ok A h1 hz1 h2 hz2 r hr
  refine ⟨out, e, hl, fun j el hj => ?_⟩
  obtain ⟨v, hv, h01, hiff⟩ := h j el hj
  have key : v = 1 ↔ ∃ m, Translated r el m ∧ OneOf els1 m := by
    rw [hiff]
    constructor
    · rintro ⟨m, hm, el1, hel1, hh⟩
      exact ⟨m, hm, el1, hel1, hinj el1 hel1 el (List.mem_of_getElem? hj) m hm hh⟩
    · rintro ⟨m, hm, el1, hel1, hp⟩
      exact ⟨m, hm, el1, hel1, by unfold elementHash; rw [(sort_eq_iff m el1).2 hp]⟩
  rw [hv, ← key]
  rcases h01 with h0 | h0 <;> simp [h0]

/-! ### examples -/

namespace BuilderEx
open PointsEx

/-- An explicit coordset of six points. -/
def six : BNode Int := .obj [(chars! "type", .str (chars! "explicit")), (chars! "values", .obj [
  (chars! "x", .flts true [0, 10, 20, 30, 40, 50]), (chars! "y", .ints int32 [5, 4, 3, 2, 1, 0])])]

/-- Two triangles with two common points. -/
def two : List (List Nat) := [[4, 1, 5], [1, 3, 4]]

theorem six_axes : ExplicitAxes six [chars! "x", chars! "y"] where
  type := rfl
  system := ⟨_, by simp [systems]; left; rfl, fun a => a != chars! "z", by decide +kernel⟩
  named := ⟨_, rfl, by simp [BNode.kids]⟩

theorem six_cols : ∀ name ∈ [chars! "x", chars! "y"], ∃ col, LeafAt six (chars! "values") name col ∧ Column col 6 := by
  intro name hn
  simp only [List.mem_cons, List.mem_nil_iff, or_false] at hn
  rcases hn with rfl | rfl
  · exact ⟨_, ⟨_, rfl, rfl⟩, .inr ⟨_, _, rfl, by simp⟩⟩
  · exact ⟨_, ⟨_, rfl, rfl⟩, .inl ⟨_, _, rfl, by simp⟩⟩

example : ∃ out, (buildAll two).execute MeshEx.arith six (chars! "c") (chars! "t") (chars! "tri") = .ok (out, .new) ∧
    SelectedMesh MeshEx.arith two six [chars! "x", chars! "y"] (chars! "c") (chars! "t") (chars! "tri") out :=
  C80_build_partial MeshEx.arith two six _ _ _ _ 6 six_axes six_cols (by decide +kernel) (by decide +kernel)
    (.inl ⟨3, by simp [fixedShapes], by decide +kernel⟩)

/-- A mesh as lists: the connectivity and the columns of the coordinates. -/
def flat (r : Res (BNode Int × Builder)) (axes : List Str) : Res (List Int × List (List Int)) := do
  let m ← r
  let t ← (← m.1.get (chars! "topologies")).get (chars! "t")
  let conn ← leafInts MeshEx.arith (← (← t.get (chars! "elements")).get (chars! "connectivity"))
  let c ← (← m.1.get (chars! "coordsets")).get (chars! "c")
  let v ← c.get (chars! "values")
  let cols ← axes.mapM fun a => do leafDoubles MeshEx.arith (← v.get a)
  .ok (conn, cols)

example : flat ((buildAll two).execute MeshEx.arith six (chars! "c") (chars! "t") (chars! "tri")) [chars! "x", chars! "y"] =
    .ok ([0, 1, 2, 1, 3, 0], [[40, 10, 50, 30], [1, 4, 0, 2]]) := by decide +kernel

/-- A rectilinear coordset of three by three points. -/
def rect : BNode Int := .obj [(chars! "type", .str (chars! "rectilinear")), (chars! "values", .obj [
  (chars! "x", .flts true [0, 10, 20]), (chars! "y", .flts true [0, 1, 2])])]

/-- A topology of lines. -/
def lineElems (els : List (List Nat)) : BNode Int := .obj [(chars! "shape", .str (chars! "line")), (chars! "connectivity", arr int32 els.flatten)]
def lineTopo (els : List (List Nat)) : BNode Int := .obj [(chars! "type", .str (chars! "unstructured")), (chars! "elements", lineElems els)]

theorem lineTopo_cells (els : List (List Nat)) (h2 : ∀ el ∈ els, el.length = 2) (hh : ∀ p ∈ els.flatten, p < 2 ^ 31) :
    Cells (lineTopo els) (lineElems els) els where
  elements := rfl
  noStream := rfl
  noSub := rfl
  conn := ⟨int32, rfl, fun p hp => by
    have := hh p hp
    simp only [IntTy.Holds, int32, Idx]
    omega⟩
  shape := .inl ⟨chars! "line", 2, by simp [fixedShapes], rfl, h2⟩

/-- The hash is that of the library (computed apart from the model). -/
example : Hash.hashIds [1, 2] = 5690862068116335489 := by decide +kernel

/-- The lines of a triangle; two lines of another mesh, one of which is the same with its points swapped. -/
def lines1 : List (List Nat) := [[0, 1], [1, 2], [2, 0]]
def lines2 : List (List Nat) := [[0, 1], [1, 2], [1, 3]]

example : search MeshEx.arith (lineTopo lines1) (lineTopo lines2) (stored [some 2, some 1, some 5, none]) = .ok [1, 0, 0] := by
  decide +kernel

example : ∃ out, search MeshEx.arith (lineTopo lines1) (lineTopo lines2) (stored [some 2, some 1, some 5, none]) = .ok out ∧
    out.length = 3 ∧ ∀ (j : Nat) (el m : List Nat), lines2[j]? = some el → Translated [some 2, some 1, some 5, none] el m →
      OneOf lines1 m → out[j]? = some 1 :=
  C81_found MeshEx.arith _ _ _ _ lines1 lines2 (lineTopo_cells lines1 (by decide +kernel) (by decide +kernel)) (.inl rfl)
    (lineTopo_cells lines2 (by decide +kernel) (by decide +kernel)) (.inl rfl) _ (by decide +kernel)

/-- The hypothesis of `C81_search_partial` is met by ordinary meshes. -/
example : ∀ el1 ∈ lines1, ∀ el ∈ lines2, ∀ m, Translated [some 2, some 1, some 5, none] el m → elementHash el1 = elementHash m → m.Perm el1 := by
  intro el1 h1 el h2 m hm hh
  have hc : ∀ el ∈ lines2, m.length = el.length → m = [2, 1] ∨ m = [1, 5] ∨ ¬ Translated [some 2, some 1, some 5, none] el m := by
    intro el hel hl
    simp only [lines2, List.mem_cons, List.mem_nil_iff, or_false] at hel
    rcases hel with rfl | rfl | rfl
    · by_cases ht : Translated [some 2, some 1, some 5, none] [0, 1] m
      · left
        exact translated_unique _ _ _ _ ht ⟨rfl, fun i p hp => by
          match i with
          | 0 => simp at hp; subst hp; exact ⟨2, rfl, rfl⟩
          | 1 => simp at hp; subst hp; exact ⟨1, rfl, rfl⟩
          | _ + 2 => simp at hp⟩
      · exact .inr (.inr ht)
    · by_cases ht : Translated [some 2, some 1, some 5, none] [1, 2] m
      · right; left
        exact translated_unique _ _ _ _ ht ⟨rfl, fun i p hp => by
          match i with
          | 0 => simp at hp; subst hp; exact ⟨1, rfl, rfl⟩
          | 1 => simp at hp; subst hp; exact ⟨5, rfl, rfl⟩
          | _ + 2 => simp at hp⟩
      · exact .inr (.inr ht)
    · right; right
      intro ht
      obtain ⟨q, hq, _⟩ := ht.2 1 3 rfl
      simp at hq
  rcases hc el h2 hm.1 with rfl | rfl | hno
  · revert hh h1
    revert el1
    decide +kernel
  · revert hh h1
    revert el1
    decide +kernel
  · exact absurd hm hno

end BuilderEx

open BuilderEx

/-- What is missing in `C80_build_partial`: of a rectilinear coordset the axes are read as if they listed points.  Point 2
    of the grid is at (20, 0); in the new mesh it is at (20, 2). -/
theorem C80_rectilinear_false : flat ((buildAll [[0, 2]]).execute MeshEx.arith rect (chars! "c") (chars! "t") (chars! "line"))
    [chars! "x", chars! "y"] = .ok ([0, 1], [[0, 20], [0, 2]]) ∧
    ∃ xs ys : List Int, (do
      let ex ← toExplicit MeshEx.arith .rectilinear rect
      let v ← ex.get (chars! "values")
      let x ← leafDoubles MeshEx.arith (← v.get (chars! "x"))
      let y ← leafDoubles MeshEx.arith (← v.get (chars! "y"))
      Res.ok (x, y)) = .ok (xs, ys) ∧ xs[2]? = some 20 ∧ ys[2]? = some 0 :=
  ⟨by decide +kernel, [0, 10, 20, 0, 10, 20, 0, 10, 20], [0, 0, 0, 1, 1, 1, 2, 2, 2], by decide +kernel, by decide +kernel, by decide +kernel⟩

/-- A uniform coordset lists no values at all: an error. -/
theorem C80_uniform_false : ∃ cset : BNode Int, (∃ g, Uniform MeshEx.arith cset g ∧ g.length = 2) ∧
    flat ((buildAll [[0, 1]]).execute MeshEx.arith cset (chars! "c") (chars! "t") (chars! "line")) [chars! "x", chars! "y"] = .error :=
  ⟨MeshEx.uni, ⟨MeshEx.grid, MeshEx.uni_uniform, rfl⟩, by decide +kernel⟩

/-- What is missing in `C81_search_partial`: lines 39508-2864384 and 39508-2878266 have the same 64 bit hash, so an edge is
    reported to be in a mesh that does not have it. -/
theorem C81_collision_false : ∃ (els1 els2 : List (List Nat)) (r : List (Option Nat)),
    Cells (lineTopo els1) (lineElems els1) els1 ∧ Cells (lineTopo els2) (lineElems els2) els2 ∧
    els2 = [[0, 1]] ∧ Translated r [0, 1] [39508, 2878266] ∧ ¬ OneOf els1 [39508, 2878266] ∧
    search MeshEx.arith (lineTopo els1) (lineTopo els2) (stored r) = .ok [1] :=
  ⟨[[39508, 2864384]], [[0, 1]], [some 39508, some 2878266], lineTopo_cells _ (by decide +kernel) (by decide +kernel),
    lineTopo_cells _ (by decide +kernel) (by decide +kernel), rfl, ⟨rfl, fun i p hp => by
      match i with
      | 0 => simp at hp; subst hp; exact ⟨39508, rfl, rfl⟩
      | 1 => simp at hp; subst hp; exact ⟨2878266, rfl, rfl⟩
      | _ + 2 => simp at hp⟩, by
      rintro ⟨el, hel, hp⟩
      simp at hel; subst hel
      have := hp.subset (show 2878266 ∈ [39508, 2878266] by simp)
      simp at this, by decide +kernel⟩

end Conduit.Mesh
