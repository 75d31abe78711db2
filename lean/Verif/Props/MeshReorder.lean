import Verif.Lemmas.MeshReorder2
import Verif.Lemmas.MeshRead
import Verif.Props.Mesh
/-
C78: `topology::unstructured::reorder` keeps the mesh.
-/
namespace Conduit.Mesh
variable {F : Type}

theorem sliced_row {v v' : BNode F} {ids : List Nat} (h : Sliced v ids v') (k id : Nat)
    (hk : ids[k]? = some id) : rowAt v' k = rowAt v id := by
  have leafRow : ∀ (v : BNode F) (x : Int ⊕ F) (i : Nat), elemAt v i = some x → rowAt v i = [([], some x)] := by
    intro v x i hx
    cases v with
    | obj ks => simp [elemAt] at hx
    | _ => simp [rowAt, hx]
  rcases h with ⟨_, _, h⟩ | ⟨ks, ks', rfl, rfl, hn, h⟩
  · obtain ⟨x, h1, h2⟩ := h k id hk
    rw [leafRow _ _ _ h1, leafRow _ _ _ h2]
  · simp only [rowAt]
    apply List.ext_getElem?
    intro i
    have hlen : ks'.length = ks.length := by simpa using congrArg List.length hn
    rw [List.getElem?_map, List.getElem?_map]
    by_cases hi : i < ks.length
    · have e1 : ks[i]? = some ks[i] := List.getElem?_eq_getElem hi
      have e2 : ks'[i]? = some ks'[i] := List.getElem?_eq_getElem (by omega)
      obtain ⟨_, _, h3⟩ := h i _ _ e1 e2
      obtain ⟨x, a1, a2⟩ := h3 k id hk
      have hname : ks'[i].1 = ks[i].1 := by
        have := congrArg (fun l => l[i]?) hn
        simpa [e1, e2] using this
      rw [e1, e2]
      simp [a1, a2, hname]
    · rw [List.getElem?_eq_none (by omega), List.getElem?_eq_none (by omega)]; rfl

theorem sameElements_of {els : List (List Nat)} {order : List Nat} {vals topo' vals' : BNode F} {ot : IntTy}
    {npts : Nat} (hord : ∀ c ∈ order, c < els.length) (hpt : ∀ el ∈ els, ∀ p ∈ el, p < npts)
    (h1 : HasElems topo' (renumbered (firstUses (picked els order)) (picked els order)) ot)
    (h2 : Sliced vals (firstUses (picked els order)) vals') :
    SameElements els order vals topo' vals' ot ((List.range npts).map fun id =>
      if id ∈ firstUses (picked els order) then ((firstUses (picked els order)).idxOf id : Int) else -1) := by
  have hmem : ∀ p, p ∈ firstUses (picked els order) ↔ ∃ el ∈ picked els order, p ∈ el := by
    intro p; unfold firstUses; rw [List.mem_eraseDups, List.mem_flatten]
  have hget : ∀ c ∈ order, els[c]? = some (els.getD c []) := by
    intro c hc
    have := hord c hc
    rw [List.getD_eq_getElem?_getD, List.getElem?_eq_getElem this]; rfl
  have hnd : (firstUses (picked els order)).Nodup := eraseDups_nodup _
  generalize hP : firstUses (picked els order) = pts at *
  have hpk : ∀ p ∈ pts, ∃ (j : Nat) (c : Nat) (el : List Nat), order[j]? = some c ∧ els[c]? = some el ∧ p ∈ el := by
    intro p hp
    obtain ⟨el, he, hp⟩ := (hmem p).1 hp
    simp only [picked, List.mem_map] at he
    obtain ⟨c, hc, rfl⟩ := he
    obtain ⟨j, hj⟩ := List.getElem?_of_mem hc
    exact ⟨j, c, _, hj, hget c hc, hp⟩
  have hlt : ∀ p ∈ pts, p < npts := by
    intro p hp
    obtain ⟨j, c, el, _, h, hp⟩ := hpk p hp
    exact hpt el (List.mem_of_getElem? h) p hp
  have ho : ∀ p ∈ pts, ((List.range npts).map fun id =>
      if id ∈ pts then (pts.idxOf id : Int) else -1)[p]? = some ((pts.idxOf p : Nat) : Int) := by
    intro p hp
    rw [List.getElem?_map, List.getElem?_range (hlt p hp)]
    simp [hp]
  have hinv : ∀ (p : Nat) (z : Int), ((List.range npts).map fun id =>
      if id ∈ pts then (pts.idxOf id : Int) else -1)[p]? = some z → z ≠ -1 → p ∈ pts ∧ z = (pts.idxOf p : Nat) := by
    intro p z hz hne
    rw [List.getElem?_map] at hz
    cases hr : (List.range npts)[p]? with
    | none => simp [hr] at hz
    | some id =>
      have : id = p := by
        have := List.getElem?_eq_some_iff.1 hr
        obtain ⟨_, h⟩ := this
        simpa using h.symm
      subst this
      rw [hr] at hz
      simp only [Option.map_some, Option.some.injEq] at hz
      by_cases hm : id ∈ pts
      · rw [if_pos hm] at hz; exact ⟨hm, hz.symm⟩
      · rw [if_neg hm] at hz; exact absurd hz.symm hne
  refine ⟨_, h1, by simp [renumbered, picked], ?_, pts.length, ?_, ?_, ?_, ?_⟩
  · intro j c el hj hc
    have hpj : (picked els order)[j]? = some el := by
      rw [picked, List.getElem?_map, hj]
      simp [List.getD_eq_getElem?_getD, hc]
    refine ⟨el.map (pts.idxOf ·), by simp [renumbered, hpj], by simp, fun i p hip => ?_⟩
    have hp : p ∈ pts := (hmem p).2 ⟨el, List.mem_of_getElem? hpj, List.mem_of_getElem? hip⟩
    refine ⟨pts.idxOf p, by simp [hip], ?_, ho p hp⟩
    refine sliced_row h2 _ _ ?_
    rw [List.getElem?_eq_getElem (List.idxOf_lt_length_iff.2 hp), List.getElem_idxOf]
  · intro j el' hj q hq
    simp only [renumbered, List.getElem?_map] at hj
    cases hp : (picked els order)[j]? with
    | none => simp [hp] at hj
    | some el =>
      simp only [hp, Option.map_some, Option.some.injEq] at hj
      subst hj
      obtain ⟨p, hp', rfl⟩ := List.mem_map.1 hq
      exact List.idxOf_lt_length_iff.2 ((hmem p).2 ⟨el, List.mem_of_getElem? hp, hp'⟩)
  · intro q hq
    obtain ⟨el, he, hp⟩ := (hmem pts[q]).1 (List.getElem_mem hq)
    refine ⟨el.map (pts.idxOf ·), List.mem_map_of_mem he, List.mem_map.2 ⟨pts[q], hp, hnd.idxOf_getElem q hq⟩⟩
  · intro p p' q hp hp'
    obtain ⟨m1, e1⟩ := hinv p _ hp (by omega)
    obtain ⟨m2, e2⟩ := hinv p' _ hp' (by omega)
    have : pts.idxOf p = pts.idxOf p' := by omega
    exact (List.idxOf_inj m1).1 this
  · intro p z hz hne
    exact hpk p (hinv p z hz hne).1

/-- The topology `reorder` is given: unstructured, neither polyhedral nor mixed, all of whose points are among the
    `npts` of the coordset; the new offsets fit their type. -/
structure Reorderable (topo : BNode F) (els : List (List Nat)) (ot : IntTy) (npts : Nat) (order : List Nat) : Prop where
  type : topo.get (chars! "type") = .ok (.str (chars! "unstructured"))
  shape : ∃ s, LeafAt topo (chars! "elements") (chars! "shape") (.str s) ∧ s ≠ chars! "polyhedral" ∧ s ≠ chars! "mixed"
  elems : HasElems topo els ot
  points : ∀ el ∈ els, ∀ p ∈ el, p < npts
  inRange : ∀ c ∈ order, c < els.length
  fit : ∀ j, j < order.length → ot.Holds (((picked els order).take j).flatten.length : Nat) ∧
    Idx ((picked els order).take j).flatten.length

/-- The conclusion: the elements in the new order with their points where they were, and the fields that belong to the
    topology with the value of each element and point. -/
def ReorderedAs (els : List (List Nat)) (order : List Nat) (vals : BNode F) (ot : IntTy) (fs : List (Str × BNode F))
    (tname tname' cname' : Str) (r : Reordered F) : Prop :=
  r.topo.get (chars! "type") = .ok (.str (chars! "unstructured")) ∧
  r.topo.get (chars! "coordset") = .ok (.str cname') ∧
  r.coordset.get (chars! "type") = .ok (.str (chars! "explicit")) ∧
  (∃ vals', r.coordset.get (chars! "values") = .ok vals' ∧ SameElements els order vals r.topo vals' ot r.old2new) ∧
  (∀ f' ∈ r.fields.kids, ∃ f ∈ fs, f.1 = f'.1 ∧ f.2.get (chars! "topology") = .ok (.str tname)) ∧
  ∀ f ∈ fs, ∀ a v, FieldOf f.2 a tname v → ∃ f' ∈ r.fields.kids, f'.1 = f.1 ∧ ∃ v', FieldOf f'.2 a tname' v' ∧
    if a = chars! "element" then ∀ (j c : Nat), order[j]? = some c → rowAt v' j = rowAt v c
    else ∀ (p q : Nat), r.old2new[p]? = some (q : Int) → rowAt v' q = rowAt v p

theorem reorder_main (A : Arith F) (topo coordset vals : BNode F) (els : List (List Nat)) (ot : IntTy) (npts : Nat)
    (order : List Nat) (h : Reorderable topo els ot npts order) (hl : coordsetLength A coordset = .ok (npts : Int))
    (hx : ∃ ex, coordsetToExplicit A coordset = .ok ex ∧ ex.get (chars! "values") = .ok vals) (hT : Table vals npts)
    (fs : List (Str × BNode F)) (tname tname' cname' : Str) (hf : FieldsOk fs tname els.length npts) :
    ∃ r, reorder A topo tname coordset (.obj fs) (order.map (fun c : Nat => (c : Int))) tname' cname' = .ok (some r) ∧
      (∀ s, LeafAt topo (chars! "elements") (chars! "shape") s → LeafAt r.topo (chars! "elements") (chars! "shape") s) ∧
      ReorderedAs els order vals ot fs tname tname' cname' r := by
  obtain ⟨s, ⟨e, s1, s2⟩, s3, s4⟩ := h.shape
  obtain ⟨r, e1, e2, e3, e4, e5, e6, ⟨vals', e7, e8⟩, ⟨e9, e10⟩, e11⟩ := reorder_ok A topo coordset vals els ot npts order
    ⟨h.type, ⟨e, s, s1, s2, s3, s4⟩, h.elems, hl, hx, hT, h.points, h.inRange, h.fit⟩ fs tname tname' cname' hf
  have hS := sameElements_of h.inRange h.points e2 e8
  refine ⟨r, e1, e5, e3, e4, e6, ⟨vals', e7, by rw [e11]; exact hS⟩, e10, ?_⟩
  intro f hfm a v hF
  obtain ⟨f', m1, m2, v', m3, m4⟩ := e9 f hfm a v hF
  refine ⟨f', m1, m2, v', m3, ?_⟩
  split
  · rename_i ha
    rw [if_pos ha] at m4
    exact fun j c hj => sliced_row m4 j c hj
  · rename_i ha
    rw [if_neg ha] at m4
    intro p q hq
    rw [e11, List.getElem?_map] at hq
    cases hr : (List.range npts)[p]? with
    | none => simp [hr] at hq
    | some id =>
      have : id = p := by
        obtain ⟨_, h⟩ := List.getElem?_eq_some_iff.1 hr
        simpa using h.symm
      subst this
      rw [hr] at hq
      simp only [Option.map_some, Option.some.injEq] at hq
      by_cases hm : id ∈ firstUses (picked els order)
      · rw [if_pos hm] at hq
        have hq' : (firstUses (picked els order)).idxOf id = q := by omega
        refine sliced_row m4 q id ?_
        rw [← hq', List.getElem?_eq_getElem (List.idxOf_lt_length_iff.2 hm), List.getElem_idxOf]
      · rw [if_neg hm] at hq; omega

/-- **C78**, explicit coordsets: the elements of the order are there, in that order, each corner where it was; points
    are shared by the same elements as before, unused ones are left out; the fields of the topology follow. -/
theorem C78_explicit_partial (A : Arith F) (topo coordset vals : BNode F) (els : List (List Nat)) (ot : IntTy) (npts : Nat)
    (order : List Nat) (h : Reorderable topo els ot npts order) (names : List Str) (hc : ExplicitAxes coordset names)
    (hne : names ≠ []) (hv : coordset.get (chars! "values") = .ok vals) (hT : Table vals npts)
    (hn : ∀ a ∈ names, ∃ c, vals.get a = .ok c ∧ c.numElements = npts)
    (fs : List (Str × BNode F)) (tname tname' cname' : Str) (hf : FieldsOk fs tname els.length npts) :
    ∃ r, reorder A topo tname coordset (.obj fs) (order.map (fun c : Nat => (c : Int))) tname' cname' = .ok (some r) ∧
      (∀ s, LeafAt topo (chars! "elements") (chars! "shape") s → LeafAt r.topo (chars! "elements") (chars! "shape") s) ∧
      ReorderedAs els order vals ot fs tname tname' cname' r := by
  refine reorder_main A topo coordset vals els ot npts order h ?_ ⟨coordset, ?_, hv⟩ hT fs tname tname' cname' hf
  · have hl : forNames (axisLen A .rectilinear coordset) 0 names = .ok (names.map fun _ => (npts : Int)) := by
      apply forNames_ok _ _ _ _ (by simp)
      intro i a b ha hb
      rw [List.getElem?_map, ha] at hb
      simp only [Option.map_some, Option.some.injEq] at hb
      subst hb
      obtain ⟨c, c1, c2⟩ := hn a (List.mem_of_getElem? ha)
      simp [axisLen, hv, c1, c2]
    unfold coordsetLength
    simp only [hc.type, hc.read, Res.bind_ok, BNode.asString, hl]
    rw [if_neg (by decide), if_neg (by decide)]
    congr 1
    rw [List.getLast?_map, List.getLast?_eq_some_getLast hne]; rfl
  · simp only [coordsetToExplicit, hc.type, Res.bind_ok, BNode.asString]
    rw [if_neg (by decide), if_neg (by decide)]; rfl

theorem table_explicitOf (wide : Bool) (g : List (Axis F)) (hg : g ≠ []) :
    ∃ v, (explicitOf wide g).get (chars! "values") = .ok v ∧ Table v (count (g.map (·.len))) := by
  have hc : columns wide g ≠ [] := by
    intro h
    have := congrArg List.length h
    simp [columns] at this
    exact hg this
  refine ⟨.obj (columns wide g), ?_, ?_⟩
  · unfold explicitOf objKid
    cases hq : columns wide g with
    | nil => exact absurd hq hc
    | cons k ks => rfl
  · cases hq : columns wide g with
    | nil => exact absurd hq hc
    | cons k ks =>
      refine .inr ⟨k, ks, rfl, fun c hcm => ?_⟩
      rw [← hq] at hcm
      obtain ⟨i, hi⟩ := List.getElem?_of_mem hcm
      rw [columns, List.getElem?_mapIdx] at hi
      cases hgi : g[i]? with
      | none => simp [hgi] at hi
      | some a =>
        simp only [hgi, Option.map_some, Option.some.injEq] at hi
        subst hi
        exact .inr ⟨wide, _, rfl, by simp⟩

/-- **C78**, uniform and rectilinear coordsets: the same with the points of the grid, as `to_explicit` lists them
    (C70). -/
theorem C78_grid_partial (A : Arith F) (topo coordset : BNode F) (g : List (Axis F)) (hg : g ≠ []) (els : List (List Nat))
    (ot : IntTy) (order : List Nat) (h : Reorderable topo els ot (count (g.map (·.len))) order)
    (hc : Uniform A coordset g ∨ Rectilinear coordset g)
    (fs : List (Str × BNode F)) (tname tname' cname' : Str) (hf : FieldsOk fs tname els.length (count (g.map (·.len)))) :
    ∃ r ex vals, reorder A topo tname coordset (.obj fs) (order.map (fun c : Nat => (c : Int))) tname' cname' = .ok (some r) ∧
      ex.get (chars! "values") = .ok vals ∧ (Explicit ex g ∨ Explicit ex (mapCoord A.narrow g)) ∧
      ReorderedAs els order vals ot fs tname tname' cname' r := by
  rcases hc with hc | hc
  · have hm := toExplicit_uniform A coordset g hc.read hc.noValues
    obtain ⟨m, h1, h2, h3⟩ := C70_uniform_explicit A coordset g hc
    rw [hm] at h1; cases h1
    obtain ⟨v, hv, hT⟩ := table_explicitOf (widestFloat coordset) (mapCoord (storeF A (widestFloat coordset) true) g)
      (by simpa [mapCoord] using hg)
    rw [mapCoord_lens] at hT
    obtain ⟨r, r1, _, r2⟩ := reorder_main A topo coordset v els ot _ order h (C70_length A coordset g hc hg).1
      ⟨_, by simp only [coordsetToExplicit, hc.type, Res.bind_ok, BNode.asString]; exact hm, hv⟩ hT fs tname tname' cname' hf
    refine ⟨r, _, v, r1, hv, ?_, r2⟩
    by_cases hl : HasLeaf coordset (.f true)
    · exact .inl (h2 hl)
    · exact .inr (h3 hl)
  · have hm := toExplicit_rectilinear A coordset g hc.read
    obtain ⟨m, h1, h2⟩ := C70_rectilinear_explicit A coordset g hc
    rw [hm] at h1; cases h1
    obtain ⟨v, hv, hT⟩ := table_explicitOf (widestFloat coordset) g hg
    have hl : coordsetLength A coordset = .ok (count (g.map (·.len)) : Nat) := by
      have hlens : forNames (axisLen A .rectilinear coordset) 0 (g.map (·.name)) =
          .ok ((g.map (·.len)).map (fun x : Nat => (x : Int))) := by
        apply forNames_ok
        · simp
        · intro i a b ha hb
          rw [List.getElem?_map] at ha
          cases hgi : g[i]? with
          | none => simp [hgi] at ha
          | some x =>
            simp [hgi] at ha hb
            subst ha; subst hb
            obtain ⟨w, l, ⟨c, e1, e2⟩, e3, _⟩ := hc.axis i x hgi
            simp [axisLen, e1, e2, BNode.numElements, e3]
      unfold coordsetLength
      simp only [hc.type, hc.read.names, Res.bind_ok, BNode.asString, hlens, prod_cast]
      rfl
    obtain ⟨r, r1, _, r2⟩ := reorder_main A topo coordset v els ot _ order h hl
      ⟨_, by
        simp only [coordsetToExplicit, hc.type, Res.bind_ok, BNode.asString]
        rw [if_neg (by decide)]; exact hm, hv⟩ hT fs tname tname' cname' hf
    exact ⟨r, _, v, r1, hv, .inl h2, r2⟩

/-! ### a mesh -/

namespace ReorderEx
open MeshEx (arith)

/-- Two triangles and a quad on six of seven points. -/
def topo : BNode Int := .obj [(chars! "type", .str (chars! "unstructured")), (chars! "coordset", .str (chars! "coords")),
  (chars! "elements", .obj [(chars! "shape", .str (chars! "polygonal")),
    (chars! "connectivity", .ints int8 [0, 1, 4, 0, 4, 3, 6, 1, 2, 5, 4]), (chars! "sizes", .ints int8 [3, 3, 4]),
    (chars! "offsets", .ints int8 [0, 3, 7])])]

def els : List (List Nat) := [[0, 1, 4], [0, 4, 3], [1, 2, 5, 4]]

def coords : BNode Int := .obj [(chars! "type", .str (chars! "explicit")),
  (chars! "values", .obj [(chars! "x", .flts true [0, 1, 2, 10, 11, 12, 99]), (chars! "y", .flts false [5, 5, 5, 7, 7, 7, 99])])]

def fields : List (Str × BNode Int) :=
  [(chars! "e", .obj [(chars! "association", .str (chars! "element")), (chars! "topology", .str (chars! "main")),
    (chars! "values", .ints int32 [100, 101, 102])]),
   (chars! "other", .obj [(chars! "association", .str (chars! "element")), (chars! "topology", .str (chars! "t2")),
    (chars! "values", .ints int32 [1])]),
   (chars! "v", .obj [(chars! "association", .str (chars! "vertex")), (chars! "topology", .str (chars! "main")),
    (chars! "values", .flts true [20, 21, 22, 23, 24, 25, 26]), (chars! "units", .str (chars! "K"))])]

theorem topo_elems : HasElems topo els int8 := by
  refine ⟨_, _, _, _, _, _, rfl, rfl, rfl, rfl, rfl, rfl, fun c el hc => ?_⟩
  match c with
  | 0 =>
    have : el = [0, 1, 4] := by simpa [els] using hc.symm
    subst this
    refine ⟨rfl, by decide, by decide, 0, rfl, by decide, by decide, fun i p hi => ?_⟩
    match i with
    | 0 => simp at hi; subst hi; exact ⟨rfl, by decide, by decide⟩
    | 1 => simp at hi; subst hi; exact ⟨rfl, by decide, by decide⟩
    | 2 => simp at hi; subst hi; exact ⟨rfl, by decide, by decide⟩
    | i + 3 => simp at hi
  | 1 =>
    have : el = [0, 4, 3] := by simpa [els] using hc.symm
    subst this
    refine ⟨rfl, by decide, by decide, 3, rfl, by decide, by decide, fun i p hi => ?_⟩
    match i with
    | 0 => simp at hi; subst hi; exact ⟨rfl, by decide, by decide⟩
    | 1 => simp at hi; subst hi; exact ⟨rfl, by decide, by decide⟩
    | 2 => simp at hi; subst hi; exact ⟨rfl, by decide, by decide⟩
    | i + 3 => simp at hi
  | 2 =>
    have : el = [1, 2, 5, 4] := by simpa [els] using hc.symm
    subst this
    refine ⟨rfl, by decide, by decide, 7, rfl, by decide, by decide, fun i p hi => ?_⟩
    match i with
    | 0 => simp at hi; subst hi; exact ⟨rfl, by decide, by decide⟩
    | 1 => simp at hi; subst hi; exact ⟨rfl, by decide, by decide⟩
    | 2 => simp at hi; subst hi; exact ⟨rfl, by decide, by decide⟩
    | 3 => simp at hi; subst hi; exact ⟨rfl, by decide, by decide⟩
    | i + 4 => simp at hi
  | c + 3 => simp [els] at hc

theorem topo_reorderable : Reorderable topo els int8 7 [2, 0] where
  type := rfl
  shape := ⟨_, ⟨_, rfl, rfl⟩, by decide, by decide⟩
  elems := topo_elems
  points := by decide
  inRange := by decide
  fit := by
    intro j hj
    match j with
    | 0 => exact ⟨by decide, by decide⟩
    | 1 => exact ⟨by decide, by decide⟩
    | j + 2 => simp at hj

theorem fields_ok : FieldsOk fields (chars! "main") 3 7 := by
  intro f hf
  simp only [fields, List.mem_cons, List.not_mem_nil, or_false] at hf
  rcases hf with rfl | rfl | rfl
  · exact ⟨_, _, _, ⟨rfl, rfl, rfl⟩, fun _ => .inl (.inl ⟨_, _, rfl, by decide⟩)⟩
  · exact ⟨_, _, _, ⟨rfl, rfl, rfl⟩, fun h => absurd h (by decide)⟩
  · exact ⟨_, _, _, ⟨rfl, rfl, rfl⟩, fun _ => .inl (.inr ⟨_, _, rfl, by decide⟩)⟩

/-- The hypotheses of C78 hold for it. -/
example : ∃ r, reorder arith topo (chars! "main") coords (.obj fields) [2, 0] (chars! "main2") (chars! "c2") = .ok (some r) ∧
    (∀ s, LeafAt topo (chars! "elements") (chars! "shape") s → LeafAt r.topo (chars! "elements") (chars! "shape") s) ∧
    ReorderedAs els [2, 0] (.obj [(chars! "x", .flts true [0, 1, 2, 10, 11, 12, 99]),
      (chars! "y", .flts false [5, 5, 5, 7, 7, 7, 99])]) int8 fields (chars! "main") (chars! "main2") (chars! "c2") r :=
  C78_explicit_partial arith topo coords _ els int8 7 [2, 0] topo_reorderable [chars! "x", chars! "y"]
    ⟨rfl, ⟨_, .head _, fun a => a != chars! "z", by decide⟩, ⟨_, rfl, fun k => by simp [BNode.kids]⟩⟩ (by simp) rfl
    (.inr ⟨_, _, rfl, fun c hc => by
      simp only [List.mem_cons, List.not_mem_nil, or_false] at hc
      rcases hc with rfl | rfl <;> exact .inr ⟨_, _, rfl, by decide⟩⟩)
    (fun a ha => by
      simp only [List.mem_cons, List.not_mem_nil, or_false] at ha
      rcases ha with rfl | rfl <;> exact ⟨_, rfl, rfl⟩)
    fields _ _ _ fields_ok

/-- An array of integers at a path of three names. -/
def intsAt (n : BNode Int) (a b : Str) : Option (List Int) :=
  match (do (← n.get a).get b) with
  | .ok (.ints _ l) => some l
  | _ => none

def fltsAt (n : BNode Int) (a b : Str) : Option (List Int) :=
  match (do (← n.get a).get b) with
  | .ok (.flts _ l) => some l
  | _ => none

/-- What a run of `reorder` gives: connectivity, sizes, offsets, x, the values of two fields, the map of the points. -/
def show' (r : Res (Option (Reordered Int))) : Option (List (Option (List Int)) × List Int) :=
  match r with
  | .ok (some r) => some ([intsAt r.topo (chars! "elements") (chars! "connectivity"),
      intsAt r.topo (chars! "elements") (chars! "sizes"), intsAt r.topo (chars! "elements") (chars! "offsets"),
      fltsAt r.coordset (chars! "values") (chars! "x"), intsAt r.fields (chars! "e") (chars! "values"),
      fltsAt r.fields (chars! "v") (chars! "values")], r.old2new)
  | _ => none

/-- The arrays the code computes. -/
example : show' (reorder arith topo (chars! "main") coords (.obj fields) [2, 0] (chars! "main2") (chars! "c2")) =
    some ([some [0, 1, 2, 3, 4, 0, 3], some [4, 3], some [0, 4], some [1, 2, 12, 11, 0], some [102, 100],
      some [21, 22, 25, 24, 20]], [4, 0, 1, -1, 3, 2, -1]) := by decide +kernel

/-! ### limits -/

/-- Elements with 100 and 2 points whose offsets are of type int8. -/
def long : BNode Int := .obj [(chars! "type", .str (chars! "unstructured")), (chars! "coordset", .str (chars! "coords")),
  (chars! "elements", .obj [(chars! "shape", .str (chars! "polygonal")),
    (chars! "connectivity", .ints int32 ((List.range 60).map (fun i : Nat => (i : Int)) ++ (List.range 70).map (fun i : Nat => (i : Int)) ++ [0, 1, 2])),
    (chars! "sizes", .ints int32 [60, 70, 3]), (chars! "offsets", .ints int8 [0, 60, 127])])]

def line70 : BNode Int := .obj [(chars! "type", .str (chars! "explicit")),
  (chars! "values", .obj [(chars! "x", .flts true ((List.range 70).map (fun i : Nat => (i : Int))))])]

/-- Offsets of type int8: in the new order one of them is 130, which is stored as -126 (the old ones fit). -/
theorem C78_offsets_false :
    ((show' (reorder arith long (chars! "main") line70 (.obj []) [0, 1, 2] (chars! "m") (chars! "c"))).map
      fun r => r.1.getD 2 none) = some (some [0, 60, -126]) := by decide +kernel

/-- A uniform coordset of three points, and lines on it. -/
def uni3 : BNode Int := .obj [(chars! "type", .str (chars! "uniform")), (chars! "dims", .obj [(chars! "i", .ints int32 [3])]),
  (chars! "origin", .obj [(chars! "x", .flts true [10])])]

/-- If the destination is the coordset itself, its type is changed before it is read: a uniform one loses its points. -/
theorem C78_in_place_false : (coordsetLength arith uni3 = .ok 3) ∧
    (match reorderCoordsetInPlace arith uni3 [2, 1, 0] with | .ok .empty => true | _ => false) = true ∧
    (match (do sliceField (valuesOrEmpty (← coordsetToExplicit arith uni3)) [2, 1, 0]) with
      | .ok (.obj [(_, .flts _ l)]) => some l
      | _ => none) = some [12, 11, 10] := by
  refine ⟨by decide +kernel, by decide +kernel, by decide +kernel⟩

/-- A field keeps its association, topology and values and nothing else: units are lost. -/
theorem C78_units_false :
    (match reorder arith topo (chars! "main") coords (.obj fields) [2, 0] (chars! "m") (chars! "c") with
      | .ok (some r) => some (r.fields.kids.map fun f => f.2.hasChild (chars! "units"))
      | _ => none) = some [false, false] ∧ (fields.map fun f => f.2.hasChild (chars! "units")) = [false, false, true] := by
  refine ⟨by decide +kernel, by decide +kernel⟩

/-- A field with values per material only makes it fail. -/
theorem C78_material_false :
    (match reorder arith topo (chars! "main") coords (.obj [(chars! "m", .obj [(chars! "association", .str (chars! "element")),
      (chars! "topology", .str (chars! "main")), (chars! "matset", .str (chars! "mats")),
      (chars! "matset_values", .obj [(chars! "a", .flts true [1, 2, 3])])])]) [2, 0] (chars! "m") (chars! "c") with
      | .error => true
      | _ => false) = true := by decide +kernel

/-- A topology of shape "mixed" is not handled: its entry is read outside of the table of embeddings. -/
theorem C78_mixed_false : shapeInit (chars! "mixed") = .ub := by decide +kernel

/-- An unstructured topology without sizes and offsets, as for any single shape, makes it fail. -/
theorem C78_single_shape_false :
    (match reorder arith (.obj [(chars! "type", .str (chars! "unstructured")), (chars! "coordset", .str (chars! "coords")),
      (chars! "elements", .obj [(chars! "shape", .str (chars! "tri")), (chars! "connectivity", .ints int32 [0, 1, 4])])])
      (chars! "main") coords (.obj []) [0] (chars! "m") (chars! "c") with
      | .error => true
      | _ => false) = true := by decide +kernel

end ReorderEx

end Conduit.Mesh
