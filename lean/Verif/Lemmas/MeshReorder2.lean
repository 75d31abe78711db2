import Verif.Lemmas.MeshReorder
import Verif.Lemmas.MeshMain
/-
The result of `reorder`.
-/
namespace Conduit.Mesh
variable {F : Type}

theorem shapeInit_plain (s : Str) (h1 : s ≠ chars! "polyhedral") (h2 : s ≠ chars! "mixed") :
    ∃ sh, shapeInit s = .ok sh ∧ sh.isPolyhedral = false := by
  unfold shapeInit
  split
  · rename_i h
    have h : s ∈ topoShapes := by simpa using h
    simp only [topoShapes, List.mem_cons, List.not_mem_nil, or_false] at h
    rcases h with h | h | h | h | h | h | h | h | h | h | h <;> subst h <;>
      first | exact absurd rfl h1 | exact absurd rfl h2 | exact ⟨_, rfl, rfl⟩
  · exact ⟨_, rfl, rfl⟩

/-- The arrays of a topology give its elements. -/
theorem cells_of {topo : BNode F} {els : List (List Nat)} {ot : IntTy} (A : Arith F) (h : HasElems topo els ot) :
    ∃ e tc conn ts sizes offs, topo.get (chars! "elements") = .ok e ∧
      e.get (chars! "connectivity") = .ok (.ints tc conn) ∧ e.get (chars! "sizes") = .ok (.ints ts sizes) ∧
      e.get (chars! "offsets") = .ok (.ints ot offs) ∧
      (∀ (c : Nat) el, els[c]? = some el → CellAt (conn.map int64.cast) (sizes.map int64.cast) (offs.map int64.cast) c el ∧
        ts.Holds el.length ∧ Idx el.length ∧ ∀ p ∈ el, tc.Holds p ∧ Idx p) := by
  obtain ⟨e, tc, conn, ts, sizes, offs, h1, h2, h3, h4, _, _, h7⟩ := h
  refine ⟨e, tc, conn, ts, sizes, offs, h1, h2, h3, h4, fun c el hc => ?_⟩
  obtain ⟨a1, a2, a3, o, b1, b2, b3, b4⟩ := h7 c el hc
  refine ⟨⟨?_, o, ?_, fun i p hp => ?_⟩, a2, a3, fun p hp => ?_⟩
  · exact pick_nat _ _ _ (by rw [List.getElem?_map, a1, Option.map_some, holds_cast_eq (idx_holds a3)])
  · exact pick_nat _ _ _ (by rw [List.getElem?_map, b1, Option.map_some, holds_cast_eq (idx_holds b3)])
  · obtain ⟨c1, _, c3⟩ := b4 i p hp
    have : ((o : Int) + (i : Int)) = ((o + i : Nat) : Int) := by omega
    rw [this]
    exact pick_nat _ _ _ (by rw [List.getElem?_map, c1, Option.map_some, holds_cast_eq (idx_holds c3)])
  · obtain ⟨i, hi, rfl⟩ := List.getElem_of_mem hp
    obtain ⟨_, c2, c3⟩ := b4 i el[i] (List.getElem?_eq_getElem hi)
    exact ⟨c2, c3⟩

theorem flatten_get (l : List (List Nat)) (j i : Nat) (e : List Nat) (v : Nat) (hj : l[j]? = some e) (hi : e[i]? = some v) :
    l.flatten[(l.take j).flatten.length + i]? = some v := by
  induction l generalizing j with
  | nil => simp at hj
  | cons a l ih =>
    cases j with
    | zero =>
      simp at hj; subst hj
      simp only [List.take_zero, List.flatten_nil, List.length_nil, Nat.zero_add, List.flatten_cons]
      rw [List.getElem?_append_left (List.getElem?_eq_some_iff.1 hi).1]; exact hi
    | succ j =>
      simp only [List.take_succ_cons, List.flatten_cons, List.length_append]
      rw [List.getElem?_append_right (by omega)]
      have := ih j (by simpa using hj)
      rw [← this]; congr 1; omega

/-- What `reorder` is given, apart from the fields. -/
structure Input (A : Arith F) (topo coordset vals : BNode F) (els : List (List Nat)) (ot : IntTy) (npts : Nat) (order : List Nat) :
    Prop where
  type : topo.get (chars! "type") = .ok (.str (chars! "unstructured"))
  shape : ∃ e s, topo.get (chars! "elements") = .ok e ∧ e.get (chars! "shape") = .ok (.str s) ∧
    s ≠ chars! "polyhedral" ∧ s ≠ chars! "mixed"
  elems : HasElems topo els ot
  length : coordsetLength A coordset = .ok (npts : Int)
  explicit : ∃ ex, coordsetToExplicit A coordset = .ok ex ∧ ex.get (chars! "values") = .ok vals
  table : Table vals npts
  points : ∀ el ∈ els, ∀ p ∈ el, p < npts
  inRange : ∀ c ∈ order, c < els.length
  fit : ∀ j, j < order.length → ot.Holds (((picked els order).take j).flatten.length : Nat) ∧
    Idx ((picked els order).take j).flatten.length

/-- The fields of a mesh, of which those on topology `tname` have values for each element or point. -/
def FieldsOk (fs : List (Str × BNode F)) (tname : Str) (nels npts : Nat) : Prop :=
  ∀ f ∈ fs, ∃ a t v, FieldOf f.2 a t v ∧ (t = tname → Table v (if a = chars! "element" then nels else npts))

/-- The fields of the result. -/
def FieldsMatch (fs fs' : List (Str × BNode F)) (tname tname' : Str) (order pts : List Nat) : Prop :=
  (∀ f ∈ fs, ∀ a v, FieldOf f.2 a tname v → ∃ f' ∈ fs', f'.1 = f.1 ∧ ∃ v', FieldOf f'.2 a tname' v' ∧
    Sliced v (if a = chars! "element" then order else pts) v') ∧
  ∀ f' ∈ fs', ∃ f ∈ fs, f.1 = f'.1 ∧ f.2.get (chars! "topology") = .ok (.str tname)

theorem fieldsOf_ok (fs : List (Str × BNode F)) (tname : Str)
    (h : ∀ f ∈ fs, ∃ t, f.2.get (chars! "topology") = .ok (.str t)) :
    ∃ l, fieldsOf (.obj fs) tname = .ok l ∧ ∀ f, f ∈ l ↔ f ∈ fs ∧ f.2.get (chars! "topology") = .ok (.str tname) := by
  have key : ∃ l, fs.mapM (fun f : Str × BNode F => do
      let t ← (← f.2.get (chars! "topology")).asString
      Res.ok (f, t)) = .ok l ∧ ∀ f, f ∈ (l.filter fun p => p.2 == tname).map (·.1) ↔
        f ∈ fs ∧ f.2.get (chars! "topology") = .ok (.str tname) := by
    induction fs with
    | nil => exact ⟨[], rfl, by simp⟩
    | cons f fs ih =>
      obtain ⟨l, e, hl⟩ := ih (fun f hf => h f (by simp [hf]))
      obtain ⟨t, ht⟩ := h f (by simp)
      refine ⟨(f, t) :: l, ?_, fun g => ?_⟩
      · rw [List.mapM_cons, ht, Res.bind_ok, show (BNode.str t : BNode F).asString = .ok t from rfl, Res.bind_ok,
          Res.bind_ok, e, Res.bind_ok]; rfl
      · by_cases hq : t = tname
        · subst hq
          simp only [List.filter_cons, beq_self_eq_true, if_true, List.map_cons, List.mem_cons, hl]
          constructor
          · rintro (rfl | ⟨h1, h2⟩)
            · exact ⟨.inl rfl, ht⟩
            · exact ⟨.inr h1, h2⟩
          · rintro ⟨rfl | h1, h2⟩
            · exact .inl rfl
            · exact .inr ⟨h1, h2⟩
        · simp only [List.filter_cons, beq_eq_false_iff_ne.2 hq, List.mem_cons, hl]
          simp only [Bool.false_eq_true, if_false, hl]
          constructor
          · rintro ⟨h1, h2⟩; exact ⟨.inr h1, h2⟩
          · rintro ⟨rfl | h1, h2⟩
            · rw [ht] at h2; cases h2; exact absurd rfl hq
            · exact ⟨h1, h2⟩
  obtain ⟨l, e, hl⟩ := key
  refine ⟨_, ?_, hl⟩
  unfold fieldsOf
  rw [show (BNode.obj fs).kids = fs from rfl, e, Res.bind_ok]

theorem reorderField_ok (order pts : List Nat) (tname' : Str) (f : Str × BNode F) (a t : Str) (v : BNode F)
    (hf : FieldOf f.2 a t v) {n : Nat} (hv : Table v n)
    (hb : ∀ i ∈ (if a = chars! "element" then order else pts), i < n) :
    ∃ f', reorderField (order.map (fun i : Nat => (i : Int))) (pts.map (fun i : Nat => (i : Int))) tname' f = .ok f' ∧
      f'.1 = f.1 ∧ ∃ v', FieldOf f'.2 a tname' v' ∧ Sliced v (if a = chars! "element" then order else pts) v' := by
  obtain ⟨v', e, hs⟩ := sliceField_ok v n _ hv hb
  refine ⟨(f.1, .obj [(chars! "association", .str a), (chars! "topology", .str tname'), (chars! "values", v')]), ?_, rfl,
    v', ⟨rfl, rfl, rfl⟩, hs⟩
  unfold reorderField
  rw [hf.association, Res.bind_ok]
  simp only [BNode.asString, Res.bind_ok, hf.values]
  have : (if a = chars! "element" then order.map (fun i : Nat => (i : Int)) else pts.map (fun i : Nat => (i : Int))) =
      (if a = chars! "element" then order else pts).map (fun i : Nat => (i : Int)) := by split <;> rfl
  rw [this, e]; rfl

theorem reorder_ok (A : Arith F) (topo coordset vals : BNode F) (els : List (List Nat)) (ot : IntTy) (npts : Nat)
    (order : List Nat) (h : Input A topo coordset vals els ot npts order) (fs : List (Str × BNode F)) (tname tname' cname' : Str)
    (hf : FieldsOk fs tname els.length npts) :
    ∃ r, reorder A topo tname coordset (.obj fs) (order.map (fun c : Nat => (c : Int))) tname' cname' = .ok (some r) ∧
      HasElems r.topo (renumbered (firstUses (picked els order)) (picked els order)) ot ∧
      r.topo.get (chars! "type") = .ok (.str (chars! "unstructured")) ∧
      r.topo.get (chars! "coordset") = .ok (.str cname') ∧
      (∀ s, LeafAt topo (chars! "elements") (chars! "shape") s → LeafAt r.topo (chars! "elements") (chars! "shape") s) ∧
      r.coordset.get (chars! "type") = .ok (.str (chars! "explicit")) ∧
      (∃ vals', r.coordset.get (chars! "values") = .ok vals' ∧ Sliced vals (firstUses (picked els order)) vals') ∧
      FieldsMatch fs r.fields.kids tname tname' order (firstUses (picked els order)) ∧
      r.old2new = (List.range npts).map fun id => if id ∈ firstUses (picked els order) then
        ((firstUses (picked els order)).idxOf id : Int) else -1 := by
  obtain ⟨e, tc, conn, ts, sizes, offs, h1, h2, h3, h4, hcell⟩ := cells_of A h.elems
  obtain ⟨e', s, g1, g2, g3, g4⟩ := h.shape
  rw [h1] at g1; cases g1
  obtain ⟨sh, k1, k2⟩ := shapeInit_plain s g3 g4
  obtain ⟨ex, x1, x2⟩ := h.explicit
  have hget : ∀ c ∈ order, els[c]? = some (els.getD c []) := by
    intro c hc
    have := h.inRange c hc
    rw [List.getD_eq_getElem?_getD, List.getElem?_eq_getElem this]; rfl
  have hpk : ∀ el ∈ picked els order, el ∈ els := by
    intro el hel
    simp only [picked, List.mem_map] at hel
    obtain ⟨c, hc, rfl⟩ := hel
    exact List.mem_of_getElem? (hget c hc)
  obtain ⟨s', v1, v2⟩ := visitAll_ok (npts := npts) (conn := conn.map int64.cast) (sizes := sizes.map int64.cast)
    (offs := offs.map int64.cast) (els := els) order 0 [] _ (seen_start npts)
    (fun c hc => ⟨(hcell c _ (hget c hc)).1, h.points _ (List.mem_of_getElem? (hget c hc))⟩)
  rw [List.nil_append] at v2
  have hpts : (picked els order).flatten.eraseDups = firstUses (picked els order) := rfl
  have hmem : ∀ p, p ∈ firstUses (picked els order) ↔ ∃ el ∈ picked els order, p ∈ el := by
    intro p; unfold firstUses; rw [List.mem_eraseDups, List.mem_flatten]
  have hlt : ∀ p ∈ firstUses (picked els order), p < npts := by
    intro p hp
    obtain ⟨el, he, hp⟩ := (hmem p).1 hp
    exact h.points el (hpk el he) p hp
  have hheld : ∀ p ∈ firstUses (picked els order), tc.Holds p ∧ Idx p := by
    intro p hp
    obtain ⟨el, he, hp⟩ := (hmem p).1 hp
    obtain ⟨c, hc⟩ := List.getElem?_of_mem (hpk el he)
    exact (hcell c el hc).2.2.2 p hp
  have hnew : ∀ p ∈ firstUses (picked els order), tc.Holds ((firstUses (picked els order)).idxOf p : Nat) ∧
      Idx ((firstUses (picked els order)).idxOf p) := by
    intro p hp
    obtain ⟨q, hq, hle⟩ := idxOf_le_mem (eraseDups_nodup _) hp
    obtain ⟨a1, a2⟩ := hheld q hq
    exact ⟨holds_le a1 (by omega) (by simpa [firstUses] using hle), Nat.lt_of_le_of_lt (by simpa [firstUses] using hle) a2⟩
  obtain ⟨vals', w1, w2⟩ := sliceField_ok vals npts (firstUses (picked els order)) h.table hlt
  obtain ⟨l, f1, f2⟩ := fieldsOf_ok fs tname (fun f hf' => by
    obtain ⟨a, t, v, hF, _⟩ := hf f hf'
    exact ⟨t, hF.topology⟩)
  obtain ⟨l', m1, m2⟩ := mapM_res (reorderField (order.map (fun i : Nat => (i : Int)))
      ((firstUses (picked els order)).map (fun i : Nat => (i : Int))) tname')
    (fun f f' => f'.1 = f.1 ∧ ∃ a v v', FieldOf f.2 a tname v ∧ FieldOf f'.2 a tname' v' ∧
      Sliced v (if a = chars! "element" then order else firstUses (picked els order)) v') l (by
    intro f hfl
    obtain ⟨hfs, ht⟩ := (f2 f).1 hfl
    obtain ⟨a, t, v, hF, hT⟩ := hf f hfs
    have : t = tname := by
      have := hF.topology
      rw [ht] at this; cases this; rfl
    subst this
    obtain ⟨f', e1, e2, v', e3, e4⟩ := reorderField_ok order (firstUses (picked els order)) tname' f a t v hF (hT rfl) (by
      intro i hi
      by_cases ha : a = chars! "element"
      · rw [if_pos ha] at hi ⊢; exact h.inRange i hi
      · rw [if_neg ha] at hi ⊢; exact hlt i hi)
    exact ⟨f', e1, e2, a, v, v', hF, e3, e4⟩)
  let topo' : BNode F := .obj [(chars! "type", .str (chars! "unstructured")), (chars! "coordset", .str cname'),
    (chars! "elements", .obj [(chars! "shape", .str s), (chars! "connectivity", toTypeOf A (.ints tc conn) s'.conn),
      (chars! "sizes", toTypeOf A (.ints ts sizes) ((picked els order).map (fun e => (e.length : Int)))),
      (chars! "offsets", toTypeOf A (.ints ot offs) ((List.range order.length).map fun j =>
        ((0 + ((picked els order).take j).flatten.length : Nat) : Int)))])]
  refine ⟨⟨topo', .obj [(chars! "type", .str (chars! "explicit")), (chars! "values", vals')], .obj l', s'.old2new⟩,
    ?_, ?_, rfl, rfl, ?_, rfl, ⟨vals', rfl, w2⟩, ⟨?_, ?_⟩, ?_⟩
  · unfold reorder shapeOfTopo
    simp only [h1, g2, h2, h3, h4, h.type, h.length, BNode.asString, Res.bind_ok, k1, leafInts, alloc_nat, x1, f1]
    rw [if_pos ⟨trivial, k2⟩]
    have v1' := v1
    rw [show ((0 : Nat) : Int) = 0 from rfl] at v1'
    rw [v1', Res.bind_ok]
    simp only
    have hv : valuesOrEmpty ex = vals := by simp [valuesOrEmpty, x2]
    rw [hv, v2.points, hpts, w1, Res.bind_ok, m1, Res.bind_ok]
  · refine ⟨_, tc, _, ts, _, _, rfl, rfl, rfl, rfl, by simp [renumbered, picked], by simp [renumbered, picked], ?_⟩
    intro c el hc
    simp only [renumbered, List.getElem?_map] at hc
    cases hp : (picked els order)[c]? with
    | none => simp [hp] at hc
    | some old =>
      simp only [hp, Option.map_some, Option.some.injEq] at hc
      subst hc
      have hold := hpk old (List.mem_of_getElem? hp)
      obtain ⟨c0, hc0⟩ := List.getElem?_of_mem hold
      obtain ⟨_, b1, b2, _⟩ := hcell c0 old hc0
      have hco : c < order.length := by
        have := (List.getElem?_eq_some_iff.1 hp).1
        simpa [picked] using this
      obtain ⟨o1, o2⟩ := h.fit c hco
      refine ⟨?_, by simpa using b1, by simpa using b2, ((picked els order).take c).flatten.length, ?_, o1, o2, ?_⟩
      · rw [List.getElem?_map, List.getElem?_map, hp]
        simp [holds_cast_eq b1]
      · rw [List.getElem?_map, List.getElem?_map, List.getElem?_range hco]
        simp only [Option.map_some, Nat.zero_add]
        rw [holds_cast_eq o1]
      · intro i p hip
        rw [List.getElem?_map] at hip
        cases hq : old[i]? with
        | none => simp [hq] at hip
        | some q =>
          simp only [hq, Option.map_some, Option.some.injEq] at hip
          subst hip
          have hqm : q ∈ firstUses (picked els order) :=
            (hmem q).2 ⟨old, List.mem_of_getElem? hp, List.mem_of_getElem? hq⟩
          obtain ⟨n1, n2⟩ := hnew q hqm
          refine ⟨?_, n1, n2⟩
          rw [List.getElem?_map, v2.conn, List.getElem?_map, flatten_get _ _ _ _ _ hp hq]
          simp only [Option.map_some, hpts]
          rw [holds_cast_eq n1]
  · rintro s0 ⟨e0, y1, y2⟩
    rw [h1] at y1; cases y1
    rw [g2] at y2; cases y2
    exact ⟨_, rfl, rfl⟩
  · intro f hfm a v hF
    have hl : f ∈ l := (f2 f).2 ⟨hfm, hF.topology⟩
    obtain ⟨i, hi⟩ := List.getElem?_of_mem hl
    have hlen := m2.length_eq
    have hi' : i < l'.length := by rw [← hlen]; exact (List.getElem?_eq_some_iff.1 hi).1
    obtain ⟨e1, a', v0, v', e2, e3, e4⟩ := forall2_get m2 i f l'[i] hi (List.getElem?_eq_getElem hi')
    have ha := hF.association
    rw [e2.association] at ha; cases ha
    have hv := hF.values
    rw [e2.values] at hv; cases hv
    exact ⟨l'[i], List.getElem_mem hi', e1, v', e3, e4⟩
  · intro f' hf'
    obtain ⟨i, hi⟩ := List.getElem?_of_mem hf'
    have hlen := m2.length_eq
    have hi' : i < l.length := by rw [hlen]; exact (List.getElem?_eq_some_iff.1 hi).1
    obtain ⟨e1, _⟩ := forall2_get m2 i l[i] f' (List.getElem?_eq_getElem hi') hi
    obtain ⟨q1, q2⟩ := (f2 l[i]).1 (List.getElem_mem hi')
    exact ⟨l[i], q1, e1.symm, q2⟩
  · rw [v2.old2new]
    apply List.map_congr_left
    intro id _
    simp only [firstUses, List.mem_eraseDups]

end Conduit.Mesh
