import Verif.Lemmas.Combine3
import Verif.Lemmas.MeshIndex5
import Verif.Props.PointMerge
import Verif.Lemmas.TopoMeta2
import Verif.Lemmas.ResMonad
/-
The groups, the fields and the whole.
-/
namespace Conduit.Comb
open Conduit.Mesh Conduit.Part Conduit.Merge
variable {F : Type}

/-! ### groups -/

theorem kids_obj (ks : List (Str × BNode F)) : (BNode.obj ks).kids = ks := rfl

theorem groupCoordsets_ok {o : MOps F} {tname csname : Str} (cs : List (Chunk F)) (hg : ∀ c ∈ cs, Good o tname csname c) (hne : cs ≠ []) :
    groupCoordsets (cs.map (·.mesh)) = [(csname, cs.map (·.cset))] := by
  have hstep : ∀ (l : List (Chunk F)) (acc : List (BNode F)), (∀ c ∈ l, Good o tname csname c) →
      (l.map (·.mesh)).foldl (fun gs m => ((m.getOrEmpty (chars! "coordsets")).kids).foldl (fun gs k => addGroup k.1 k.2 gs) gs) [(csname, acc)]
        = [(csname, acc ++ l.map (·.cset))] := by
    intro l
    induction l with
    | nil => intro acc _; simp
    | cons c l ih =>
      intro acc h
      have hc := h c (by simp)
      rw [List.map_cons, List.foldl_cons, getOrEmpty_ok hc.coordsets]
      rw [kids_obj, List.foldl_cons, List.foldl_nil, addGroup, if_pos rfl, ih _ (fun d hd => h d (by simp [hd]))]
      simp
  obtain ⟨c, l, rfl⟩ := List.exists_cons_of_ne_nil hne
  have hc := hg c (by simp)
  unfold groupCoordsets
  rw [List.map_cons, List.foldl_cons, getOrEmpty_ok hc.coordsets]
  rw [kids_obj, List.foldl_cons, List.foldl_nil, addGroup, hstep l _ (fun d hd => hg d (by simp [hd]))]
  simp

theorem groupTopologies_ok {o : MOps F} {tname csname : Str} (cs : List (Chunk F)) (hg : ∀ c ∈ cs, Good o tname csname c) (hne : cs ≠ []) :
    groupTopologies (cs.map (·.mesh)) = .ok [(tname, cs.map fun c => (c.mesh, c.topo))] := by
  have hstep : ∀ (l : List (Chunk F)) (c0 : Chunk F) (acc : List (BNode F × BNode F)), Good o tname csname c0 → (∀ c ∈ l, Good o tname csname c) →
      (l.map (·.mesh)).foldlM (fun gs m => ((m.getOrEmpty (chars! "topologies")).kids).foldlM (fun gs k => addTopo k.1 m k.2 gs) gs)
        [(tname, (c0.mesh, c0.topo) :: acc)] = .ok [(tname, (c0.mesh, c0.topo) :: (acc ++ l.map fun c => (c.mesh, c.topo)))] := by
    intro l
    induction l with
    | nil => intro c0 acc _ _; simp
    | cons c l ih =>
      intro c0 acc h0 h
      have hc := h c (by simp)
      have e : (((c.mesh).getOrEmpty (chars! "topologies")).kids).foldlM (fun gs k => addTopo k.1 c.mesh k.2 gs) [(tname, (c0.mesh, c0.topo) :: acc)]
          = .ok [(tname, (c0.mesh, c0.topo) :: (acc ++ [(c.mesh, c.topo)]))] := by
        rw [getOrEmpty_ok hc.topologies]
        rw [kids_obj, List.foldlM_cons]
        simp only [List.foldlM_nil, bind_pure]
        rw [addTopo, if_pos rfl]
        simp only
        rw [if_pos ⟨(hasChild_iff_get _ _).2 ⟨_, h0.coordset⟩, (hasChild_iff_get _ _).2 ⟨_, hc.coordset⟩⟩]
        simp only [h0.coordset, hc.coordset, Res.bind_ok, BNode.asString]
        rfl
      rw [List.map_cons, List.foldlM_cons, e, Res.bind_ok, ih c0 _ h0 (fun d hd => h d (by simp [hd]))]
      simp
  obtain ⟨c, l, rfl⟩ := List.exists_cons_of_ne_nil hne
  have hc := hg c (by simp)
  unfold groupTopologies
  rw [List.map_cons, List.foldlM_cons, getOrEmpty_ok hc.topologies]
  rw [kids_obj, List.foldlM_cons]
  simp only [List.foldlM_nil, bind_pure, addTopo, Res.bind_ok]
  show ((l.map (·.mesh)).foldlM _ [(tname, [(c.mesh, c.topo)])]) = _
  rw [hstep l c [] hc (fun d hd => hg d (by simp [hd]))]
  simp

theorem recommended_ok {o : MOps F} {tname csname : Str} (cs : List (Chunk F)) (hg : ∀ c ∈ cs, Good o tname csname c) (hne : cs ≠ []) :
    recommended (cs.map (·.mesh)) tname = .ok (chars! "unstructured") := by
  unfold recommended
  rw [mapM_map']
  have hone : ∀ c ∈ cs, (do
      let t ← (← c.mesh.get (chars! "topologies")).get tname
      let cs ← (← t.get (chars! "coordset")).asString
      let d ← (← c.mesh.get (chars! "coordsets")).get cs
      let ct ← (← d.get (chars! "type")).asString
      let tt ← (← t.get (chars! "type")).asString
      Res.ok (rankIn [chars! "uniform", chars! "rectilinear", chars! "explicit"] ct,
        rankIn [chars! "points", chars! "uniform", chars! "rectilinear", chars! "structured", chars! "unstructured"] tt)) = .ok (2, 4) := by
    intro c hc
    have h := hg c hc
    have g1 : (BNode.obj [(tname, c.topo)]).get tname = .ok c.topo := by simp [BNode.get, BNode.kids]
    have g2 : (BNode.obj [(csname, c.cset)]).get csname = .ok c.cset := by simp [BNode.get, BNode.kids]
    simp only [h.topologies, h.coordsets, h.coordset, h.type, g1, g2, h.points.axes.type, Res.bind_ok, BNode.asString]
    rfl
  rw [Meta.mapM_ok_map _ (fun _ => (2, 4)) cs hone, Res.bind_ok]
  have h4 : ((cs.map fun _ => ((2 : Nat), (4 : Nat))).map (·.2)).foldl max 0 = 4 := by
    obtain ⟨h1, h2, h3⟩ := foldl_max ((cs.map fun _ => ((2 : Nat), (4 : Nat))).map (·.2)) 0
    obtain ⟨c, l, rfl⟩ := List.exists_cons_of_ne_nil hne
    have := h2 4 (by simp)
    rcases h3 with h3 | h3
    · omega
    · obtain ⟨x, hx, e⟩ := List.mem_map.1 h3
      obtain ⟨y, _, rfl⟩ := List.mem_map.1 hx
      rw [← e]
  simp only [h4]
  rfl

/-- What the groups are. -/
structure GInv (done : List (Str × BNode F)) (gs : List (Str × List (BNode F))) : Prop where
  nodup : (gs.map (·.1)).Nodup
  group : ∀ g ∈ gs, g.2 = (done.filter fun e => e.1 == g.1).map (·.2)
  names : ∀ n, n ∈ gs.map (·.1) ↔ n ∈ done.map (·.1)

theorem addGroup_names (name : Str) (v : BNode F) (gs : List (Str × List (BNode F))) (n : Str) :
    n ∈ (addGroup name v gs).map (·.1) ↔ n = name ∨ n ∈ gs.map (·.1) := by
  induction gs with
  | nil => simp [addGroup]
  | cons g gs ih =>
    rw [addGroup]
    split
    case isTrue h => subst h; simp
    case isFalse h =>
      rw [List.map_cons, List.mem_cons, ih, List.map_cons, List.mem_cons]
      constructor
      · rintro (h | h | h) <;> simp [h]
      · rintro (h | h | h) <;> simp [h]

theorem addGroup_nodup (name : Str) (v : BNode F) (gs : List (Str × List (BNode F))) (h : (gs.map (·.1)).Nodup) :
    ((addGroup name v gs).map (·.1)).Nodup := by
  induction gs with
  | nil => simp [addGroup]
  | cons g gs ih =>
    rw [List.map_cons, List.nodup_cons] at h
    rw [addGroup]
    split
    · rw [List.map_cons, List.nodup_cons]; exact h
    case isFalse hn =>
      rw [List.map_cons, List.nodup_cons, addGroup_names]
      exact ⟨fun e => e.elim hn h.1, ih h.2⟩

theorem addGroup_mem (name : Str) (v : BNode F) (gs : List (Str × List (BNode F))) (h : (gs.map (·.1)).Nodup) (g : Str × List (BNode F))
    (hg : g ∈ addGroup name v gs) : (g.1 ≠ name ∧ g ∈ gs) ∨ (g.1 = name ∧ ((∃ l, (name, l) ∈ gs ∧ g.2 = l ++ [v]) ∨ (name ∉ gs.map (·.1) ∧ g.2 = [v]))) := by
  induction gs with
  | nil => simp [addGroup] at hg; subst hg; simp
  | cons a gs ih =>
    rw [List.map_cons, List.nodup_cons] at h
    rw [addGroup] at hg
    split at hg
    case isTrue hn =>
      rcases List.mem_cons.1 hg with rfl | hg
      · exact .inr ⟨hn, .inl ⟨a.2, by rw [← hn]; simp, rfl⟩⟩
      · refine .inl ⟨fun e => ?_, by simp [hg]⟩
        exact h.1 (by rw [hn, ← e]; exact List.mem_map_of_mem hg)
    case isFalse hn =>
      rcases List.mem_cons.1 hg with rfl | hg
      · exact .inl ⟨hn, by simp⟩
      · rcases ih h.2 hg with ⟨h1, h2⟩ | ⟨h1, ⟨l, h2, h3⟩ | ⟨h2, h3⟩⟩
        · exact .inl ⟨h1, by simp [h2]⟩
        · exact .inr ⟨h1, .inl ⟨l, by simp [h2], h3⟩⟩
        · refine .inr ⟨h1, .inr ⟨?_, h3⟩⟩
          rw [List.map_cons, List.mem_cons]
          exact fun e => e.elim (fun e => hn e.symm) h2

theorem addGroup_inv {done : List (Str × BNode F)} {gs : List (Str × List (BNode F))} (h : GInv done gs) (e : Str × BNode F) :
    GInv (done ++ [e]) (addGroup e.1 e.2 gs) := by
  refine ⟨addGroup_nodup _ _ _ h.nodup, ?_, ?_⟩
  · intro g hg
    rw [List.filter_append, List.map_append]
    rcases addGroup_mem _ _ _ h.nodup g hg with ⟨h1, h2⟩ | ⟨h1, ⟨l, h2, h3⟩ | ⟨h2, h3⟩⟩
    · rw [← h.group g h2, List.filter_cons, if_neg (by simpa using fun e => h1 e.symm)]; simp
    · have := h.group _ h2
      rw [h3, List.filter_cons, if_pos (by simpa using h1.symm), h1]
      simp only at this
      rw [this]; simp
    · have : done.filter (fun x => x.1 == g.1) = [] := by
        rw [List.filter_eq_nil_iff]
        intro x hx hxe
        apply h2
        rw [h.names, ← h1, ← (by simpa using hxe : x.1 = g.1)]
        exact List.mem_map_of_mem hx
      rw [this, h3, List.filter_cons, if_pos (by simpa using h1.symm)]; simp
  · intro n
    rw [addGroup_names, h.names, List.map_append, List.mem_append]
    simp only [List.map_cons, List.map_nil, List.mem_singleton]
    exact or_comm

theorem groupFold_inv (E : List (Str × BNode F)) : ∀ {done : List (Str × BNode F)} {gs : List (Str × List (BNode F))}, GInv done gs →
    GInv (done ++ E) (E.foldl (fun gs k => addGroup k.1 k.2 gs) gs) := by
  induction E with
  | nil => intro done gs h; simpa using h
  | cons e E ih =>
    intro done gs h
    have := ih (addGroup_inv h e)
    rwa [List.append_assoc] at this

theorem groupFields_inv {o : MOps F} {tname csname : Str} (cs : List (Chunk F)) (hg : ∀ c ∈ cs, Good o tname csname c) :
    GInv (cs.flatMap (·.fields)) (groupFields (cs.map (·.mesh))) := by
  have : ∀ (l : List (Chunk F)), (∀ c ∈ l, Good o tname csname c) → ∀ (done : List (Str × BNode F)) (gs : List (Str × List (BNode F))),
      GInv done gs → GInv (done ++ l.flatMap (·.fields))
        ((l.map (·.mesh)).foldl (fun gs m => ((m.getOrEmpty (chars! "fields")).kids).foldl (fun gs k => addGroup k.1 k.2 gs) gs) gs) := by
    intro l
    induction l with
    | nil => intro _ done gs h; simpa using h
    | cons c l ih =>
      intro hl done gs h
      rw [List.map_cons, List.foldl_cons, getOrEmpty_ok (hl c (by simp)).fields, List.flatMap_cons, ← List.append_assoc]
      exact ih (fun d hd => hl d (by simp [hd])) _ _ (groupFold_inv _ h)
  have h0 := this cs hg [] [] ⟨by simp, (fun g hg => by simp at hg), by simp⟩
  unfold groupFields
  simpa using h0

theorem filter_once (l : List (Str × BNode F)) (h : (l.map (·.1)).Nodup) (name : Str) :
    (name ∉ l.map (·.1) ∧ l.filter (fun e => e.1 == name) = []) ∨ ∃ f, (name, f) ∈ l ∧ l.filter (fun e => e.1 == name) = [(name, f)] := by
  induction l with
  | nil => left; simp
  | cons a l ih =>
    rw [List.map_cons, List.nodup_cons] at h
    by_cases ha : a.1 = name
    · right
      refine ⟨a.2, by rw [← ha]; simp, ?_⟩
      have : l.filter (fun e => e.1 == name) = [] := by
        rw [List.filter_eq_nil_iff]
        intro x hx hxe
        apply h.1
        rw [ha, ← (by simpa using hxe : x.1 = name)]
        exact List.mem_map_of_mem hx
      rw [List.filter_cons, if_pos (by simpa using ha), this, ← ha]
    · rw [List.filter_cons, if_neg (by simpa using ha)]
      rcases ih h.2 with ⟨h1, h2⟩ | ⟨f, h1, h2⟩
      · left
        refine ⟨?_, h2⟩
        rw [List.map_cons, List.mem_cons]
        exact fun e => e.elim (fun e => ha e.symm) h1
      · exact .inr ⟨f, by simp [h1], h2⟩

/-- A group with one field for each chunk has that of each chunk. -/
theorem group_all (cs : List (Chunk F)) (hn : ∀ c ∈ cs, (c.fields.map (·.1)).Nodup) (name : Str) :
    let fs := ((cs.flatMap (·.fields)).filter fun e => e.1 == name).map (·.2)
    fs.length ≤ cs.length ∧ (fs.length = cs.length → List.Forall₂ (fun (c : Chunk F) f => (name, f) ∈ c.fields) cs fs) ∧
      ((∀ c ∈ cs, name ∈ c.fields.map (·.1)) → fs.length = cs.length) := by
  induction cs with
  | nil => exact ⟨by simp, fun _ => .nil, fun _ => by simp⟩
  | cons c cs ih =>
    obtain ⟨i1, i2, i3⟩ := ih fun d hd => hn d (by simp [hd])
    simp only [List.flatMap_cons, List.filter_append, List.map_append, List.length_append, List.length_cons] at i1 i2 i3 ⊢
    rcases filter_once c.fields (hn c (by simp)) name with ⟨h1, h2⟩ | ⟨f, h1, h2⟩
    · rw [h2]
      refine ⟨by simp; simpa using Nat.le_succ_of_le i1, ?_, ?_⟩
      · intro h; simp at h i1; omega
      · intro h; exact absurd (h c (by simp)) h1
    · rw [h2]
      refine ⟨by simp at i1 ⊢; omega, ?_, ?_⟩
      · intro h
        exact .cons h1 (i2 (by simp at h ⊢; omega))
      · intro h
        have := i3 fun d hd => h d (by simp [hd])
        simp at this ⊢; omega

/-! ### the merged points -/

theorem merged_length {o : MOps F} {tol : F} {ins : List (In F)} {out : BNode F} {pts : List (V3 F)} {maps : List (List Nat)}
    (h : Merged o tol ins out pts maps) (hin : ∀ x ∈ ins, Cart o x.cset x.n x.pts) : coordsetLength o.arith out = .ok (pts.length : Int) := by
  obtain ⟨D, v, h1, ⟨x, hx, hxD⟩, h3, h4, h5⟩ := h.dims
  have hc := hin x hx
  subst hxD
  have hax : axes out = .ok (xyz.take x.n) := by
    refine axes_named out v (chars! "explicit") (chars! "values") _ h.type rfl h3 hc.axes.system (map_axisName _ _ hc.axes.system ?_)
    intro k; rw [h4]
  obtain ⟨lens, l1, l2, l3⟩ := forNames_ex (axisLen o.arith .rectilinear out) (fun _ l => l = (pts.length : Int)) (xyz.take x.n) 0 (by
    intro i a ha
    refine ⟨(pts.length : Int), ?_, rfl⟩
    unfold axisLen
    rw [if_pos rfl]
    simp only [h3, h5 i a ha, Res.bind_ok, BNode.numElements, List.length_map])
  unfold coordsetLength
  simp only [h.type, hax, Res.bind_ok, BNode.asString]
  rw [if_neg (by decide), if_neg (by decide), l1, Res.bind_ok]
  have hl : lens ≠ [] := by
    rintro rfl
    have := hc.least; have := hc.most
    simp at l2; omega
  obtain ⟨ls, y, rfl⟩ : ∃ ls y, lens = ls ++ [y] := by
    exact ⟨lens.dropLast, lens.getLast hl, (List.dropLast_append_getLast hl).symm⟩
  have := l3 ls.length y (by simp)
  subst this
  simp

theorem merged_covers {o : MOps F} {tol : F} {cs : List (Chunk F)} {out : BNode F} {pts : List (V3 F)} {maps : List (List Nat)}
    (h : Merged o tol (inOf cs) out pts maps) :
    Covers maps pts.length (fun i => ((cs[i]?).map fun c => c.pts.length).getD 0) ∧ Mapped cs maps := by
  have hlen : maps.length = cs.length := by rw [h.sets]; simp [inOf]
  have hin : ∀ (i : Nat) (c : Chunk F), cs[i]? = some c → (inOf cs)[i]? = some ⟨c.cset, c.n, c.pts⟩ := by
    intro i c hc; rw [inOf, List.getElem?_map, hc]; rfl
  have hm : Mapped cs maps := ⟨hlen, fun i c m hc hmi => h.points i _ m (hin i c hc) hmi⟩
  refine ⟨⟨?_, ?_, ?_⟩, hm⟩
  · rintro i k q ⟨m, h1, h2⟩
    have hi : i < cs.length := by rw [← hlen]; exact (List.getElem?_eq_some_iff.1 h1).1
    have hc := List.getElem?_eq_getElem hi
    have hk : k < (cs[i]).pts.length := by
      rw [← hm.points i _ m hc h1]; exact (List.getElem?_eq_some_iff.1 h2).1
    obtain ⟨id, p, ⟨m', g1, g2⟩, g3, _⟩ := h.close i k _ ⟨_, hin i _ hc, List.getElem?_eq_getElem hk⟩
    rw [h1] at g1; cases g1
    rw [h2] at g2; cases g2
    exact (List.getElem?_eq_some_iff.1 g3).1
  · intro q hq
    obtain ⟨i, k, _, hid⟩ := h.from_ q _ (List.getElem?_eq_getElem hq)
    exact ⟨i, k, hid⟩
  · intro i m hmi
    have hi : i < cs.length := by rw [← hlen]; exact (List.getElem?_eq_some_iff.1 hmi).1
    have hc := List.getElem?_eq_getElem hi
    simp only [hc, Option.map_some, Option.getD_some]
    exact hm.points i _ m hc hmi

/-! ### fields -/

theorem maps_read (maps : List (List Nat)) :
    (childrenOf (BNode.list (maps.map fun l => .ints int64 (l.map fun i : Nat => (i : Int)) : List (BNode F)))).mapM indexArray
      = .ok (maps.map ints) := by
  show (maps.map _).mapM indexArray = _
  rw [mapM_map']
  exact Meta.mapM_ok_map _ _ _ fun m _ => by rw [indexArray, if_pos rfl]

/-- What is there when the fields are made. -/
structure Made (o : MOps F) (tol : F) (tname csname : Str) (cs : List (Chunk F)) (topo cset : BNode F) (pts : List (V3 F)) (maps : List (List Nat))
    (orig : List (Nat × Nat)) : Prop where
  chunks : 2 ≤ cs.length
  good : ∀ c ∈ cs, Good o tname csname c
  alike : FieldsAlike cs
  merged : Merged o tol (inOf cs) cset pts maps
  coordset : topo.get (chars! "coordset") = .ok (.str csname)
  emap : topo.get (chars! "element_map") = .ok (.ints int64 (flatPairs orig))
  all : ∀ i j, (i, j) ∈ orig ↔ ∃ c, cs[i]? = some c ∧ j < c.els.length

theorem forall2_values {cs : List (Chunk F)} {fs : List (BNode F)} {name : Str} (h : List.Forall₂ (fun (c : Chunk F) f => (name, f) ∈ c.fields) cs fs)
    (P : Chunk F → BNode F → BNode F → Prop) (hP : ∀ c ∈ cs, ∀ f, (name, f) ∈ c.fields → ∃ v, P c f v) :
    ∃ vs : List (BNode F), vs.length = cs.length ∧ ∀ (i : Nat) c f v, cs[i]? = some c → fs[i]? = some f → vs[i]? = some v → P c f v := by
  induction h with
  | nil => exact ⟨[], rfl, fun i c f v h => by simp at h⟩
  | @cons c f cs fs p q ih =>
    obtain ⟨v, hv⟩ := hP c (by simp) f p
    obtain ⟨vs, h1, h2⟩ := ih fun d hd => hP d (by simp [hd])
    refine ⟨v :: vs, by simp [h1], ?_⟩
    intro i c' f' v' hc hf hv'
    cases i with
    | zero => simp at hc hf hv'; subst hc hf hv'; exact hv
    | succ i => exact h2 i c' f' v' (by simpa using hc) (by simpa using hf) (by simpa using hv')

theorem combineField_ok {o : MOps F} {tol : F} {tname csname : Str} {cs : List (Chunk F)} {topo cset : BNode F} {pts : List (V3 F)}
    {maps : List (List Nat)} {orig : List (Nat × Nat)} (h : Made o tol tname csname cs topo cset pts maps orig) (name : Str)
    (fs : List (BNode F)) (hfs : List.Forall₂ (fun (c : Chunk F) f => (name, f) ∈ c.fields) cs fs) :
    ∃ f, combineField o.arith fs topo cset = .ok f ∧ FieldKept cs maps orig pts.length tname name f := by
  have hlen := forall2_length hfs
  have h2 := h.chunks
  obtain ⟨c0, hc0⟩ : ∃ c0, cs[0]? = some c0 := ⟨_, List.getElem?_eq_getElem (by omega)⟩
  obtain ⟨f0, hf0⟩ : ∃ f0, fs[0]? = some f0 := ⟨_, List.getElem?_eq_getElem (by omega)⟩
  have hm0 := List.mem_of_getElem? hc0
  have hcf0 := forall2_get hfs 0 c0 f0 hc0 hf0
  obtain ⟨a, v0, ha, hav, ht0⟩ := (h.good c0 hm0).good _ hcf0
  have ha : FieldOf f0 a tname v0 := ha
  have hP : ∀ c ∈ cs, ∀ f, (name, f) ∈ c.fields → ∃ v, FieldOf f a tname v ∧ Table v (c.count a) ∧ Alike v0 v := by
    intro c hc f hf
    obtain ⟨b, v, hb, _, ht⟩ := (h.good c hc).good _ hf
    obtain ⟨e, hal⟩ := h.alike c0 hm0 c hc _ hcf0 _ hf rfl a b tname tname v0 v ha hb
    subst e
    exact ⟨v, hb, ht, hal⟩
  obtain ⟨vs, hvl, hvs⟩ := forall2_values hfs (fun c f v => FieldOf f a tname v ∧ Table v (c.count a) ∧ Alike v0 v) hP
  have hget : ∀ (i : Nat) (v : BNode F), vs[i]? = some v → ∃ c f, cs[i]? = some c ∧ fs[i]? = some f ∧ (name, f) ∈ c.fields ∧
      FieldOf f a tname v ∧ Table v (c.count a) ∧ Alike v0 v := by
    intro i v hv
    have hi : i < cs.length := by rw [← hvl]; exact (List.getElem?_eq_some_iff.1 hv).1
    have hc := List.getElem?_eq_getElem hi
    have hf := List.getElem?_eq_getElem (hlen ▸ hi)
    exact ⟨_, _, hc, hf, forall2_get hfs i _ _ hc hf, hvs i _ _ v hc hf hv⟩
  have hv00 : vs[0]? = some v0 := by
    obtain ⟨v, hv⟩ : ∃ v, vs[0]? = some v := ⟨_, List.getElem?_eq_getElem (by omega)⟩
    obtain ⟨c, f, g1, g2, g3, g4, _⟩ := hget 0 v hv
    rw [hf0] at g2; cases g2
    have := g4.values
    rw [ha.values] at this; cases this
    exact hv
  have hvof : ValsOf fs vs := by
    refine forall2_of (by rw [← hlen, hvl]) ?_
    intro i f v hf hv
    obtain ⟨c, f', g1, g2, g3, g4, _⟩ := hget i v hv
    rw [hf] at g2; cases g2
    exact g4.values
  have hvals : Vals vs (fun i => ((cs[i]?).map fun c => c.count a).getD 0) v0 := by
    refine ⟨?_, ?_, ?_⟩
    · intro v hv
      obtain ⟨i, hi⟩ := List.getElem?_of_mem hv
      obtain ⟨c, f, g1, g2, g3, g4, g5, g6⟩ := hget i v hi
      exact g6
    · intro i v hi
      obtain ⟨c, f, g1, g2, g3, g4, g5, g6⟩ := hget i v hi
      simp only [g1, Option.map_some, Option.getD_some]; exact g5
    · simp only [hc0, Option.map_some, Option.getD_some]; exact ht0
  have hcase : ∀ (k i j : Nat) (v out : BNode F), vs[i]? = some v → (∀ v ∈ vs, Alike v out) → rowAt out k = rowAt v j → From cs name out k i j := by
    intro k i j v out hv hal hr
    obtain ⟨c, f, g1, g2, g3, g4, g5, g6⟩ := hget i v hv
    exact ⟨c, f, a, tname, v, g1, g3, g4, hal v (List.mem_of_getElem? hv), hr⟩
  have hall : ∀ c ∈ cs, ∃ g w, (name, g) ∈ c.fields ∧ FieldOf g a tname w := by
    intro c hc
    obtain ⟨i, hi⟩ := List.getElem?_of_mem hc
    have hlt : i < cs.length := (List.getElem?_eq_some_iff.1 hi).1
    obtain ⟨c', f, g1, g2, g3, g4, _⟩ := hget i _ (List.getElem?_eq_getElem (hvl ▸ hlt))
    rw [hi] at g1; cases g1
    exact ⟨f, _, g3, g4⟩
  obtain ⟨f0', fs', rfl⟩ : ∃ f0' fs', fs = f0' :: fs' := by
    cases fs with
    | nil => simp at hf0
    | cons x l => exact ⟨x, l, rfl⟩
  simp at hf0; subst hf0
  have hstart : ∀ v, (if a = chars! "vertex" then do
        let pm ← cset.get (chars! "pointmaps")
        match pm with
        | .obj _ => .error
        | _ => do
          let pms ← (childrenOf pm).mapM indexArray
          let n ← coordsetLength o.arith cset
          mapVertexField o.arith (f0' :: fs') pms n
      else if a = chars! "element" then do
        mapElementField (f0' :: fs') (← indexArray (← topo.get (chars! "element_map")))
      else .error) = Res.ok v →
      combineField o.arith (f0' :: fs') topo cset
        = .ok (.obj [(chars! "topology", .str tname), (chars! "association", .str a), (chars! "values", v)]) := by
    intro v hv
    unfold combineField
    simp only [ha.association, ha.topology, Res.bind_ok, BNode.asString]
    exact congrArg (fun r : Res (BNode F) => r >>= fun v => Res.ok (BNode.obj [(chars! "topology", .str tname), (chars! "association", .str a),
      (chars! "values", v)])) hv
  rcases hav with rfl | rfl
  · obtain ⟨hcov, hmap⟩ := merged_covers h.merged
    have hcnt : (fun i : Nat => ((cs[i]?).map fun c : Chunk F => c.count (chars! "vertex")).getD 0) = fun i : Nat => ((cs[i]?).map fun c : Chunk F => c.pts.length).getD 0 := by
      funext i; rfl
    rw [hcnt] at hvals
    have hpos : 0 < pts.length := by
      obtain ⟨e1, e2⟩ := (h.good c0 hm0).elements
      obtain ⟨el, els, he⟩ := List.exists_cons_of_ne_nil e1
      obtain ⟨n1, n2⟩ := e2 el (by rw [he]; simp)
      obtain ⟨p, ps, hp⟩ := List.exists_cons_of_ne_nil n1
      have hlt := n2 p (by rw [hp]; simp)
      obtain ⟨id, q, _, g, _⟩ := h.merged.close 0 p _ ⟨⟨c0.cset, c0.n, c0.pts⟩, by rw [inOf, List.getElem?_map, hc0]; rfl, List.getElem?_eq_getElem hlt⟩
      have := (List.getElem?_eq_some_iff.1 g).1
      omega
    obtain ⟨out, o1, o2, o3⟩ := mapVertexField_ok o.arith hvof hv00 hvals hcov (by rw [hmap.sets, hvl]) hpos
    refine ⟨_, hstart out ?_, chars! "vertex", out, ⟨rfl, rfl, rfl⟩, hall, .inr ⟨rfl, ?_⟩⟩
    · rw [if_pos rfl]
      simp only [h.merged.pointmaps, Res.bind_ok, maps_read, merged_length h.merged (fun x hx => by
        obtain ⟨c, hc, rfl⟩ := List.mem_map.1 hx; exact (h.good c hc).points)]
      exact o1
    · intro q hq
      obtain ⟨i, k, g1, g2, g3⟩ := o3 q hq
      have hi : i < vs.length := by
        obtain ⟨m, hm, _⟩ := g1
        rw [hvl, ← hmap.sets]; exact (List.getElem?_eq_some_iff.1 hm).1
      have hv := List.getElem?_eq_getElem hi
      exact ⟨i, k, g1, hcase q i k _ out hv o2 (g3 _ hv), g2⟩
  · have hcnt : (fun i : Nat => ((cs[i]?).map fun c : Chunk F => c.count (chars! "element")).getD 0) = fun i : Nat => ((cs[i]?).map fun c : Chunk F => c.els.length).getD 0 := by
      funext i; rfl
    rw [hcnt] at hvals
    have hmem : ∀ x ∈ orig, (∃ v, vs[x.1]? = some v) ∧ x.2 < ((cs[x.1]?).map fun c => c.els.length).getD 0 := by
      rintro ⟨i, j⟩ hx
      obtain ⟨c, hc, hj⟩ := (h.all i j).1 hx
      refine ⟨⟨_, List.getElem?_eq_getElem (by rw [hvl]; exact (List.getElem?_eq_some_iff.1 hc).1)⟩, ?_⟩
      simp only [hc, Option.map_some, Option.getD_some]; exact hj
    have hne : orig ≠ [] := by
      have := (h.all 0 0).2 ⟨c0, hc0, List.length_pos_of_ne_nil (h.good c0 hm0).elements.1⟩
      rintro rfl; cases this
    obtain ⟨out, o1, o2, o3⟩ := mapElementField_ok hvof hv00 hvals orig hne hmem
    refine ⟨_, hstart out ?_, chars! "element", out, ⟨rfl, rfl, rfl⟩, hall, .inl ⟨rfl, ?_⟩⟩
    · rw [if_neg (by decide), if_pos rfl]
      simp only [h.emap, Res.bind_ok, indexArray, if_pos]
      exact o1
    · intro k i j hk
      obtain ⟨⟨v, hv⟩, _⟩ := hmem _ (List.mem_of_getElem? hk)
      exact hcase k i j v out hv o2 (o3 k i j v hk hv)

end Conduit.Comb
