import Verif.Lemmas.TopoMeta3
import Verif.Props.MeshPoints
/-
Lemmas on the sides of elements: the nodes.
-/
namespace Conduit.Mesh.Meta
variable {F : Type}

/-! ### the copy of the topology -/

theorem cells_fixed {topo e : BNode F} {els : List (List Nat)} (h : Cells topo e els) {s : Str} {k : Nat}
    (hk : (s, k) ∈ fixedShapes) (hs : e.get (chars! "shape") = .ok (.str s)) : ∀ el ∈ els, el.length = k := by
  rcases h.shape with ⟨s', k', hk', hs', hl⟩ | ⟨hs', _⟩
  · rw [hs] at hs'
    simp only [Res.ok.injEq, BNode.str.injEq] at hs'
    subst hs'
    obtain ⟨_, _, _, d, h1⟩ := fixed_shape hk
    obtain ⟨_, _, _, d', h2⟩ := fixed_shape hk'
    rw [h1] at h2
    have h3 := congrArg (fun r : Res ShapeType => match r with | .ok x => x.indices | _ => 0) h2
    have : k = k' := by simp only at h3; omega
    subst this; exact hl
  · rw [hs] at hs'
    simp only [Res.ok.injEq, BNode.str.injEq] at hs'
    exact absurd hs' (fixed_shape hk).2.2.1

theorem topoLength_of {topo e' : BNode F} {s : Str} {k n : Nat} (hk : (s, k) ∈ fixedShapes)
    (he : topo.get (chars! "elements") = .ok e') (hs : e'.get (chars! "shape") = .ok (.str s))
    (hz : e'.hasChild (chars! "sizes") = false ∨ ∃ v, e'.get (chars! "sizes") = .ok v ∧ v.numElements = n)
    (hc : ∃ v, e'.get (chars! "connectivity") = .ok v ∧ v.numElements = n * k) : topoLength topo = .ok n := by
  obtain ⟨k0, _, _, d, hi⟩ := fixed_shape hk
  obtain ⟨vc, c1, c2⟩ := hc
  have hsh := (shapeOfTopo_of he hs).1
  unfold topoLength
  rw [he, Res.bind_ok]
  rcases hz with hz | ⟨vz, z1, z2⟩
  · rw [hz]
    simp only [Bool.false_eq_true, if_false]
    rw [c1, Res.bind_ok, hsh, hi, Res.bind_ok]
    simp only
    rw [if_neg (by omega), c2, Int.toNat_natCast, Nat.mul_div_cancel _ k0]
  · have : e'.hasChild (chars! "sizes") = true := (hasChild_iff_get _ _).2 ⟨vz, z1⟩
    rw [this]
    simp only [if_true]
    rw [z1, Res.bind_ok, z2]

theorem convLeaf_nums {t : IntTy} (t' : IntTy) (l : List Nat) : (convLeaf t (.ints t' (ints l) : BNode F)).numElements = l.length := by
  unfold convLeaf
  by_cases h : t' = t <;> simp [h, BNode.numElements]

theorem convLeaf_holds {t t' : IntTy} (l : List Nat) (h : ∀ p ∈ l, t.Holds (p : Int)) :
    (convLeaf t (.ints t' (ints l) : BNode F)) = .ints t (ints l) := by
  unfold convLeaf
  by_cases e : t' = t
  · simp [e]
  · simp only [if_neg e]
    rw [ints, map_cast_nat l t h]

theorem asString_str (s : Str) : (BNode.str s : BNode F).asString = .ok s := rfl

theorem copyTopology_length (A : Arith F) {topo e : BNode F} {els : List (List Nat)} (h : Cells topo e els)
    (hz : e.hasChild (chars! "sizes") = false ∨ NatLeaf e (chars! "sizes") (els.map (·.length))) {s : Str} {k : Nat}
    (hk : (s, k) ∈ fixedShapes) (hs : e.get (chars! "shape") = .ok (.str s)) (hn : Idx els.flatten.length) (cname : Str) :
    ∃ top, copyTopology A topo cname int64 = .ok top ∧ topoLength top = .ok els.length := by
  have hl := cells_fixed h hk hs
  obtain ⟨tc, hc, hch⟩ := h.conn
  have hconn : (convLeaf int64 (.ints tc (ints els.flatten) : BNode F)) = .ints int64 (ints els.flatten) :=
    convLeaf_holds _ fun p hp => idx_holds (hch p hp).2
  have hcl : els.flatten.length = els.length * k := flatten_fixed els k hl
  unfold copyTopology
  rw [h.elements, Res.bind_ok, hs, Res.bind_ok, asString_str, Res.bind_ok]
  -- the elements of the copy
  obtain ⟨els', hels', c1, c2, c3, c4⟩ : ∃ els' : BNode F,
      BNode.obj ((chars! "shape", .str s) :: copyKeys int64 e [chars! "connectivity", chars! "sizes", chars! "offsets"]) = els' ∧
      els'.get (chars! "shape") = .ok (.str s) ∧ els'.get (chars! "connectivity") = .ok (.ints int64 (ints els.flatten)) ∧
      (els'.hasChild (chars! "sizes") = false ∨ ∃ v, els'.get (chars! "sizes") = .ok v ∧ v.numElements = els.length) ∧
      els'.hasChild (chars! "stream") = false := by
    refine ⟨_, rfl, rfl, ?_, ?_, ?_⟩
    · rw [show copyKeys int64 e [chars! "connectivity", chars! "sizes", chars! "offsets"] =
        (chars! "connectivity", .ints int64 (ints els.flatten)) :: copyKeys int64 e [chars! "sizes", chars! "offsets"] from by
          simp only [copyKeys, List.filterMap_cons, hc]; rw [hconn]]
      rfl
    · rcases hz with hz | hz
      · left
        have hz' := get_error_of_not e _ hz
        simp only [copyKeys, List.filterMap_cons, hc, hz', List.filterMap_nil]
        cases e.get (chars! "offsets") <;> rfl
      · right
        obtain ⟨tz, hz, _⟩ := hz
        refine ⟨convLeaf int64 (.ints tz (ints (els.map (·.length)))), ?_, by rw [convLeaf_nums, List.length_map]⟩
        simp only [copyKeys, List.filterMap_cons, hc, hz]
        rfl
    · simp only [copyKeys, List.filterMap_cons, hc, List.filterMap_nil]
      cases e.get (chars! "offsets") <;> cases e.get (chars! "sizes") <;> rfl
  simp only
  rw [hels']
  have hlen : ∀ els2 : BNode F, els2.get (chars! "shape") = .ok (.str s) →
      els2.get (chars! "connectivity") = .ok (.ints int64 (ints els.flatten)) →
      els2.get (chars! "sizes") = els'.get (chars! "sizes") → ∀ top : BNode F, top.get (chars! "elements") = .ok els2 →
      topoLength top = .ok els.length := by
    intro els2 h1 h2 h3 top h4
    refine topoLength_of hk h4 h1 ?_ ⟨_, h2, by simp only [BNode.numElements, ints, List.length_map]; exact hcl⟩
    rw [h3, hasChild_congr _ _ _ h3]; exact c3
  by_cases ho : els'.hasChild (chars! "offsets") = true
  · rw [if_pos ho]
    exact ⟨_, rfl, hlen els' c1 c2 rfl _ rfl⟩
  · rw [if_neg ho]
    have ho' : els'.hasChild (chars! "offsets") = false := by simpa using ho
    have hbase : Cells (.obj [(chars! "type", .str (chars! "unstructured")), (chars! "coordset", .str cname), (chars! "elements", els')] :
        BNode F) els' els :=
      ⟨rfl, c4, rfl, ⟨int64, c2, fun p hp => ⟨idx_holds (hch p hp).2, (hch p hp).2⟩⟩, .inl ⟨s, k, hk, c1, hl⟩⟩
    have hw : HasLeaf (.obj [(chars! "type", .str (chars! "unstructured")), (chars! "coordset", .str cname), (chars! "elements", els')] :
        BNode F) (.i ⟨true, .w64⟩) := by
      refine .obj _ (chars! "elements") els' _ (by simp) ?_
      rw [← hels']
      refine .obj _ (chars! "connectivity") (.ints int64 (ints els.flatten)) _ ?_ (.leaf _ _ rfl)
      simp only [copyKeys, List.filterMap_cons, hc]
      rw [hconn]; simp
    unfold generateOffsets1
    rw [generateOffsets_cells A hbase (.inl ho') (fun p hp => C79_widest_64 _ true hw p
      (Nat.lt_of_le_of_lt (starts_le els p hp) hn))]
    refine ⟨_, rfl, hlen _ ?_ ?_ ?_ _ (get_setChild_same _ _ _)⟩
    · rw [get_setChild_other _ _ _ _ (by decide)]; exact c1
    · rw [get_setChild_other _ _ _ _ (by decide)]; exact c2
    · rw [get_setChild_other _ _ _ _ (by decide)]

/-! ### the node of the sides -/

/-- The sides as a topology with connectivity and offsets of this type. -/
def sideNode (cname shape : Str) (t : IntTy) (T : List (List Nat)) : BNode F :=
  .obj [(chars! "type", .str (chars! "unstructured")), (chars! "coordset", .str cname),
    (chars! "elements", .obj [(chars! "shape", .str shape), (chars! "connectivity", .ints t (ints T.flatten)),
      (chars! "offsets", .ints t (ints (starts T)))])]

theorem sideTopo_eq (cname shape : Str) (w : Nat) (T : List (List Nat)) (refs : List Int) (hT : ∀ f ∈ T, f.length = w) :
    (sideTopo cname shape w ⟨ints T.flatten, refs, T.length⟩ : BNode F) = sideNode cname shape int64 T := by
  unfold sideTopo sideNode
  have : ((List.range T.length).map fun i : Nat => (w : Int) * (i : Int)) = ints (starts T) := by
    rw [starts_fixed T w hT, ints, List.map_map]
    apply List.map_congr_left
    intro i _
    simp [Nat.mul_comm]
  simp only [this]

theorem convertTopology_ok (A : Arith F) (cname shape : Str) (t : IntTy) (T : List (List Nat))
    (h1 : ∀ p ∈ T.flatten, t.Holds (p : Int)) (h2 : ∀ p ∈ starts T, t.Holds (p : Int)) :
    convertTopology A (sideNode cname shape int64 T) cname t = .ok (sideNode cname shape t T) := by
  unfold convertTopology
  by_cases ht : t = int64
  · rw [if_pos ht, ht]
  · rw [if_neg ht]
    have e1 := convLeaf_holds (F := F) (t' := int64) T.flatten h1
    have e2 := convLeaf_holds (F := F) (t' := int64) (starts T) h2
    have g1 : (BNode.obj [(chars! "shape", .str shape), (chars! "connectivity", .ints int64 (ints T.flatten)),
      (chars! "offsets", .ints int64 (ints (starts T)))] : BNode F).get (chars! "connectivity") = .ok (.ints int64 (ints T.flatten)) := rfl
    have g2 : (BNode.obj [(chars! "shape", .str shape), (chars! "connectivity", .ints int64 (ints T.flatten)),
      (chars! "offsets", .ints int64 (ints (starts T)))] : BNode F).get (chars! "offsets") = .ok (.ints int64 (ints (starts T))) := rfl
    have g3 : (BNode.obj [(chars! "shape", .str shape), (chars! "connectivity", .ints int64 (ints T.flatten)),
      (chars! "offsets", .ints int64 (ints (starts T)))] : BNode F).get (chars! "sizes") = .error := rfl
    have g4 : (sideNode cname shape int64 T : BNode F).get (chars! "elements") = .ok (.obj [(chars! "shape", .str shape),
      (chars! "connectivity", .ints int64 (ints T.flatten)), (chars! "offsets", .ints int64 (ints (starts T)))]) := rfl
    have g5 : (BNode.obj [(chars! "shape", .str shape), (chars! "connectivity", .ints int64 (ints T.flatten)),
      (chars! "offsets", .ints int64 (ints (starts T)))] : BNode F).get (chars! "shape") = .ok (.str shape) := rfl
    unfold copyTopology
    rw [g4, Res.bind_ok, g5, Res.bind_ok, asString_str, Res.bind_ok]
    simp only [copyKeys, List.filterMap_cons, g1, g2, g3, List.filterMap_nil, e1, e2]
    rfl

theorem sideNode_length (cname shape : Str) (t : IntTy) (T : List (List Nat)) {w : Nat} (hw : (shape, w) ∈ fixedShapes)
    (hT : ∀ f ∈ T, f.length = w) : topoLength (sideNode cname shape t T : BNode F) = .ok T.length :=
  topoLength_of hw rfl rfl (.inl rfl) ⟨_, rfl, by simp only [BNode.numElements, ints, List.length_map]; exact flatten_fixed T w hT⟩

theorem sideNode_cells (cname shape : Str) (t : IntTy) (T : List (List Nat)) {w : Nat} (hw : (shape, w) ∈ fixedShapes)
    (hT : ∀ f ∈ T, f.length = w) (h1 : ∀ p ∈ T.flatten, t.Holds (p : Int) ∧ Idx p) :
    ∃ te, Cells (sideNode cname shape t T : BNode F) te T ∧ te.get (chars! "shape") = .ok (.str shape) ∧
      te.get (chars! "offsets") = .ok (.ints t (ints (starts T))) :=
  ⟨_, ⟨rfl, rfl, rfl, ⟨t, rfl, h1⟩, .inl ⟨shape, w, hw, rfl, hT⟩⟩, rfl, rfl⟩

/-! ### the nodes of the maps -/

theorem dimMap_ok (t : IntTy) (ls : List (List Nat)) (a : Assoc) (h1 : a.data = ints ls.flatten)
    (h2 : (if a.sizes = [] then List.replicate ls.length a.single else a.sizes) = ints (ls.map (·.length)))
    (h3 : (if a.offsets = [] then (List.range ls.length).map fun i : Nat => (i : Int) * a.single else a.offsets) = ints (starts ls))
    (hv : ∀ p ∈ ls.flatten, t.Holds (p : Int) ∧ Idx p) (hz : ∀ p ∈ ls.map List.length, t.Holds (p : Int) ∧ Idx p)
    (ho : ∀ p ∈ starts ls, t.Holds (p : Int) ∧ Idx p) : ListsNode (dimMap t ls.length a : BNode F) ls := by
  have conv : ∀ l : List Nat, (∀ p ∈ l, t.Holds (p : Int) ∧ Idx p) →
      (if t = int64 then BNode.ints int64 (ints l) else .ints t ((ints l).map t.cast) : BNode F) = .ints t (ints l) := by
    intro l h
    by_cases e : t = int64
    · rw [if_pos e, e]
    · rw [if_neg e, ints, map_cast_nat l t fun p hp => (h p hp).1]
  unfold dimMap
  simp only
  rw [h2, h3, h1, conv _ hv, conv _ hz, conv _ ho]
  exact ⟨⟨t, rfl, hv⟩, ⟨t, rfl, hz⟩, ⟨t, rfl, ho⟩⟩

theorem sum_lengths_le (ls : List (List Nat)) : ∀ p ∈ ls.map (·.length), p ≤ ls.flatten.length := by
  intro p hp
  obtain ⟨l, hl, rfl⟩ := List.mem_map.1 hp
  clear hp
  induction ls with
  | nil => cases hl
  | cons a ls ih =>
    rw [List.flatten_cons, List.length_append]
    rcases List.mem_cons.1 hl with rfl | hl
    · omega
    · have := ih hl; omega

theorem mem_upOf_lt (down : List (List Nat)) (j c : Nat) (h : c ∈ upOf down j) : c < down.length := by
  unfold upOf at h
  obtain ⟨p, hp, hx⟩ := List.mem_flatMap.1 h
  rw [List.mem_replicate] at hx
  have := List.snd_lt_of_mem_zipIdx hp
  omega

theorem ups_flatten_length (down : List (List Nat)) (m : Nat) (hm : ∀ j ∈ down.flatten, j < m) :
    (ups down m).flatten.length = down.flatten.length := by
  have h : ∀ (l : List Nat) (n : Nat), (∀ j ∈ l, j < n) → ((List.range n).map fun j => l.count j).sum = l.length := by
    intro l
    induction l with
    | nil => intro n _; simp
    | cons a l ih =>
      intro n h
      have ha : a < n := h a (by simp)
      have e : ((List.range n).map fun j => (a :: l).count j).sum =
          ((List.range n).map fun j => l.count j).sum + ((List.range n).map fun j => if a = j then 1 else 0).sum := by
        generalize List.range n = r
        induction r with
        | nil => rfl
        | cons b r ihr =>
          have hb : (a :: l).count b = l.count b + if a = b then 1 else 0 := by simp [List.count_cons]
          rw [List.map_cons, List.map_cons, List.map_cons, List.sum_cons, List.sum_cons, List.sum_cons, ihr, hb]
          omega
      have one : ((List.range n).map fun j => if a = j then 1 else 0).sum = 1 := by
        have : ((List.range n).map fun j => if a = j then 1 else 0).sum = (List.range n).count a := by
          generalize List.range n = r
          induction r with
          | nil => rfl
          | cons b r ihr =>
            simp only [List.map_cons, List.sum_cons, ihr, List.count_cons, beq_iff_eq]
            by_cases hab : a = b
            · simp [hab]; omega
            · have : ¬ b = a := fun h => hab h.symm
              simp [hab, this]
        rw [this]
        have h1 := List.nodup_iff_count_le_one.1 (List.nodup_range (n := n)) a
        have h2 : 0 < (List.range n).count a := List.count_pos_iff.2 (by simpa using ha)
        omega
      rw [e, one, ih n (fun j hj => h j (by simp [hj])), List.length_cons]
  rw [List.length_flatten, ups, List.map_map]
  have : (List.range m).map (List.length ∘ upOf down) = (List.range m).map fun j => down.flatten.count j := by
    apply List.map_congr_left
    intro j _
    exact upOf_length down j
  rw [this, h _ _ hm]

/-! ### all of it -/

theorem assembled (A : Arith F) {rows : List Nat → List (List Nat)} {els : List (List Nat)} {vs : List Nat} {count w N : Nat}
    {t : IntTy} {cname sname : Str} (num : Numbering (allSides rows els) vs count)
    (hr : ∀ el ∈ els, ∀ row ∈ rows el, ∀ i ∈ row, i < el.length) (hnc : NoCollision (allSides rows els))
    (hw : (sname, w) ∈ fixedShapes) (hrow : ∀ el ∈ els, ∀ row ∈ rows el, row.length = w)
    (hp : ∀ p ∈ els.flatten, t.Holds (p : Int) ∧ Idx p) (hn : ∀ p ≤ N, t.Holds (p : Int) ∧ Idx p)
    (hN : (allSides rows els).length * w ≤ N) (hel : els.length ≤ N) {pc : Assoc} (hdata : pc.data = ints (refsOf vs))
    (hpairs : parentPairs pc = .ok ((pairsOf (downOf rows els vs)).map fun p => ((p.1 : Int), (p.2 : Int))))
    (hsz : (if pc.sizes = [] then List.replicate els.length pc.single else pc.sizes) = ints (rowCounts rows els))
    (hof : (if pc.offsets = [] then (List.range els.length).map fun i : Nat => (i : Int) * pc.single else pc.offsets) =
      ints (starts (downOf rows els vs))) :
    ∃ dest ua de sides down up,
      topoLength (sideTopo cname sname w ⟨ints (sidesOf (allSides rows els) vs).flatten, ints (refsOf vs), count⟩ : BNode F) = .ok count ∧
      childToParent count pc = .ok ua ∧
      convertTopology A (sideTopo cname sname w ⟨ints (sidesOf (allSides rows els) vs).flatten, ints (refsOf vs), count⟩ : BNode F) cname t =
        .ok dest ∧
      dest.get (chars! "type") = .ok (.str (chars! "unstructured")) ∧ dest.get (chars! "coordset") = .ok (.str cname) ∧
      Cells dest de sides ∧ de.get (chars! "shape") = .ok (.str sname) ∧ NatLeaf de (chars! "offsets") (starts sides) ∧
      ListsSides rows els sides ∧ ListsNode (dimMap t els.length pc : BNode F) down ∧ MapsDown rows els sides down ∧ FirstUse rows els sides down ∧
      ListsNode (dimMap t count ua : BNode F) up ∧ MapsUp down sides.length up := by
  have w0 : 0 < w := (fixed_shape hw).1
  have hT : ∀ f ∈ sidesOf (allSides rows els) vs, f.length = w := by
    intro f hf
    obtain ⟨el, hel, hx⟩ := List.mem_flatMap.1 (sides_mem num hf)
    obtain ⟨row, hr, rfl⟩ := List.mem_map.1 hx
    rw [cornersAt, List.length_map]; exact hrow el hel row hr
  have hcount : count = (sidesOf (allSides rows els) vs).length := by rw [num.count_eq, sidesOf, List.length_map]
  have hlists := listsSides num hr hnc
  have hdown := mapsDown num hr hnc
  have hflat := downOf_flatten num
  have hall : (allSides rows els).length ≤ N := Nat.le_trans (Nat.le_mul_of_pos_right _ w0) hN
  have hcl : count ≤ (allSides rows els).length := by
    rw [num.count_eq]
    have h1 : vs.eraseDups.length ≤ vs.length := by
      have : vs.eraseDups.Subperm vs := (eraseDups_nodup vs).subperm fun a ha => List.mem_eraseDups.1 ha
      exact this.length_le
    rw [num.length] at h1; exact h1
  have hfit : ∀ p ≤ (allSides rows els).length, t.Holds (p : Int) ∧ Idx p := fun p hp => hn p (Nat.le_trans hp hall)
  have hrefs := refs_lt num
  have hpts : ∀ p ∈ (sidesOf (allSides rows els) vs).flatten, t.Holds (p : Int) ∧ Idx p := by
    intro p hpm
    obtain ⟨f, hf, hpf⟩ := List.mem_flatten.1 hpm
    obtain ⟨el, hel, row, hr, h1, h2⟩ := hlists.sound f hf
    obtain ⟨i, hi', e⟩ := List.getElem_of_mem hpf
    have hir : i < row.length := by rw [← h1]; exact hi'
    obtain ⟨q, q1, q2⟩ := h2 i _ (List.getElem?_eq_getElem hir)
    rw [List.getElem?_eq_getElem hi', e] at q2
    cases q2
    exact hp p (List.mem_flatten.2 ⟨el, hel, List.mem_of_getElem? q1⟩)
  have hstarts : ∀ p ∈ starts (sidesOf (allSides rows els) vs), t.Holds (p : Int) ∧ Idx p := by
    intro p hpm
    refine hn p (Nat.le_trans (starts_le _ p hpm) (Nat.le_trans ?_ hN))
    rw [flatten_fixed _ w hT, ← hcount]
    exact Nat.mul_le_mul_right _ hcl
  have hreflen : (refsOf vs).length = (allSides rows els).length := by rw [refsOf_length num, allSides_length]
  have hup := childToParent_ok (downOf rows els vs) count (by rw [hflat]; exact hrefs) pc (by rw [hflat]; exact hdata) hpairs
  obtain ⟨de, d1, d2, d3⟩ := sideNode_cells (F := F) cname sname t _ hw hT hpts
  have hdl : (downOf rows els vs).length = els.length := hdown.length
  have hdlens : (downOf rows els vs).map (·.length) = rowCounts rows els := chunks_lengths _ _ (refsOf_length num)
  have hulen : (ups (downOf rows els vs) count).flatten.length = (allSides rows els).length := by
    rw [ups_flatten_length _ _ (by rw [hflat]; exact hrefs), hflat, hreflen]
  refine ⟨sideNode cname sname t (sidesOf (allSides rows els) vs), _, de,
    sidesOf (allSides rows els) vs, downOf rows els vs, ups (downOf rows els vs) count,
    ?_, hup, ?_, rfl, rfl, d1, d2, ⟨_, d3, hstarts⟩, hlists, ?_, hdown, firstUse num hr, ?_, ?_⟩
  · rw [hcount, sideTopo_eq cname sname w _ _ hT, sideNode_length cname sname int64 _ hw hT]
  · rw [hcount, sideTopo_eq cname sname w _ _ hT,
      convertTopology_ok A cname sname _ _ (fun p hp => (hpts p hp).1) (fun p hp => (hstarts p hp).1)]
  · have := dimMap_ok (F := F) t (downOf rows els vs) pc (by rw [hflat]; exact hdata)
      (by rw [hdl, hdlens]; exact hsz) (by rw [hdl]; exact hof) (fun p hp => hfit p (by
        rw [hflat] at hp; exact Nat.le_trans (Nat.le_of_lt (hrefs p hp)) hcl))
      (fun p hp => hfit p (by have := sum_lengths_le _ p hp; rw [hflat, hreflen] at this; exact this))
      (fun p hp => hfit p (by have := starts_le _ p hp; rw [hflat, hreflen] at this; exact this))
    rw [hdl] at this; exact this
  · have hul : (ups (downOf rows els vs) count).length = count := by simp [ups]
    have := dimMap_ok (F := F) t (ups (downOf rows els vs) count) ⟨ints (ups (downOf rows els vs) count).flatten,
      ints ((ups (downOf rows els vs) count).map (·.length)), ints (starts (ups (downOf rows els vs) count)), 1⟩ rfl
      (by
        by_cases hnil : ints ((ups (downOf rows els vs) count).map (·.length)) = []
        · rw [if_pos hnil, hnil]
          have : (ups (downOf rows els vs) count) = [] := by simpa [ints] using hnil
          rw [this]; rfl
        · rw [if_neg hnil])
      (by
        by_cases hnil : ints (starts (ups (downOf rows els vs) count)) = []
        · rw [if_pos hnil, hnil]
          have : (ups (downOf rows els vs) count).length = 0 := by rw [← starts_length]; simpa [ints] using congrArg List.length hnil
          rw [this]; rfl
        · rw [if_neg hnil])
      (fun p hp => hn p (by
        obtain ⟨l, hl', hpl⟩ := List.mem_flatten.1 hp
        obtain ⟨j, _, rfl⟩ := List.mem_map.1 hl'
        have := mem_upOf_lt _ _ _ hpl
        rw [hdl] at this
        exact Nat.le_trans (Nat.le_of_lt this) hel))
      (fun p hp => hfit p (by have := sum_lengths_le _ p hp; rw [hulen] at this; exact this))
      (fun p hp => hfit p (by have := starts_le _ p hp; rw [hulen] at this; exact this))
    rw [hul] at this; exact this
  · rw [← hcount]; exact ups_mapsUp _ _

end Conduit.Mesh.Meta
