import Verif.Lemmas.TopoMeta4
import Verif.Model.TopoPoly
/-
Lemmas on the lines of polygons.
-/
namespace Conduit.Mesh.Meta
variable {F : Type}

theorem fold_run {α β : Type} (f : β → List α → Res (List α)) (ws : β → List (Int × α)) (l : List β)
    (h : ∀ d ∈ l, ∀ a, f d a = run (ws d) a) (arr : List α) :
    l.foldlM (fun a d => f d a) arr = run (l.flatMap ws) arr := by
  induction l generalizing arr with
  | nil => rfl
  | cons d l ih =>
    rw [List.foldlM_cons, h d (by simp), List.flatMap_cons, run_append]
    cases run (ws d) arr with
    | ok x => rw [Res.bind_ok, Res.bind_ok]; exact ih (fun e he => h e (by simp [he])) x
    | error => rfl
    | ub => rfl

theorem ring_rows (el : List Nat) : ∀ row ∈ ring el, row.length = 2 ∧ ∀ i ∈ row, i < el.length := by
  intro row hrow
  obtain ⟨i, hi, rfl⟩ := List.mem_map.1 hrow
  rw [List.mem_range] at hi
  refine ⟨rfl, ?_⟩
  intro j hj
  simp only [List.mem_cons, List.not_mem_nil, or_false] at hj
  rcases hj with rfl | rfl
  · exact hi
  · exact Nat.mod_lt _ (by omega)

theorem edgeLabel_eq (a b : Nat) : edgeLabel (a : Int) (b : Int) = elementHash [a, b] := by
  unfold edgeLabel elementHash
  by_cases h : (a : Int) > (b : Int)
  · have : b < a := by omega
    simp [this, sortBy, insertBy, intLt]
  · have : ¬ b < a := by omega
    simp [this, sortBy, insertBy, intLt]

/-- The entry of a line. -/
def edgeOf (p : Nat) (f : List Nat) : Edge := ⟨elementHash f, p, ((f.getD 0 0 : Nat) : Int), ((f.getD 1 0 : Nat) : Int)⟩

theorem polygonEdges_run (el : List Nat) (o : Nat) (arr : List Edge) :
    polygonEdges (ints el) (el.length : Int) (o : Int) arr =
      run ((List.range el.length).map fun i => (((o + i : Nat) : Int), edgeOf (o + i) (cornersAt el [i, (i + 1) % el.length]))) arr := by
  unfold polygonEdges
  rw [forTo_run _ _ (fun i => [(((o + i : Nat) : Int), edgeOf (o + i) (cornersAt el [i, (i + 1) % el.length]))])]
  · rw [Int.toNat_natCast, List.map_eq_flatMap]
  · intro i hi a
    rw [Int.toNat_natCast] at hi
    have hn : (i + 1) % el.length < el.length := Nat.mod_lt _ (by omega)
    have e1 : pick (ints el) (i : Int) = .ok ((el[i] : Nat) : Int) := pick_map_nat _ _ _ (List.getElem?_eq_getElem hi)
    have e2 : pick (ints el) (((i : Int) + 1).tmod (el.length : Int)) = .ok ((el[(i + 1) % el.length] : Nat) : Int) := by
      have : ((i : Int) + 1).tmod (el.length : Int) = (((i + 1) % el.length : Nat) : Int) := by
        rw [show (i : Int) + 1 = ((i + 1 : Nat) : Int) from by push_cast; rfl]
        exact (Int.ofNat_tmod _ _).symm
      rw [this]; exact pick_map_nat _ _ _ (List.getElem?_eq_getElem hn)
    simp only [e1, e2, Res.bind_ok, edgeLabel_eq]
    rw [run_cons, show (o : Int) + (i : Int) = ((o + i : Nat) : Int) from by push_cast; rfl, Int.toNat_natCast]
    have hc : cornersAt el [i, (i + 1) % el.length] = [el[i], el[(i + 1) % el.length]] := by simp [cornersAt, hi, hn]
    rw [hc]
    simp only [edgeOf, List.getD_cons_zero, List.getD_cons_succ]
    cases put a ((o + i : Nat) : Int) ⟨elementHash [el[i], el[(i + 1) % el.length]], o + i, ((el[i] : Nat) : Int),
      ((el[(i + 1) % el.length] : Nat) : Int)⟩ <;> rfl

theorem polygonPoints_ok {els : List (List Nat)} {c : Nat} {el : List Nat} (hc : els[c]? = some el) (h32 : el.length ≤ 32) :
    polygonPoints (ints els.flatten) (el.length : Int) (((els.take c).flatten.length : Nat) : Int) = .ok (ints el) := by
  unfold polygonPoints
  rw [if_neg (by omega), Int.toNat_natCast, mapM_ok_map _ (fun i : Nat => ((el.getD i 0 : Nat) : Int))]
  · rw [show ((List.range el.length).map fun i : Nat => ((el.getD i 0 : Nat) : Int)) = ints el from
      range_getD el 0 fun p => (p : Int)]
  · intro i hi
    have hi' : i < el.length := by simpa using hi
    have hp := flatten_at els c el hc i el[i] (List.getElem?_eq_getElem hi')
    rw [show (((els.take c).flatten.length : Nat) : Int) + (i : Int) = (((els.take c).flatten.length + i : Nat) : Int) from by
      push_cast; rfl, pick_map_nat _ _ _ hp]
    simp [hi']

theorem allSides_ring_length (els : List (List Nat)) : (allSides ring els).length = els.flatten.length := by
  unfold allSides
  rw [List.length_flatMap, List.length_flatten]
  congr 1
  apply List.map_congr_left
  intro el _
  simp [ring]

theorem sum_ints (l : List Nat) : (ints l).sum = ((l.sum : Nat) : Int) := by
  induction l with
  | nil => rfl
  | cons a l ih => rw [ints, List.map_cons, List.sum_cons, List.sum_cons, ← ints, ih]; push_cast; rfl

theorem allEdges_ok {els : List (List Nat)} (h32 : ∀ el ∈ els, el.length ≤ 32) :
    allEdges (ints (els.map (·.length))) (ints (starts els)) (ints els.flatten) =
      .ok ((List.range (allSides ring els).length).map fun p => edgeOf p ((allSides ring els).getD p [])) := by
  unfold allEdges
  rw [sum_ints, if_neg (by omega), Int.toNat_natCast, ← List.length_flatten, ← allSides_ring_length]
  have hz : (ints (els.map (·.length))).zipIdx = els.zipIdx.map fun p => ((p.1.length : Int), p.2) := by
    rw [ints, List.map_map, List.zipIdx_map]; rfl
  rw [hz, List.foldlM_map, fold_run (fun (p : List Nat × Nat) arr => do
    let off ← pick (ints (starts els)) ((p.2 : Nat) : Int)
    let pts ← polygonPoints (ints els.flatten) (p.1.length : Int) off
    polygonEdges pts (p.1.length : Int) off arr) (fun p => (List.range p.1.length).map fun i =>
      ((((els.take p.2).flatten.length + i : Nat) : Int), edgeOf ((els.take p.2).flatten.length + i)
        (cornersAt p.1 [i, (i + 1) % p.1.length])))]
  · have := run_all (fun p => edgeOf p ((allSides ring els).getD p [])) (els.zipIdx.flatMap fun p => (List.range p.1.length).map fun i =>
      ((((els.take p.2).flatten.length + i : Nat) : Int), edgeOf ((els.take p.2).flatten.length + i)
        (cornersAt p.1 [i, (i + 1) % p.1.length]))) (List.replicate (allSides ring els).length (⟨0, 0, 0, 0⟩ : Edge)) ?_ ?_
    · rw [this, List.length_replicate]
    · intro w hw
      obtain ⟨⟨el, c⟩, hp, hx⟩ := List.mem_flatMap.1 hw
      obtain ⟨i, hi, rfl⟩ := List.mem_map.1 hx
      have hc : els[c]? = some el := by simpa [List.mem_zipIdx_iff_getElem?] using hp
      have hi' : i < el.length := by simpa using hi
      have hrow : (ring el)[i]? = some [i, (i + 1) % el.length] := by
        rw [ring, List.getElem?_map, List.getElem?_range hi']; rfl
      have hs := allSides_get ring els c i el _ hc hrow
      rw [allSides_ring_length] at hs
      have hlt := (List.getElem?_eq_some_iff.1 hs).1
      refine ⟨by simp only; omega, by rw [List.length_replicate]; simp only; omega, ?_⟩
      simp only [Int.toNat_natCast]
      rw [List.getD_eq_getElem?_getD, hs]; rfl
    · intro p hp
      rw [List.length_replicate] at hp
      obtain ⟨c, i, el, row, hc, hi, e⟩ := allSides_find ring els p hp
      have hi' : i < el.length := by
        have := (List.getElem?_eq_some_iff.1 hi).1
        simpa [ring] using this
      rw [allSides_ring_length] at e
      rw [e, List.mem_map]
      refine ⟨((((els.take c).flatten.length + i : Nat) : Int), edgeOf ((els.take c).flatten.length + i)
        (cornersAt el [i, (i + 1) % el.length])), ?_, rfl⟩
      refine List.mem_flatMap.2 ⟨(el, c), by simpa [List.mem_zipIdx_iff_getElem?] using hc, ?_⟩
      exact List.mem_map.2 ⟨i, by simpa using hi', rfl⟩
  · rintro ⟨el, c⟩ hp arr
    have hc : els[c]? = some el := by simpa [List.mem_zipIdx_iff_getElem?] using hp
    have hcl : c < els.length := (List.getElem?_eq_some_iff.1 hc).1
    have hst : (starts els)[c]? = some (els.take c).flatten.length := by
      unfold starts; rw [List.getElem?_map, List.getElem?_range hcl]; rfl
    simp only
    rw [pick_map_nat _ _ _ hst, Res.bind_ok, polygonPoints_ok hc (h32 el (List.mem_of_getElem? hc)), Res.bind_ok, polygonEdges_run]

theorem polygonsToLines_ok {els : List (List Nat)} (h32 : ∀ el ∈ els, el.length ≤ 32) :
    ∃ vs count, Numbering (allSides ring els) vs count ∧
      polygonsToLines (ints (els.map (·.length))) (ints (starts els)) (ints els.flatten) =
        .ok ⟨ints (sidesOf (allSides ring els) vs).flatten, ints (refsOf vs), count⟩ := by
  unfold polygonsToLines
  rw [allEdges_ok h32, Res.bind_ok]
  have hS : ∀ f ∈ allSides ring els, f.length = 2 := by
    intro f hf
    obtain ⟨el, _, hx⟩ := List.mem_flatMap.1 hf
    obtain ⟨row, hrow, rfl⟩ := List.mem_map.1 hx
    rw [cornersAt, List.length_map]; exact (ring_rows el row hrow).1
  have hlab : (((List.range (allSides ring els).length).map fun p => edgeOf p ((allSides ring els).getD p [])).map
      fun x => (x.label, x.place)) = ((allSides ring els).map elementHash).zipIdx := by
    apply List.ext_getElem?
    intro i
    rw [List.getElem?_map, List.getElem?_map, List.getElem?_zipIdx, List.getElem?_map]
    by_cases hi : i < (allSides ring els).length
    · rw [List.getElem?_range hi, List.getElem?_eq_getElem hi]
      simp [edgeOf, hi]
    · rw [List.getElem?_eq_none (by simpa using hi), List.getElem?_eq_none (by simpa using hi)]; rfl
  simp only
  rw [hlab]
  obtain ⟨vs, count, h1, _, h3⟩ := emit_sides (allSides ring els) (fun ee => do
    let x ← pick ((List.range (allSides ring els).length).map fun p => edgeOf p ((allSides ring els).getD p [])) (ee : Int)
    .ok [x.fst, x.snd]) (by
      intro ef hef
      rw [pick_nat _ _ (edgeOf ef ((allSides ring els).getD ef [])) (by rw [List.getElem?_map, List.getElem?_range hef]; rfl), Res.bind_ok]
      have h2 := hS ((allSides ring els).getD ef []) (by
        rw [List.getD_eq_getElem?_getD, List.getElem?_eq_getElem hef]; exact List.getElem_mem hef)
      generalize (allSides ring els).getD ef [] = f at h2
      match f, h2 with
      | [a, b], _ => rfl)
  exact ⟨vs, count, h1, h3⟩

theorem convLeaf_ints (l : List Nat) (h : ∀ p ∈ l, Idx p) (t' : IntTy) :
    (convLeaf int64 (.ints t' (ints l) : BNode F)) = .ints int64 (ints l) :=
  convLeaf_holds _ fun p hp => idx_holds (h p hp)

theorem copyTopology_poly (A : Arith F) {topo e : BNode F} {els : List (List Nat)} (h : Cells topo e els)
    (hs : e.get (chars! "shape") = .ok (.str (chars! "polygonal")))
    (ho : e.hasChild (chars! "offsets") = false ∨ NatLeaf e (chars! "offsets") (starts els)) (hn : Idx els.flatten.length) (cname : Str) :
    ∃ top te, copyTopology A topo cname int64 = .ok top ∧ topoLength top = .ok els.length ∧ top.get (chars! "elements") = .ok te ∧
      te.get (chars! "sizes") = .ok (.ints int64 (ints (els.map (·.length)))) ∧
      te.get (chars! "offsets") = .ok (.ints int64 (ints (starts els))) := by
  obtain ⟨tc, hc, hch⟩ := h.conn
  obtain ⟨tz, hz, hzh⟩ : NatLeaf e (chars! "sizes") (els.map (·.length)) := by
    rcases h.shape with ⟨s, k, hk, hs', _⟩ | ⟨_, hz⟩
    · rw [hs] at hs'
      simp only [Res.ok.injEq, BNode.str.injEq] at hs'
      exact absurd hs'.symm (fixed_shape hk).2.2.1
    · exact hz
  have hconn := convLeaf_ints (F := F) els.flatten (fun p hp => (hch p hp).2) tc
  have hsz := convLeaf_ints (F := F) (els.map (·.length)) (fun p hp => (hzh p hp).2) tz
  have hst : ∀ p ∈ starts els, Idx p := fun p hp => Nat.lt_of_le_of_lt (starts_le els p hp) hn
  have hlen : ∀ (els2 top : BNode F), els2.get (chars! "sizes") = .ok (.ints int64 (ints (els.map (·.length)))) →
      top.get (chars! "elements") = .ok els2 → topoLength top = .ok els.length := by
    intro els2 top h1 h2
    unfold topoLength
    rw [h2, Res.bind_ok, (hasChild_iff_get _ _).2 ⟨_, h1⟩]
    simp only [if_true]
    rw [h1, Res.bind_ok]
    simp [BNode.numElements, ints]
  unfold copyTopology
  rw [h.elements, Res.bind_ok, hs, Res.bind_ok, asString_str, Res.bind_ok]
  rcases ho with ho | ⟨t', ho, _⟩
  · have ho' := get_error_of_not e _ ho
    have hkeys : copyKeys int64 e [chars! "connectivity", chars! "sizes", chars! "offsets"] =
        [(chars! "connectivity", .ints int64 (ints els.flatten)), (chars! "sizes", .ints int64 (ints (els.map (·.length))))] := by
      simp only [copyKeys, List.filterMap_cons, hc, hz, ho', List.filterMap_nil]
      rw [hconn, hsz]
    simp only [hkeys]
    rw [if_neg (by intro hh; exact Bool.noConfusion (show false = true from hh))]
    have hbase : Cells (.obj [(chars! "type", .str (chars! "unstructured")), (chars! "coordset", .str cname), (chars! "elements",
        .obj [(chars! "shape", .str (chars! "polygonal")), (chars! "connectivity", .ints int64 (ints els.flatten)),
          (chars! "sizes", .ints int64 (ints (els.map (·.length))))])] : BNode F)
        (.obj [(chars! "shape", .str (chars! "polygonal")), (chars! "connectivity", .ints int64 (ints els.flatten)),
          (chars! "sizes", .ints int64 (ints (els.map (·.length))))]) els :=
      ⟨rfl, rfl, rfl, ⟨int64, rfl, fun p hp => ⟨idx_holds (hch p hp).2, (hch p hp).2⟩⟩,
        .inr ⟨rfl, ⟨int64, rfl, fun p hp => ⟨idx_holds (hzh p hp).2, (hzh p hp).2⟩⟩⟩⟩
    have hw : HasLeaf (.obj [(chars! "type", .str (chars! "unstructured")), (chars! "coordset", .str cname), (chars! "elements",
        .obj [(chars! "shape", .str (chars! "polygonal")), (chars! "connectivity", .ints int64 (ints els.flatten)),
          (chars! "sizes", .ints int64 (ints (els.map (·.length))))])] : BNode F) (.i ⟨true, .w64⟩) := by
      refine .obj _ (chars! "elements") _ _ (by simp; rfl) ?_
      exact .obj _ (chars! "connectivity") (.ints int64 (ints els.flatten)) _ (by simp) (.leaf _ _ rfl)
    unfold generateOffsets1
    rw [generateOffsets_cells A hbase (.inl rfl) (fun p hp => C79_widest_64 _ true hw p (hst p hp))]
    refine ⟨_, _, rfl, hlen _ _ ?_ (get_setChild_same _ _ _), get_setChild_same _ _ _, ?_, ?_⟩
    · rw [get_setChild_other _ _ _ _ (by decide)]; rfl
    · rw [get_setChild_other _ _ _ _ (by decide)]; rfl
    · rw [get_setChild_same]
      exact congrArg Res.ok (convLeaf_ints (starts els) hst _)
  · have hoff := convLeaf_ints (F := F) (starts els) hst t'
    have hkeys : copyKeys int64 e [chars! "connectivity", chars! "sizes", chars! "offsets"] =
        [(chars! "connectivity", .ints int64 (ints els.flatten)), (chars! "sizes", .ints int64 (ints (els.map (·.length)))),
          (chars! "offsets", .ints int64 (ints (starts els)))] := by
      simp only [copyKeys, List.filterMap_cons, hc, hz, ho, List.filterMap_nil]
      rw [hconn, hsz, hoff]
    simp only [hkeys]
    rw [if_pos (show BNode.hasChild _ _ = true from rfl)]
    exact ⟨_, _, rfl, hlen _ _ rfl rfl, rfl, rfl, rfl⟩

end Conduit.Mesh.Meta
