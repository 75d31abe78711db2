import Verif.Lemmas.MeshPoints
import Verif.Props.Mesh
/-
C79: the offsets of the elements of an unstructured topology and the points of an element
(`topology::unstructured::generate_offsets_inline`, `generate_offsets`, `points`).
-/
namespace Conduit.Mesh
variable {F : Type}

theorem C79_widest_64 (topo : BNode F) (sg : Bool) (h : HasLeaf topo (.i ⟨sg, .w64⟩)) (p : Nat) (hp : Idx p) :
    (widestInt topo).Holds (p : Int) := by
  obtain ⟨h1, h2, _, _⟩ := findWidest_spec topo (.i int32) [.i uint32]
  have hc : Counts [.i int32, .i uint32] (.i ⟨sg, .w64⟩) := by
    cases sg
    · exact ⟨.i uint32, by simp, rfl⟩
    · exact ⟨.i int32, by simp, rfl⟩
  have hb := h2 _ h hc
  have hcls : Counts [.i int32, .i uint32] (findWidest topo (.i int32) [.i uint32]) := by
    rcases h1 with h1 | h1
    · rw [h1]; exact ⟨.i int32, by simp, rfl⟩
    · exact h1.2
  unfold widestInt
  generalize findWidest topo (.i int32) [.i uint32] = u at *
  unfold Idx at hp
  cases u with
  | f w =>
    obtain ⟨d, hd, hs⟩ := hcls
    simp only [List.mem_cons, List.mem_nil_iff, or_false] at hd
    rcases hd with rfl | rfl <;> simp [sameClass] at hs
  | s =>
    obtain ⟨d, hd, hs⟩ := hcls
    simp only [List.mem_cons, List.mem_nil_iff, or_false] at hd
    rcases hd with rfl | rfl <;> simp [sameClass] at hs
  | i t =>
    obtain ⟨s, w⟩ := t
    cases sg <;> cases s <;> cases w <;> simp only [ETy.bytes, IntTy.Holds] at * <;> omega

/-! ### offsets -/

/-- The offsets that are generated say where each element begins, as far as the integer type chosen for them holds
    the numbers; nothing else of the topology changes. -/
theorem C79_offsets_partial (A : Arith F) (topo e : BNode F) (els : List (List Nat)) (h : Cells topo e els)
    (ho : NoOffsets e) (hf : ∀ p ∈ starts els, (widestInt topo).Holds (p : Int)) (hi : Idx els.flatten.length) :
    ∃ topo' e', generateOffsetsInline A topo = .ok topo' ∧ topo'.get (chars! "elements") = .ok e' ∧
      NatLeaf e' (chars! "offsets") (starts els) ∧
      (∀ name, name ≠ chars! "offsets" → e'.get name = e.get name) ∧
      ∀ name, name ≠ chars! "elements" → topo'.get name = topo.get name :=
  ⟨_, _, inline_cells A h ho hf, get_setChild_same _ _ _,
    ⟨widestInt topo, get_setChild_same _ _ _, fun p hp =>
      ⟨hf p hp, Nat.lt_of_le_of_lt (starts_le els p hp) hi⟩⟩,
    fun _ hn => get_setChild_other _ _ _ _ hn, fun _ hn => get_setChild_other _ _ _ _ hn⟩

/-- With connectivity (or any other integer leaf) of 64 bits they always do. -/
theorem C79_offsets_64 (A : Arith F) (topo e : BNode F) (els : List (List Nat)) (h : Cells topo e els) (ho : NoOffsets e)
    (sg : Bool) (hl : HasLeaf topo (.i ⟨sg, .w64⟩)) (hi : Idx els.flatten.length) :
    ∃ topo' e', generateOffsetsInline A topo = .ok topo' ∧ topo'.get (chars! "elements") = .ok e' ∧
      NatLeaf e' (chars! "offsets") (starts els) ∧
      (∀ name, name ≠ chars! "offsets" → e'.get name = e.get name) ∧
      ∀ name, name ≠ chars! "elements" → topo'.get name = topo.get name :=
  C79_offsets_partial A topo e els h ho (fun p hp => C79_widest_64 topo sg hl p
    (Nat.lt_of_le_of_lt (starts_le els p hp) hi)) hi

/-- Offsets that are there are kept. -/
theorem C79_offsets_kept (A : Arith F) (topo e : BNode F) (els : List (List Nat)) (h : OffsetCells topo e els) :
    generateOffsetsInline A topo = .ok topo := inline_given A h

/-- `generate_offsets(topo, dest)` gives the same offsets without changing the topology. -/
theorem C79_generate_partial (A : Arith F) (topo e : BNode F) (els : List (List Nat)) (h : Cells topo e els)
    (ho : NoOffsets e) (hf : ∀ p ∈ starts els, (widestInt topo).Holds (p : Int)) (dest : BNode F) :
    ∃ t : IntTy, generateOffsets1 A topo dest = .ok (.ints t ((starts els).map fun p : Nat => (p : Int))) ∧
      ∀ p ∈ starts els, t.Holds (p : Int) := by
  refine ⟨widestInt topo, ?_, hf⟩
  unfold generateOffsets1
  rw [generateOffsets_cells A h ho hf]
  rfl

/-- Offsets that are there are handed out as they are. -/
theorem C79_generate_kept (A : Arith F) (topo e off : BNode F) (els : List (List Nat)) (h : OffsetCells topo e els)
    (hs : e.hasChild (chars! "stream") = false) (ho : e.get (chars! "offsets") = .ok off) (dest : BNode F) :
    generateOffsets1 A topo dest = .ok off := by
  obtain ⟨offs, conn, hoff, ⟨tc, hconn, _⟩, _⟩ := h.at_
  have hex := offsetsExist_leaf hoff
  have hget : e.getOrEmpty (chars! "offsets") = off := by unfold BNode.getOrEmpty; rw [ho]
  unfold generateOffsets1 generateOffsets
  rcases h.shape with ⟨s, k, hk, hsh, hl⟩ | ⟨hsh, hz⟩
  · obtain ⟨k0, n1, n2, d, hi⟩ := fixed_shape hk
    obtain ⟨e1, e2⟩ := shapeOfTopo_of h.elements hsh
    rw [e1, hi, Res.bind_ok, e2, Res.bind_ok, h.elements, Res.bind_ok, hs]
    simp only [Bool.false_eq_true, if_false]
    rw [hconn, Res.bind_ok, if_neg n1, hex]
    simp only [if_true, hget]
    rfl
  · obtain ⟨e1, e2⟩ := shapeOfTopo_of h.elements hsh
    rw [e1, shapeInit_polygonal, Res.bind_ok, e2, Res.bind_ok, h.elements, Res.bind_ok, hs]
    simp only [Bool.false_eq_true, if_false]
    rw [hconn, Res.bind_ok, if_neg (by decide), hex]
    simp only [if_true, hget]
    rfl

/-- The same for polyhedra, whose offsets are always of 64 bits: those of the elements and those of the faces, whichever
    are missing. -/
theorem C79_offsets_polyhedra (A : Arith F) (topo e s : BNode F) (cells faces : List (List Nat))
    (h : Polyhedra topo e s cells faces) :
    ∃ topo' e' s', generateOffsetsInline A topo = .ok topo' ∧ topo'.get (chars! "elements") = .ok e' ∧
      topo'.get (chars! "subelements") = .ok s' ∧ NatLeaf e' (chars! "offsets") (starts cells) ∧
      NatLeaf s' (chars! "offsets") (starts faces) ∧ NatLeaf e' (chars! "connectivity") cells.flatten ∧
      NatLeaf s' (chars! "connectivity") faces.flatten := by
  obtain ⟨topo', e', s', h1, h2, h3, _, h5, h6⟩ := inline_polyhedra A h
  exact ⟨topo', e', s', h1, h2, h3, h5.offsets, h6.offsets, h5.conn, h6.conn⟩

/-! ### points -/

/-- `points` lists the points of the element asked for, in the order of the connectivity; with `unique` each once,
    ascending. -/
theorem C79_points_partial (A : Arith F) (topo e : BNode F) (els : List (List Nat)) (h : Cells topo e els)
    (ho : NoOffsets e) (hf : ∀ p ∈ starts els, (widestInt topo).Holds (p : Int)) (hi : Idx els.flatten.length)
    (c : Nat) (el : List Nat) (hc : els[c]? = some el) :
    points A topo (c : Int) false = .ok (el.map fun p : Nat => (p : Int)) ∧
    ∃ r, points A topo (c : Int) true = .ok r ∧ ListsSet r (· ∈ el) := by
  have hw := withOffsets_cells h (t := widestInt topo) fun p hp =>
      ⟨hf p hp, Nat.lt_of_le_of_lt (starts_le els p hp) hi⟩
  obtain ⟨r, h1, h2⟩ := read_points A (inline_cells A h ho hf) hw c el hc false
  obtain ⟨r', h3, h4⟩ := read_points A (inline_cells A h ho hf) hw c el hc true
  refine ⟨?_, r', h3, h4⟩
  have : r = el.map fun p : Nat => (p : Int) := h2
  rw [h1, this]

theorem C79_points_64 (A : Arith F) (topo e : BNode F) (els : List (List Nat)) (h : Cells topo e els)
    (ho : NoOffsets e) (sg : Bool) (hl : HasLeaf topo (.i ⟨sg, .w64⟩)) (hi : Idx els.flatten.length)
    (c : Nat) (el : List Nat) (hc : els[c]? = some el) :
    points A topo (c : Int) false = .ok (el.map fun p : Nat => (p : Int)) ∧
    ∃ r, points A topo (c : Int) true = .ok r ∧ ListsSet r (· ∈ el) :=
  C79_points_partial A topo e els h ho (fun p hp => C79_widest_64 topo sg hl p
    (Nat.lt_of_le_of_lt (starts_le els p hp) hi)) hi c el hc

/-- The same with offsets that are there: wherever they point. -/
theorem C79_points_given (A : Arith F) (topo e : BNode F) (els : List (List Nat)) (h : OffsetCells topo e els)
    (c : Nat) (el : List Nat) (hc : els[c]? = some el) :
    points A topo (c : Int) false = .ok (el.map fun p : Nat => (p : Int)) ∧
    ∃ r, points A topo (c : Int) true = .ok r ∧ ListsSet r (· ∈ el) := by
  obtain ⟨r, h1, h2⟩ := read_points A (inline_given A h) h c el hc false
  obtain ⟨r', h3, h4⟩ := read_points A (inline_given A h) h c el hc true
  refine ⟨?_, r', h3, h4⟩
  have : r = el.map fun p : Nat => (p : Int) := h2
  rw [h1, this]

/-- For a polyhedron: exactly the points of its faces, each once, ascending. -/
theorem C79_points_polyhedra (A : Arith F) (topo e s : BNode F) (cells faces : List (List Nat))
    (h : Polyhedra topo e s cells faces) (c : Nat) (cell : List Nat) (hc : cells[c]? = some cell) (unique : Bool) :
    ∃ r, points A topo (c : Int) unique = .ok r ∧
      ListsSet r fun p => ∃ f ∈ cell, ∃ face, faces[f]? = some face ∧ p ∈ face :=
  read_polyhedron A h c cell hc unique

/-! ### examples -/

namespace PointsEx

def arr (t : IntTy) (l : List Nat) : BNode Int := .ints t (l.map fun p : Nat => (p : Int))

/-- A triangle, a quad and a pentagon. -/
def polys : List (List Nat) := [[0, 1, 2], [2, 1, 3, 4], [4, 3, 5, 6, 0]]

def polyElems : BNode Int := .obj [(chars! "shape", .str (chars! "polygonal")),
  (chars! "connectivity", arr int32 polys.flatten), (chars! "sizes", arr int8 (polys.map (·.length)))]

def polyTopo : BNode Int := .obj [(chars! "type", .str (chars! "unstructured")), (chars! "coordset", .str (chars! "c")),
  (chars! "elements", polyElems)]

theorem polyTopo_cells : Cells polyTopo polyElems polys where
  elements := rfl
  noStream := by decide +kernel
  noSub := by decide +kernel
  conn := ⟨int32, rfl, by unfold Idx; decide +kernel⟩
  shape := .inr ⟨rfl, int8, rfl, by unfold Idx; decide +kernel⟩

example : points MeshEx.arith polyTopo 2 false = .ok [4, 3, 5, 6, 0] ∧ points MeshEx.arith polyTopo 2 true = .ok [0, 3, 4, 5, 6] := by
  decide +kernel

theorem polyTopo_fits : NoOffsets polyElems ∧ (∀ p ∈ starts polys, (widestInt polyTopo).Holds (p : Int)) ∧ Idx polys.flatten.length :=
  ⟨.inl (by decide +kernel), by decide +kernel, by decide +kernel⟩

example : points MeshEx.arith polyTopo 2 false = .ok [4, 3, 5, 6, 0] :=
  (C79_points_partial MeshEx.arith polyTopo polyElems polys polyTopo_cells polyTopo_fits.1 polyTopo_fits.2.1
    polyTopo_fits.2.2 2 _ rfl).1

/-- Two triangles stored in the other order, with a gap. -/
def gapElems : BNode Int := .obj [(chars! "shape", .str (chars! "tri")), (chars! "connectivity", arr int32 [7, 8, 9, 0, 3, 1, 2]),
  (chars! "offsets", arr int32 [4, 0])]

def gapTopo : BNode Int := .obj [(chars! "type", .str (chars! "unstructured")), (chars! "elements", gapElems)]

theorem gapTopo_cells : OffsetCells gapTopo gapElems [[3, 1, 2], [7, 8, 9]] where
  elements := rfl
  noSub := by decide +kernel
  shape := .inl ⟨chars! "tri", 3, by simp [fixedShapes], rfl, by simp⟩
  at_ := ⟨[4, 0], [7, 8, 9, 0, 3, 1, 2], ⟨int32, rfl, by unfold Idx; decide +kernel⟩, ⟨int32, rfl, by unfold Idx; decide +kernel⟩, by
    intro c el hc
    match c with
    | 0 =>
      simp at hc; subst hc
      exact ⟨4, rfl, fun i p hp => by match i with | 0 => exact hp | 1 => exact hp | 2 => exact hp | _ + 3 => simp at hp⟩
    | 1 =>
      simp at hc; subst hc
      exact ⟨0, rfl, fun i p hp => by match i with | 0 => exact hp | 1 => exact hp | 2 => exact hp | _ + 3 => simp at hp⟩
    | _ + 2 => simp at hc⟩

example : points MeshEx.arith gapTopo 0 false = .ok [3, 1, 2] ∧ points MeshEx.arith gapTopo 0 true = .ok [1, 2, 3] := by
  decide +kernel

/-- Two tetrahedra with a common face. -/
def faces : List (List Nat) := [[0, 1, 2], [0, 1, 3], [1, 2, 3], [0, 2, 3], [1, 2, 4], [1, 4, 3], [2, 3, 4]]
def cells : List (List Nat) := [[0, 1, 2, 3], [2, 4, 5, 6]]

def polyhedraElems : BNode Int := .obj [(chars! "shape", .str (chars! "polyhedral")), (chars! "connectivity", arr int32 cells.flatten),
  (chars! "sizes", arr int32 (cells.map (·.length))), (chars! "offsets", arr int32 (starts cells))]

def polyhedraSub : BNode Int := .obj [(chars! "shape", .str (chars! "polygonal")), (chars! "connectivity", arr int32 faces.flatten),
  (chars! "sizes", arr int32 (faces.map (·.length)))]

def polyhedraTopo : BNode Int := .obj [(chars! "type", .str (chars! "unstructured")), (chars! "elements", polyhedraElems),
  (chars! "subelements", polyhedraSub)]

theorem polyhedraTopo_ok : Polyhedra polyhedraTopo polyhedraElems polyhedraSub cells faces where
  elements := rfl
  subelements := rfl
  shape := rfl
  cellGroups := ⟨⟨int32, rfl, by unfold Idx; decide +kernel⟩, ⟨int32, rfl, by unfold Idx; decide +kernel⟩,
    .inr ⟨int32, rfl, by unfold Idx; decide +kernel⟩, by decide +kernel, by decide +kernel, by decide +kernel⟩
  faceGroups := ⟨⟨int32, rfl, by unfold Idx; decide +kernel⟩, ⟨int32, rfl, by unfold Idx; decide +kernel⟩,
    .inl (.inl (by decide +kernel)), by decide +kernel, by decide +kernel, by decide +kernel⟩
  inRange := by decide +kernel

example : points MeshEx.arith polyhedraTopo 1 false = .ok [1, 2, 3, 4] := by decide +kernel

/-- Triangles with connectivity of type int8. -/
def manyTris (n : Nat) : List (List Nat) := List.replicate n [0, 1, 2]

def trisElems (n : Nat) : BNode Int := .obj [(chars! "shape", .str (chars! "tri")), (chars! "connectivity", arr int8 (manyTris n).flatten)]

def trisTopo (n : Nat) : BNode Int := .obj [(chars! "type", .str (chars! "unstructured")), (chars! "elements", trisElems n)]

theorem trisTopo_cells : Cells (trisTopo 44) (trisElems 44) (manyTris 44) where
  elements := rfl
  noStream := by decide +kernel
  noSub := by decide +kernel
  conn := ⟨int8, rfl, by
    intro p hp
    simp only [manyTris, List.mem_flatten, List.mem_replicate] at hp
    obtain ⟨l, ⟨_, rfl⟩, hp⟩ := hp
    revert p
    unfold Idx
    decide +kernel⟩
  shape := .inl ⟨chars! "tri", 3, by simp [fixedShapes], rfl, by simp [manyTris]⟩

end PointsEx

open PointsEx

/-- What is missing in `C79_offsets_partial` and `C79_points_partial`: the offsets get the type of the widest integer
    leaf, so 44 triangles on points numbered in int8 get offsets that wrap around at 128. -/
theorem C79_offsets_false : ∃ (topo e : BNode Int) (els : List (List Nat)), Cells topo e els ∧ NoOffsets e ∧
    Idx els.flatten.length ∧ ∃ l, (do
        let topo' ← generateOffsetsInline MeshEx.arith topo
        let e' ← topo'.get (chars! "elements")
        leafInts MeshEx.arith (← e'.get (chars! "offsets"))) = .ok l ∧
      l[43]? = some (-127) ∧ (starts els)[43]? = some 129 :=
  ⟨trisTopo 44, trisElems 44, manyTris 44, trisTopo_cells, .inl (by decide +kernel), by decide +kernel,
    (List.range 44).map fun s : Nat => int8.cast (s * 3), by decide +kernel, by decide +kernel, by decide +kernel⟩

/-- The points of such an element are then read in front of the connectivity. -/
theorem C79_points_false : ∃ (topo e : BNode Int) (els : List (List Nat)), Cells topo e els ∧ NoOffsets e ∧
    Idx els.flatten.length ∧ els[43]? = some [0, 1, 2] ∧ points MeshEx.arith topo 43 false = .ub :=
  ⟨trisTopo 44, trisElems 44, manyTris 44, trisTopo_cells, .inl (by decide +kernel), by decide +kernel, by decide +kernel,
    by decide +kernel⟩

/-- `generate_offsets(topo, dest)` hands out offsets of polyhedra only if those of the faces are there too: else the
    destination keeps what it had. -/
theorem C79_one_destination_false : ∃ (topo e s : BNode Int) (cells faces : List (List Nat)), Polyhedra topo e s cells faces ∧
    NatLeaf e (chars! "offsets") (starts cells) ∧ generateOffsets1 MeshEx.arith topo .empty = .ok .empty :=
  ⟨polyhedraTopo, polyhedraElems, polyhedraSub, PointsEx.cells, PointsEx.faces, polyhedraTopo_ok,
    ⟨int32, rfl, by unfold Idx; decide +kernel⟩, rfl⟩

end Conduit.Mesh
