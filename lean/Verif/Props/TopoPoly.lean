import Verif.Lemmas.TopoPoly
import Verif.Props.TopoMeta
/-
C83: the lines of polygons (`generate_lines`).
-/
namespace Conduit.Mesh
open Meta
variable {F : Type}

/-- The lines of the polygons of a topology: each line once, whatever the number of polygons that share it; each polygon is
    mapped to its lines, in order, and each line to its polygons.
    Not for all topologies: polygons may have no more than 32 points, offsets must be those of polygons one after the other,
    the hashes of different lines must differ, and the type of the arrays must hold the numbers. -/
theorem C83_lines_partial (A : Arith F) (topo e cset : BNode F) (els : List (List Nat)) (cname : Str)
    (h : Cells topo e els) (hs : e.get (chars! "shape") = .ok (.str (chars! "polygonal")))
    (ho : e.hasChild (chars! "offsets") = false ∨ NatLeaf e (chars! "offsets") (starts els))
    (h32 : ∀ el ∈ els, el.length ≤ 32) (hc : ¬ SidesCollide ring els)
    (hp : ∀ p ∈ els.flatten, (intType topo cset).Holds (p : Int))
    (hn : ∀ p ≤ els.length + 2 * els.flatten.length, (intType topo cset).Holds (p : Int) ∧ Idx p) :
    ∃ dest s2d d2s de lines down up, polygonLines A topo cset cname = .ok (dest, s2d, d2s) ∧
      dest.get (chars! "type") = .ok (.str (chars! "unstructured")) ∧ dest.get (chars! "coordset") = .ok (.str cname) ∧
      Cells dest de lines ∧ de.get (chars! "shape") = .ok (.str (chars! "line")) ∧ NatLeaf de (chars! "offsets") (starts lines) ∧
      ListsSides ring els lines ∧ ListsNode s2d down ∧ MapsDown ring els lines down ∧ FirstUse ring els lines down ∧
      ListsNode d2s up ∧ MapsUp down lines.length up := by
  have hi : Idx els.flatten.length := (hn _ (by omega)).2
  obtain ⟨_, sh2⟩ := shapeOfTopo_of h.elements hs
  obtain ⟨vc, c1, c2, _⟩ := h.conn.read A
  obtain ⟨top, te, t1, t2, t3, t4, t5⟩ := copyTopology_poly A h hs ho hi cname
  obtain ⟨vs, count, num, hemb⟩ := polygonsToLines_ok h32
  have hr : ∀ el ∈ els, ∀ row ∈ ring el, ∀ i ∈ row, i < el.length := fun el _ row hrow => (ring_rows el row hrow).2
  have hnc := noCollision_of hr hc
  have hrc : rowCounts ring els = els.map (·.length) := by
    unfold rowCounts
    apply List.map_congr_left
    intro el _
    simp [ring]
  have hreflen := refsOf_length num
  have hpairs : parentPairs ⟨ints (refsOf vs), ints (els.map (·.length)), ints (starts els), 1⟩ =
      .ok ((pairsOf (downOf ring els vs)).map fun p => ((p.1 : Int), (p.2 : Int))) := by
    rw [downOf, hrc]
    by_cases hne : els = []
    · subst hne
      have : refsOf vs = [] := by
        rw [hrc] at hreflen
        exact List.length_eq_zero_iff.1 hreflen
      rw [this]; rfl
    · exact parentPairs_sizes _ _ _ _ (by rw [hreflen, hrc]) (by simpa using hne)
  have hst : starts (downOf ring els vs) = starts els := by
    have hl : (downOf ring els vs).map (·.length) = els.map (·.length) := by rw [downOf, chunks_lengths _ _ hreflen, hrc]
    unfold starts
    rw [show (downOf ring els vs).length = els.length from by simpa using congrArg List.length hl]
    apply List.map_congr_left
    intro j _
    rw [List.length_flatten, List.length_flatten, List.map_take, List.map_take, hl]
  obtain ⟨dest, ua, de, sides, down, up, r1, r2, r3, r4⟩ := assembled A (t := intType topo cset) (cname := cname)
    (sname := chars! "line") (w := 2)
    (pc := ⟨ints (refsOf vs), ints (els.map (·.length)), ints (starts els), 1⟩)
    num hr hnc (by decide +kernel) (fun el _ row hx => (ring_rows el row hx).1) (fun p hm => by
      obtain ⟨_, _, hh⟩ := h.conn
      exact ⟨hp p hm, (hh p hm).2⟩) hn (by rw [allSides_ring_length]; omega) (by omega) rfl hpairs
      (by
        rw [hrc]
        by_cases hne : els = []
        · subst hne; rfl
        · rw [if_neg (by simpa [ints] using hne)])
      (by
        rw [hst]
        by_cases hne : els = []
        · subst hne; rfl
        · rw [if_neg (by
            intro hh
            have := congrArg List.length hh
            simp only [ints, List.length_map, starts_length, List.length_nil] at this
            exact hne (List.length_eq_zero_iff.1 this))])
  have hcz : (ints (els.map (·.length))).map int64.cast = ints (els.map (·.length)) :=
    map_cast_nat _ _ fun p hp => idx_holds (Nat.lt_of_le_of_lt (sum_lengths_le els p hp) hi)
  have hco : (ints (starts els)).map int64.cast = ints (starts els) :=
    map_cast_nat _ _ fun p hp => idx_holds (Nat.lt_of_le_of_lt (starts_le els p hp) hi)
  refine ⟨dest, _, _, de, sides, down, up, ?_, r4⟩
  unfold polygonLines
  rw [h.elements, Res.bind_ok, sh2, Res.bind_ok, if_neg (by simp), t1, Res.bind_ok, t3, Res.bind_ok, c1, Res.bind_ok, c2, Res.bind_ok,
    t4, Res.bind_ok]
  simp only [leafInts]
  rw [Res.bind_ok, t5, Res.bind_ok]
  simp only [leafInts]
  rw [Res.bind_ok, hcz, hco, hemb, Res.bind_ok, t2, Res.bind_ok]
  simp only
  rw [r1, Res.bind_ok, r2, Res.bind_ok, r3, Res.bind_ok]

/-! ### examples and counterexamples -/
namespace PolyEx

/-- Polygons with their sizes and offsets. -/
def elemsOf (t : IntTy) (els : List (List Nat)) (offs : List (Str × BNode Int)) : BNode Int :=
  .obj ([(chars! "shape", .str (chars! "polygonal")), (chars! "connectivity", PointsEx.arr t els.flatten),
    (chars! "sizes", PointsEx.arr t (els.map (·.length)))] ++ offs)
def topoOf (t : IntTy) (els : List (List Nat)) (offs : List (Str × BNode Int)) : BNode Int :=
  .obj [(chars! "type", .str (chars! "unstructured")), (chars! "elements", elemsOf t els offs)]

/-- A triangle, a pentagon and a quad. -/
def polys : List (List Nat) := [[0, 1, 2], [2, 1, 3, 4, 5], [5, 0, 2, 6]]

example : SidesEx.flat (polygonLines MeshEx.arith (topoOf int32 polys []) .empty (chars! "c")) =
    .ok [[0, 1, 1, 2, 2, 0, 1, 3, 3, 4, 4, 5, 5, 2, 5, 0, 2, 6, 6, 5], [0, 2, 4, 6, 8, 10, 12, 14, 16, 18],
      [0, 1, 2, 1, 3, 4, 5, 6, 7, 2, 8, 9], [3, 5, 4], [0, 3, 8],
      [0, 0, 1, 0, 2, 1, 1, 1, 1, 2, 2, 2], [1, 2, 2, 1, 1, 1, 1, 1, 1, 1], [0, 1, 3, 5, 6, 7, 8, 9, 10, 11]] := by decide +kernel

theorem polys_hash : ¬ SidesCollide ring polys := by
  rintro ⟨el1, h1, row1, r1, el2, h2, row2, r2, f, g, hf, hg, hp, hh⟩
  rw [side_cornersAt _ _ _ hf, side_cornersAt _ _ _ hg] at hp hh
  have : ∀ el1 ∈ polys, ∀ row1 ∈ ring el1, ∀ el2 ∈ polys, ∀ row2 ∈ ring el2,
      elementHash (cornersAt el1 row1) = elementHash (cornersAt el2 row2) → (cornersAt el1 row1).Perm (cornersAt el2 row2) := by
    decide +kernel
  exact hp (this el1 h1 row1 r1 el2 h2 row2 r2 hh)

/-- The hypotheses of `C83_lines_partial` are met, with offsets or without. -/
example (offs : List (Str × BNode Int)) (ho : offs = [] ∨ offs = [(chars! "offsets", PointsEx.arr int64 (starts polys))]) :
    ∃ dest s2d d2s de lines down up, polygonLines MeshEx.arith (topoOf int64 polys offs) .empty (chars! "c") = .ok (dest, s2d, d2s) ∧
      dest.get (chars! "type") = .ok (.str (chars! "unstructured")) ∧ dest.get (chars! "coordset") = .ok (.str (chars! "c")) ∧
      Cells dest de lines ∧ de.get (chars! "shape") = .ok (.str (chars! "line")) ∧ NatLeaf de (chars! "offsets") (starts lines) ∧
      ListsSides ring polys lines ∧ ListsNode s2d down ∧ MapsDown ring polys lines down ∧ FirstUse ring polys lines down ∧
      ListsNode d2s up ∧ MapsUp down lines.length up := by
  have hw : HasLeaf (topoOf int64 polys offs) (.i ⟨true, .w64⟩) :=
    .obj _ (chars! "elements") (elemsOf int64 polys offs) _ (by simp)
      (.obj _ (chars! "connectivity") (PointsEx.arr int64 polys.flatten) _ (by simp) (.leaf _ _ rfl))
  have hidx : ∀ p, p ≤ 100 → Idx p := fun p hp => by unfold Idx; omega
  have hcells : Cells (topoOf int64 polys offs) (elemsOf int64 polys offs) polys := by
    rcases ho with rfl | rfl
    · exact ⟨rfl, rfl, rfl, ⟨int64, rfl, by decide +kernel⟩, .inr ⟨rfl, ⟨int64, rfl, by decide +kernel⟩⟩⟩
    · exact ⟨rfl, rfl, rfl, ⟨int64, rfl, by decide +kernel⟩, .inr ⟨rfl, ⟨int64, rfl, by decide +kernel⟩⟩⟩
  exact C83_lines_partial MeshEx.arith _ _ .empty polys _ hcells rfl
    (by
      rcases ho with rfl | rfl
      · exact .inl rfl
      · exact .inr ⟨int64, rfl, by decide +kernel⟩) (by decide +kernel) polys_hash
    (fun p hp => C82_fits _ _ true hw p (hidx p (by
      have : ∀ p ∈ polys.flatten, p ≤ 100 := by decide +kernel
      exact this p hp)))
    (fun p hp => ⟨C82_fits _ _ true hw p (hidx p (Nat.le_trans hp (by decide +kernel))), hidx p (Nat.le_trans hp (by decide +kernel))⟩)

/-- A triangle after a number that is not used. -/
def gap : BNode Int := .obj [(chars! "type", .str (chars! "unstructured")), (chars! "elements",
  .obj [(chars! "shape", .str (chars! "polygonal")), (chars! "connectivity", PointsEx.arr int64 [9, 0, 1, 2]),
    (chars! "sizes", PointsEx.arr int64 [3]), (chars! "offsets", PointsEx.arr int64 [1])])]
end PolyEx

open PolyEx in
/-- A polygon of 33 points is undefined behaviour, whatever its points: there is room for 32. -/
theorem C83_large_false (A : Arith F) (topo e cset : BNode F) (el : List Nat) (cname : Str) (h : Cells topo e [el])
    (hs : e.get (chars! "shape") = .ok (.str (chars! "polygonal"))) (ho : e.hasChild (chars! "offsets") = false)
    (h33 : 32 < el.length) (hi : Idx el.length) : polygonLines A topo cset cname = .ub := by
  obtain ⟨_, sh2⟩ := shapeOfTopo_of h.elements hs
  obtain ⟨vc, c1, c2, _⟩ := h.conn.read A
  obtain ⟨top, te, t1, t2, t3, t4, t5⟩ := copyTopology_poly A h hs (.inl ho) (by simpa using hi) cname
  have hcz : (ints ([el].map (·.length))).map int64.cast = ints [el.length] :=
    map_cast_nat _ _ fun p hp => idx_holds (by simp at hp; subst hp; exact hi)
  have hco : (ints (starts [el])).map int64.cast = ints [0] :=
    map_cast_nat _ _ fun p hp => idx_holds (by simp [starts] at hp; subst hp; unfold Idx; omega)
  unfold polygonLines
  rw [h.elements, Res.bind_ok, sh2, Res.bind_ok, if_neg (by simp), t1, Res.bind_ok, t3, Res.bind_ok, c1, Res.bind_ok, c2, Res.bind_ok,
    t4, Res.bind_ok]
  simp only [leafInts]
  rw [Res.bind_ok, t5, Res.bind_ok]
  simp only [leafInts]
  rw [Res.bind_ok, hcz, hco]
  unfold polygonsToLines allEdges
  have hsum : ¬ (ints [el.length]).sum < 0 := by rw [sum_ints]; omega
  rw [if_neg hsum]
  have hp : polygonPoints (([el].flatten).map fun p : Nat => (p : Int)) (el.length : Int) 0 = .ub := by
    unfold polygonPoints
    rw [if_pos (by omega)]
  simp only [ints, List.map_cons, List.map_nil, List.zipIdx_cons, List.zipIdx_nil, List.foldlM_cons, List.foldlM_nil]
  rw [show pick [((0 : Nat) : Int)] ((0 : Nat) : Int) = .ok 0 from rfl, Res.bind_ok, hp]
  rfl

open PolyEx in
/-- Two polygons listed in the other order by their offsets: the lines are right and each polygon has its own, but the map
    from lines to polygons is that of the order of the points: line 0, of points 0 and 1, is given to polygon 0, which has the
    points 2, 1 and 3. -/
theorem C83_order_false :
    (SidesEx.flat (polygonLines MeshEx.arith (topoOf int64 [[0, 1, 2], [2, 1, 3]] [(chars! "offsets", PointsEx.arr int64 [3, 0])]) .empty
      (chars! "c"))).map' (fun l => l.drop 2) =
      .ok [[0, 1, 2, 1, 3, 4], [3, 3], [3, 0], [0, 0, 1, 0, 1, 1], [1, 2, 1, 1, 1], [0, 1, 3, 4, 5]] := by decide +kernel

open PolyEx in
/-- Offsets that leave a gap make lines be written past the end of an array. -/
theorem C83_gap_false : polygonLines MeshEx.arith gap .empty (chars! "c") = .ub := by
  have h : (polygonLines MeshEx.arith gap .empty (chars! "c")).map' (fun _ => ()) = .ub := by decide +kernel
  cases hh : polygonLines MeshEx.arith gap .empty (chars! "c") with
  | ok x => rw [hh] at h; cases h
  | error => rw [hh] at h; cases h
  | ub => rfl

open PolyEx in
/-- Two different lines with the same hash: one of them is missing. -/
theorem C83_collision_false : (SidesEx.flat (polygonLines MeshEx.arith (topoOf int64 SidesEx.far []) .empty (chars! "c"))).map'
      (fun l => (l.getD 0 [], l.getD 2 [])) = .ok ([0, 39508, 39508, 2864384, 2864384, 0, 1, 39508, 2878266, 1], [0, 1, 2, 3, 1, 4]) := by
  decide +kernel

end Conduit.Mesh
