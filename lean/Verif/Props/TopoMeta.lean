import Verif.Lemmas.TopoMeta4
import Verif.Props.MeshBuilder
/-
C82: the sides of elements (`generate_lines`, `generate_faces`).
-/
namespace Conduit.Mesh
open Meta
variable {F : Type}

theorem embedding_facts {s sname : Str} {table : List (List Nat)} (h : embedding s = some (sname, table)) :
    ∃ k w, (s, k) ∈ fixedShapes ∧ (sname, w) ∈ fixedShapes ∧ 0 < table.length ∧ (table.head?.map (·.length)).getD 0 = w ∧
      (∀ row ∈ table, row.length = w) ∧ ∀ row ∈ table, ∀ i ∈ row, i < k := by
  unfold embedding at h
  split at h
  · rename_i e; subst e; cases h; exact ⟨3, 2, by decide +kernel, by decide +kernel, by decide, by decide, by decide, by decide⟩
  split at h
  · rename_i e; subst e; cases h; exact ⟨4, 2, by decide +kernel, by decide +kernel, by decide, by decide, by decide, by decide⟩
  split at h
  · rename_i e; subst e; cases h; exact ⟨4, 3, by decide +kernel, by decide +kernel, by decide, by decide, by decide, by decide⟩
  split at h
  · rename_i e; subst e; cases h; exact ⟨8, 4, by decide +kernel, by decide +kernel, by decide, by decide, by decide, by decide⟩
  split at h
  · rename_i e; subst e; cases h; exact ⟨6, 3, by decide +kernel, by decide +kernel, by decide, by decide, by decide, by decide⟩
  split at h
  · rename_i e; subst e; cases h; exact ⟨5, 3, by decide +kernel, by decide +kernel, by decide, by decide, by decide, by decide⟩
  · cases h

/-- Two sides of elements that are told apart only by more than their hashes. -/
def SidesCollide (rows : List Nat → List (List Nat)) (els : List (List Nat)) : Prop :=
  ∃ el1 ∈ els, ∃ row1 ∈ rows el1, ∃ el2 ∈ els, ∃ row2 ∈ rows el2, ∃ f g, SideOf el1 row1 f ∧ SideOf el2 row2 g ∧ ¬ f.Perm g ∧
    elementHash f = elementHash g

theorem noCollision_of {rows : List Nat → List (List Nat)} {els : List (List Nat)}
    (hr : ∀ el ∈ els, ∀ row ∈ rows el, ∀ i ∈ row, i < el.length) (h : ¬ SidesCollide rows els) : NoCollision (allSides rows els) := by
  intro f hf g hg e
  by_contra hp
  obtain ⟨el1, h1, hx⟩ := List.mem_flatMap.1 hf
  obtain ⟨row1, r1, rfl⟩ := List.mem_map.1 hx
  obtain ⟨el2, h2, hy⟩ := List.mem_flatMap.1 hg
  obtain ⟨row2, r2, rfl⟩ := List.mem_map.1 hy
  exact h ⟨el1, h1, row1, r1, el2, h2, row2, r2, _, _,
    cornersAt_side _ _ fun c hc => hr el1 h1 _ r1 c hc,
    cornersAt_side _ _ fun c hc => hr el2 h2 _ r2 c hc, hp, e⟩

/-- The sides of the elements of a topology of triangles, quads, tets, hexes, wedges or pyramids: each side once, whatever
    the number of elements that share it; each element is mapped to its sides and each side to its elements.
    Not for all topologies: the hashes of different sides must differ, and the type of the arrays must hold the numbers. -/
theorem C82_sides_partial (A : Arith F) (topo e cset : BNode F) (els table : List (List Nat)) (s sname cname : Str)
    (h : Cells topo e els) (hz : e.hasChild (chars! "sizes") = false ∨ NatLeaf e (chars! "sizes") (els.map (·.length)))
    (hs : e.get (chars! "shape") = .ok (.str s)) (he : embedding s = some (sname, table))
    (hc : ¬ SidesCollide (fun _ => table) els)
    (hp : ∀ p ∈ els.flatten, (intType topo cset).Holds (p : Int))
    (hn : ∀ p ≤ els.length * table.flatten.length, (intType topo cset).Holds (p : Int) ∧ Idx p) (hi : Idx els.flatten.length) :
    ∃ dest s2d d2s de sides down up, generateSides A topo cset cname = .ok (dest, s2d, d2s) ∧
      dest.get (chars! "type") = .ok (.str (chars! "unstructured")) ∧ dest.get (chars! "coordset") = .ok (.str cname) ∧
      Cells dest de sides ∧ de.get (chars! "shape") = .ok (.str sname) ∧ NatLeaf de (chars! "offsets") (starts sides) ∧
      ListsSides (fun _ => table) els sides ∧ ListsNode s2d down ∧ MapsDown (fun _ => table) els sides down ∧
      FirstUse (fun _ => table) els sides down ∧ ListsNode d2s up ∧ MapsUp down sides.length up := by
  obtain ⟨k, w, hk, hw, ht, hhead, hrow, hcor⟩ := embedding_facts he
  have hl := cells_fixed h hk hs
  obtain ⟨k0, _, _, d, hinit⟩ := fixed_shape hk
  have w0 : 0 < w := (fixed_shape hw).1
  obtain ⟨sh1, sh2⟩ := shapeOfTopo_of h.elements hs
  obtain ⟨vc, c1, c2, _⟩ := h.conn.read A
  obtain ⟨top, t1, t2⟩ := copyTopology_length A h hz hk hs hi cname
  obtain ⟨vs, count, num, hemb⟩ := makeEmbedded_ok (table := table) k0 hl hcor
  have hr : ∀ el ∈ els, ∀ row ∈ (fun _ : List Nat => table) el, ∀ i ∈ row, i < el.length := by
    intro el hel row hrow i hi
    rw [hl el hel]; exact hcor row hrow i hi
  have hnc := noCollision_of hr hc
  have hrc : rowCounts (fun _ => table) els = List.replicate els.length table.length := by simp [rowCounts, List.map_const']
  have htf : table.flatten.length = table.length * w := flatten_fixed table w hrow
  have hreflen := refsOf_length num
  have hpairs : parentPairs ⟨ints (refsOf vs), [], [], (table.length : Int)⟩ =
      .ok ((pairsOf (downOf (fun _ => table) els vs)).map fun p => ((p.1 : Int), (p.2 : Int))) := by
    rw [downOf, hrc]
    exact parentPairs_fixed table.length els.length ht _ (by rw [hreflen, hrc])
  have hst : ints (starts (downOf (fun _ => table) els vs)) = (List.range els.length).map fun i : Nat => (i : Int) * (table.length : Int) := by
    have hdfix : ∀ js ∈ downOf (fun _ => table) els vs, js.length = table.length := by
      intro js hj
      have : js.length ∈ (downOf (fun _ => table) els vs).map (·.length) := List.mem_map_of_mem hj
      rw [downOf, chunks_lengths _ _ hreflen, hrc] at this
      exact (List.mem_replicate.1 this).2
    rw [starts_fixed _ _ hdfix, downOf, chunks_length, hrc, List.length_replicate, ints, List.map_map]
    apply List.map_congr_left
    intro i _
    simp
  obtain ⟨dest, ua, de, sides, down, up, r1, r2, r3, r4⟩ := assembled A (t := intType topo cset) (cname := cname)
    (pc := ⟨ints (refsOf vs), [], [], (table.length : Int)⟩)
    num hr hnc hw (fun _ _ row hx => hrow row hx) (fun p hm => by
      obtain ⟨_, _, hh⟩ := h.conn
      exact ⟨hp p hm, (hh p hm).2⟩) hn (by rw [allSides_fixed, htf, Nat.mul_assoc])
      (by rw [htf]; exact Nat.le_mul_of_pos_right _ (Nat.mul_pos ht w0)) rfl hpairs (by rw [hrc]; simp [ints]) (by rw [hst]; simp)
  refine ⟨dest, _, _, de, sides, down, up, ?_, r4⟩
  unfold generateSides
  rw [h.elements, Res.bind_ok, sh2, Res.bind_ok, sh1, hinit, Res.bind_ok]
  simp only [he, hhead]
  rw [t1, Res.bind_ok, c1, Res.bind_ok, c2, Res.bind_ok, Int.toNat_natCast, hemb, Res.bind_ok, t2, Res.bind_ok]
  simp only
  rw [r1, Res.bind_ok, r2, Res.bind_ok, r3, Res.bind_ok]

theorem C82_fits (topo cset : BNode F) (sg : Bool) (h : HasLeaf topo (.i ⟨sg, .w64⟩)) (p : Nat) (hp : Idx p) :
    (intType topo cset).Holds (p : Int) :=
  C79_widest_64 _ sg (.obj _ [] topo _ (by simp) h) p hp

/-- The faces of tets and hexes close up with one orientation. -/
theorem C82_oriented (s sname : Str) (table : List (List Nat)) (he : embedding s = some (sname, table))
    (hs : s = chars! "tet" ∨ s = chars! "hex") : Oriented table := by
  rcases hs with rfl | rfl
  · have : embedding (chars! "tet") = some (chars! "tri", [[0, 2, 1], [0, 1, 3], [0, 3, 2], [1, 2, 3]]) := by decide +kernel
    rw [this] at he; cases he; unfold Oriented; decide +kernel
  · have : embedding (chars! "hex") = some (chars! "quad", [[0, 3, 2, 1], [0, 1, 5, 4], [1, 2, 6, 5], [2, 3, 7, 6], [3, 0, 4, 7],
        [4, 5, 6, 7]]) := by decide +kernel
    rw [this] at he; cases he; unfold Oriented; decide +kernel

/-- The sides in the tables are the facets of the cells; those of wedges and pyramids are cut into triangles. -/
theorem C82_facets (s sname : Str) (table : List (List Nat)) (he : embedding s = some (sname, table)) :
    Covers table (facets s) ∧ (s = chars! "wedge" ∨ s = chars! "pyramid" ∨ ∀ f ∈ facets s, OneOf table f) := by
  unfold embedding at he
  split at he
  · rename_i e; subst e; cases he; unfold Covers OneOf; decide +kernel
  split at he
  · rename_i e; subst e; cases he; unfold Covers OneOf; decide +kernel
  split at he
  · rename_i e; subst e; cases he; unfold Covers OneOf; decide +kernel
  split at he
  · rename_i e; subst e; cases he; unfold Covers OneOf; decide +kernel
  split at he
  · rename_i e; subst e; cases he; unfold Covers OneOf; decide +kernel
  split at he
  · rename_i e; subst e; cases he; unfold Covers OneOf; decide +kernel
  · cases he

/-- The triangles of wedges and pyramids do not. -/
theorem C82_oriented_false : ¬ (∀ (s sname : Str) (table : List (List Nat)), embedding s = some (sname, table) →
    sname = chars! "tri" → Oriented table) ∧
    ∀ s, s = chars! "wedge" ∨ s = chars! "pyramid" → ∀ sname table, embedding s = some (sname, table) → ¬ Oriented table := by
  have hw : ∀ s, s = chars! "wedge" ∨ s = chars! "pyramid" → ∀ sname table, embedding s = some (sname, table) → ¬ Oriented table := by
    rintro s (rfl | rfl) sname table he
    · have : embedding (chars! "wedge") = some (chars! "tri", [[0, 1, 2], [0, 1, 3], [1, 3, 4], [1, 2, 4], [2, 4, 5], [2, 0, 5],
        [0, 5, 3], [3, 4, 5]]) := by decide +kernel
      rw [this] at he; cases he; unfold Oriented; decide +kernel
    · have : embedding (chars! "pyramid") = some (chars! "tri", [[0, 1, 2], [3, 2, 0], [0, 1, 4], [1, 2, 4], [2, 3, 4], [3, 0, 4]]) := by
        decide +kernel
      rw [this] at he; cases he; unfold Oriented; decide +kernel
  refine ⟨fun h => hw _ (.inl rfl) (chars! "tri") _ rfl (h (chars! "wedge") _ _ rfl rfl), hw⟩

/-! ### examples and counterexamples -/
namespace SidesEx

/-- Elements of a shape with numbers of a type. -/
def elemsOf (shape : Str) (t : IntTy) (els : List (List Nat)) : BNode Int :=
  .obj [(chars! "shape", .str shape), (chars! "connectivity", PointsEx.arr t els.flatten)]
def topoOf (shape : Str) (t : IntTy) (els : List (List Nat)) : BNode Int :=
  .obj [(chars! "type", .str (chars! "unstructured")), (chars! "elements", elemsOf shape t els)]

theorem topoOf_cells (shape : Str) (t : IntTy) (els : List (List Nat)) (k : Nat) (hk : (shape, k) ∈ fixedShapes)
    (hl : ∀ el ∈ els, el.length = k) (hh : ∀ p ∈ els.flatten, t.Holds (p : Int) ∧ Idx p) :
    Cells (topoOf shape t els) (elemsOf shape t els) els :=
  ⟨rfl, rfl, rfl, ⟨t, rfl, hh⟩, .inl ⟨shape, k, hk, rfl, hl⟩⟩

/-- The connectivity and offsets of the sides, and values, sizes and offsets of the two maps. -/
def flat (r : Res (BNode Int × BNode Int × BNode Int)) : Res (List (List Int)) := do
  let m ← r
  let e ← m.1.get (chars! "elements")
  let a ← [chars! "connectivity", chars! "offsets"].mapM fun k => do leafInts MeshEx.arith (← e.get k)
  let b ← [chars! "values", chars! "sizes", chars! "offsets"].mapM fun k => do leafInts MeshEx.arith (← m.2.1.get k)
  let c ← [chars! "values", chars! "sizes", chars! "offsets"].mapM fun k => do leafInts MeshEx.arith (← m.2.2.get k)
  .ok (a ++ b ++ c)

/-- Two triangles with a line in common. -/
def tris : List (List Nat) := [[0, 1, 2], [2, 1, 3]]
def lineTable : List (List Nat) := [[0, 1], [1, 2], [2, 0]]

example : flat (generateSides MeshEx.arith (topoOf (chars! "tri") int64 tris) .empty (chars! "c")) =
    .ok [[0, 1, 1, 2, 2, 0, 1, 3, 3, 2], [0, 2, 4, 6, 8], [0, 1, 2, 1, 3, 4], [3, 3], [0, 3],
      [0, 0, 1, 0, 1, 1], [1, 2, 1, 1, 1], [0, 1, 3, 4, 5]] := by decide +kernel

/-- Two hexes with a face in common, in 32 bits. -/
def hexes : List (List Nat) := [[0, 1, 2, 3, 4, 5, 6, 7], [4, 5, 6, 7, 8, 9, 10, 11]]

example : (flat (generateSides MeshEx.arith (topoOf (chars! "hex") int32 hexes) .empty (chars! "c"))).map' (fun l => (l.getD 2 [], l.getD 6 [])) =
    .ok ([0, 1, 2, 3, 4, 5, 5, 6, 7, 8, 9, 10], [1, 1, 1, 1, 1, 2, 1, 1, 1, 1, 1]) := by decide +kernel

theorem tris_hash : ¬ SidesCollide (fun _ => lineTable) tris := by
  rintro ⟨el1, h1, row1, r1, el2, h2, row2, r2, f, g, hf, hg, hp, hh⟩
  rw [side_cornersAt _ _ _ hf, side_cornersAt _ _ _ hg] at hp hh
  have : ∀ el1 ∈ tris, ∀ row1 ∈ lineTable, ∀ el2 ∈ tris, ∀ row2 ∈ lineTable,
      elementHash (cornersAt el1 row1) = elementHash (cornersAt el2 row2) → (cornersAt el1 row1).Perm (cornersAt el2 row2) := by
    decide +kernel
  exact hp (this el1 h1 row1 r1 el2 h2 row2 r2 hh)

/-- The hypotheses of `C82_sides_partial` are met. -/
example : ∃ dest s2d d2s de sides down up, generateSides MeshEx.arith (topoOf (chars! "tri") int64 tris) .empty (chars! "c") =
      .ok (dest, s2d, d2s) ∧
      dest.get (chars! "type") = .ok (.str (chars! "unstructured")) ∧ dest.get (chars! "coordset") = .ok (.str (chars! "c")) ∧
      Cells dest de sides ∧ de.get (chars! "shape") = .ok (.str (chars! "line")) ∧ NatLeaf de (chars! "offsets") (starts sides) ∧
      ListsSides (fun _ => lineTable) tris sides ∧ ListsNode s2d down ∧ MapsDown (fun _ => lineTable) tris sides down ∧
      FirstUse (fun _ => lineTable) tris sides down ∧ ListsNode d2s up ∧ MapsUp down sides.length up := by
  have hw : HasLeaf (topoOf (chars! "tri") int64 tris) (.i ⟨true, .w64⟩) :=
    .obj _ (chars! "elements") (elemsOf (chars! "tri") int64 tris) _ (by simp)
      (.obj _ (chars! "connectivity") (PointsEx.arr int64 tris.flatten) _ (by simp) (.leaf _ _ rfl))
  have hidx : ∀ p, p ≤ 100 → Idx p := fun p hp => by unfold Idx; omega
  exact C82_sides_partial MeshEx.arith _ _ .empty tris lineTable _ _ _
    (topoOf_cells _ _ tris 3 (by decide +kernel) (by decide +kernel) (by decide +kernel)) (.inl rfl) rfl rfl tris_hash
    (fun p hp => C82_fits _ _ true hw p (hidx p (by
      have : ∀ p ∈ tris.flatten, p ≤ 100 := by decide +kernel
      exact this p hp)))
    (fun p hp => ⟨C82_fits _ _ true hw p (hidx p (Nat.le_trans hp (by decide +kernel))), hidx p (Nat.le_trans hp (by decide +kernel))⟩)
    (hidx _ (by decide +kernel))

/-- Two triangles whose sides have equal hashes. -/
def far : List (List Nat) := [[0, 39508, 2864384], [1, 39508, 2878266]]

/-- Triangles without common points. -/
def apart (n : Nat) : List (List Nat) := (List.range n).map fun i => [3 * i, 3 * i + 1, 3 * i + 2]

end SidesEx

open SidesEx in
/-- Two different lines with the same hash: one of them is missing, and the second triangle is given a line it does not have. -/
theorem C82_collision_false : (flat (generateSides MeshEx.arith (topoOf (chars! "tri") int64 far) .empty (chars! "c"))).map'
      (fun l => (l.getD 0 [], l.getD 2 [])) = .ok ([0, 39508, 39508, 2864384, 2864384, 0, 1, 39508, 2878266, 1], [0, 1, 2, 3, 1, 4]) ∧
    elementHash [39508, 2864384] = elementHash [39508, 2878266] ∧ ¬ [39508, 2864384].Perm [39508, 2878266] := by
  decide +kernel

open SidesEx in
/-- Two wedges with a quad in common share no side: the quad is cut along different diagonals. -/
theorem C82_wedge_false :
    (flat (generateSides MeshEx.arith (topoOf (chars! "wedge") int64 [[0, 1, 2, 3, 4, 5], [1, 0, 6, 4, 3, 7]]) .empty (chars! "c"))).map'
      (fun l => l.getD 2 []) = .ok [0, 1, 2, 3, 4, 5, 6, 7, 8, 9, 10, 11, 12, 13, 14, 15] := by decide +kernel

open SidesEx in
/-- With numbers of 8 bits the offsets of the sides overflow although all points fit. -/
theorem C82_narrow_false : (∀ p ∈ (apart 22).flatten, (⟨true, .w8⟩ : IntTy).Holds (p : Int)) ∧
    (flat (generateSides MeshEx.arith (topoOf (chars! "tri") ⟨true, .w8⟩ (apart 22)) .empty (chars! "c"))).map'
      (fun l => (l.getD 1 []).getD 64 0) = .ok (-128) := by decide +kernel

end Conduit.Mesh
