import Verif.Spec.Extract
import Verif.Lemmas.Partition2
import Verif.Lemmas.MeshReorder2
import Verif.Lemmas.MeshPoints
/-
The points of elements and the new topology.
-/
namespace Conduit.Part
open Conduit.Mesh
variable {F : Type}

/-- A list of numbers as `index_t`. -/
abbrev ints (l : List Nat) : List Int := l.map fun p : Nat => (p : Int)

theorem idx_cast {n : Nat} (h : Idx n) : int64.cast (n : Int) = n := holds_cast_eq (idx_holds h)

theorem u32_cast {n : Nat} (h : n < 2 ^ 32) : uint32.cast (n : Int) = n := by
  apply holds_cast_eq
  show (0 : Int) ≤ n ∧ (n : Int) ≤ 4294967296 - 1
  omega

theorem u64_cast {n : Nat} (h : Idx n) : uint64.cast (n : Int) = n := by
  have h' : n < 2 ^ 63 := h
  apply holds_cast_eq
  show (0 : Int) ≤ n ∧ (n : Int) ≤ 18446744073709551616 - 1
  omega

/-! ### the set of points -/

theorem unique_uses (els : List (List Nat)) : ∃ pts, unique (ints els.flatten) = ints pts ∧ Uses pts els := by
  refine ⟨(unique (ints els.flatten)).map Int.toNat, ?_, ?_, ?_⟩
  · show _ = ((unique (ints els.flatten)).map Int.toNat).map _
    rw [List.map_map]
    symm
    conv => rhs; rw [← List.map_id (unique (ints els.flatten))]
    apply List.map_congr_left
    intro v hv
    rw [unique_mem] at hv
    obtain ⟨p, _, rfl⟩ := List.mem_map.1 hv
    simp
  · rw [List.pairwise_map]
    refine (unique_lt (ints els.flatten)).imp_of_mem ?_
    intro a b ha hb hab
    rw [unique_mem] at ha hb
    obtain ⟨p, _, rfl⟩ := List.mem_map.1 ha
    obtain ⟨q, _, rfl⟩ := List.mem_map.1 hb
    simpa using hab
  · intro p
    simp only [List.mem_map, unique_mem]
    constructor
    · rintro ⟨v, ⟨q, hq, rfl⟩, rfl⟩
      simpa [List.mem_flatten] using hq
    · rintro ⟨el, he, hp⟩
      exact ⟨(p : Int), ⟨p, List.mem_flatten.2 ⟨el, he, hp⟩, rfl⟩, by simp⟩

theorem uses_nodup {pts : List Nat} {els : List (List Nat)} (h : Uses pts els) : pts.Nodup :=
  h.1.imp fun h => by omega

theorem newPoint_eq {pts : List Nat} {p : Nat} (hp : p ∈ pts) : newPoint (ints pts) (p : Int) = (pts.idxOf p : Nat) := by
  unfold newPoint
  congr 1
  induction pts with
  | nil => simp at hp
  | cons a l ih =>
    rw [ints, List.map_cons, List.findIdx?_cons, List.idxOf_cons]
    by_cases e : a = p
    · subst e; simp
    · have hp' : p ∈ l := by
        rcases List.mem_cons.1 hp with h | h
        · exact absurd h.symm e
        · exact h
      have e' : ((a : Int) == (p : Int)) = false := by simp; omega
      have e2 : (a == p) = false := by simpa using e
      rw [e', e2]
      have := ih hp'
      simp only [Bool.false_eq_true, if_false, cond_false]
      cases hf : List.findIdx? (fun x => x == (p : Int)) (ints l) with
      | none =>
        rw [List.findIdx?_eq_none_iff] at hf
        have := hf (p : Int) (List.mem_map_of_mem hp')
        simp at this
      | some k => rw [ints] at hf this; rw [hf] at this; simp [hf] at this ⊢; omega

theorem idxOf_le_self {pts : List Nat} (h : pts.Pairwise (· < ·)) {p : Nat} (hp : p ∈ pts) : pts.idxOf p ≤ p := by
  induction pts with
  | nil => simp at hp
  | cons a l ih =>
    rw [List.pairwise_cons] at h
    rw [List.idxOf_cons]
    by_cases e : a = p
    · subst e; simp
    · have hp' : p ∈ l := by
        rcases List.mem_cons.1 hp with h | h
        · exact absurd h.symm e
        · exact h
      have e2 : (a == p) = false := by simpa using e
      rw [e2]
      simp only [cond_false]
      -- every member of the rest is at least one more than its place
      have key : ∀ (l : List Nat) (b : Nat), (∀ x ∈ l, b < x) → l.Pairwise (· < ·) → ∀ x ∈ l, b + l.idxOf x + 1 ≤ x := by
        intro l
        induction l with
        | nil => intro b _ _ x hx; simp at hx
        | cons c l ih =>
          intro b hb hl x hx
          rw [List.pairwise_cons] at hl
          rw [List.idxOf_cons]
          by_cases e : c = x
          · subst e; simp; exact hb c (by simp)
          · have hx' : x ∈ l := by
              rcases List.mem_cons.1 hx with h | h
              · exact absurd h.symm e
              · exact h
            have e2 : (c == x) = false := by simpa using e
            rw [e2]
            have h1 := ih c hl.1 hl.2 x hx'
            have h2 := hb c (by simp)
            simp only [cond_false]; omega
      have := key l a h.1 h.2 p hp'
      omega

theorem sameCorners_of {pts : List Nat} {els : List (List Nat)} (h : Uses pts els) : SameCorners els (renumbered pts els) pts := by
  refine ⟨by simp [renumbered], fun j el hj => ⟨el.map (pts.idxOf ·), by simp [renumbered, hj], by simp, fun i p hi => ?_⟩⟩
  have hp : p ∈ pts := (h.2 p).2 ⟨el, List.mem_of_getElem? hj, List.mem_of_getElem? hi⟩
  refine ⟨pts.idxOf p, by simp [hi], ?_⟩
  rw [List.getElem?_eq_getElem (List.idxOf_lt_length_iff.2 hp), List.getElem_idxOf]

/-! ### reading the connectivity -/

theorem readRun_ok (l : List Int) (o n : Nat) (el : List Nat) (hl : el.length = n)
    (h : ∀ (i p : Nat), el[i]? = some p → l[o + i]? = some (p : Int)) : readRun l (o : Int) (n : Int) = .ok (ints el) := by
  unfold readRun
  have key : ∀ m, m ≤ n → (List.range m).mapM (fun j : Nat => pick l ((o : Int) + (j : Int))) = .ok (ints (el.take m)) := by
    intro m
    induction m with
    | zero => intro _; rfl
    | succ m ih =>
      intro hm
      rw [List.range_succ, List.mapM_append, ih (by omega), Res.bind_ok]
      have hi : el[m]? = some (el[m]'(by omega)) := List.getElem?_eq_getElem _
      have := h m _ hi
      rw [List.mapM_cons, show ((o : Int) + (m : Int)) = ((o + m : Nat) : Int) by omega, pick_nat _ _ _ this, Res.bind_ok,
        List.mapM_nil]
      show Res.ok _ = _
      rw [List.take_succ, hi, ints, ints, List.map_append]; rfl
  have := key n (Nat.le_refl _)
  rw [Int.toNat_natCast, this, List.take_of_length_le (by omega)]

theorem shape_fixed {s : Str} {n : Nat} (h : (s, n) ∈ shapeSizes) :
    ∃ sh, shapeInit s = .ok sh ∧ sh.isPolygonal = false ∧ sh.isPolyhedral = false ∧ sh.indices = (n : Int) ∧ 0 < n := by
  simp only [shapeSizes, List.mem_cons, Prod.mk.injEq, List.not_mem_nil, or_false] at h
  rcases h with ⟨rfl, rfl⟩ | ⟨rfl, rfl⟩ | ⟨rfl, rfl⟩ | ⟨rfl, rfl⟩ | ⟨rfl, rfl⟩ | ⟨rfl, rfl⟩ | ⟨rfl, rfl⟩ | ⟨rfl, rfl⟩ <;>
    exact ⟨_, rfl, rfl, rfl, rfl, by decide⟩

theorem flatten_take_const (els : List (List Nat)) (n : Nat) (h : ∀ el ∈ els, el.length = n) (j : Nat) (hj : j ≤ els.length) :
    (els.take j).flatten.length = j * n := by
  induction els generalizing j with
  | nil => simp at hj; subst hj; simp
  | cons e els ih =>
    cases j with
    | zero => simp
    | succ j =>
      rw [List.take_succ_cons, List.flatten_cons, List.length_append, ih (fun el he => h el (by simp [he])) j (by simpa using hj),
        h e (by simp)]
      rw [Nat.add_mul, Nat.one_mul, Nat.add_comm]

/-- The arrays of a topology, read. -/
theorem cells_read (A : Arith F) {topo : BNode F} {s : Str} {els : List (List Nat)} (h : Reads topo s els) :
    ∃ sh c e, shapeOfTopo topo = .ok sh ∧ sh.isPolyhedral = false ∧ cellsOf A topo = .ok c ∧
      topo.get (chars! "elements") = .ok e ∧ e.get (chars! "shape") = .ok (.str s) ∧
      ((Fixed topo s els ∧ ∃ n conn, c = .fixed n conn) ∨ (Polygons topo s els ∧ ∃ a b d, c = .polygons a b d)) ∧
      ∀ (i : Nat) el, els[i]? = some el → cellPoints c (i : Int) = .ok (ints el) := by
  rcases h with hf | hp
  · have hf' := hf
    obtain ⟨e, n, tc, h1, h2, h3, h4, h5⟩ := hf
    obtain ⟨sh, s1, s2, s3, s4, s5⟩ := shape_fixed h3
    have hsh : shapeOfTopo topo = .ok sh := by simp [shapeOfTopo, h1, h2, BNode.asString, s1]
    refine ⟨sh, .fixed n (ints els.flatten), e, hsh, s3, ?_, h1, h2, .inl ⟨hf', _, _, rfl⟩, ?_⟩
    · unfold cellsOf
      simp only [hsh, h1, h4, Res.bind_ok, asIndices, s2, s4]
      rw [if_neg (by simp), if_neg (by omega)]
      congr 2
      rw [List.map_map]
      apply List.map_congr_left
      intro p hp
      obtain ⟨el, he, hp⟩ := List.mem_flatten.1 hp
      exact idx_cast ((h5 el he).2 p hp)
    · intro i el hi
      have hel := List.mem_of_getElem? hi
      have hlt : i < els.length := (List.getElem?_eq_some_iff.1 hi).1
      show readRun _ ((i : Int) * (n : Int)) (n : Int) = _
      rw [← Int.natCast_mul]
      apply readRun_ok _ _ _ _ (h5 el hel).1
      intro k p hk
      have := flatten_get els i k el p hi hk
      rw [flatten_take_const els n (fun el he => (h5 el he).1) i (by omega)] at this
      rw [ints, List.getElem?_map, this]; rfl
  · have hp' := hp
    obtain ⟨rfl, ⟨e, h1, h2⟩, ⟨ot, hE⟩, h32⟩ := hp
    obtain ⟨e', tc, conn, ts, sizes, offs, g1, g2, g3, g4, g5, g6, g7⟩ := hE
    rw [h1] at g1; cases g1
    have hsh : shapeOfTopo topo = .ok ⟨2, -1, false⟩ := by simp [shapeOfTopo, h1, h2, BNode.asString]; rfl
    have hoff : e.hasChild (chars! "offsets") = true := (hasChild_iff_get _ _).2 ⟨_, g4⟩
    refine ⟨_, .polygons (conn.map int64.cast) (offs.map uint64.cast) (sizes.map uint32.cast), e, hsh, rfl, ?_, h1, h2,
      .inr ⟨hp', _, _, _, rfl⟩, ?_⟩
    · unfold cellsOf
      simp only [hsh, h1, g2, g3, Res.bind_ok, asIndices]
      rw [if_pos (by rfl)]
      simp only [polyOffsets, h1, Res.bind_ok, hoff, if_true, g4, toInts]
    · intro i el hi
      obtain ⟨a1, a2, a3, o, b1, b2, b3, b4⟩ := g7 i el hi
      have hel := List.mem_of_getElem? hi
      show (do
        let o ← pick (offs.map uint64.cast) (i : Int)
        let n ← pick (sizes.map uint32.cast) (i : Int)
        readRun (conn.map int64.cast) o n) = _
      rw [pick_nat _ _ (o : Int) (by rw [List.getElem?_map, b1, Option.map_some, u64_cast b3]), Res.bind_ok,
        pick_nat _ _ (el.length : Int) (by rw [List.getElem?_map, a1, Option.map_some, u32_cast (h32 el hel)]), Res.bind_ok]
      apply readRun_ok _ _ _ _ rfl
      intro k p hk
      obtain ⟨c1, _, c3⟩ := b4 k p hk
      rw [List.getElem?_map, c1, Option.map_some, idx_cast c3]

theorem mapM_cells {c : Cells} {els : List (List Nat)} (h : ∀ (i : Nat) el, els[i]? = some el → cellPoints c (i : Int) = .ok (ints el))
    (ids : List Nat) (hi : ∀ i ∈ ids, i < els.length) :
    (ints ids).mapM (cellPoints c) = .ok ((picked els ids).map ints) := by
  induction ids with
  | nil => rfl
  | cons i ids ih =>
    have h1 : els[i]? = some (els.getD i []) := by
      rw [List.getD_eq_getElem?_getD, List.getElem?_eq_getElem (hi i (by simp))]; rfl
    rw [ints, List.map_cons, List.mapM_cons, h i _ h1, Res.bind_ok]
    have := ih (fun i hm => hi i (by simp [hm]))
    rw [ints] at this
    rw [this, Res.bind_ok]; rfl

theorem flatten_ints (l : List (List Nat)) : (l.map ints).flatten = ints l.flatten := by
  induction l with
  | nil => rfl
  | cons a l ih => simp [ints] at ih ⊢

/-- The points of the elements of an unstructured topology. -/
theorem vertexIds_reads (A : Arith F) (mesh : BNode F) {topo : BNode F} {s : Str} {els : List (List Nat)} (h : Reads topo s els)
    (ht : topo.get (chars! "type") = .ok (.str (chars! "unstructured"))) (ids : List Nat) (hi : ∀ i ∈ ids, i < els.length) :
    ∃ pts, vertexIds A mesh topo (ints ids) = .ok (ints pts) ∧ Uses pts (picked els ids) := by
  obtain ⟨sh, c, e, h1, h2, h3, _, _, _, h4⟩ := cells_read A h
  obtain ⟨pts, u1, u2⟩ := unique_uses (picked els ids)
  refine ⟨pts, ?_, u2⟩
  unfold vertexIds
  simp only [ht, Res.bind_ok, BNode.asString]
  rw [if_neg (by decide)]
  simp only [h1, Res.bind_ok, h2, Bool.false_eq_true, if_false, h3, mapM_cells h4 ids hi, flatten_ints, u1]

theorem runningSums_get (l : List Nat) (s : Nat) (j n : Nat) (hj : l[j]? = some n) :
    (runningSums (s : Int) (ints l))[j]? = some ((s + (l.take j).sum : Nat) : Int) := by
  induction l generalizing s j with
  | nil => simp at hj
  | cons a l ih =>
    cases j with
    | zero => simp [runningSums, ints]
    | succ j =>
      have := ih (s + a) j (by simpa using hj)
      rw [ints, List.map_cons]
      simp only [runningSums, List.getElem?_cons_succ, List.take_succ_cons, List.sum_cons]
      rw [ints] at this
      rw [show ((s : Int) + (a : Int)) = ((s + a : Nat) : Int) by omega, this]
      congr 2; omega

theorem runningSums_length (s : Int) (l : List Int) : (runningSums s l).length = l.length := by
  induction l generalizing s with
  | nil => rfl
  | cons a l ih => simp [runningSums, ih]

/-- The new topology has the elements, with the points numbered anew. -/
theorem newTopo_reads (A : Arith F) {topo : BNode F} {s : Str} {els : List (List Nat)} (h : Reads topo s els) (csname : Str)
    (ids : List Nat) (hi : ∀ i ∈ ids, i < els.length) (pts : List Nat) (hu : Uses pts (picked els ids))
    (hp : ∀ el ∈ els, ∀ p ∈ el, Idx p) (hfit : Idx (picked els ids).flatten.length) :
    ∃ topo', newTopo A topo csname (ints ids) (ints pts) = .ok topo' ∧
      topo'.get (chars! "type") = .ok (.str (chars! "unstructured")) ∧ topo'.get (chars! "coordset") = .ok (.str csname) ∧
      Reads topo' s (renumbered pts (picked els ids)) := by
  obtain ⟨sh, c, e, h1, h2, h3, h4, h5, h6, h7⟩ := cells_read A h
  have hmem : ∀ el ∈ picked els ids, el ∈ els := by
    intro el he
    simp only [picked, List.mem_map] at he
    obtain ⟨i, hm, rfl⟩ := he
    have := hi i hm
    rw [List.getD_eq_getElem?_getD, List.getElem?_eq_getElem this]
    exact List.getElem_mem _
  have hconn : (((picked els ids).map ints).flatten).map (newPoint (ints pts)) = ints (renumbered pts (picked els ids)).flatten := by
    rw [flatten_ints, ints, List.map_map, ints, renumbered, ← List.map_flatten, List.map_map]
    apply List.map_congr_left
    intro p hpm
    exact newPoint_eq ((hu.2 p).2 (by simpa [List.mem_flatten] using hpm))
  have hq : ∀ el' ∈ renumbered pts (picked els ids), ∀ q ∈ el', Idx q := by
    intro el' he q hqm
    simp only [renumbered, List.mem_map] at he
    obtain ⟨el, hel, rfl⟩ := he
    obtain ⟨p, hpm, rfl⟩ := List.mem_map.1 hqm
    have h1 := hp el (hmem el hel) p hpm
    have h2 := idxOf_le_self hu.1 ((hu.2 p).2 ⟨el, hel, hpm⟩)
    unfold Idx at *; omega
  have hsize : ((picked els ids).map ints).map (fun x => (x.length : Int)) = ints ((renumbered pts (picked els ids)).map (·.length)) := by
    simp [renumbered, ints]
  rcases h6 with ⟨hf, n, conn, rfl⟩ | ⟨hpo, a, b, d, rfl⟩
  · obtain ⟨e', m, tc, g1, g2, g3, g4, g5⟩ := hf
    refine ⟨.obj [(chars! "type", .str (chars! "unstructured")), (chars! "coordset", .str csname),
      (chars! "elements", .obj [(chars! "shape", .str s),
        (chars! "connectivity", .ints int64 (ints (renumbered pts (picked els ids)).flatten))])], ?_, rfl, rfl,
      .inl ⟨.obj [(chars! "shape", .str s), (chars! "connectivity", .ints int64 (ints (renumbered pts (picked els ids)).flatten))],
        m, int64, rfl, rfl, g3, rfl, ?_⟩⟩
    · unfold newTopo
      simp only [h1, Res.bind_ok, h4, h2, Bool.false_eq_true, if_false, h3, mapM_cells h7 ids hi, h5, hconn, List.cons_append, List.nil_append]
    · intro el' he
      refine ⟨?_, hq el' he⟩
      simp only [renumbered, List.mem_map] at he
      obtain ⟨el, hel, rfl⟩ := he
      simpa using (g5 el (hmem el hel)).1
  · obtain ⟨rfl, _, _, h32⟩ := hpo
    let e' : BNode F := .obj [(chars! "shape", .str (chars! "polygonal")),
      (chars! "connectivity", .ints int64 (ints (renumbered pts (picked els ids)).flatten)),
      (chars! "sizes", .ints int64 (ints ((renumbered pts (picked els ids)).map (·.length)))),
      (chars! "offsets", .ints int64 (runningSums 0 (ints ((renumbered pts (picked els ids)).map (·.length)))))]
    refine ⟨.obj [(chars! "type", .str (chars! "unstructured")), (chars! "coordset", .str csname), (chars! "elements", e')],
      ?_, rfl, rfl, .inr ⟨rfl, ⟨e', rfl, rfl⟩, ⟨int64, ?_⟩, ?_⟩⟩
    · unfold newTopo
      simp only [h1, Res.bind_ok, h4, h2, Bool.false_eq_true, if_false, h3, mapM_cells h7 ids hi, h5, hconn, hsize, List.cons_append, List.nil_append]
      rfl
    · refine ⟨e', int64, _, int64, _, _, rfl, rfl, rfl, rfl, by simp [ints], by rw [runningSums_length]; simp [ints], ?_⟩
      intro j el hj
      have hel := List.mem_of_getElem? hj
      have hlt := (List.getElem?_eq_some_iff.1 hj).1
      have hflat : (renumbered pts (picked els ids)).flatten.length = (picked els ids).flatten.length := by
        simp [renumbered, ← List.map_flatten]
      have hL : Idx el.length := by
        have : el.length ≤ (renumbered pts (picked els ids)).flatten.length := by
          have := (List.sublist_flatten_of_mem hel).length_le
          exact this
        unfold Idx at *; omega
      have hO : ((renumbered pts (picked els ids)).take j).flatten.length ≤ (renumbered pts (picked els ids)).flatten.length := by
        conv => rhs; rw [← List.take_append_drop j (renumbered pts (picked els ids)), List.flatten_append, List.length_append]
        omega
      have hOI : Idx ((renumbered pts (picked els ids)).take j).flatten.length := by unfold Idx at *; omega
      refine ⟨?_, idx_holds hL, hL, ((renumbered pts (picked els ids)).take j).flatten.length, ?_, idx_holds hOI, hOI, ?_⟩
      · rw [ints, List.getElem?_map, List.getElem?_map, hj]; rfl
      · have := runningSums_get ((renumbered pts (picked els ids)).map (·.length)) 0 j el.length (by rw [List.getElem?_map, hj]; rfl)
        rw [Nat.zero_add, ← List.map_take, ← List.length_flatten] at this
        exact this
      · intro i p hip
        have hI := hq el hel p (List.mem_of_getElem? hip)
        refine ⟨?_, idx_holds hI, hI⟩
        rw [ints, List.getElem?_map, flatten_get _ j i el p hj hip]; rfl
    · intro el' he
      simp only [renumbered, List.mem_map] at he
      obtain ⟨el, hel, rfl⟩ := he
      simpa using h32 el (hmem el hel)

end Conduit.Part
