import Verif.Lemmas.Extract2
import Verif.Props.MeshReorder
/-
Grids: the points of their elements, and their elements.
-/
namespace Conduit.Part
open Conduit.Mesh
variable {F : Type}

theorem pointId_surj (ed : List Nat) (id : Nat) (h : id < count ed) : ∃ x, InGrid ed x ∧ pointId ed x = id := by
  induction ed generalizing id with
  | nil =>
    simp [count] at h
    exact ⟨[], trivial, by simp [pointId, h]⟩
  | cons d ed ih =>
    have hd : 0 < d := by
      rcases Nat.eq_zero_or_pos d with rfl | hd
      · simp [count] at h
      · exact hd
    obtain ⟨x, h1, h2⟩ := ih (id / d) (by rw [Nat.div_lt_iff_lt_mul hd, Nat.mul_comm]; exact h)
    exact ⟨(id % d) :: x, ⟨Nat.mod_lt _ hd, h1⟩, by simp only [pointId]; rw [h2, Nat.mod_add_div]⟩

/-- The corners of one element of a grid are those the code finds. -/
theorem cornerIds (ed x : List Nat) (hl : ed.length = 2 ∨ ed.length = 3) (hx : InGrid ed x) (v : Int) :
    let c := gridIdToIjk ((pointId ed x : Nat) : Int) (ijkOf ed)
    let dims : Ijk := ⟨(ed.getD 0 1 : Nat) + 1, (ed.getD 1 1 : Nat) + (if ed.length > 1 then 1 else 0),
      (ed.getD 2 1 : Nat) + (if ed.length > 2 then 1 else 0)⟩
    v ∈ ((if ed.length = 2 then cornerSteps.take 4 else cornerSteps).map fun s =>
        gridIjkToId ⟨c.i + s.i, c.j + s.j, c.k + s.k⟩ dims) ↔
      v ∈ ints ((corners ed.length).map fun s => pointId (ed.map (· + 1)) (addIdx x s)) := by
  rcases ed with _ | ⟨a, _ | ⟨b, _ | ⟨d, _ | ⟨_, _⟩⟩⟩⟩ <;> simp at hl
  · rcases x with _ | ⟨x, _ | ⟨y, _ | ⟨_, _⟩⟩⟩ <;> simp [InGrid] at hx
    have hg := gridIdToIjk_eq a b 1 x y 0 hx.1 hx.2
    have e : pointId [a, b] [x, y] = x + a * (y + b * 0) := by simp [pointId]
    have e2 : ijkOf [a, b] = ⟨a, b, 1⟩ := rfl
    rw [e, e2, hg]
    simp only [cornerSteps, corners, addIdx, pointId, ints, gridIjkToId, List.length_cons, List.length_nil, List.map_cons, List.map_nil,
      List.take_succ_cons, List.take_zero, List.mem_cons, List.not_mem_nil, or_false, if_true, List.getD_cons_zero, List.getD_cons_succ]
    push_cast
    constructor <;> rintro (h | h | h | h)
    · left; rw [h]; ring
    · right; left; rw [h]; ring
    · right; right; right; rw [h]; simp; try ring
    · right; right; left; rw [h]; simp; try ring
    · left; rw [h]; ring
    · right; left; rw [h]; ring
    · right; right; right; rw [h]; simp; try ring
    · right; right; left; rw [h]; simp; try ring
  · rcases x with _ | ⟨x, _ | ⟨y, _ | ⟨z, _ | ⟨_, _⟩⟩⟩⟩ <;> simp [InGrid] at hx
    have hg := gridIdToIjk_eq a b d x y z hx.1 hx.2.1
    have e : pointId [a, b, d] [x, y, z] = x + a * (y + b * z) := by simp [pointId]
    have e2 : ijkOf [a, b, d] = ⟨a, b, d⟩ := rfl
    rw [e, e2, hg]
    simp only [cornerSteps, corners, addIdx, pointId, ints, gridIjkToId, List.length_cons, List.length_nil, List.map_cons, List.map_nil,
      List.mem_cons, List.not_mem_nil, or_false, List.getD_cons_zero, List.getD_cons_succ]
    rw [if_neg (show ¬ (0 + 1 + 1 + 1 = 2) by decide)]
    simp only [List.map_cons, List.map_nil, List.mem_cons, List.not_mem_nil, or_false]
    push_cast
    constructor <;> rintro (h | h | h | h | h | h | h | h)
    · left; rw [h]; simp; try ring
    · right; left; rw [h]; simp; try ring
    · right; right; right; left; rw [h]; simp; try ring
    · right; right; left; rw [h]; simp; try ring
    · right; right; right; right; left; rw [h]; simp; try ring
    · right; right; right; right; right; left; rw [h]; simp; try ring
    · right; right; right; right; right; right; right; rw [h]; simp; try ring
    · right; right; right; right; right; right; left; rw [h]; simp; try ring
    · left; rw [h]; simp; try ring
    · right; left; rw [h]; simp; try ring
    · right; right; right; left; rw [h]; simp; try ring
    · right; right; left; rw [h]; simp; try ring
    · right; right; right; right; left; rw [h]; simp; try ring
    · right; right; right; right; right; left; rw [h]; simp; try ring
    · right; right; right; right; right; right; right; rw [h]; simp; try ring
    · right; right; right; right; right; right; left; rw [h]; simp; try ring

theorem getD_of {α : Type} {l : List α} {i : Nat} {a d : α} (h : l[i]? = some a) : l.getD i d = a := by
  rw [List.getD_eq_getElem?_getD, h]; rfl

theorem gridPoints_ok (A : Arith F) (mesh topo : BNode F) (ed : List Nat) (els : List (List Nat)) (hl : ed.length = 2 ∨ ed.length = 3)
    (hd : gridDims mesh topo = .ok ed.length)
    (hld : logicalDims A mesh topo = .ok ⟨(ed.getD 0 1 : Nat), (ed.getD 1 1 : Nat), (ed.getD 2 1 : Nat)⟩)
    (hg : GridEls ed els) (ids : List Nat) (hi : ∀ i ∈ ids, i < els.length) :
    ∃ l pts, gridPoints A mesh topo (ints ids) = .ok l ∧ unique l = ints pts ∧ Uses pts (picked els ids) := by
  obtain ⟨pts, u1, u2⟩ := unique_uses (picked els ids)
  unfold gridPoints
  simp only [hd, hld, Res.bind_ok]
  refine ⟨_, pts, rfl, ?_, u2⟩
  rw [← u1]
  apply unique_eq (unique_lt _)
  intro v
  rw [unique_mem]
  have key : ∀ i ∈ ids, ∀ v : Int, v ∈ ints (els.getD i []) ↔
      v ∈ ((if ed.length = 2 then cornerSteps.take 4 else cornerSteps).map fun s =>
        gridIjkToId ⟨(gridIdToIjk ((i : Nat) : Int) (ijkOf ed)).i + s.i, (gridIdToIjk ((i : Nat) : Int) (ijkOf ed)).j + s.j,
          (gridIdToIjk ((i : Nat) : Int) (ijkOf ed)).k + s.k⟩ ⟨(ed.getD 0 1 : Nat) + 1, (ed.getD 1 1 : Nat) + (if ed.length > 1 then 1 else 0),
      (ed.getD 2 1 : Nat) + (if ed.length > 2 then 1 else 0)⟩) := by
    intro i him v
    have hlt := hi i him
    rw [hg.1] at hlt
    obtain ⟨x, hx, rfl⟩ := pointId_surj ed i hlt
    rw [getD_of (hg.2 x hx)]
    exact (cornerIds ed x hl hx v).symm
  constructor
  · intro h
    obtain ⟨w, hw, hv⟩ := List.mem_flatMap.1 h
    obtain ⟨i, him, rfl⟩ := List.mem_map.1 hw
    have := (key i him v).2 hv
    obtain ⟨p, hp, rfl⟩ := List.mem_map.1 this
    apply List.mem_map_of_mem
    exact List.mem_flatten.2 ⟨_, List.mem_map_of_mem him, hp⟩
  · intro h
    obtain ⟨p, hp, rfl⟩ := List.mem_map.1 h
    obtain ⟨el, hel, hp⟩ := List.mem_flatten.1 hp
    obtain ⟨i, him, rfl⟩ := List.mem_map.1 hel
    exact List.mem_flatMap.2 ⟨(i : Int), List.mem_map_of_mem him, (key i him _).1 (List.mem_map_of_mem hp)⟩

/-! ### the elements of the converted grid -/

theorem corners_length (n : Nat) (h : n = 2 ∨ n = 3) : (corners n).length = 2 ^ n := by rcases h with rfl | rfl <;> rfl

theorem shapeSize_grid (n : Nat) (h : n = 2 ∨ n = 3) : (shapeOf n, 2 ^ n) ∈ shapeSizes := by rcases h with rfl | rfl <;> decide

theorem reads_elements {m : BNode F} {ed : List Nat} {els : List (List Nat)} (hl : ed.length = 2 ∨ ed.length = 3) (h : Elements m ed)
    (hg : GridEls ed els) (hidx : Idx (count (ed.map (· + 1)))) : Reads m (shapeOf ed.length) els := by
  obtain ⟨e, t, conn, h1, h2, h3, h4, h5⟩ := h
  have hlen : ∀ el ∈ els, el.length = 2 ^ ed.length ∧ ∀ p ∈ el, Idx p := by
    intro el hel
    obtain ⟨i, hi⟩ := List.getElem?_of_mem hel
    have hlt := (List.getElem?_eq_some_iff.1 hi).1
    rw [hg.1] at hlt
    obtain ⟨x, hx, rfl⟩ := pointId_surj ed i hlt
    rw [hg.2 x hx] at hi
    cases hi
    refine ⟨by rw [List.length_map, corners_length _ hl], fun p hp => ?_⟩
    obtain ⟨s, hs, rfl⟩ := List.mem_map.1 hp
    obtain ⟨c, hc⟩ := List.getElem?_of_mem hs
    obtain ⟨g1, g2⟩ := corners_step _ _ _ hc
    have := pointId_lt _ _ (addIdx_inGrid ed x s hx g1 g2)
    unfold Idx at *; omega
  refine .inl ⟨e, 2 ^ ed.length, t, h1, h3, shapeSize_grid _ hl, ?_, hlen⟩
  rw [h2]
  congr 2
  apply List.ext_getElem?
  intro k
  have hpos : 0 < 2 ^ ed.length := Nat.pow_pos (by decide)
  by_cases hk : k < conn.length
  · rw [h4] at hk
    have hq : k / 2 ^ ed.length < count ed := by rw [Nat.div_lt_iff_lt_mul hpos]; exact hk
    obtain ⟨x, hx, hxe⟩ := pointId_surj ed _ hq
    have hc : k % 2 ^ ed.length < (corners ed.length).length := by rw [corners_length _ hl]; exact Nat.mod_lt _ hpos
    have := h5 x hx (k % 2 ^ ed.length) _ (List.getElem?_eq_getElem hc)
    rw [hxe, Nat.div_add_mod'] at this
    rw [this, List.getElem?_map]
    have hel := hg.2 x hx
    have := flatten_get els (pointId ed x) (k % 2 ^ ed.length) _ _ hel (by rw [List.getElem?_map, List.getElem?_eq_getElem hc]; rfl)
    rw [flatten_take_const els _ (fun el he => (hlen el he).1) _ (by
      have := (List.getElem?_eq_some_iff.1 hel).1; omega), hxe, Nat.div_add_mod'] at this
    rw [this]; rfl
  · rw [List.getElem?_eq_none (by omega), List.getElem?_eq_none]
    rw [List.length_map]
    have := flatten_take_const els _ (fun el he => (hlen el he).1) els.length (Nat.le_refl _)
    rw [List.take_length, hg.1] at this
    omega

/-! ### logical dims -/

theorem axesLoop_ok (A : Arith F) (cset : BNode F) (u : Bool) (as : List Str) (lens : List Nat) (hl : as.length = lens.length)
    (h3 : lens.length = 2 ∨ lens.length = 3)
    (h : ∀ (i : Nat) a n, as[i]? = some a → lens[i]? = some n → axisPoints A cset u i a = .ok (n : Int)) (h1 : ∀ n ∈ lens, 1 ≤ n) :
    axesLoop A cset u 1 0 as ⟨1, 1, 1⟩ = .ok ⟨((lens.map (· - 1)).getD 0 1 : Nat), ((lens.map (· - 1)).getD 1 1 : Nat),
      ((lens.map (· - 1)).getD 2 1 : Nat)⟩ := by
  rcases lens with _ | ⟨x, _ | ⟨y, _ | ⟨z, _ | ⟨_, _⟩⟩⟩⟩ <;> simp at h3
  · rcases as with _ | ⟨a, _ | ⟨b, _ | ⟨_, _⟩⟩⟩ <;> simp at hl
    have hx := h1 x (by simp)
    have hy := h1 y (by simp)
    simp only [axesLoop, h 0 a x rfl rfl, Nat.zero_add, h 1 b y rfl rfl, Res.bind_ok, I3.set, List.map_cons, List.map_nil, List.getD_cons_zero,
      List.getD_cons_succ, List.getD_nil]
    congr 2 <;> omega
  · rcases as with _ | ⟨a, _ | ⟨b, _ | ⟨c, _ | ⟨_, _⟩⟩⟩⟩ <;> simp at hl
    have hx := h1 x (by simp)
    have hy := h1 y (by simp)
    have hz := h1 z (by simp)
    simp only [axesLoop, h 0 a x rfl rfl, Nat.zero_add, h 1 b y rfl rfl, show 1 + 1 = 2 from rfl, h 2 c z rfl rfl, Res.bind_ok, I3.set,
      List.map_cons, List.map_nil, List.getD_cons_zero, List.getD_cons_succ]
    congr 2 <;> omega

end Conduit.Part
