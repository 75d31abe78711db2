import Verif.Model.NDIndex
import Verif.Lemmas.O2M
import Mathlib.Tactic.Linarith
import Mathlib.Tactic.Ring
import Mathlib.Algebra.BigOperators.Group.List.Basic
/-
Property theorem C51: NDIndex.
-/
namespace Conduit.ND
open Conduit.O2M (rd rd_getD)

/-- dimension `d` of a list of numbers -/
def dimOf (l : List Int) (d : Nat) : Int := l.getD d 0

/-- The padding of dimension `d`: its offset, 0 when none is given. -/
def pad (x : NDIndex) (d : Nat) : Int := dimOf x.offset d

/-- The stride of dimension `d`: the given one, else the product of the extents (shape plus
    offset) of the dimensions before `d`. -/
def strideOf (x : NDIndex) (d : Nat) : Int :=
  if x.stride = [] then ((List.range d).map fun k => dimOf x.shape k + pad x k).prod else dimOf x.stride d

/-- An index description built by one of the constructors: one number per dimension, offset and
    stride given for all dimensions or not at all. -/
structure WellFormed (x : NDIndex) : Prop where
  shape_len : (x.shape.length : Int) = x.ndim
  offset_len : x.offset = [] ∨ x.offset.length = x.shape.length
  stride_len : x.stride = [] ∨ x.stride.length = x.shape.length

/-- A tuple inside the shape. -/
def InShape (x : NDIndex) (is : List Int) : Prop :=
  is.length = x.shape.length ∧ ∀ d < x.shape.length, 0 ≤ dimOf is d ∧ dimOf is d < dimOf x.shape d

/-- The position of a tuple. -/
def position (x : NDIndex) (is : List Int) : Int :=
  ((List.range x.shape.length).map fun d => (pad x d + dimOf is d) * strideOf x d).sum

private theorem offsetAt_eq (x : NDIndex) (hw : WellFormed x) (d : Nat) (h : d < x.shape.length) : x.offsetAt d = .ok (pad x d) := by
  unfold NDIndex.offsetAt pad dimOf
  rcases hw.offset_len with e | e
  · simp [e]
  · rw [if_neg (by omega), rd_getD _ _ 0 (by omega)]

private theorem strideLoop_eq (x : NDIndex) (hw : WellFormed x) (d : Nat) (h : d ≤ x.shape.length) :
    x.strideLoop d = .ok ((List.range d).map fun k => dimOf x.shape k + pad x k).prod := by
  induction d with
  | zero => rfl
  | succ d ih =>
    simp only [NDIndex.strideLoop, ih (by omega), Res.bind_ok, rd_getD x.shape d 0 (by omega), offsetAt_eq x hw d (by omega)]
    rw [List.range_succ]; simp [dimOf]

private theorem strideAt_eq (x : NDIndex) (hw : WellFormed x) (d : Nat) (h : d < x.shape.length) : x.strideAt d = .ok (strideOf x d) := by
  have := hw.shape_len
  unfold NDIndex.strideAt strideOf
  by_cases e : x.stride = []
  · rw [if_pos (by simp [e]), if_pos e, show (min (d : Int) x.ndim).toNat = d by omega]
    exact strideLoop_eq x hw d (by omega)
  · have hl : x.stride.length = x.shape.length := by rcases hw.stride_len with h | h; exact absurd h e; exact h
    rw [if_neg (by omega), if_neg e, rd_getD _ _ 0 (by omega)]; rfl

private theorem index_suffix (x : NDIndex) (hw : WellFormed x) (is : List Int) (hl : is.length = x.shape.length) :
    ∀ m d, d + m = x.shape.length → x.index (is.drop d) =
      .ok ((List.range' d m).map fun k => (pad x k + dimOf is k) * strideOf x k).sum := by
  intro m
  induction m with
  | zero => intro d hd; rw [List.drop_eq_nil_of_le (by omega)]; rfl
  | succ m ih =>
    intro d hd
    have hlt : d < is.length := by omega
    have hs := hw.shape_len
    rw [List.drop_eq_getElem_cons hlt]
    simp only [NDIndex.index]
    rw [show x.ndim - ((is.drop (d + 1)).length : Int) - 1 = (d : Int) by simp; omega]
    rw [offsetAt_eq x hw d (by omega), Res.bind_ok, strideAt_eq x hw d (by omega), Res.bind_ok, ih (d + 1) (by omega), Res.bind_ok]
    rw [List.range'_succ]
    simp [dimOf, hlt]

/-- C51: `index(i0, ..., in)` is the sum over the dimensions of (offset + index) times stride. -/
theorem C51_index (x : NDIndex) (hw : WellFormed x) (is : List Int) (hl : is.length = x.shape.length) :
    x.index is = .ok (position x is) := by
  have := index_suffix x hw is hl x.shape.length 0 (by omega)
  rw [List.drop_zero] at this
  rw [this]; unfold position; rw [List.range_eq_range']

/-- Distance between the first and the last index of the given dimensions. -/
def span (x : NDIndex) (ds : List Nat) : Int := (ds.map fun d => (dimOf x.shape d - 1) * strideOf x d).sum

/-- The strides nest in this order (slowest dimension first): each one exceeds the distance the
    faster dimensions can cover together. -/
def Nested (x : NDIndex) : List Nat → Prop
  | [] => True
  | d :: ds => span x ds < strideOf x d ∧ Nested x ds

private theorem nested_zero (x : NDIndex) (δ : Nat → Int) : ∀ ds : List Nat, Nested x ds →
    (∀ d ∈ ds, - (dimOf x.shape d - 1) ≤ δ d ∧ δ d ≤ dimOf x.shape d - 1) →
    (- span x ds ≤ (ds.map fun d => δ d * strideOf x d).sum ∧ (ds.map fun d => δ d * strideOf x d).sum ≤ span x ds) ∧
    ((ds.map fun d => δ d * strideOf x d).sum = 0 → ∀ d ∈ ds, δ d = 0) := by
  intro ds
  induction ds with
  | nil => intro _ _; simp [span]
  | cons d ds ih =>
    intro hn hb
    obtain ⟨h1, h2⟩ := hn
    obtain ⟨⟨l, u⟩, z⟩ := ih h2 (fun k hk => hb k (List.mem_cons_of_mem _ hk))
    obtain ⟨b1, b2⟩ := hb d List.mem_cons_self
    have hs : span x (d :: ds) = (dimOf x.shape d - 1) * strideOf x d + span x ds := by simp [span]
    simp only [List.map_cons, List.sum_cons]
    rw [hs]
    generalize (ds.map fun d => δ d * strideOf x d).sum = R at *
    generalize span x ds = S at *
    generalize strideOf x d = s at *
    generalize hn : dimOf x.shape d - 1 = n at *
    generalize hdd : δ d = t at *
    have hs0 : 0 < s := by omega
    refine ⟨⟨?_, ?_⟩, ?_⟩
    · nlinarith [Int.mul_le_mul_of_nonneg_right b1 (Int.le_of_lt hs0)]
    · nlinarith [Int.mul_le_mul_of_nonneg_right b2 (Int.le_of_lt hs0)]
    · intro he
      have t0 : t = 0 := by
        rcases Int.lt_trichotomy t 0 with h | h | h
        · have : t * s ≤ (-1) * s := Int.mul_le_mul_of_nonneg_right (by omega) (by omega)
          omega
        · exact h
        · have : 1 * s ≤ t * s := Int.mul_le_mul_of_nonneg_right (by omega) (by omega)
          omega
      intro k hk
      rcases List.mem_cons.mp hk with e | hk'
      · rw [e, hdd]; exact t0
      · refine z ?_ k hk'
        rw [t0] at he; omega

private theorem sum_map_sub (l : List Nat) (f g : Nat → Int) : (l.map fun d => f d - g d).sum = (l.map f).sum - (l.map g).sum := by
  induction l with
  | nil => rfl
  | cons a l ih => simp only [List.map_cons, List.sum_cons, ih]; omega

/-- C51: when the strides nest, in any order of the dimensions, different tuples of the shape have
    different positions. -/
theorem C51_injective (x : NDIndex) (hw : WellFormed x) (order : List Nat)
    (hp : order.Perm (List.range x.shape.length)) (hn : Nested x order) (is js : List Int)
    (hi : InShape x is) (hj : InShape x js) (h : x.index is = x.index js) : is = js := by
  rw [C51_index x hw is hi.1, C51_index x hw js hj.1] at h
  injection h with h
  have h0 : ((List.range x.shape.length).map fun d => (dimOf is d - dimOf js d) * strideOf x d).sum = 0 := by
    have e : (fun d => (dimOf is d - dimOf js d) * strideOf x d) =
        fun d => (pad x d + dimOf is d) * strideOf x d - (pad x d + dimOf js d) * strideOf x d := by
      funext d; ring
    rw [e, sum_map_sub]
    unfold position at h; omega
  have h1 : (order.map fun d => (dimOf is d - dimOf js d) * strideOf x d).sum = 0 := by
    rw [← h0]; exact (hp.map _).sum_eq
  have hz := (nested_zero x (fun d => dimOf is d - dimOf js d) order hn (fun d hd => by
    have hd' : d < x.shape.length := List.mem_range.mp (hp.mem_iff.mp hd)
    have := hi.2 d hd'; have := hj.2 d hd'
    omega)).2 h1
  apply List.ext_getElem (by rw [hi.1, hj.1])
  intro d h1 h2
  have := hz d (hp.mem_iff.mpr (List.mem_range.mpr (by rw [← hi.1]; exact h1)))
  simp only [dimOf, List.getD, List.getElem?_eq_getElem h1, List.getElem?_eq_getElem h2, Option.getD_some] at this
  omega

/-- a 2 x 3 array stored row-major in rows of 8, with two elements of padding -/
def exNd : NDIndex := ⟨2, [2, 3], [0, 2], [8, 1]⟩

example : WellFormed exNd ∧ [0, 1].Perm (List.range exNd.shape.length) ∧ Nested exNd [0, 1] ∧
    InShape exNd [1, 2] ∧ exNd.index [1, 2] = .ok 12 := by
  refine ⟨⟨rfl, .inr rfl, .inr rfl⟩, by decide, ⟨by decide, by decide, trivial⟩, ⟨rfl, by decide⟩, by decide⟩

/-! Default strides. -/

private theorem default_succ (x : NDIndex) (hs : x.stride = []) (d : Nat) :
    strideOf x (d + 1) = strideOf x d * (dimOf x.shape d + pad x d) := by
  unfold strideOf; rw [if_pos hs, if_pos hs, List.range_succ]; simp

private theorem range_rev_succ (n : Nat) : (List.range (n + 1)).reverse = n :: (List.range n).reverse := by
  rw [List.range_succ]; simp

private theorem default_nested (x : NDIndex) (hs : x.stride = []) (hpad : ∀ d < x.shape.length, 0 ≤ pad x d)
    (hshape : ∀ d < x.shape.length, 0 < dimOf x.shape d) : ∀ n, n ≤ x.shape.length →
    span x (List.range n).reverse < strideOf x n ∧ Nested x (List.range n).reverse := by
  intro n
  induction n with
  | zero => intro _; refine ⟨?_, trivial⟩; simp [span, strideOf, hs]
  | succ n ih =>
    intro hn
    obtain ⟨h1, h2⟩ := ih (by omega)
    have hp := hpad n (by omega)
    have hsh := hshape n (by omega)
    rw [range_rev_succ]
    refine ⟨?_, h1, h2⟩
    rw [default_succ x hs]
    have e : span x (n :: (List.range n).reverse) = (dimOf x.shape n - 1) * strideOf x n + span x (List.range n).reverse := by simp [span]
    rw [e]
    have h0 : 0 ≤ span x (List.range n).reverse := by
      have := (nested_zero x (fun _ => 0) _ h2 (fun d hd => by
        have := hshape d (by have := List.mem_range.mp (List.mem_reverse.mp hd); omega); omega)).1
      simp at this; exact this
    generalize span x (List.range n).reverse = S at *
    generalize strideOf x n = s at *
    generalize dimOf x.shape n = e at *
    generalize pad x n = p at *
    nlinarith [Int.mul_nonneg (show 0 ≤ s by omega) hp]

/-- The number of positions of the padded box. -/
def boxSize (x : NDIndex) : Int := ((List.range x.shape.length).map fun k => dimOf x.shape k + pad x k).prod

/-- C51: with default strides and non-negative offsets, tuples of the shape have distinct
    positions, all within the padded box. -/
theorem C51_default_strides (x : NDIndex) (hw : WellFormed x) (hs : x.stride = [])
    (hpad : ∀ d < x.shape.length, 0 ≤ pad x d) (is : List Int) (hi : InShape x is) :
    (∃ p, x.index is = .ok p ∧ 0 ≤ p ∧ p < boxSize x) ∧
    ∀ js, InShape x js → x.index is = x.index js → is = js := by
  have hshape : ∀ d < x.shape.length, 0 < dimOf x.shape d := fun d hd => by have := hi.2 d hd; omega
  refine ⟨⟨_, C51_index x hw is hi.1, ?_⟩, fun js hj h => ?_⟩
  · have key : ∀ n, n ≤ x.shape.length →
        0 ≤ ((List.range n).map fun d => (pad x d + dimOf is d) * strideOf x d).sum ∧
        ((List.range n).map fun d => (pad x d + dimOf is d) * strideOf x d).sum < strideOf x n := by
      intro n
      induction n with
      | zero => intro _; simp [strideOf, hs]
      | succ n ih =>
        intro hn
        obtain ⟨h1, h2⟩ := ih (by omega)
        have hp := hpad n (by omega)
        obtain ⟨d1, d2⟩ := hi.2 n (by omega)
        rw [List.range_succ, default_succ x hs]
        simp only [List.map_append, List.map_cons, List.map_nil, List.sum_append, List.sum_singleton]
        generalize ((List.range n).map fun d => (pad x d + dimOf is d) * strideOf x d).sum = S at *
        generalize strideOf x n = s at *
        generalize dimOf x.shape n = e at *
        generalize pad x n = p at *
        generalize dimOf is n = i at *
        have hs0 : 0 < s := by omega
        have q1 : 0 ≤ (p + i) * s := Int.mul_nonneg (by omega) (by omega)
        have q2 : (p + i + 1) * s ≤ (e + p) * s := Int.mul_le_mul_of_nonneg_right (by omega) (by omega)
        constructor
        · omega
        · nlinarith
    have := key x.shape.length (Nat.le_refl _)
    refine ⟨this.1, ?_⟩
    have e : boxSize x = strideOf x x.shape.length := by unfold boxSize strideOf; rw [if_pos hs]
    rw [e]; exact this.2
  · exact C51_injective x hw (List.range x.shape.length).reverse (List.reverse_perm _)
      (default_nested x hs hpad hshape _ (Nat.le_refl _)).2 is js hi hj h

example : WellFormed ⟨3, [2, 3, 2], [], []⟩ ∧ InShape ⟨3, [2, 3, 2], [], []⟩ [1, 2, 1] ∧
    (⟨3, [2, 3, 2], [], []⟩ : NDIndex).index [1, 2, 1] = .ok 11 :=
  ⟨⟨rfl, .inl rfl, .inl rfl⟩, ⟨rfl, by decide⟩, by decide⟩

/-- C51: with default strides and no offsets every position below the product of the extents is
    the position of a tuple of the shape. -/
theorem C51_default_covers (x : NDIndex) (hw : WellFormed x) (hs : x.stride = []) (ho : x.offset = [])
    (hshape : ∀ d < x.shape.length, 0 < dimOf x.shape d) (p : Int) (h0 : 0 ≤ p) (h1 : p < x.shape.prod) :
    ∃ is, InShape x is ∧ x.index is = .ok p := by
  have hpad : ∀ d, pad x d = 0 := by intro d; simp [pad, dimOf, ho]
  have key : ∀ n, n ≤ x.shape.length → ∀ p, 0 ≤ p → p < strideOf x n → ∃ is : List Int, is.length = n ∧
      (∀ d < n, 0 ≤ dimOf is d ∧ dimOf is d < dimOf x.shape d) ∧
      ((List.range n).map fun d => (pad x d + dimOf is d) * strideOf x d).sum = p := by
    intro n
    induction n with
    | zero =>
      intro _ p h0 h1
      refine ⟨[], rfl, fun d hd => absurd hd (Nat.not_lt_zero _), ?_⟩
      simp [strideOf, hs] at h1 ⊢; omega
    | succ n ih =>
      intro hn p h0 h1
      rw [default_succ x hs, hpad, Int.add_zero] at h1
      have hsp : 0 < strideOf x n := by
        have := hshape n (by omega)
        rcases Int.lt_or_le 0 (strideOf x n) with h | h
        · exact h
        · have := Int.mul_le_mul_of_nonneg_right (c := dimOf x.shape n) h (by omega)
          omega
      have hm1 := Int.emod_nonneg p (Int.ne_of_gt hsp)
      have hm2 := Int.emod_lt_of_pos p hsp
      obtain ⟨is, l1, l2, l3⟩ := ih (by omega) (p % strideOf x n) hm1 hm2
      refine ⟨is ++ [p / strideOf x n], by simp [l1], ?_, ?_⟩
      · intro d hd
        by_cases e : d = n
        · subst e
          have : dimOf (is ++ [p / strideOf x d]) d = p / strideOf x d := by
            unfold dimOf List.getD; rw [← l1, List.getElem?_concat_length]; rfl
          rw [this]
          refine ⟨Int.ediv_nonneg h0 (by omega), Int.ediv_lt_of_lt_mul hsp ?_⟩
          rw [Int.mul_comm]; exact h1
        · have : dimOf (is ++ [p / strideOf x n]) d = dimOf is d := by
            unfold dimOf List.getD; rw [List.getElem?_append_left (by omega)]
          rw [this]; exact l2 d (by omega)
      · rw [List.range_succ]
        simp only [List.map_append, List.map_cons, List.map_nil, List.sum_append, List.sum_singleton]
        have e1 : ((List.range n).map fun d => (pad x d + dimOf (is ++ [p / strideOf x n]) d) * strideOf x d) =
            ((List.range n).map fun d => (pad x d + dimOf is d) * strideOf x d) := by
          apply List.map_congr_left
          intro d hd
          have hd' := List.mem_range.mp hd
          have : dimOf (is ++ [p / strideOf x n]) d = dimOf is d := by
            unfold dimOf List.getD; rw [List.getElem?_append_left (by omega)]
          rw [this]
        have e2 : dimOf (is ++ [p / strideOf x n]) n = p / strideOf x n := by
          generalize p / strideOf x n = v
          subst l1
          unfold dimOf List.getD; rw [List.getElem?_concat_length]; rfl
        rw [e1, l3, e2, hpad, Int.zero_add, Int.mul_comm]
        exact Int.emod_add_mul_ediv p (strideOf x n)
  have hprod : x.shape.prod = strideOf x x.shape.length := by
    unfold strideOf; rw [if_pos hs]
    congr 1
    apply List.ext_getElem (by simp)
    intro d h1 h2
    simp [hpad, dimOf, h1]
  rw [hprod] at h1
  obtain ⟨is, l1, l2, l3⟩ := key _ (Nat.le_refl _) p h0 h1
  refine ⟨is, ⟨l1, l2⟩, ?_⟩
  rw [C51_index x hw is l1]; unfold position; rw [l3]

/-- C51 for a tuple shorter than the number of dimensions: it is applied to the trailing
    dimensions. -/
theorem C51_short_tuple (x : NDIndex) (hw : WellFormed x) (is js : List Int) (hl : is.length = x.shape.length)
    (d : Nat) (hd : d ≤ x.shape.length) (h : js = is.drop d) :
    x.index js = .ok ((List.range' d (x.shape.length - d)).map fun k => (pad x k + dimOf is k) * strideOf x k).sum := by
  rw [h]; exact index_suffix x hw is hl _ d (by omega)

end Conduit.ND
