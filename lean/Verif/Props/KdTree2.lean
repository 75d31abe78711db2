import Verif.Props.KdTree
import Verif.Lemmas.AdjsetBase
/-
C76, continued: point queries; concrete cases; where lookups fail.
-/
namespace Conduit.Kd
variable {K F : Type}

/-! ### point queries -/

/-- Point `i` of the coordinate arrays has the coordinates of `pt`. -/
def Stored (Q : QOps F) (cols : List (Col F)) (pt : Pt F) (i : Nat) : Prop :=
  ∀ (d : Nat) (c : Col F), cols[d]? = some c → c.vals[i]? = some (pt d)

theorem stored_colAt {Q : QOps F} {cols : List (Col F)} {pt : Pt F} {i : Nat} (h : Stored Q cols pt i) (d : Nat)
    (hd : d < cols.length) : colAt Q cols d i = pt d := by
  obtain ⟨c, hc⟩ : ∃ c, cols[d]? = some c := ⟨cols[d], List.getElem?_eq_getElem hd⟩
  simp [colAt, hc, List.getD_eq_getElem?_getD, h d c hc]

theorem numPts_even {cols : List (Col F)} {n : Nat} (he : Even cols n) : numPts cols = n := by
  unfold numPts
  match cols, he with
  | c :: cs, he => simpa using he.2 c (by simp)

theorem same_refl {o : Ops K} (W : Ordered o) (a : K) : Same o a a := ⟨W.irrefl a, W.irrefl a⟩

/-- **C76**, part: with exact arithmetic a query at the coordinates of a point of the coordset succeeds, whether or
    not the coordset is large enough for the tree to be used. -/
theorem C76_query_partial (Q : QOps F) (Wd : Ordered Q.d) (Xd : Exact Q.d) (Zd : ZeroDist Q.d)
    (Ws : Ordered Q.s) (Xs : Exact Q.s) (Zs : ZeroDist Q.s)
    (sort : (Nat → Nat → Bool) → List Nat → List Nat) (S : Sorts sort) (levels : Nat)
    (cols : List (Col F)) (n : Nat) (he : Even cols n) (hl : cols.length = 1 ∨ cols.length = 2 ∨ cols.length = 3)
    (tol : F) (htd : Q.d.lt Q.d.zero (Q.d.mul tol tol) = true)
    (hts : Q.s.lt Q.s.zero (Q.s.mul (Q.narrow tol) (Q.narrow tol)) = true)
    (pt : Pt F) (i : Nat) (hi : i < n) (h : Stored Q cols pt i)
    (h32 : ∀ c ∈ cols, c.ty = .f false → ∀ v ∈ c.vals, Q.narrow v = v) :
    ∃ j, query Q sort levels cols tol pt = .ok (some j) ∧ j < n := by
  have hn := numPts_even he
  have hpos : 0 < cols.length := by omega
  unfold query
  split
  · have hat : At (envOf Q sort cols true) pt i := by
      refine ⟨by rw [← hn] at hi; exact hi, fun d hd => ?_⟩
      show Same Q.d (pt d) (colAt Q cols d i)
      rw [stored_colAt h d hd]
      exact same_refl Wd _
    obtain ⟨j, h1, h2⟩ := C76_stored_partial (envOf Q sort cols true) Wd Xd Zd S hpos levels tol htd pt i hat
    exact ⟨j, h1, by rw [← hn]; exact h2.1⟩
  · rename_i hacc
    have hall : ∀ c ∈ cols, c.ty = .f false := by
      unfold accelerated at hacc
      split at hacc
      · split at hacc
        · cases hacc
        · split at hacc
          · rename_i _ hc
            intro c hcm
            have := List.all_eq_true.1 hc c hcm
            simpa using this
          · cases hacc
      · cases hacc
    have hat : At (envOf Q sort cols false) (fun d => Q.narrow (pt d)) i := by
      refine ⟨by rw [← hn] at hi; exact hi, fun d hd => ?_⟩
      show Same Q.s (Q.narrow (pt d)) (colAt Q cols d i)
      have hd' : d < cols.length := hd
      have hc : cols[d]? = some cols[d] := List.getElem?_eq_getElem hd'
      have hm : cols[d] ∈ cols := List.getElem_mem hd'
      rw [stored_colAt h d hd, h32 _ hm (hall _ hm) _ (List.mem_of_getElem? (h d _ hc))]
      exact same_refl Ws _
    obtain ⟨j, h1, h2⟩ := C76_stored_partial (envOf Q sort cols false) Ws Xs Zs S hpos levels (Q.narrow tol) hts
      (fun d => Q.narrow (pt d)) i hat
    exact ⟨j, h1, by rw [← hn]; exact h2.1⟩
  · have hclose : Close Q.d tol pt (coordsOf Q.d.zero cols i) := by
      unfold Close
      rw [← distance2_eq Q cols hl]
      have hz : ∀ d, d < cols.length →
          Q.d.mul (Q.d.sub (colAt Q cols d i) (pt d)) (Q.d.sub (colAt Q cols d i) (pt d)) = Q.d.zero := by
        intro d hd
        rw [stored_colAt h d hd]
        exact Zd.sq _ _ (same_refl Wd _)
      have : distance2 Q cols pt i = Q.d.zero := by
        unfold distance2
        rcases hl with h' | h' | h' <;> rw [h']
        · exact hz 0 (by omega)
        · simp only [hz 0 (by omega), hz 1 (by omega), Zd.sum]
        · simp only [hz 0 (by omega), hz 1 (by omega), hz 2 (by omega), Zd.sum]
      rw [this]
      exact htd
    obtain ⟨h1, h2⟩ := C76_normal Q cols n he hl tol pt
    cases hr : normalSearch Q cols tol pt with
    | none => exact absurd hclose (h2.1 hr i hi)
    | some j => exact ⟨j, rfl, ((h1 j).1 hr).1⟩

/-! ### a concrete case -/

theorem sorts_sortBy : Sorts (fun cmp l => Mesh.sortBy cmp l) := by
  intro cmp hi ht hn l
  refine ⟨Mesh.sortBy_perm cmp l, ?_⟩
  have hasym : ∀ a b, cmp a b = true → cmp b a = false := by
    intro a b hab
    cases hba : cmp b a with
    | false => rfl
    | true => have := ht a b a hab hba; rw [hi] at this; exact this.symm
  have key : ∀ (a : Nat) (l : List Nat), l.Pairwise (fun x y => cmp y x = false) →
      (Mesh.insertBy cmp a l).Pairwise (fun x y => cmp y x = false) ∧ ∀ x ∈ Mesh.insertBy cmp a l, x = a ∨ x ∈ l := by
    intro a l
    induction l with
    | nil => intro _; simp [Mesh.insertBy]
    | cons b l ih =>
      intro hp
      rw [List.pairwise_cons] at hp
      obtain ⟨i1, i2⟩ := ih hp.2
      unfold Mesh.insertBy
      split
      · rename_i hc
        refine ⟨?_, ?_⟩
        · rw [List.pairwise_cons]
          refine ⟨?_, i1⟩
          intro y hy
          rcases i2 y hy with rfl | hy
          · exact hasym _ _ hc
          · exact hp.1 y hy
        · intro x hx
          rcases List.mem_cons.1 hx with rfl | hx
          · simp
          · rcases i2 x hx with rfl | hx
            · simp
            · simp [hx]
      · rename_i hc
        have hc : cmp b a = false := by simpa using hc
        refine ⟨?_, fun x hx => by simpa using hx⟩
        rw [List.pairwise_cons, List.pairwise_cons]
        refine ⟨?_, hp⟩
        intro y hy
        rcases List.mem_cons.1 hy with rfl | hy
        · exact hc
        · exact hn _ _ _ (hp.1 y hy) hc
  induction l with
  | nil => simp [Mesh.sortBy]
  | cons a l ih => exact (key a _ ih).1

/-- Exact arithmetic on rational numbers. -/
def ratOps : Ops Rat where
  zero := 0
  lt a b := decide (a < b)
  le a b := decide (a ≤ b)
  add a b := a + b
  sub a b := a - b
  mul a b := a * b
  half a := a / 2
  d200 a := a / 200
  maxLim := 1000000000
  minLim := 1 / 1000000000
  minExp := 200 / 1000000000

theorem ratOps_ordered : Ordered ratOps where
  irrefl a := by simp only [ratOps]; grind
  trans a b c := by simp only [ratOps]; grind
  negTrans a b c := by simp only [ratOps]; grind
  le_iff a b := by simp only [ratOps]; grind

theorem ratOps_exact : Exact ratOps where
  add_lt a e := by simp only [ratOps]; grind
  sub_lt a e := by simp only [ratOps]; grind
  part e := by simp only [ratOps]; grind
  least := by decide +kernel

theorem ratOps_zeroDist : ZeroDist ratOps where
  sq a b := by
    simp only [ratOps, Same]
    intro h
    have : a = b := by grind
    subst this
    grind
  sum := by decide +kernel

/-- Four points on a line in the plane. -/
def line4 : Env Rat where
  ops := ratOps
  nd := 2
  len := 4
  coord := fun d i => if d = 0 then ([16, 0, 30, 5] : List Rat).getD i 0 else 0
  sort := fun cmp l => Mesh.sortBy cmp l

/-- The order of the points along the line; the lookup of each point gives its number. -/
example : (construct line4 2 (calculateExtents line4)).map' (·.index) = .ok [1, 3, 0, 2] := by decide +kernel

example : (List.range 4).map (fun i => lookup line4 2 (1 / 1000000000) (fun d => line4.coord d i)) =
    [.ok (some 0), .ok (some 1), .ok (some 2), .ok (some 3)] := by decide +kernel

example : ∃ j, lookup line4 2 (1 / 1000000000) (fun d => line4.coord d 2) = .ok (some j) ∧
    Near line4 (1 / 1000000000) (fun d => line4.coord d 2) j :=
  C76_stored_partial line4 ratOps_ordered ratOps_exact ratOps_zeroDist sorts_sortBy (by decide) 2 _
    (by decide +kernel) _ 2 ⟨by decide, fun d hd => same_refl ratOps_ordered _⟩

/-! ### where the full claim fails -/

/-- A point within the tolerance on the other side of a cut above the last one is not found: `16` is `2` away from
    `14` and the tolerance is `4`. -/
theorem C76_misses_near_false : ∃ (E : Env Rat) (pt : Pt Rat) (i : Nat), E.ops = ratOps ∧ Near E 4 pt i ∧
    lookup E 2 4 pt = .ok none := by
  refine ⟨line4, fun d => if d = 0 then 14 else 0, 0, rfl, ?_, by decide +kernel⟩
  unfold Near
  decide +kernel

/-- Of several points within the tolerance the tree reports the first in its own order, not the one with the lowest
    number. -/
theorem C76_first_false : ∃ (E : Env Rat) (pt : Pt Rat), E.ops = ratOps ∧ Near E 4 pt 0 ∧ Near E 4 pt 1 ∧
    lookup E 1 4 pt = .ok (some 1) := by
  refine ⟨{ line4 with len := 2, coord := fun d i => if d = 0 then ([1, 0] : List Rat).getD i 0 else 0 },
    fun _ => 0, rfl, ?_, ?_, by decide +kernel⟩ <;> unfold Near <;> decide +kernel

theorem extent_const {E : Env K} {d : Nat} {v : K} (hlen : 0 < E.len) (hv : ∀ i, i < E.len → E.coord d i = v)
    (hi : E.ops.lt v v = false) (h1 : E.ops.lt v E.ops.maxLim = true) (h2 : E.ops.lt E.ops.minLim v = true) :
    extent E d = (v, v) := by
  unfold extent
  have : ∀ n, 0 < n → n ≤ E.len → (List.range n).foldl
      (fun b j => (minK E.ops b.1 (E.coord d j), maxK E.ops b.2 (E.coord d j))) (E.ops.maxLim, E.ops.minLim) = (v, v) := by
    intro n
    induction n with
    | zero => intro h; omega
    | succ n ih =>
      intro _ hn
      rw [foldl_range_succ, hv n (by omega)]
      by_cases h0 : n = 0
      · subst h0
        simp [minK, maxK, h1, h2]
      · rw [ih (by omega) (by omega)]
        simp [minK, maxK, hi]
  exact this _ hlen (Nat.le_refl _)

/-- All points have the same coordinate `v` along an axis, and `v` is so large that the enlargement of the extents by
    a tolerance is lost in rounding: then no point at all is found. -/
theorem C76_flat_not_found (E : Env K) (W : Ordered E.ops) (S : Sorts E.sort) (levels : Nat) (tol : K) (d : Nat) (v : K)
    (hd : d < E.nd) (hlen : 0 < E.len) (hv : ∀ i, i < E.len → E.coord d i = v)
    (h1 : E.ops.lt v E.ops.maxLim = true) (h2 : E.ops.lt E.ops.minLim v = true)
    (habs : E.ops.add v (E.ops.d200 (maxK E.ops (E.ops.sub v v) E.ops.minExp)) = v)
    (pt : Pt K) (i : Nat) (hi : At E pt i) : lookup E levels tol pt = .ok none := by
  obtain ⟨st, h3, _⟩ := construct_spec W S levels (calculateExtents E)
  have hout : pointInBox E pt (calculateExtents E) = false := by
    cases h : pointInBox E pt (calculateExtents E) with
    | false => rfl
    | true =>
      have h4 := (pointInBox_iff.1 h d hd).2
      have h5 : (calculateExtents E d).2 = v := by
        unfold calculateExtents
        rw [extent_const hlen hv (W.irrefl v) h1 h2]
        exact habs
      have h6 := (hi.2 d hd).1
      rw [hv i hi.1] at h6
      rw [h5, h6] at h4
      exact h4.symm
  simp [lookup, h3, findPoint, hout]

/-- `1.0` -/
def fone : Int := 2 ^ 1074

/-- The arithmetic of queries in IEEE 754 single and double precision. -/
def floatQ : QOps Int where
  d := float64
  s := float32
  narrow x := rndI 24 (2 ^ 925) x 1
  ofInt i := i * 2 ^ 1074

theorem floatOps_ordered (bits gran : Nat) (a b c : Int) : Ordered (floatOps bits gran a b c) where
  irrefl a := by simp [floatOps]
  trans a b c := by simp only [floatOps, decide_eq_true_eq]; omega
  negTrans a b c := by simp only [floatOps, decide_eq_false_iff_not]; omega
  le_iff a b := by
    simp only [floatOps]
    rw [Bool.eq_iff_iff]
    simp

/-- In single precision `1.0` plus the tolerance is `1.0`. -/
theorem float32_absorbs :
    float32.add fone (float32.d200 (maxK float32 (float32.sub fone fone) float32.minExp)) = fone := by decide +kernel

/-- **C76 fails** for a single precision coordset that lies in the line `y = 1`: with 15625 or more points none of them
    is found, whatever the tolerance, -/
theorem C76_flat_false (xs : List Int) (hx : threshold ≤ xs.length) (levels : Nat) (tol : Int) (i : Nat)
    (hi : i < xs.length) (pt : Pt Int) (h0 : floatQ.narrow (pt 0) = xs.getD i 0) (h1 : pt 1 = fone) :
    query floatQ (fun cmp l => Mesh.sortBy cmp l) levels
      [⟨.f false, xs⟩, ⟨.f false, List.replicate xs.length fone⟩] tol pt = .ok none := by
  have hacc : accelerated [⟨.f false, xs⟩, (⟨.f false, List.replicate xs.length fone⟩ : Col Int)] = some false := by
    simp [accelerated, numPts, hx]
  unfold query
  rw [hacc]
  simp only
  have hy : ∀ j, j < xs.length → colAt floatQ [⟨.f false, xs⟩, (⟨.f false, List.replicate xs.length fone⟩ : Col Int)] 1 j
      = fone := by
    intro j hj
    simp [colAt, List.getD_eq_getElem?_getD, hj]
  refine C76_flat_not_found
    (envOf floatQ (fun cmp l => Mesh.sortBy cmp l) [⟨.f false, xs⟩, ⟨.f false, List.replicate xs.length fone⟩] false)
    (floatOps_ordered _ _ _ _ _) sorts_sortBy levels (floatQ.narrow tol) 1 fone (by simp [envOf])
    (by simp only [envOf, numPts]; simp; simp [threshold] at hx; omega)
    (by simpa [envOf, numPts] using hy) (show float32.lt fone float32.maxLim = true by decide +kernel)
    (show float32.lt float32.minLim fone = true by decide +kernel) float32_absorbs _ i ⟨?_, ?_⟩
  · simpa [envOf, numPts] using hi
  · intro d hd
    have hd : d < 2 := hd
    match d, hd with
    | 0, _ =>
      have : colAt floatQ [⟨.f false, xs⟩, (⟨.f false, List.replicate xs.length fone⟩ : Col Int)] 0 i = xs.getD i 0 := by
        simp [colAt, floatQ, float64, floatOps]
      show Same float32 (floatQ.narrow (pt 0)) (colAt floatQ _ 0 i)
      rw [h0, this]
      exact same_refl (floatOps_ordered _ _ _ _ _) _
    | 1, _ =>
      show Same float32 (floatQ.narrow (pt 1)) (colAt floatQ _ 1 i)
      rw [hy i hi, h1]
      have : floatQ.narrow fone = fone := by decide +kernel
      rw [this]
      exact same_refl (floatOps_ordered _ _ _ _ _) _

/-- while in a small coordset of the same kind they are (tolerance `1e-9`). -/
example : ([0, 1, 2] : List Int).map (fun i => query floatQ (fun cmp l => Mesh.sortBy cmp l) 1
    [⟨.f false, [0, fone, 2 * fone]⟩, ⟨.f false, List.replicate 3 fone⟩] (4835703278458517 * 2 ^ (1074 - 82))
    (fun d => if d = 0 then i * fone else fone)) = [.ok (some 0), .ok (some 1), .ok (some 2)] := by decide +kernel

/-- Coordsets of the failing kind exist. -/
example (n : Nat) (hn : threshold ≤ n) : query floatQ (fun cmp l => Mesh.sortBy cmp l) 13
    [⟨.f false, List.replicate n 0⟩, ⟨.f false, List.replicate (List.replicate n (0 : Int)).length fone⟩]
    (4835703278458517 * 2 ^ (1074 - 82)) (fun d => if d = 0 then 0 else fone) = .ok none := by
  have h7 : 7 < n := by simp only [threshold] at hn; omega
  refine C76_flat_false (List.replicate n 0) (by rw [List.length_replicate]; exact hn) 13 _ 7
    (by rw [List.length_replicate]; exact h7) _ ?_ rfl
  rw [List.getD_eq_getElem?_getD, List.getElem?_replicate, if_pos h7]
  decide +kernel

/-- In double precision the same happens at `1e9`. -/
theorem float64_absorbs :
    float64.add (1000000000 * fone) (float64.d200 (maxK float64 (float64.sub (1000000000 * fone) (1000000000 * fone))
      float64.minExp)) = 1000000000 * fone := by decide +kernel

end Conduit.Kd
