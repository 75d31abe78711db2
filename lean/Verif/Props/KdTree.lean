import Verif.Lemmas.KdTree2
/-
C76: looking up points by their coordinates.  C77: the order in which the kd-tree lists the points.
-/
namespace Conduit.Kd
variable {K F : Type}

/-! ### C77 -/

/-- **C77**: the spatial order of the points lists every point exactly once. -/
theorem C77_order (E : Env K) (W : Ordered E.ops) (S : Sorts E.sort) (levels : Nat) (box : Box K) :
    ∃ st, construct E levels box = .ok st ∧ st.index.Perm (List.range E.len) := by
  obtain ⟨st, h1, h2, _⟩ := construct_spec W S levels box
  exact ⟨st, h1, h2⟩

/-! ### C76 -/

theorem near_of_at {E : Env K} (Z : ZeroDist E.ops) {tol : K} (ht : E.ops.lt E.ops.zero (E.ops.mul tol tol) = true)
    {pt : Pt K} {i : Nat} (h : At E pt i) : Near E tol pt i := by
  refine ⟨h.1, ?_⟩
  have : ∀ n, n ≤ E.nd → dist2 E.ops n pt (fun d => E.coord d i) = E.ops.zero := by
    intro n
    induction n with
    | zero => intro _; rfl
    | succ n ih =>
      intro hn
      show E.ops.add (dist2 E.ops n pt fun d => E.coord d i) _ = _
      rw [ih (by omega), Z.sq _ _ (h.2 n (by omega)), Z.sum]
  rw [this _ (Nat.le_refl _)]
  exact ht

/-- **C76**, part: a lookup ends, and a point it reports is within the tolerance. -/
theorem C76_sound (E : Env K) (W : Ordered E.ops) (S : Sorts E.sort) (levels : Nat) (tol : K) (pt : Pt K) :
    ∃ r, lookup E levels tol pt = .ok r ∧ ∀ i, r = some i → Near E tol pt i := by
  obtain ⟨st, h1, _⟩ := construct_spec W S levels (calculateExtents E)
  obtain ⟨r, h2, h3⟩ := findPoint_sound W S (box' := calculateExtents E) h1 tol pt
  exact ⟨r, by simp [lookup, h1, h2], h3⟩

/-- **C76**, part: with exact arithmetic a lookup at the coordinates of a point of the set succeeds, for any number of
    points, of levels and of dimensions, and whatever order `std::sort` gives to equal elements. -/
theorem C76_stored_partial (E : Env K) (W : Ordered E.ops) (X : Exact E.ops) (Z : ZeroDist E.ops) (S : Sorts E.sort)
    (hnd : 0 < E.nd) (levels : Nat) (tol : K) (ht : E.ops.lt E.ops.zero (E.ops.mul tol tol) = true)
    (pt : Pt K) (i : Nat) (h : At E pt i) :
    ∃ j, lookup E levels tol pt = .ok (some j) ∧ Near E tol pt j := by
  obtain ⟨st, h1, _⟩ := construct_spec W S levels (calculateExtents E)
  obtain ⟨j, hj⟩ := findPoint_stored W S hnd h1 tol pt h (near_of_at Z ht h) (in_extents W X h)
  obtain ⟨r, h2, h3⟩ := findPoint_sound W S (box' := calculateExtents E) h1 tol pt
  rw [hj] at h2
  cases h2
  exact ⟨j, by simp [lookup, h1, hj], h3 j rfl⟩

/-- The same for any arithmetic, if the enlarged extents contain the point. -/
theorem C76_stored_in_box_partial (E : Env K) (W : Ordered E.ops) (Z : ZeroDist E.ops) (S : Sorts E.sort)
    (hnd : 0 < E.nd) (levels : Nat) (tol : K) (ht : E.ops.lt E.ops.zero (E.ops.mul tol tol) = true)
    (pt : Pt K) (i : Nat) (h : At E pt i)
    (hb : ∀ d, d < E.nd → E.ops.lt (pt d) (expand E.ops (extent E d)).1 = false ∧
      E.ops.lt (pt d) (expand E.ops (extent E d)).2 = true) :
    ∃ j, lookup E levels tol pt = .ok (some j) ∧ Near E tol pt j := by
  obtain ⟨st, h1, _⟩ := construct_spec W S levels (calculateExtents E)
  have hin : pointInBox E pt (calculateExtents E) = true := by
    rw [pointInBox_iff]
    intro d hd
    have := hb d hd
    exact ⟨by rw [W.le_iff]; show (!E.ops.lt (pt d) (expand E.ops (extent E d)).1) = true; rw [this.1]; rfl, this.2⟩
  obtain ⟨j, hj⟩ := findPoint_stored W S hnd h1 tol pt h (near_of_at Z ht h) hin
  obtain ⟨r, h2, h3⟩ := findPoint_sound W S (box' := calculateExtents E) h1 tol pt
  rw [hj] at h2
  cases h2
  exact ⟨j, by simp [lookup, h1, hj], h3 j rfl⟩

/-- If no other point is within the tolerance, the point itself is reported. -/
theorem C76_unique_partial (E : Env K) (W : Ordered E.ops) (X : Exact E.ops) (Z : ZeroDist E.ops) (S : Sorts E.sort)
    (hnd : 0 < E.nd) (levels : Nat) (tol : K) (ht : E.ops.lt E.ops.zero (E.ops.mul tol tol) = true)
    (pt : Pt K) (i : Nat) (h : At E pt i) (hu : ∀ j, Near E tol pt j → j = i) :
    lookup E levels tol pt = .ok (some i) := by
  obtain ⟨j, h1, h2⟩ := C76_stored_partial E W X Z S hnd levels tol ht pt i h
  rw [h1, hu j h2]

/-! ### queries below the threshold -/

theorem colAt_coordsOf (Q : QOps F) (cols : List (Col F)) (d i : Nat) :
    colAt Q cols d i = (coordsOf Q.d.zero cols i).getD d Q.d.zero := by
  unfold colAt coordsOf
  simp only [List.getD_eq_getElem?_getD, List.getElem?_map]
  cases cols[d]? <;> simp

theorem distance2_eq (Q : QOps F) (cols : List (Col F)) (h : cols.length = 1 ∨ cols.length = 2 ∨ cols.length = 3)
    (pt : Pt F) (i : Nat) : distance2 Q cols pt i = sumSq Q.d (coordsOf Q.d.zero cols i) pt := by
  unfold distance2
  simp only [colAt_coordsOf]
  match cols, h with
  | [a], _ => simp [coordsOf, sumSq]
  | [a, b], _ => simp [coordsOf, sumSq]
  | [a, b, c], _ => simp [coordsOf, sumSq]

/-- **C76**, part: a search that does not use the tree reports the first point within the tolerance, and reports
    nothing only if there is none. -/
theorem C76_normal (Q : QOps F) (cols : List (Col F)) (n : Nat) (he : Even cols n)
    (h : cols.length = 1 ∨ cols.length = 2 ∨ cols.length = 3) (tol : F) (pt : Pt F) :
    (∀ i, normalSearch Q cols tol pt = some i ↔ i < n ∧ Close Q.d tol pt (coordsOf Q.d.zero cols i) ∧
      ∀ j, j < i → ¬ Close Q.d tol pt (coordsOf Q.d.zero cols j)) ∧
    (normalSearch Q cols tol pt = none ↔ ∀ i, i < n → ¬ Close Q.d tol pt (coordsOf Q.d.zero cols i)) := by
  have hn : numPts cols = n := by
    unfold numPts
    match cols, he with
    | c :: cs, he => simpa using he.2 c (by simp)
  unfold normalSearch
  rw [hn]
  simp only [distance2_eq Q cols h]
  constructor
  · intro i
    rw [List.find?_range_eq_some]
    simp only [Close, List.mem_range, Bool.not_eq_true, Bool.not_eq_eq_eq_not, Bool.not_true]
    constructor
    · rintro ⟨h1, h2, h3⟩; exact ⟨h2, h1, h3⟩
    · rintro ⟨h1, h2, h3⟩; exact ⟨h2, h1, h3⟩
  · rw [List.find?_eq_none]
    simp [Close]

end Conduit.Kd
