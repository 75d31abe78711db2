import Verif.Lemmas.KdTree
/-
Lemmas on the kd-tree: searching it, and the extents.
-/
namespace Conduit.Kd
variable {K : Type}

theorem foldl_and (l : List Nat) (f : Nat → Bool) : ∀ r, l.foldl (fun r i => r && f i) r = (r && l.all f) := by
  induction l with
  | nil => simp
  | cons a l ih => intro r; simp [ih, Bool.and_assoc]

theorem pointInBox_iff {E : Env K} {pt : Pt K} {b : Box K} :
    pointInBox E pt b = true ↔ ∀ d, d < E.nd → E.ops.le (b d).1 (pt d) = true ∧ E.ops.lt (pt d) (b d).2 = true := by
  unfold pointInBox
  rw [foldl_and]
  simp

theorem foldl_range_succ {α : Type} (f : α → Nat → α) (a : α) (n : Nat) :
    (List.range (n + 1)).foldl f a = f ((List.range n).foldl f a) n := by
  rw [List.range_succ, List.foldl_append]; rfl

theorem pointEqual_iff {E : Env K} {tol2 : K} {pt : Pt K} {i : Nat} :
    pointEqual E tol2 pt i = E.ops.lt (dist2 E.ops E.nd pt fun d => E.coord d i) tol2 := by
  unfold pointEqual
  have : ∀ n, (List.range n).foldl
    (fun s d => let delta := E.ops.sub (pt d) (E.coord d i); E.ops.add s (E.ops.mul delta delta)) E.ops.zero =
      dist2 E.ops n pt fun d => E.coord d i := by
    intro n
    induction n with
    | zero => rfl
    | succ n ih => rw [foldl_range_succ, ih]; rfl
  simp only [this]

theorem longest_lt {E : Env K} (b : Box K) (h : 0 < E.nd) : longest E b < E.nd := by
  unfold longest
  have : ∀ (n : Nat) (len : K), n ≤ E.nd - 1 → (List.range n).foldl
    (fun rv i => if E.ops.lt len (E.ops.sub (b (i + 1)).2 (b (i + 1)).1) then i + 1 else rv) 0 < E.nd := by
    intro n len
    induction n with
    | zero => intro _; simpa using h
    | succ n ih =>
      intro hn
      rw [foldl_range_succ]
      split
      · omega
      · exact ih (by omega)
  exact this _ _ (Nat.le_refl _)

/-- A point of a box is in the first half iff it is below the cut. -/
theorem in_cut_iff {E : Env K} (W : Ordered E.ops) {pt : Pt K} {b : Box K} {dim : Nat} (hd : dim < E.nd)
    (h : pointInBox E pt b = true) :
    (pointInBox E pt (cutBox E.ops b dim).1 = true ↔ E.ops.lt (pt dim) (midOf E.ops b dim) = true) ∧
    (E.ops.lt (pt dim) (midOf E.ops b dim) = false → pointInBox E pt (cutBox E.ops b dim).2 = true) := by
  rw [pointInBox_iff] at h
  refine ⟨⟨fun h1 => ?_, fun h1 => ?_⟩, fun h1 => ?_⟩
  · have := (pointInBox_iff.1 h1 dim hd).2
    simpa [cutBox, setDim] using this
  · rw [pointInBox_iff]
    intro d hd'
    by_cases e : d = dim
    · subst e; simpa [cutBox, setDim, h1] using (h d hd').1
    · simpa [cutBox, setDim, e] using h d hd'
  · rw [pointInBox_iff]
    intro d hd'
    by_cases e : d = dim
    · subst e
      refine ⟨?_, by simpa [cutBox, setDim] using (h d hd').2⟩
      simp [cutBox, setDim, W.le_iff, h1]
    · simpa [cutBox, setDim, e] using h d hd'

theorem lt_congr {o : Ops K} (W : Ordered o) {a b c : K} (h : Same o a b) : o.lt a c = o.lt b c := by
  have key : ∀ x y, Same o x y → o.lt x c = true → o.lt y c = true := by
    intro x y hs hx
    cases hy : o.lt y c with
    | true => rfl
    | false => rw [W.negTrans x y c hs.1 hy] at hx; exact absurd hx (by simp)
  cases ha : o.lt a c with
  | true => exact (key a b h ha).symm
  | false =>
    cases hb : o.lt b c with
    | false => rfl
    | true => rw [key b a ⟨h.2, h.1⟩ hb] at ha; exact absurd ha (by simp)

theorem Same.symm {o : Ops K} {a b : K} (h : Same o a b) : Same o b a := ⟨h.2, h.1⟩

/-- The descent ends and gives a box of the tree. -/
theorem descend_ok {E : Env K} {st : St} {pt : Pt K} : ∀ (left fuel bp prev off : Nat) (m : List Nat) (b : Box K)
    (cur : Box K), left ≤ fuel → Built E st.boxes left bp off m b → (∃ x, st.boxes[prev]? = some x) →
    ∃ r x, descend E st pt fuel bp prev cur = .ok r ∧ st.boxes[r]? = some x := by
  intro left
  induction left with
  | zero =>
    intro fuel bp prev off m b cur _ hB hp
    obtain ⟨x, hx⟩ := hp
    have : ∃ y, st.boxes[bp]? = some y ∧ y.child = none := by
      unfold Built at hB
      split at hB
      · exact hB
      · obtain ⟨y, h1, h2, _⟩ := hB; exact ⟨y, h1, h2⟩
    obtain ⟨y, h1, h2⟩ := this
    exact ⟨prev, x, by unfold descend; simp [Res.ofIdx, h1, h2], hx⟩
  | succ left ih =>
    intro fuel bp prev off m b cur hf hB hp
    unfold Built at hB
    split at hB
    · obtain ⟨x, hx⟩ := hp
      obtain ⟨y, h1, h2⟩ := hB
      exact ⟨prev, x, by unfold descend; simp [Res.ofIdx, h1, h2], hx⟩
    · obtain ⟨y, h1, h2, h3, h4, mA, mB, h5, h6, h7, h8, h9⟩ := hB
      obtain ⟨fuel', rfl⟩ : ∃ f, fuel = f + 1 := ⟨fuel - 1, by omega⟩
      unfold descend
      simp only [Res.ofIdx, h1, Res.bind_ok, h2]
      split
      · exact ih fuel' _ bp _ mA _ _ (by omega) h8 ⟨y, h1⟩
      · exact ih fuel' _ bp _ mB _ _ (by omega) h9 ⟨y, h1⟩

/-- The box reached for a stored point lists that point. -/
theorem descend_stored {E : Env K} (W : Ordered E.ops) (hnd : 0 < E.nd) {st : St} {pt : Pt K} {i : Nat}
    (hs : ∀ d, d < E.nd → Same E.ops (pt d) (E.coord d i)) :
    ∀ (left fuel bp prev : Nat) (p m s : List Nat) (b : Box K), left ≤ fuel → st.index = p ++ m ++ s →
      Built E st.boxes left bp p.length m b → i ∈ m → pointInBox E pt b = true →
      (∃ x, st.boxes[prev]? = some x ∧ i ∈ slice st.index x.range) →
      ∃ r x, descend E st pt fuel bp prev b = .ok r ∧ st.boxes[r]? = some x ∧ i ∈ slice st.index x.range := by
  intro left
  induction left with
  | zero =>
    intro fuel bp prev p m s b _ _ hB hi _ hp
    obtain ⟨x, hx, hin⟩ := hp
    unfold Built at hB
    rw [if_neg (List.ne_nil_of_mem hi)] at hB
    obtain ⟨y, h1, h2, _⟩ := hB
    exact ⟨prev, x, by unfold descend; simp [Res.ofIdx, h1, h2], hx, hin⟩
  | succ left ih =>
    intro fuel bp prev p m s b hf hst hB hi hbox hp
    unfold Built at hB
    rw [if_neg (List.ne_nil_of_mem hi)] at hB
    obtain ⟨y, h1, h2, h3, h4, mA, mB, h5, h6, h7, h8, h9⟩ := hB
    obtain ⟨fuel', rfl⟩ : ∃ f, fuel = f + 1 := ⟨fuel - 1, by omega⟩
    have hdim : longest E b < E.nd := longest_lt b hnd
    obtain ⟨c1, c2⟩ := in_cut_iff W hdim hbox
    have hy : ∃ x, st.boxes[bp]? = some x ∧ i ∈ slice st.index x.range := by
      refine ⟨y, h1, ?_⟩
      rw [h4, hst, slice_mid]
      exact hi
    have hlt := lt_congr W (c := midOf E.ops b (longest E b)) (hs _ hdim)
    unfold descend
    simp only [Res.ofIdx, h1, Res.bind_ok, h2, h3]
    split
    · rename_i hA
      have hmid := c1.1 hA
      have hiA : i ∈ mA := by
        rcases List.mem_append.1 (h5 ▸ hi) with h | h
        · exact h
        · have := h7 i h
          rw [← hlt, hmid] at this
          exact absurd this (by simp)
      exact ih fuel' _ bp p mA (mB ++ s) _ (by omega) (by rw [hst, h5]; simp [List.append_assoc]) h8 hiA hA hy
    · rename_i hA
      have hmid : E.ops.lt (pt (longest E b)) (midOf E.ops b (longest E b)) = false := by
        cases h : E.ops.lt (pt (longest E b)) (midOf E.ops b (longest E b)) with
        | false => rfl
        | true => exact absurd (c1.2 h) hA
      have hiB : i ∈ mB := by
        rcases List.mem_append.1 (h5 ▸ hi) with h | h
        · have := h6 i h
          rw [← hlt, hmid] at this
          exact absurd this (by simp)
        · exact h
      exact ih fuel' _ bp (p ++ mA) mB s _ (by omega) (by rw [hst, h5]; simp [List.append_assoc])
        (by rw [List.length_append]; exact h9) hiB (c2 hmid) hy

theorem levels_le (levels : Nat) : levels ≤ 2 ^ (levels + 1) - 1 := by
  have := Nat.lt_two_pow_self (n := levels + 1)
  omega

theorem mem_slice {l : List Nat} {r : Range} {i : Nat} (h : i ∈ slice l r) : i ∈ l :=
  List.mem_of_mem_drop (List.mem_of_mem_take h)

/-- Whatever is found is a point within the tolerance, and the search always ends. -/
theorem findPoint_sound {E : Env K} (W : Ordered E.ops) (S : Sorts E.sort) {levels : Nat} {box box' : Box K} {st : St}
    (h : construct E levels box = .ok st) (tol : K) (pt : Pt K) :
    ∃ r, findPoint E st box' (E.ops.mul tol tol) pt = .ok r ∧ ∀ i, r = some i → Near E tol pt i := by
  obtain ⟨st', h1, h2, h3, h4⟩ := construct_spec W S levels box
  cases h.symm.trans h1
  unfold findPoint
  split
  · obtain ⟨r, x, hr, hx⟩ := descend_ok (pt := pt) levels st.boxes.length 0 0 0 st.index box box'
      (by rw [h3]; exact levels_le levels) h4 (by
        refine ⟨st.boxes[0]'?_, List.getElem?_eq_getElem _⟩
        rw [h3]
        have := Nat.lt_two_pow_self (n := levels + 1)
        omega)
    rw [hr]
    simp only [Res.bind_ok, Res.ofIdx, hx]
    refine ⟨_, rfl, fun i hi => ?_⟩
    refine ⟨?_, ?_⟩
    · have := h2.mem_iff.1 (mem_slice (List.mem_of_find?_eq_some hi))
      simpa using this
    · have := List.find?_some hi
      rwa [pointEqual_iff] at this
  · exact ⟨none, rfl, fun i hi => by cases hi⟩

/-- A stored point inside of the box is found. -/
theorem findPoint_stored {E : Env K} (W : Ordered E.ops) (S : Sorts E.sort) (hnd : 0 < E.nd) {levels : Nat}
    {box : Box K} {st : St} (h : construct E levels box = .ok st) (tol : K) (pt : Pt K) {i : Nat} (hi : At E pt i)
    (hn : Near E tol pt i) (hb : pointInBox E pt box = true) :
    ∃ j, findPoint E st box (E.ops.mul tol tol) pt = .ok (some j) := by
  obtain ⟨st', h1, h2, h3, h4⟩ := construct_spec W S levels box
  cases h.symm.trans h1
  have him : i ∈ st.index := h2.mem_iff.2 (by simpa using hi.1)
  have hroot : ∃ x, st.boxes[0]? = some x ∧ i ∈ slice st.index x.range := by
    have hsl : slice st.index ⟨0, st.index.length⟩ = st.index := by simp [slice]
    have hB := h4
    unfold Built at hB
    rw [if_neg (List.ne_nil_of_mem him)] at hB
    split at hB
    · obtain ⟨x, g1, _, g3⟩ := hB
      exact ⟨x, g1, by rw [g3, hsl]; exact him⟩
    · obtain ⟨x, g1, _, _, g4, _⟩ := hB
      exact ⟨x, g1, by rw [g4, hsl]; exact him⟩
  obtain ⟨r, x, g1, g2, g3⟩ := descend_stored W hnd hi.2 levels st.boxes.length 0 0 [] st.index [] box
    (by rw [h3]; exact levels_le levels) (by simp) h4 him hb hroot
  unfold findPoint
  rw [if_pos hb, g1]
  simp only [Res.bind_ok, Res.ofIdx, g2]
  cases hf : (slice st.index x.range).find? (pointEqual E (E.ops.mul tol tol) pt) with
  | some j => exact ⟨j, rfl⟩
  | none =>
    have := List.find?_eq_none.1 hf i g3
    rw [pointEqual_iff] at this
    exact absurd hn.2 this

/-! ### extents -/

theorem extent_bounds {E : Env K} (W : Ordered E.ops) (d : Nat) {i : Nat} (hi : i < E.len) :
    E.ops.lt (E.coord d i) (extent E d).1 = false ∧ E.ops.lt (extent E d).2 (E.coord d i) = false := by
  unfold extent
  have key : ∀ n, i < n → (fun b : K × K => E.ops.lt (E.coord d i) b.1 = false ∧ E.ops.lt b.2 (E.coord d i) = false)
      ((List.range n).foldl (fun b j => (minK E.ops b.1 (E.coord d j), maxK E.ops b.2 (E.coord d j)))
        (E.ops.maxLim, E.ops.minLim)) := by
    intro n
    induction n with
    | zero => intro h; omega
    | succ n ih =>
      intro h
      rw [foldl_range_succ]
      generalize hg : (List.range n).foldl (fun b j => (minK E.ops b.1 (E.coord d j), maxK E.ops b.2 (E.coord d j)))
        (E.ops.maxLim, E.ops.minLim) = b at ih
      have hmin : ∀ x y, E.ops.lt x (minK E.ops x y) = false ∧ E.ops.lt y (minK E.ops x y) = false := by
        intro x y
        unfold minK
        cases hc : E.ops.lt y x with
        | true =>
          simp only [if_true]
          refine ⟨?_, W.irrefl _⟩
          cases h2 : E.ops.lt x y with
          | false => rfl
          | true => have := W.trans _ _ _ hc h2; rw [W.irrefl] at this; exact this.symm
        | false => simpa using ⟨W.irrefl _, hc⟩
      have hmax : ∀ x y, E.ops.lt (maxK E.ops x y) x = false ∧ E.ops.lt (maxK E.ops x y) y = false := by
        intro x y
        unfold maxK
        cases hc : E.ops.lt x y with
        | true =>
          simp only [if_true]
          refine ⟨?_, W.irrefl _⟩
          cases h2 : E.ops.lt y x with
          | false => rfl
          | true => have := W.trans _ _ _ hc h2; rw [W.irrefl] at this; exact this.symm
        | false => simpa using ⟨W.irrefl _, hc⟩
      by_cases e : i = n
      · subst e
        exact ⟨(hmin _ _).2, (hmax _ _).2⟩
      · have := ih (by omega)
        exact ⟨W.negTrans _ _ _ this.1 (hmin _ _).1, W.negTrans _ _ _ (hmax _ _).1 this.2⟩
  exact key _ hi

theorem expand_bounds {o : Ops K} (W : Ordered o) (X : Exact o) (b : K × K) :
    o.lt (expand o b).1 b.1 = true ∧ o.lt b.2 (expand o b).2 = true := by
  have hside : o.lt o.zero (maxK o (o.sub b.2 b.1) o.minExp) = true := by
    unfold maxK
    cases hc : o.lt (o.sub b.2 b.1) o.minExp with
    | true => simpa using X.least
    | false =>
      simp only [Bool.false_eq_true, if_false]
      cases h : o.lt o.zero (o.sub b.2 b.1) with
      | true => rfl
      | false => have := W.negTrans _ _ _ h hc; rw [X.least] at this; exact absurd this (by simp)
  have hd := X.part _ hside
  exact ⟨X.sub_lt _ _ hd, X.add_lt _ _ hd⟩

theorem in_extents {E : Env K} (W : Ordered E.ops) (X : Exact E.ops) {pt : Pt K} {i : Nat} (h : At E pt i) :
    pointInBox E pt (calculateExtents E) = true := by
  rw [pointInBox_iff]
  intro d hd
  obtain ⟨h1, h2⟩ := extent_bounds W d h.1
  obtain ⟨g1, g2⟩ := expand_bounds W X (extent E d)
  have hs := h.2 d hd
  have mono : ∀ a b c, E.ops.lt a b = true → E.ops.lt c b = false → E.ops.lt a c = true := by
    intro a b c hab hcb
    cases hac : E.ops.lt a c with
    | true => rfl
    | false => rw [W.negTrans a c b hac hcb] at hab; exact absurd hab (by simp)
  have mono' : ∀ a b c, E.ops.lt a b = true → E.ops.lt a c = false → E.ops.lt c b = true := by
    intro a b c hab hcb
    cases hac : E.ops.lt c b with
    | true => rfl
    | false => rw [W.negTrans a c b hcb hac] at hab; exact absurd hab (by simp)
  constructor
  · rw [W.le_iff]
    have h3 : E.ops.lt (calculateExtents E d).1 (E.coord d i) = true := mono _ _ _ g1 h1
    have h4 : E.ops.lt (E.coord d i) (calculateExtents E d).1 = false := by
      cases hx : E.ops.lt (E.coord d i) (calculateExtents E d).1 with
      | false => rfl
      | true => have := W.trans _ _ _ h3 hx; rw [W.irrefl] at this; exact this.symm
    rw [W.negTrans _ _ _ hs.1 h4]; rfl
  · have h3 : E.ops.lt (E.coord d i) (calculateExtents E d).2 = true := mono' _ _ _ g2 h2
    rw [lt_congr W hs]
    exact h3

end Conduit.Kd
