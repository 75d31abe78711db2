import Verif.Spec.KdTree
import Verif.Lemmas.ResMonad
/-
Lemmas on the kd-tree: what `constructBox` leaves behind.
-/
namespace Conduit.Kd
variable {K : Type}

/-! ### subtrees -/

/-- `q` is below `p` in the numbering where the children of `p` are `2p+1` and `2p+2`. -/
def Below (p q : Nat) : Prop := ∃ d, (q + 1) / 2 ^ d = p + 1

theorem Below.refl (p : Nat) : Below p p := ⟨0, by simp⟩

theorem Below.of_child {p c q : Nat} (hc : c = 2 * p + 1 ∨ c = 2 * p + 2) (h : Below c q) : Below p q := by
  obtain ⟨d, hd⟩ := h
  refine ⟨d + 1, ?_⟩
  rw [Nat.pow_succ, ← Nat.div_div_eq_div_mul, hd]
  omega

theorem not_below_both {p q : Nat} (h1 : Below (2 * p + 1) q) (h2 : Below (2 * p + 2) q) : False := by
  obtain ⟨d, hd⟩ := h1
  obtain ⟨e, he⟩ := h2
  rcases Nat.lt_trichotomy d e with h | h | h
  · obtain ⟨k, rfl⟩ : ∃ k, e = d + (k + 1) := ⟨e - d - 1, by omega⟩
    rw [Nat.pow_add, ← Nat.div_div_eq_div_mul, hd, Nat.pow_succ, Nat.mul_comm (2 ^ k), ← Nat.div_div_eq_div_mul] at he
    have := Nat.div_le_self ((2 * p + 1 + 1) / 2) (2 ^ k)
    omega
  · subst h; omega
  · obtain ⟨k, rfl⟩ : ∃ k, d = e + (k + 1) := ⟨d - e - 1, by omega⟩
    rw [Nat.pow_add, ← Nat.div_div_eq_div_mul, he, Nat.pow_succ, Nat.mul_comm (2 ^ k), ← Nat.div_div_eq_div_mul] at hd
    have := Nat.div_le_self ((2 * p + 2 + 1) / 2) (2 ^ k)
    omega

theorem not_below_child {p c : Nat} (hc : c = 2 * p + 1 ∨ c = 2 * p + 2) : ¬ Below c p := by
  rintro ⟨d, hd⟩
  have := Nat.div_le_self (p + 1) (2 ^ d)
  omega

/-! ### what the boxes of a subtree say -/

/-- The boxes below `bp` describe a tree over the points `m`, which the index vector lists from `off` on. -/
def Built (E : Env K) (boxes : List BoxInfo) : (left bp off : Nat) → List Nat → Box K → Prop
  | left, bp, off, m, b =>
    if m = [] then ∃ x, boxes[bp]? = some x ∧ x.child = none
    else
      match left with
      | 0 => ∃ x, boxes[bp]? = some x ∧ x.child = none ∧ x.range = ⟨off, m.length⟩
      | left + 1 => ∃ x, boxes[bp]? = some x ∧ x.child = some (2 * bp + 1) ∧ x.dim = longest E b ∧
          x.range = ⟨off, m.length⟩ ∧
          ∃ mA mB, m = mA ++ mB ∧
            (∀ i ∈ mA, E.ops.lt (E.coord (longest E b) i) (midOf E.ops b (longest E b)) = true) ∧
            (∀ i ∈ mB, E.ops.lt (E.coord (longest E b) i) (midOf E.ops b (longest E b)) = false) ∧
            Built E boxes left (2 * bp + 1) off mA (cutBox E.ops b (longest E b)).1 ∧
            Built E boxes left (2 * bp + 2) (off + mA.length) mB (cutBox E.ops b (longest E b)).2

theorem Built.frame {E : Env K} {boxes boxes' : List BoxInfo} :
    ∀ {left bp off : Nat} {m : List Nat} {b : Box K}, Built E boxes left bp off m b →
      (∀ q, Below bp q → boxes'[q]? = boxes[q]?) → Built E boxes' left bp off m b := by
  intro left
  induction left with
  | zero =>
    intro bp off m b h hq
    unfold Built at h ⊢
    rw [hq bp (Below.refl bp)]
    exact h
  | succ left ih =>
    intro bp off m b h hq
    unfold Built at h ⊢
    rw [hq bp (Below.refl bp)]
    split
    · rename_i hm; rw [if_pos hm] at h; exact h
    · rename_i hm
      rw [if_neg hm] at h
      obtain ⟨x, h1, h2, h3, h4, mA, mB, h5, h6, h7, h8, h9⟩ := h
      exact ⟨x, h1, h2, h3, h4, mA, mB, h5, h6, h7,
        ih h8 fun q hb => hq q (Below.of_child (Or.inl rfl) hb),
        ih h9 fun q hb => hq q (Below.of_child (Or.inr rfl) hb)⟩

/-- The boxes a construction of `left` more levels below `bp` will use are as `construct` prepared them. -/
def Fresh (boxes : List BoxInfo) (left bp : Nat) : Prop :=
  ∀ d, d ≤ left → ∀ q, (q + 1) / 2 ^ d = bp + 1 → ∃ x, boxes[q]? = some x ∧ x.child = some (2 * q + 1)

theorem Fresh.child {boxes : List BoxInfo} {left bp c : Nat} (h : Fresh boxes (left + 1) bp)
    (hc : c = 2 * bp + 1 ∨ c = 2 * bp + 2) : Fresh boxes left c := by
  intro d hd q hq
  refine h (d + 1) (by omega) q ?_
  rw [Nat.pow_succ, ← Nat.div_div_eq_div_mul, hq]
  omega

theorem Fresh.frame {boxes boxes' : List BoxInfo} {left bp : Nat} (h : Fresh boxes left bp)
    (hq : ∀ q, Below bp q → boxes'[q]? = boxes[q]?) : Fresh boxes' left bp := by
  intro d hd q hb
  rw [hq q ⟨d, hb⟩]
  exact h d hd q hb

theorem Fresh.self {boxes : List BoxInfo} {left bp : Nat} (h : Fresh boxes left bp) :
    ∃ x, boxes[bp]? = some x ∧ x.child = some (2 * bp + 1) := h 0 (Nat.zero_le _) bp (by simp)

theorem setBox_ok {l : List BoxInfo} {bp : Nat} {x : BoxInfo} (h : l[bp]? = some x) (f : BoxInfo → BoxInfo) :
    setBox l bp f = .ok (l.set bp (f x)) := by simp [setBox, h]

theorem get_set_self {l : List BoxInfo} {bp : Nat} {x : BoxInfo} (h : l[bp]? = some x) (y : BoxInfo) :
    (l.set bp y)[bp]? = some y := by
  have := List.getElem?_eq_some_iff.1 h
  simp [this.1]

theorem get_set_other {l : List BoxInfo} {bp q : Nat} (h : q ≠ bp) (y : BoxInfo) :
    (l.set bp y)[q]? = l[q]? := by
  rw [List.getElem?_set_ne (Ne.symm h)]

/-! ### sorting and cutting -/

theorem slice_mid (p m s : List Nat) : slice (p ++ m ++ s) ⟨p.length, m.length⟩ = m := by
  simp [slice]

theorem splice_mid (p m s new : List Nat) : splice (p ++ m ++ s) ⟨p.length, m.length⟩ new = p ++ new ++ s := by
  have h : p.length + m.length = (p ++ m).length := by simp
  simp only [splice]
  rw [h, List.drop_left, List.append_assoc p m s, List.take_left]

/-- The comparison of two points along a dimension. -/
theorem cmp_ordered {E : Env K} (W : Ordered E.ops) (dim : Nat) :
    (∀ a, E.ops.lt (E.coord dim a) (E.coord dim a) = false) ∧
    (∀ a b c, E.ops.lt (E.coord dim a) (E.coord dim b) = true → E.ops.lt (E.coord dim b) (E.coord dim c) = true →
      E.ops.lt (E.coord dim a) (E.coord dim c) = true) ∧
    (∀ a b c, E.ops.lt (E.coord dim a) (E.coord dim b) = false → E.ops.lt (E.coord dim b) (E.coord dim c) = false →
      E.ops.lt (E.coord dim a) (E.coord dim c) = false) :=
  ⟨fun a => W.irrefl _, fun _ _ _ => W.trans _ _ _, fun _ _ _ => W.negTrans _ _ _⟩

theorem sortIndexRange_spec {E : Env K} (W : Ordered E.ops) (S : Sorts E.sort) (p m s : List Nat) (dim : Nat) :
    ∃ m', sortIndexRange E (p ++ m ++ s) ⟨p.length, m.length⟩ dim = p ++ m' ++ s ∧ m'.Perm m ∧
      m'.Pairwise fun a b => E.ops.lt (E.coord dim b) (E.coord dim a) = false := by
  unfold sortIndexRange
  split
  · obtain ⟨h1, h2, h3⟩ := cmp_ordered W dim
    have := S (fun a b => E.ops.lt (E.coord dim a) (E.coord dim b)) h1 h2 h3 m
    rw [slice_mid, splice_mid]
    exact ⟨_, rfl, this.1, this.2⟩
  · rename_i h
    refine ⟨m, rfl, List.Perm.refl _, ?_⟩
    match m with
    | [] => exact List.Pairwise.nil
    | [a] => simp
    | _ :: _ :: _ => simp at h

theorem countBelow_spec {E : Env K} (W : Ordered E.ops) (dim : Nat) (v : K) : ∀ (m : List Nat),
    (m.Pairwise fun a b => E.ops.lt (E.coord dim b) (E.coord dim a) = false) →
    ∃ mA mB, m = mA ++ mB ∧ countBelow E dim v m = mA.length ∧
      (∀ i ∈ mA, E.ops.lt (E.coord dim i) v = true) ∧ (∀ i ∈ mB, E.ops.lt (E.coord dim i) v = false) := by
  intro m
  induction m with
  | nil => intro _; exact ⟨[], [], rfl, rfl, by simp, by simp⟩
  | cons a m ih =>
    intro h
    rw [List.pairwise_cons] at h
    unfold countBelow
    split
    · rename_i ha
      obtain ⟨mA, mB, h1, h2, h3, h4⟩ := ih h.2
      refine ⟨a :: mA, mB, by rw [h1]; rfl, by simp [h2], ?_, h4⟩
      intro i hi
      rcases List.mem_cons.1 hi with rfl | hi
      · exact ha
      · exact h3 i hi
    · rename_i ha
      have ha : E.ops.lt (E.coord dim a) v = false := by simpa using ha
      refine ⟨[], a :: m, rfl, rfl, by simp, ?_⟩
      intro i hi
      rcases List.mem_cons.1 hi with rfl | hi
      · exact ha
      · exact W.negTrans _ _ _ (h.1 i hi) ha

/-! ### constructBox -/

theorem constructBox_spec {E : Env K} (W : Ordered E.ops) (S : Sorts E.sort) :
    ∀ (left bp : Nat) (b : Box K) (boxes : List BoxInfo) (p m s : List Nat), Fresh boxes left bp →
      ∃ boxes' m', constructBox E left bp ⟨p.length, m.length⟩ b ⟨boxes, p ++ m ++ s⟩ = .ok ⟨boxes', p ++ m' ++ s⟩ ∧
        m'.Perm m ∧ boxes'.length = boxes.length ∧ (∀ q, ¬ Below bp q → boxes'[q]? = boxes[q]?) ∧
        Built E boxes' left bp p.length m' b := by
  intro left
  induction left with
  | zero =>
    intro bp b boxes p m s hf
    obtain ⟨x, hx, hxc⟩ := hf.self
    by_cases hm : m = []
    · subst hm
      refine ⟨boxes.set bp { x with child := none }, [], ?_, List.Perm.refl _, by simp, ?_, ?_⟩
      · unfold constructBox
        simp only [List.length_nil, Nat.lt_irrefl, if_false]
        rw [setBox_ok hx]
        rfl
      · intro q hq
        exact get_set_other (fun h => hq (by rw [h]; exact Below.refl bp)) _
      · unfold Built
        rw [if_pos rfl]
        exact ⟨_, get_set_self hx _, rfl⟩
    · have hpos : 0 < m.length := List.length_pos_iff.2 hm
      obtain ⟨m', h1, h2, h3⟩ := sortIndexRange_spec W S p m s (longest E b)
      have hl : m'.length = m.length := h2.length_eq
      let x1 : BoxInfo := { x with dim := longest E b, range := ⟨p.length, m.length⟩ }
      refine ⟨(boxes.set bp x1).set bp { x1 with child := none }, m', ?_, h2, by simp, ?_, ?_⟩
      · unfold constructBox
        rw [if_pos hpos]
        simp only [setBox_ok hx, h1, Res.bind_ok]
        rw [setBox_ok (get_set_self hx x1)]
        rfl
      · intro q hq
        have hne : q ≠ bp := fun h => hq (h ▸ Below.refl bp)
        rw [get_set_other hne, get_set_other hne]
      · unfold Built
        have hm' : m' ≠ [] := by intro h; rw [h] at hl; simp at hl; omega
        rw [if_neg hm']
        exact ⟨_, get_set_self (get_set_self hx x1) _, rfl, by simp [x1, hl]⟩
  | succ left ih =>
    intro bp b boxes p m s hf
    obtain ⟨x, hx, hxc⟩ := hf.self
    by_cases hm : m = []
    · subst hm
      refine ⟨boxes.set bp { x with child := none }, [], ?_, List.Perm.refl _, by simp, ?_, ?_⟩
      · unfold constructBox
        simp only [List.length_nil, Nat.lt_irrefl, if_false]
        rw [setBox_ok hx]
        rfl
      · intro q hq
        exact get_set_other (fun h => hq (by rw [h]; exact Below.refl bp)) _
      · unfold Built
        rw [if_pos rfl]
        exact ⟨_, get_set_self hx _, rfl⟩
    · have hpos : 0 < m.length := List.length_pos_iff.2 hm
      obtain ⟨m1, h1, h2, h3⟩ := sortIndexRange_spec W S p m s (longest E b)
      have hl : m1.length = m.length := h2.length_eq
      let dim := longest E b
      let x1 : BoxInfo := { x with dim := dim, range := ⟨p.length, m.length⟩ }
      obtain ⟨mA, mB, g1, g2, g3, g4⟩ := countBelow_spec W dim (midOf E.ops b dim) m1 h3
      -- the state given to the first child
      have hf0 : Fresh (boxes.set bp x1) left (2 * bp + 1) := by
        refine (hf.child (Or.inl rfl)).frame ?_
        intro q hq
        refine get_set_other ?_ _
        rintro rfl
        exact not_below_child (Or.inl rfl) hq
      obtain ⟨bx2, mA', a1, a2, a3, a4, a5⟩ := ih (2 * bp + 1) (cutBox E.ops b dim).1 (boxes.set bp x1) p mA (mB ++ s) hf0
      have hf1 : Fresh bx2 left (2 * bp + 2) := by
        refine (hf.child (Or.inr rfl)).frame ?_
        intro q hq
        have hne : q ≠ bp := by rintro rfl; exact not_below_child (Or.inr rfl) hq
        rw [a4 q (fun h => not_below_both h hq), get_set_other hne]
      obtain ⟨bx3, mB', b1, b2, b3, b4, b5⟩ := ih (2 * bp + 2) (cutBox E.ops b dim).2 bx2 (p ++ mA') mB s hf1
      refine ⟨bx3, mA' ++ mB', ?_, ?_, by rw [b3, a3]; simp, ?_, ?_⟩
      · unfold constructBox
        rw [if_pos hpos]
        simp only [setBox_ok hx, h1, Res.bind_ok]
        have e1 : Res.ofIdx (boxes.set bp x1) bp = .ok x1 := by simp [Res.ofIdx, get_set_self hx x1]
        have hcut : cutRange E (p ++ m1 ++ s) ⟨p.length, m.length⟩ dim (((cutBox E.ops b dim).1 dim).2) =
            (⟨p.length, mA.length⟩, ⟨p.length + mA.length, mB.length⟩) := by
          have hv : ((cutBox E.ops b dim).1 dim).2 = midOf E.ops b dim := by simp [cutBox, setDim]
          unfold cutRange
          rw [hv, ← hl, slice_mid, g2]
          simp [g1]
        show (Res.ofIdx (boxes.set bp x1) bp >>= fun x => _) = _
        rw [e1]
        simp only [Res.bind_ok]
        show (match x1.child with | some c => _ | none => _) = _
        have e2 : x1.child = some (2 * bp + 1) := hxc
        rw [e2]
        simp only
        rw [show longest E b = dim from rfl, hcut]
        simp only
        have r1 : p ++ m1 ++ s = p ++ mA ++ (mB ++ s) := by rw [g1]; simp [List.append_assoc]
        rw [← hxc]
        rw [show (⟨boxes.set bp { child := x.child, dim := dim, range := ⟨p.length, m.length⟩ }, p ++ m1 ++ s⟩ : St) =
          ⟨boxes.set bp x1, p ++ mA ++ (mB ++ s)⟩ by rw [r1]]
        rw [a1]
        simp only [Res.bind_ok]
        have r2 : p ++ mA' ++ (mB ++ s) = (p ++ mA') ++ mB ++ s := by simp [List.append_assoc]
        have r3 : p.length + mA.length = (p ++ mA').length := by simp [a2.length_eq]
        rw [r2, r3, b1]
        simp [List.append_assoc]
      · exact (a2.append b2).trans (g1 ▸ h2)
      · intro q hq
        have hne : q ≠ bp := fun h => hq (h ▸ Below.refl bp)
        rw [b4 q (fun h => hq (Below.of_child (Or.inr rfl) h)), a4 q (fun h => hq (Below.of_child (Or.inl rfl) h)),
          get_set_other hne]
      · unfold Built
        have hl' : (mA' ++ mB').length = m.length := by
          rw [List.length_append, a2.length_eq, b2.length_eq, ← List.length_append, ← g1, hl]
        have hm' : mA' ++ mB' ≠ [] := by intro h; rw [h] at hl'; simp at hl'; omega
        rw [if_neg hm']
        refine ⟨x1, ?_, hxc, rfl, by simp only [x1]; rw [hl'], mA', mB', rfl, ?_, ?_, ?_, ?_⟩
        · rw [b4 bp (not_below_child (Or.inr rfl)), a4 bp (not_below_child (Or.inl rfl))]
          exact get_set_self hx x1
        · intro i hi; exact g3 i (a2.mem_iff.1 hi)
        · intro i hi; exact g4 i (b2.mem_iff.1 hi)
        · exact a5.frame fun q hq => b4 q fun h => not_below_both hq h
        · rw [List.length_append] at b5
          exact b5

theorem construct_spec {E : Env K} (W : Ordered E.ops) (S : Sorts E.sort) (levels : Nat) (box : Box K) :
    ∃ st, construct E levels box = .ok st ∧ st.index.Perm (List.range E.len) ∧
      st.boxes.length = 2 ^ (levels + 1) - 1 ∧ Built E st.boxes levels 0 0 st.index box := by
  have hf : Fresh ((List.range (2 ^ (levels + 1) - 1)).map fun i => (⟨some (2 * i + 1), 0, ⟨0, 0⟩⟩ : BoxInfo)) levels 0 := by
    intro d hd q hq
    have h1 : q + 1 < 2 ^ (d + 1) := by
      have h0 : 0 < 2 ^ d := Nat.pow_pos (by omega)
      rw [Nat.pow_succ]
      have := Nat.div_add_mod (q + 1) (2 ^ d)
      have := Nat.mod_lt (q + 1) h0
      rw [hq] at *
      omega
    have h2 : 2 ^ (d + 1) ≤ 2 ^ (levels + 1) := Nat.pow_le_pow_right (by omega) (by omega)
    refine ⟨⟨some (2 * q + 1), 0, ⟨0, 0⟩⟩, ?_, rfl⟩
    rw [List.getElem?_map, List.getElem?_range (by omega)]
    rfl
  obtain ⟨bx, m', h1, h2, h3, h4, h5⟩ := constructBox_spec W S levels 0 box _ [] (List.range E.len) [] hf
  refine ⟨⟨bx, m'⟩, ?_, h2, by simp [h3], h5⟩
  unfold construct
  simpa using h1

end Conduit.Kd
