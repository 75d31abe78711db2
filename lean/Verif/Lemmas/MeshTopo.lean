import Verif.Lemmas.MeshCoords
import Verif.Lemmas.ResMonad
/-
Connectivity of the elements of a grid.
-/
namespace Conduit.Mesh
variable {F : Type}

theorem put_mid {α : Type} (A B C : List α) (p : Int) (i : Nat) (hp : p = A.length + i) (hi : i < B.length) (v : α) :
    put (A ++ B ++ C) p v = .ok (A ++ B.set i v ++ C) := by
  subst hp
  unfold put
  rw [if_pos (by simp; omega)]
  congr 1
  have : ((A.length : Int) + (i : Int)).toNat = A.length + i := by omega
  rw [this, List.append_assoc, List.set_append_right _ _ (by omega), List.append_assoc]
  congr 1
  rw [Nat.add_sub_cancel_left, List.set_append_left _ _ hi]

theorem pick_mid {α : Type} (A B C : List α) (p : Int) (i : Nat) (hp : p = A.length + i) (v : α) (hv : B[i]? = some v) :
    pick (A ++ B ++ C) p = .ok v := by
  subst hp
  unfold pick
  rw [if_pos (by omega)]
  have : ((A.length : Int) + (i : Int)).toNat = A.length + i := by omega
  have hi : i < B.length := by
    rcases Nat.lt_or_ge i B.length with h | h
    · exact h
    · rw [List.getElem?_eq_none h] at hv; simp at hv
  rw [this, List.append_assoc, List.getElem?_append_right (by omega), Nat.add_sub_cancel_left,
    List.getElem?_append_left hi, hv]

theorem exchange_mid (A B C : List Int) (p q : Int) (i j : Nat) (hp : p = A.length + i) (hq : q = A.length + j)
    (x y : Int) (hx : B[i]? = some x) (hy : B[j]? = some y) :
    exchange (A ++ B ++ C) p q = .ok (A ++ (B.set i y).set j x ++ C) := by
  have hi : i < B.length := by
    rcases Nat.lt_or_ge i B.length with h | h
    · exact h
    · rw [List.getElem?_eq_none h] at hx; simp at hx
  have hj : j < B.length := by
    rcases Nat.lt_or_ge j B.length with h | h
    · exact h
    · rw [List.getElem?_eq_none h] at hy; simp at hy
  unfold exchange
  rw [pick_mid A B C p i hp x hx, Res.bind_ok, pick_mid A B C q j hq y hy, Res.bind_ok,
    put_mid A B C p i hp hi, Res.bind_ok, put_mid A _ C q j hq (by simpa using hj)]

theorem fill_block (vals : Nat → Int) (m : Nat) (A B C : List Int) (base : Int) (hb : base = A.length)
    (hB : B.length = m) :
    forTo (m : Int) (fun i conn => put conn (base + i) (vals i.toNat)) (A ++ B ++ C)
      = .ok (A ++ (List.range m).map vals ++ C) := by
  unfold forTo
  rw [Int.toNat_natCast]
  have key : ∀ k, k ≤ m → (List.range k).foldlM (fun conn (i : Nat) => put conn (base + i) (vals (i : Int).toNat))
      (A ++ B ++ C) = .ok (A ++ ((List.range k).map vals ++ B.drop k) ++ C) := by
    intro k hk
    induction k with
    | zero => simp
    | succ k ih =>
      rw [List.range_succ, List.foldlM_append, ih (by omega), Res.bind_ok]
      simp only [List.foldlM_cons, List.foldlM_nil]
      rw [put_mid A _ C _ k (by omega) (by simp; omega)]
      have hd : B.drop k = B[k] :: B.drop (k + 1) := by rw [List.drop_eq_getElem_cons (by omega)]
      rw [List.set_append_right _ _ (by simp)]
      have hset : (B.drop k).set 0 (vals k) = vals k :: B.drop (k + 1) := by rw [hd]; rfl
      simp [hset]
  rw [key m (Nat.le_refl _), List.drop_of_length_le (by omega), List.append_nil]

/-- The order in which the corners end up. -/
def order : Nat → List Nat
  | 0 => [0]
  | 1 => [0, 1]
  | 2 => [0, 1, 3, 2]
  | 3 => [0, 1, 3, 2, 4, 5, 7, 6]
  | _ => []

theorem fillElement_eq (t : IntTy) (n : Nat) (hn : n ≤ 3) (ed vd : Ijk) (e : Int) (A B C : List Int)
    (hA : e * (2 ^ n : Nat) = A.length) (hB : B.length = 2 ^ n) :
    fillElement t n ed vd e (A ++ B ++ C) =
      .ok (A ++ (order n).map (fun c => t.cast (gridIjkToId (cornerOf n (gridIdToIjk e ed) c) vd)) ++ C) := by
  unfold fillElement
  simp only []
  rw [fill_block (fun c => t.cast (gridIjkToId (cornerOf n (gridIdToIjk e ed) c) vd)) (2 ^ n) A B C _ hA hB,
    Res.bind_ok]
  generalize (fun c => t.cast (gridIjkToId (cornerOf n (gridIdToIjk e ed) c) vd)) = vals
  rcases (by omega : n = 0 ∨ n = 1 ∨ n = 2 ∨ n = 3) with rfl | rfl | rfl | rfl
  · rfl
  · rfl
  · have h1 : (List.range (2 ^ 2)).filter (fun p => p % 4 == 2) = [2] := rfl
    have h2 : (List.range (2 ^ 2)).map vals = [vals 0, vals 1, vals 2, vals 3] := rfl
    rw [h1, h2]
    simp only [List.foldlM_cons, List.foldlM_nil]
    rw [exchange_mid A _ C _ _ 2 3 (by omega) (by omega) (vals 2) (vals 3) rfl rfl]
    rfl
  · have h1 : (List.range (2 ^ 3)).filter (fun p => p % 4 == 2) = [2, 6] := rfl
    have h2 : (List.range (2 ^ 3)).map vals
        = [vals 0, vals 1, vals 2, vals 3, vals 4, vals 5, vals 6, vals 7] := rfl
    rw [h1, h2]
    simp only [List.foldlM_cons, List.foldlM_nil]
    rw [exchange_mid A _ C _ _ 2 3 (by omega) (by omega) (vals 2) (vals 3) rfl rfl, Res.bind_ok,
      exchange_mid A _ C _ _ 6 7 (by omega) (by omega) (vals 6) (vals 7) rfl rfl]
    rfl

/-- The corners of element `e`. -/
def block (t : IntTy) (n : Nat) (ed vd : Ijk) (e : Nat) : List Int :=
  (order n).map (fun c => t.cast (gridIjkToId (cornerOf n (gridIdToIjk (e : Int) ed) c) vd))

theorem order_length (n : Nat) (hn : n ≤ 3) : (order n).length = 2 ^ n := by
  rcases (by omega : n = 0 ∨ n = 1 ∨ n = 2 ∨ n = 3) with rfl | rfl | rfl | rfl <;> rfl

theorem flatMap_block_length {α : Type} (f : Nat → List α) (m k : Nat) (h : ∀ e, (f e).length = m) :
    ((List.range k).flatMap f).length = k * m := by
  induction k with
  | zero => simp
  | succ k ih =>
    rw [List.range_succ, List.flatMap_append, List.length_append, ih]
    simp [h]; rw [Nat.succ_mul]

theorem flatMap_block_get {α : Type} (f : Nat → List α) (m k : Nat) (h : ∀ e, (f e).length = m) (e c : Nat) (he : e < k)
    (hc : c < m) : ((List.range k).flatMap f)[e * m + c]? = (f e)[c]? := by
  induction k with
  | zero => omega
  | succ k ih =>
    rw [List.range_succ, List.flatMap_append]
    rcases Nat.lt_or_ge e k with h1 | h1
    · rw [List.getElem?_append_left (by
        rw [flatMap_block_length f m k h]
        have : e * m + m ≤ k * m := by rw [← Nat.succ_mul]; exact Nat.mul_le_mul_right _ h1
        omega), ih h1]
    · have : e = k := by omega
      subst this
      rw [List.getElem?_append_right (by rw [flatMap_block_length f m e h]; omega), flatMap_block_length f m e h,
        Nat.add_sub_cancel_left]
      simp

theorem connectivity_eq (t : IntTy) (n : Nat) (hn : n ≤ 3) (a b c : Nat) :
    connectivity t n ⟨a, b, c⟩ =
      .ok ((List.range (a * b * c)).flatMap (block t n ⟨a, b, c⟩ ⟨(a : Int) + 1, (b : Int) + 1, (c : Int) + 1⟩)) := by
  unfold connectivity
  simp only []
  have hnum : (a : Int) * b * c = ((a * b * c : Nat) : Int) := by push_cast; rfl
  rw [hnum, ← Int.natCast_mul, alloc_nat, Res.bind_ok]
  unfold forTo
  rw [Int.toNat_natCast]
  generalize hN : a * b * c = N
  generalize hed : (⟨(a : Int), b, c⟩ : Ijk) = ed
  generalize hvd : (⟨(a : Int) + 1, (b : Int) + 1, (c : Int) + 1⟩ : Ijk) = vd
  have hbl : ∀ e, (block t n ed vd e).length = 2 ^ n := by intro e; simp [block, order_length n hn]
  have key : ∀ k, k ≤ N → (List.range k).foldlM (fun conn (e : Nat) => fillElement t n ed vd e conn)
      (List.replicate (N * 2 ^ n) 0) =
      .ok ((List.range k).flatMap (block t n ed vd) ++ List.replicate ((N - k) * 2 ^ n) 0) := by
    intro k hk
    induction k with
    | zero => simp
    | succ k ih =>
      rw [List.range_succ, List.foldlM_append, ih (by omega), Res.bind_ok]
      simp only [List.foldlM_cons, List.foldlM_nil]
      have hs : (N - k) * 2 ^ n = 2 ^ n + (N - (k + 1)) * 2 ^ n := by
        rw [show N - k = 1 + (N - (k + 1)) by omega, Nat.add_mul, Nat.one_mul]
      rw [hs, ← List.replicate_append_replicate, ← List.append_assoc]
      rw [fillElement_eq t n hn ed vd k _ _ _ (by rw [flatMap_block_length _ _ _ hbl]; push_cast; ring) (by simp),
        Res.bind_ok, List.flatMap_append]
      simp [block]
  have := key N (Nat.le_refl _)
  simpa using this

/-! ### numbering -/

theorem gridIdToIjk_eq (a b : Nat) (c : Int) (x y z : Nat) (hx : x < a) (hy : y < b) :
    gridIdToIjk ((x + a * (y + b * z) : Nat) : Int) ⟨a, b, c⟩ = ⟨x, y, z⟩ := by
  have ha : 0 < a := by omega
  have hb : 0 < b := by omega
  have h2 : (((x + a * (y + b * z) : Nat) : Int)).tdiv ((a : Int) * b) = (z : Int) := by
    rw [← Int.natCast_mul, ← Int.ofNat_tdiv]
    congr 1
    rw [← Nat.div_div_eq_div_mul, Nat.add_mul_div_left _ _ ha, Nat.div_eq_of_lt hx, Nat.zero_add,
      Nat.add_mul_div_left _ _ hb, Nat.div_eq_of_lt hy, Nat.zero_add]
  have h3 : (((x + a * (y + b * z) : Nat) : Int)).tmod ((a : Int) * b) = ((x + a * y : Nat) : Int) := by
    rw [← Int.natCast_mul, ← Int.ofNat_tmod]
    congr 1
    rw [show x + a * (y + b * z) = (x + a * y) + a * b * z by ring, Nat.add_mul_mod_self_left]
    apply Nat.mod_eq_of_lt
    have : a * (y + 1) ≤ a * b := Nat.mul_le_mul_left _ hy
    rw [Nat.mul_add] at this; omega
  have h4 : ((x + a * y : Nat) : Int).tdiv (a : Int) = (y : Int) := by
    rw [← Int.ofNat_tdiv]; congr 1
    rw [Nat.add_mul_div_left _ _ ha, Nat.div_eq_of_lt hx, Nat.zero_add]
  have h5 : ((x + a * y : Nat) : Int).tmod (a : Int) = (x : Int) := by
    rw [← Int.ofNat_tmod]; congr 1
    rw [Nat.add_mul_mod_self_left, Nat.mod_eq_of_lt hx]
  unfold gridIdToIjk
  simp only [h2, h3, h4, h5, Int.tdiv_one]

/-- The three lengths for a grid of one, two or three axes. -/
def ijkOf (l : List Nat) : Ijk := ⟨((l.getD 0 1 : Nat) : Int), ((l.getD 1 1 : Nat) : Int), ((l.getD 2 1 : Nat) : Int)⟩

theorem corner_entry (t : IntTy) (ed : List Nat) (h1 : 1 ≤ ed.length) (h3 : ed.length ≤ 3) :
    ∃ conn, connectivity t ed.length (ijkOf ed) = .ok conn ∧ conn.length = count ed * 2 ^ ed.length ∧
      ∀ x, InGrid ed x → ∀ (c : Nat) (s : List Nat), (corners ed.length)[c]? = some s →
        conn[pointId ed x * 2 ^ ed.length + c]? = some (t.cast (pointId (ed.map (· + 1)) (addIdx x s) : Nat)) := by
  have hc := connectivity_eq t ed.length h3 (ed.getD 0 1) (ed.getD 1 1) (ed.getD 2 1)
  refine ⟨_, hc, ?_, ?_⟩
  · rw [flatMap_block_length _ (2 ^ ed.length) _ (fun e => by simp [block, order_length _ h3])]
    congr 1
    rcases ed with _ | ⟨a, _ | ⟨b, _ | ⟨c, _ | ⟨d, ed⟩⟩⟩⟩
    · simp at h1
    · simp [count]
    · simp [count]
    · simp [count]; ring
    · simp at h3
  · intro x hx c s hs
    have hN : pointId ed x < ed.getD 0 1 * ed.getD 1 1 * ed.getD 2 1 := by
      have := pointId_lt ed x hx
      have e : count ed = ed.getD 0 1 * ed.getD 1 1 * ed.getD 2 1 := by
        rcases ed with _ | ⟨a, _ | ⟨b, _ | ⟨c, _ | ⟨d, ed⟩⟩⟩⟩
        · simp at h1
        · simp [count]
        · simp [count]
        · simp [count]; ring
        · simp at h3
      omega
    have hcl : c < 2 ^ ed.length := by
      have hl : (corners ed.length).length = 2 ^ ed.length := by
        rcases (by omega : ed.length = 1 ∨ ed.length = 2 ∨ ed.length = 3) with h | h | h <;> rw [h] <;> rfl
      rcases Nat.lt_or_ge c (2 ^ ed.length) with h | h
      · exact h
      · rw [List.getElem?_eq_none (by omega)] at hs; simp at hs
    rw [flatMap_block_get _ (2 ^ ed.length) _ (fun e => by simp [block, order_length _ h3]) _ _ hN hcl]
    rcases ed with _ | ⟨a, _ | ⟨b, _ | ⟨d, _ | ⟨_, ed⟩⟩⟩⟩
    · simp at h1
    · rcases x with _ | ⟨x, _ | ⟨_, _⟩⟩ <;> simp [InGrid] at hx
      have hg := gridIdToIjk_eq a 1 1 x 0 0 hx (by omega)
      simp at hg
      have h2 : c < 2 := by simpa using hcl
      simp only [block, pointId]
      rcases (by omega : c = 0 ∨ c = 1) with rfl | rfl <;> simp [corners] at hs <;> subst hs <;>
        simp [order, hg, cornerOf, gridIjkToId, addIdx, pointId]
    · rcases x with _ | ⟨x, _ | ⟨y, _ | ⟨_, _⟩⟩⟩ <;> simp [InGrid] at hx
      have hg := gridIdToIjk_eq a b 1 x y 0 hx.1 hx.2
      simp at hg
      have h2 : c < 4 := by simpa using hcl
      simp only [block, pointId]
      rcases (by omega : c = 0 ∨ c = 1 ∨ c = 2 ∨ c = 3) with rfl | rfl | rfl | rfl <;> simp [corners] at hs <;>
        subst hs <;> simp [order, hg, cornerOf, gridIjkToId, addIdx, pointId] <;> congr 1 <;> ring
    · rcases x with _ | ⟨x, _ | ⟨y, _ | ⟨z, _ | ⟨_, _⟩⟩⟩⟩ <;> simp [InGrid] at hx
      have hg := gridIdToIjk_eq a b d x y z hx.1 hx.2.1
      simp at hg
      have h2 : c < 8 := by simpa using hcl
      simp only [block, pointId]
      rcases (by omega : c = 0 ∨ c = 1 ∨ c = 2 ∨ c = 3 ∨ c = 4 ∨ c = 5 ∨ c = 6 ∨ c = 7)
        with rfl | rfl | rfl | rfl | rfl | rfl | rfl | rfl <;> simp [corners] at hs <;>
        subst hs <;> simp [order, hg, cornerOf, gridIjkToId, addIdx, pointId] <;> congr 1 <;> ring
    · simp at h3

end Conduit.Mesh
