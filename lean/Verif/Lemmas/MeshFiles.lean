import Verif.Spec.MeshFiles
/-
Lemmas on sharing out domains over files.
-/
namespace Conduit.Files

/-- Size of share `k` of `n` things shared out over `f`. -/
def share (n f k : Nat) : Nat := if k < n % f then n / f + 1 else n / f
/-- Sum of the shares before `k`. -/
def before (n f k : Nat) : Nat := ((List.range k).map (share n f)).sum

theorem before_succ (n f k : Nat) : before n f (k + 1) = before n f k + share n f k := by
  simp [before, List.range_succ]

theorem before_eq (n f k : Nat) : before n f k = k * (n / f) + min k (n % f) := by
  induction k with
  | zero => simp [before]
  | succ k ih =>
    rw [before_succ, ih, Nat.succ_mul, share]
    split <;> omega

theorem before_total {n f : Nat} (hf : 0 < f) : before n f f = n := by
  have h := Nat.mod_lt n hf
  rw [before_eq, Nat.min_eq_right (Nat.le_of_lt h)]
  exact Nat.div_add_mod n f

theorem before_mono {n f i j : Nat} (h : i ≤ j) : before n f i ≤ before n f j := by
  induction j with
  | zero => simp [Nat.le_zero.1 h]
  | succ j ih =>
    rcases Nat.lt_or_eq_of_le h with h | rfl
    · have := ih (Nat.le_of_lt_succ h)
      rw [before_succ]; omega
    · exact Nat.le_refl _

theorem perFile_getD {n f k : Nat} (hk : k < f) : (perFile n f).getD k 0 = share n f k := by
  simp [perFile, share, List.getD_eq_getElem?_getD, hk]

theorem perFile_get {n f k c : Nat} (h : (perFile n f)[k]? = some c) : k < f ∧ c = share n f k := by
  unfold perFile at h
  rw [List.getElem?_map] at h
  obtain ⟨a, ha, rfl⟩ := Option.map_eq_some_iff.1 h
  obtain ⟨hl, rfl⟩ := List.getElem?_eq_some_iff.1 ha
  simp at hl
  simp [hl, share]

theorem offsets_aux (n f : Nat) (k : Nat) (hk : k + 1 ≤ f) :
    let o := (List.range' 1 k).foldl (offsetStep (perFile n f)) (List.replicate f 0)
    o.length = f ∧ ∀ j < f, o.getD j 0 = if j ≤ k then before n f j else 0 := by
  induction k with
  | zero =>
    refine ⟨by simp, fun j hj => ?_⟩
    by_cases h : j ≤ 0
    · rw [if_pos h, Nat.le_zero.1 h]
      simp [List.getD_eq_getElem?_getD, before, List.getElem?_replicate]
      split <;> rfl
    · rw [if_neg h]
      simp [List.getD_eq_getElem?_getD, hj]
  | succ k ih =>
    obtain ⟨h1, h2⟩ := ih (by omega)
    have e : List.range' 1 (k + 1) = List.range' 1 k ++ [1 + k] := by
      rw [List.range'_concat]; simp
    simp only [e, List.foldl_append, List.foldl_cons, List.foldl_nil]
    generalize ho : (List.range' 1 k).foldl (offsetStep (perFile n f)) (List.replicate f 0) = o at h1 h2
    refine ⟨by simp [offsetStep, h1], fun j hj => ?_⟩
    unfold offsetStep
    rw [show 1 + k - 1 = k from by omega]
    by_cases hjk : j = 1 + k
    · subst hjk
      rw [if_pos (by omega), Nat.add_comm 1 k, before_succ]
      rw [Nat.add_comm 1 k] at hj
      rw [h2 _ hj, if_neg (by omega), h2 k (by omega), if_pos (Nat.le_refl _), perFile_getD (by omega)]
      simp only [List.getD_eq_getElem?_getD]
      rw [List.getElem?_set_self (by omega)]
      simp; omega
    · have : (o.set (1 + k) (o.getD (1 + k) 0 + ((perFile n f).getD k 0 + o.getD k 0))).getD j 0 = o.getD j 0 := by
        simp only [List.getD_eq_getElem?_getD]
        rw [List.getElem?_set_ne (fun h => hjk h.symm)]
      rw [this, h2 j hj]
      by_cases hle : j ≤ k
      · rw [if_pos hle, if_pos (by omega)]
      · rw [if_neg hle, if_neg (by omega)]

theorem offsets_spec (n : Nat) {f : Nat} (hf : 0 < f) :
    (offsets (perFile n f) f).length = f ∧ ∀ j < f, (offsets (perFile n f) f).getD j 0 = before n f j := by
  obtain ⟨h1, h2⟩ := offsets_aux n f (f - 1) (by omega)
  refine ⟨h1, fun j hj => ?_⟩
  rw [offsets, h2 j hj, if_pos (by omega)]

theorem assign_length (off : List Nat) (files f d k : Nat) : (assign off files f d k).length = k := by
  induction k generalizing f d with
  | zero => rfl
  | succ k ih => simp [assign, ih]

/-- The file of each domain. -/
theorem assign_get {n f : Nat} (hf : 0 < f) (off : List Nat) (ho : ∀ j < f, off.getD j 0 = before n f j) (i d k : Nat)
    (hn : d + k = n) (hi : i < f) (h1 : before n f i ≤ d) (h2 : d ≤ before n f (i + 1)) (x : Nat) (hx : x < k) :
    ∃ g, (assign off f i d k)[x]? = some g ∧ g < f ∧ before n f g ≤ d + x ∧ d + x < before n f (g + 1) := by
  induction k generalizing i d x with
  | zero => omega
  | succ k ih =>
    simp only [assign]
    generalize hi' : (if (decide (i + 1 < f) && decide (off.getD (i + 1) 0 ≤ d)) = true then i + 1 else i) = i'
    have key : i' < f ∧ before n f i' ≤ d ∧ d < before n f (i' + 1) := by
      by_cases c1 : i + 1 < f
      · rw [ho _ c1] at hi'
        by_cases c2 : before n f (i + 1) ≤ d
        · rw [if_pos (by simp [c1, c2])] at hi'
          subst hi'
          refine ⟨c1, c2, ?_⟩
          have e : d = before n f (i + 1) := Nat.le_antisymm h2 c2
          rw [before_succ, ← e]
          -- the share is not empty: else all later ones are, and there is no domain left
          refine Nat.lt_add_of_pos_right (Nat.pos_of_ne_zero fun h0 => ?_)
          have hq : n / f = 0 ∧ ¬ i + 1 < n % f := by
            unfold share at h0
            split at h0
            · exact absurd h0 (Nat.succ_ne_zero _)
            · exact ⟨h0, by assumption⟩
          rw [before_eq, hq.1] at e
          have hm := Nat.div_add_mod n f
          rw [hq.1] at hm
          omega
        · rw [if_neg (by simp [c2])] at hi'
          subst hi'
          exact ⟨hi, h1, by omega⟩
      · rw [if_neg (by simp [c1])] at hi'
        subst hi'
        refine ⟨hi, h1, ?_⟩
        have : i + 1 = f := by omega
        rw [this, before_total hf]; omega
    obtain ⟨k1, k2, k3⟩ := key
    cases x with
    | zero => exact ⟨i', rfl, k1, k2, k3⟩
    | succ x =>
      obtain ⟨g, q1, q2, q3, q4⟩ := ih i' (d + 1) (by omega) k1 (by omega) k3 x (by omega)
      exact ⟨g, by simpa using q1, q2, by omega, by omega⟩

theorem before_unique {n f g h d : Nat} (h1 : before n f g ≤ d) (h2 : d < before n f (g + 1)) (h3 : before n f h ≤ d)
    (h4 : d < before n f (h + 1)) : g = h := by
  rcases Nat.lt_trichotomy g h with c | c | c
  · have := before_mono (n := n) (f := f) (show g + 1 ≤ h from c); omega
  · exact c
  · have := before_mono (n := n) (f := f) (show h + 1 ≤ g from c); omega

theorem domainMap_shared (n : Nat) {f : Nat} (hf : 0 < f) :
    ∃ m, domainMap n f = .ok m ∧ SharedOut n f m ∧ m.perFile = perFile n f := by
  obtain ⟨l1, l2⟩ := offsets_spec n hf
  refine ⟨_, by rw [domainMap, if_neg (by omega)], ?_, rfl⟩
  have hmap : ∀ d g, (assign (offsets (perFile n f) f) f 0 0 n)[d]? = some g →
      d < n ∧ g < f ∧ before n f g ≤ d ∧ d < before n f (g + 1) := by
    intro d g h
    have hd : d < n := by
      obtain ⟨hd, -⟩ := List.getElem?_eq_some_iff.1 h
      rwa [assign_length] at hd
    obtain ⟨g', q1, q2, q3, q4⟩ := assign_get hf _ l2 0 0 n (by omega) hf (by simp [before]) (by omega) d hd
    rw [q1] at h
    obtain rfl := Option.some.inj h
    exact ⟨hd, q2, by omega, by omega⟩
  constructor
  · exact ⟨by simp [perFile], l1⟩
  · exact assign_length ..
  · intro d g h
    exact (hmap d g h).2.1
  · intro g o c d ho hc
    obtain ⟨hg, rfl⟩ := perFile_get hc
    have ho' : o = before n f g := by
      have := l2 g hg
      rw [List.getD_eq_getElem?_getD, ho] at this
      exact this
    subst ho'
    rw [← before_succ]
    constructor
    · intro h
      exact (hmap d g h).2.2
    · rintro ⟨h1, h2⟩
      have hd : d < n := by
        have := before_mono (n := n) (f := f) (show g + 1 ≤ f from hg)
        rw [before_total hf] at this
        omega
      obtain ⟨g', q1, q2, q3, q4⟩ := assign_get hf _ l2 0 0 n (by omega) hf (by simp [before]) (by omega) d hd
      rw [Nat.zero_add] at q3 q4
      rw [before_unique h1 h2 q3 q4]
      exact q1
  · intro g h c e hc he
    obtain ⟨-, rfl⟩ := perFile_get hc
    obtain ⟨-, rfl⟩ := perFile_get he
    unfold share
    split <;> split <;> omega
  · exact before_total hf

end Conduit.Files
