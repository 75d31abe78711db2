import Verif.Spec.Diff
import Mathlib.Tactic.Ring
import Mathlib.Tactic.NormNum
namespace Conduit.Ieee

theorem roundMag_zero (f : Fmt) : roundMag f 0 = 0 := by
  unfold roundMag; rw [if_pos (Nat.two_pow_pos _)]

theorem roundMag_pos {f : Fmt} {n : Nat} (h : 0 < n) : 0 < roundMag f n := by
  unfold roundMag
  split
  · exact h
  · rename_i hn
    have h2 : 2 ^ (Nat.log2 n) ≤ n := Nat.log2_self_le (by omega)
    have hq : 0 < n / 2 ^ (Nat.log2 n - f.mbits) := by
      apply Nat.div_pos _ (Nat.two_pow_pos _)
      exact le_trans (Nat.pow_le_pow_right (by omega) (by omega)) h2
    apply Nat.mul_pos _ (Nat.two_pow_pos _)
    split <;> omega

theorem round_zero (f : Fmt) : round f 0 = .fin 0 := by
  unfold round
  simp only [Int.natAbs_zero, roundMag_zero]
  rw [if_neg (by have := Nat.two_pow_pos (f.mbits + 1 + (2 ^ f.ebits - 3)); omega)]
  rfl

theorem round_neg (f : Fmt) (z : Int) : round f (-z) = neg (round f z) := by
  by_cases hz : z = 0
  · subst hz; rw [Int.neg_zero, round_zero]; rfl
  · unfold round
    simp only [Int.natAbs_neg]
    by_cases h : 2 ^ (f.mbits + 1 + (2 ^ f.ebits - 3)) ≤ roundMag f z.natAbs
    · rw [if_pos h, if_pos h]
      simp only [neg]
      congr 1
      by_cases h1 : z < 0
      · simp [h1]; omega
      · simp [h1]; omega
    · rw [if_neg h, if_neg h]
      simp only [neg]
      congr 1
      by_cases h1 : z < 0
      · rw [if_neg (by omega), if_pos h1]; omega
      · rw [if_pos (by omega), if_neg h1]

theorem round_eq_zero {f : Fmt} {z : Int} (h : round f z = .fin 0) : z = 0 := by
  apply Classical.byContradiction
  intro hz
  have := roundMag_pos (f := f) (n := z.natAbs) (by omega)
  unfold round at h
  simp only at h
  split at h
  · cases h
  · injection h with h
    split at h <;> omega

theorem round_not_nan (f : Fmt) (z : Int) : round f z ≠ .nan := by
  unfold round; simp only; split <;> simp

theorem sub_comm_neg (f : Fmt) (a b : FVal) : sub f b a = neg (sub f a b) := by
  cases a <;> cases b <;> simp only [sub, neg]
  · rename_i a b
    cases a <;> cases b <;> simp [neg]
  · rename_i a b; cases b <;> rfl
  · rename_i a b
    show round f (b - a) = neg (round f (a - b))
    rw [← round_neg]; congr 1; omega

theorem widen_neg (f : Fmt) (a : FVal) : widen f (neg a) = neg (widen f a) := by
  cases a <;> simp only [widen, neg]
  rw [Int.neg_mul]

theorem gt_neg (a b : FVal) : gt (neg a) (neg b) = gt b a := by
  cases a <;> cases b <;> simp only [gt, neg]
  · rename_i a b; cases a <;> cases b <;> rfl
  · rename_i a b; cases a <;> rfl
  · congr 1; apply propext; constructor <;> intro h <;> omega

theorem neg_neg' (a : FVal) : neg (neg a) = a := by cases a <;> simp [neg]

/-- C28: swapping the arguments does not matter -/
theorem far_symm (f : Fmt) (eps a b : FVal) : far f eps b a = far f eps a b := by
  unfold far
  simp only [sub_comm_neg f a b, widen_neg]
  rw [gt_neg, Bool.or_comm]
  congr 1
  rw [← gt_neg, neg_neg']

theorem far_self (f : Fmt) {eps : FVal} (h : NonNeg eps) (a : FVal) : far f eps a a = false := by
  have hs : sub f a a = .nan ∨ sub f a a = .fin 0 := by
    cases a <;> simp [sub, round_zero]
  unfold far
  rcases hs with hs | hs <;> simp only [hs, widen]
  · cases eps <;> rfl
  · rw [Int.zero_mul]
    cases eps with
    | nan => exact absurd h (by simp [NonNeg])
    | inf n => simp only [NonNeg] at h; subst h; rfl
    | fin z => simp only [NonNeg] at h; simp [gt, neg]; omega

theorem far_zero (f : Fmt) (a b : FVal) : far f (.fin 0) a b = false ↔ SameReal a b := by
  unfold far
  cases a with
  | nan => simp [sub, widen, gt, neg, SameReal]
  | inf a => cases b with
    | nan => simp [sub, widen, gt, neg, SameReal]
    | inf b => cases a <;> cases b <;> simp [sub, widen, gt, neg, SameReal]
    | fin b => cases a <;> simp [sub, widen, gt, neg, SameReal]
  | fin a => cases b with
    | nan => simp [sub, widen, gt, neg, SameReal]
    | inf b => cases b <;> simp [sub, widen, gt, neg, SameReal]
    | fin b =>
      simp only [sub, SameReal]
      constructor
      · intro h
        have : round f (a - b) = .fin 0 := by
          cases hr : round f (a - b) with
          | nan => exact absurd hr (round_not_nan _ _)
          | inf s => rw [hr] at h; cases s <;> simp [widen, gt, neg] at h
          | fin z =>
            rw [hr] at h
            simp only [widen, gt, neg, Int.neg_zero, Bool.or_eq_false_iff, decide_eq_false_iff_not] at h
            have hp : (0 : Int) < 2 ^ ((2 ^ 10 + 50) - (2 ^ (f.ebits - 1) + f.mbits - 2)) := Int.pow_pos (by decide)
            congr 1
            rcases Int.lt_trichotomy z 0 with hz | hz | hz
            · have := Int.mul_neg_of_neg_of_pos hz hp; omega
            · exact hz
            · have := Int.mul_pos hz hp; omega
        have := round_eq_zero this
        omega
      · rintro rfl
        rw [Int.sub_self, round_zero]
        simp [widen, gt, neg]

theorem roundMag_le {f : Fmt} {n e : Nat} (he : Holds f e) (h : n ≤ e) : roundMag f n ≤ e := by
  unfold roundMag
  split
  · exact h
  · rename_i hn
    obtain ⟨q, s, hq, rfl⟩ := he
    have h1 : 2 ^ (Nat.log2 n) ≤ n := Nat.log2_self_le (by have := Nat.two_pow_pos (f.mbits + 1); omega)
    generalize hk : Nat.log2 n - f.mbits = k
    have hlm : f.mbits ≤ Nat.log2 n := by
      apply Classical.byContradiction
      intro hc
      have h2 : n < 2 ^ (Nat.log2 n + 1) := Nat.lt_log2_self
      have : 2 ^ (Nat.log2 n + 1) ≤ 2 ^ (f.mbits + 1) := Nat.pow_le_pow_right (by omega) (by omega)
      omega
    have hsk : k ≤ s := by
      apply Classical.byContradiction
      intro hc
      have h3 : 2 ^ (f.mbits + 1) * 2 ^ s ≤ 2 ^ (Nat.log2 n) := by
        rw [← Nat.pow_add]; exact Nat.pow_le_pow_right (by omega) (by omega)
      have h4 : q * 2 ^ s < 2 ^ (f.mbits + 1) * 2 ^ s := Nat.mul_lt_mul_of_pos_right hq (Nat.two_pow_pos _)
      omega
    obtain ⟨j, rfl⟩ : ∃ j, s = k + j := ⟨s - k, by omega⟩
    have hmul : q * 2 ^ (k + j) = (q * 2 ^ j) * 2 ^ k := by rw [Nat.pow_add]; ring
    rw [hmul] at h ⊢
    apply Nat.mul_le_mul_right
    have hp := Nat.two_pow_pos k
    have hdm := Nat.div_add_mod n (2 ^ k)
    have hr := Nat.mod_lt n hp
    have hle : n / 2 ^ k ≤ q * 2 ^ j := by
      have := Nat.div_le_div_right (c := 2 ^ k) h
      rwa [Nat.mul_div_cancel _ hp] at this
    split
    · exact hle
    · rename_i hc
      have hr0 : n % 2 ^ k ≠ 0 := by intro h0; apply hc; left; omega
      rcases Nat.lt_or_ge (n / 2 ^ k) (q * 2 ^ j) with hlt | hge
      · exact hlt
      · exfalso
        have he : n / 2 ^ k = q * 2 ^ j := by omega
        rw [he] at hdm
        rw [Nat.mul_comm] at hdm
        omega

/-- finite values at most `eps` apart are near (format `f64`, whose unit is that of `eps`) -/
theorem far_of_le (a b : Int) (e : Nat) (he : Holds f64 e) (hmax : e < 2 ^ (52 + 1 + (2 ^ 11 - 3)))
    (h : (a - b).natAbs ≤ e) : far f64 (.fin e) (.fin a) (.fin b) = false := by
  have hr := roundMag_le he h
  unfold far
  simp only [sub]
  unfold round
  simp only
  rw [if_neg (by simp only [f64] at *; omega)]
  have hw : ∀ z, widen f64 (.fin z) = .fin z := by
    intro z; simp only [widen, f64]; norm_num
  rw [hw]
  simp only [gt, neg]
  split <;> simp <;> omega

end Conduit.Ieee
