import Verif.Model.MpiTag
/-
Property theorem C45: MPI tag probing.
-/
namespace Conduit.Mpi

/-- An MPI library that accepts exactly the tags 0 .. limit. -/
def library (limit : Int) : Int → Bool := fun t => decide (0 ≤ t ∧ t ≤ limit)

private theorem loop_exact (limit : Int) (h1 : limit < 1073741823) : ∀ (fuel : Nat) (low high : Int), 0 ≤ low → low ≤ limit →
    limit < high → (high ≤ 1073741823 ∨ (low = 0 ∧ high = intMax)) → high - low ≤ 2 ^ fuel →
    probeLoop (library limit) (fuel + 1) low high = some (.ok limit) := by
  intro fuel
  induction fuel with
  | zero =>
    intro low high h0 hl hh _ hf
    have : (2 : Int) ^ 0 = 1 := rfl
    simp only [probeLoop]
    rw [if_pos (by omega)]; congr 2; omega
  | succ fuel ih =>
    intro low high h0 hl hh hb hf
    have e : (2 : Int) ^ (fuel + 1) = 2 * 2 ^ fuel := by rw [Int.pow_succ]; omega
    rw [probeLoop]
    by_cases h2 : high - low < 2
    · rw [if_pos h2]; congr 2; omega
    · rw [if_neg h2]
      have hmax : intMax = 2147483647 := rfl
      have ha : addInt low high = .ok (low + high) := by
        unfold addInt; rw [if_neg (by omega)]
      have hd : (low + high).tdiv 2 = (low + high) / 2 := Int.tdiv_eq_ediv_of_nonneg (by omega)
      simp only [ha, hd]
      by_cases ht : (low + high) / 2 ≤ limit
      · rw [if_pos (by simp [library]; omega)]
        exact ih _ high (by omega) ht hh (by omega) (by omega)
      · rw [if_neg (by simp [library]; omega)]
        exact ih low _ h0 hl (by omega) (by omega) (by omega)

/-- C45 (`_partial`: for limits below 2^30 - 1): the probe finds exactly the largest tag the
    library accepts, within 32 nested calls and without overflow. -/
theorem C45_probe_partial (limit : Int) (h0 : 0 ≤ limit) (h1 : limit < 1073741823) :
    probe (library limit) 32 = some (.ok limit) :=
  loop_exact limit h1 31 0 intMax (by omega) h0 (by unfold intMax; omega) (.inr ⟨rfl, rfl⟩) (by unfold intMax; decide)

example : (0 : Int) ≤ 8388607 ∧ (8388607 : Int) < 1073741823 := by decide

/-- C45 is not met for limits of 2^30 - 1 and more (for example 2^31 - 1): the sum of the bounds
    overflows `int`. -/
theorem C45_probe_overflow (limit : Int) (h1 : 1073741823 ≤ limit) : probe (library limit) 32 = some .ub := by
  unfold probe
  have ha : addInt 0 intMax = .ok intMax := by decide
  have hb : addInt 1073741823 intMax = .ub := by decide
  have hl : library limit 1073741823 = true := by simp [library]; omega
  rw [probeLoop, if_neg (by decide)]
  simp only [ha]
  rw [show intMax.tdiv 2 = 1073741823 by decide, if_pos hl, probeLoop, if_neg (by decide)]
  simp only [hb]

/-- C45: whatever the limit, the probe never returns a tag the library rejects. -/
theorem C45_probe_sound (limit : Int) (h0 : 0 ≤ limit) (fuel : Nat) (t : Int) (h : probe (library limit) fuel = some (.ok t)) :
    library limit t = true := by
  have key : ∀ (fuel : Nat) (low high : Int), library limit low = true →
      probeLoop (library limit) fuel low high = some (.ok t) → library limit t = true := by
    intro fuel
    induction fuel with
    | zero => intro low high _ h; simp [probeLoop] at h
    | succ fuel ih =>
      intro low high hl h
      simp only [probeLoop] at h
      split at h
      · simp at h; subst h; exact hl
      · split at h
        · split at h
          · rename_i ha; exact ih _ _ ha h
          · exact ih _ _ hl h
        · simp at h
        · simp at h
  exact key fuel 0 intMax (by simp [library]; omega) h

/-- C45: over any sequence of calls, `safe_tag` returns valid tags, and returns a tag unchanged
    when it is valid already. -/
theorem C45_safe_tag (limit : Int) (h0 : 0 ≤ limit) (tags : List Int) (i : Nat) (t : Int) (h : tags[i]? = some t) :
    ∃ r, (safeTags limit (-1) tags)[i]? = some r ∧ library limit r = true ∧ (library limit t = true → r = t) := by
  have key : ∀ (tags : List Int) (i : Nat) (st : Int), (st = -1 ∨ st = limit) → tags[i]? = some t →
      ∃ r, (safeTags limit st tags)[i]? = some r ∧ library limit r = true ∧ (library limit t = true → r = t) := by
    intro tags
    induction tags with
    | nil => intro i st _ h; simp at h
    | cons a tags ih =>
      intro i st hst h
      have hub : (safeTag st limit a).2 = limit := by
        unfold safeTag; simp only []; split <;> omega
      cases i with
      | zero =>
        simp at h; subst h
        refine ⟨(safeTag st limit a).1, by simp [safeTags], ?_, ?_⟩
        · have : (if st = -1 then limit else st) = limit := by split <;> omega
          simp only [safeTag, library, this]
          split <;> simp <;> omega
        · intro hv
          have : (if st = -1 then limit else st) = limit := by split <;> omega
          simp only [library, decide_eq_true_eq] at hv
          simp only [safeTag, this]
          rw [if_neg (by omega)]; omega
      | succ i =>
        simp only [safeTags, List.getElem?_cons_succ]
        exact ih i _ (.inr hub) (by simpa using h)
  exact key tags i (-1) (.inl rfl) h

example : safeTags 100 (-1) [5, -3, 100, 101] = [5, 0, 100, 100] := by decide

end Conduit.Mpi
