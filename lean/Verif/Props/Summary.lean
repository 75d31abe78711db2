import Verif.Model.Summary
/-
Property theorems C55 (summary strings) and C37 (node iterators).
-/
namespace Conduit

/-! ## C55 -/

/-- What a summary with a positive threshold shows: all of it when there are at most
    `threshold` items, else the first half (rounded up), the ellipsis, and the last half
    (rounded down). -/
def shown (n threshold : Nat) : List Piece :=
  if n ≤ threshold then (List.range n).map .item
  else (List.range ((threshold + 1) / 2)).map .item ++ [.dots] ++
    (List.range (threshold / 2)).map (fun k => .item (n - threshold / 2 + k))

private theorem loop_plain (nele : Nat) (bottom top : Int) (jump : Bool) : ∀ (k idx fuel : Nat), idx + k + 1 = nele → k + 1 ≤ fuel →
    (∀ j : Nat, idx < j → j ≤ nele → ¬ ((j : Int) = bottom ∧ jump = true)) →
    summaryLoop nele bottom top jump fuel idx = some ((List.range (k + 1)).map (fun i => .item (idx + i))) := by
  intro k
  induction k with
  | zero =>
    intro idx fuel h1 h2 h3
    obtain ⟨f, rfl⟩ : ∃ f, fuel = f + 1 := ⟨fuel - 1, by omega⟩
    have := h3 (idx + 1) (by omega) (by omega)
    simp only [summaryLoop, this, if_false]
    rw [if_pos (by omega)]; rfl
  | succ k ih =>
    intro idx fuel h1 h2 h3
    obtain ⟨f, rfl⟩ : ∃ f, fuel = f + 1 := ⟨fuel - 1, by omega⟩
    have h4 := h3 (idx + 1) (by omega) (by omega)
    have h5 := ih (idx + 1) f (by omega) (by omega) (fun j hj hj' => h3 j (by omega) hj')
    simp only [summaryLoop, h4, if_false]
    rw [if_neg (by omega), show ((idx + 1 : Nat) : Int).toNat = idx + 1 by omega, h5]
    rw [List.range_succ_eq_map (n := k + 1)]
    simp only [Option.map_some, List.map_cons, List.map_map, List.cons_append, List.nil_append, Nat.add_zero]
    congr 2
    apply List.map_congr_left
    intro i _
    simp only [Function.comp]; congr 1; omega

private theorem loop_jump (nele b t : Nat) (h : b + t < nele) : ∀ (k idx fuel : Nat), idx + k + 1 = b → k + 1 + t ≤ fuel →
    summaryLoop nele b t true fuel idx =
      some ((List.range (k + 1)).map (fun i => .item (idx + i)) ++ [.dots] ++
        (List.range t).map (fun i => .item (nele - t + i))) := by
  intro k
  induction k with
  | zero =>
    intro idx fuel h1 h2
    obtain ⟨f, rfl⟩ : ∃ f, fuel = f + 1 := ⟨fuel - 1, by omega⟩
    have hj : ((idx + 1 : Nat) : Int) = (b : Int) ∧ true = true := ⟨by omega, rfl⟩
    simp only [summaryLoop, hj, and_self, if_true]
    by_cases ht : t = 0
    · subst ht; rw [if_pos (by omega)]; simp
    · rw [if_neg (by omega)]
      have := loop_plain nele b t true (t - 1) (nele - t) f (by omega) (by omega) (fun j h1 h2 h3 => by omega)
      rw [show ((nele : Int) - (t : Int)).toNat = nele - t by omega, this, show t - 1 + 1 = t by omega]
      simp
  | succ k ih =>
    intro idx fuel h1 h2
    obtain ⟨f, rfl⟩ : ∃ f, fuel = f + 1 := ⟨fuel - 1, by omega⟩
    have h4 : ¬ (((idx + 1 : Nat) : Int) = (b : Int) ∧ True) := by omega
    have h5 := ih (idx + 1) f (by omega) (by omega)
    simp only [summaryLoop, h4, if_false]
    rw [if_neg (by omega), show ((idx + 1 : Nat) : Int).toNat = idx + 1 by omega, h5]
    rw [List.range_succ_eq_map (n := k + 1)]
    simp only [Option.map_some, List.map_cons, List.map_map, List.cons_append, List.nil_append, Nat.add_zero]
    congr 4
    apply List.map_congr_left
    intro i _
    simp only [Function.comp]; congr 1; omega

private theorem halves (t : Nat) : ((t : Int).tdiv 2 = ((t / 2 : Nat) : Int)) ∧
    (if (t : Int).tmod 2 > 0 then ((t / 2 : Nat) : Int) + 1 else ((t / 2 : Nat) : Int)) = (((t + 1) / 2 : Nat) : Int) := by
  have e1 : (t : Int).tdiv 2 = ((t / 2 : Nat) : Int) := by simp [Int.tdiv_eq_ediv_of_nonneg]
  have e2 : (t : Int).tmod 2 = ((t % 2 : Nat) : Int) := by simp [Int.tmod_eq_emod_of_nonneg]
  refine ⟨e1, ?_⟩
  rw [e2]; split <;> omega

/-- C55: with a positive threshold the summary of an array ends and shows exactly what
    `shown` says. -/
theorem C55_array_summary (nele threshold fuel : Nat) (ht : 0 < threshold) (hf : nele ≤ fuel) :
    arraySummary nele threshold fuel = some (shown nele threshold) := by
  unfold arraySummary shown
  by_cases h : nele ≤ threshold
  · rw [if_pos (by omega), if_pos h]
  · rw [if_neg (by omega), if_neg h]
    obtain ⟨e1, e2⟩ := halves threshold
    simp only [e1, e2]
    rw [if_neg (by omega)]
    have := loop_jump nele ((threshold + 1) / 2) (threshold / 2) (by omega) ((threshold + 1) / 2 - 1) 0 fuel (by omega) (by omega)
    rw [this, show (threshold + 1) / 2 - 1 + 1 = (threshold + 1) / 2 by omega]
    simp

example : shown 9 5 = [.item 0, .item 1, .item 2, .dots, .item 7, .item 8] ∧ 0 < 5 := by decide

/-- C55: a zero or negative threshold shows every element, without an ellipsis. -/
theorem C55_array_no_threshold (nele fuel : Nat) (threshold : Int) (ht : threshold ≤ 0) (hf : nele ≤ fuel) :
    arraySummary nele threshold fuel = some ((List.range nele).map .item) := by
  unfold arraySummary
  split
  · rfl
  · obtain ⟨u, rfl⟩ : ∃ u : Nat, threshold = -(u : Int) := ⟨(-threshold).toNat, by omega⟩
    have h1 : (-(u : Int)).tdiv 2 ≤ 0 := by rw [Int.neg_tdiv, (halves u).1]; omega
    have h2 : ¬ (-(u : Int)).tmod 2 > 0 := by
      rw [Int.neg_tmod, Int.tmod_eq_emod_of_nonneg (by omega)]; omega
    simp only [h2, if_false]
    split
    · rename_i h; subst h; rfl
    · rw [loop_plain nele _ _ true (nele - 1) 0 fuel (by omega) (by omega) (fun j h1 h2 h3 => by omega)]
      rw [show nele - 1 + 1 = nele by omega]; simp

/-- C55: the children shown for an object or a list: as for arrays, and all of them when the
    threshold is zero or negative. -/
theorem C55_child_summary (n fuel : Nat) (threshold : Int) (hf : n ≤ fuel) :
    childSummary n threshold fuel = some (if threshold ≤ 0 then (List.range n).map .item else shown n threshold.toNat) := by
  have plain : ∀ (b t : Int) (j : Bool), 0 < n → (∀ i : Nat, 0 < i → i ≤ n → ¬ ((i : Int) = b ∧ j = true)) →
      summaryLoop n b t j fuel 0 = some ((List.range n).map .item) := by
    intro b t j hn h
    rw [loop_plain n b t j (n - 1) 0 fuel (by omega) (by omega) (fun i h1 h2 => h i h1 h2), show n - 1 + 1 = n by omega]
    simp
  unfold childSummary
  by_cases hn : n = 0
  · subst hn; simp [shown]
  · by_cases h : threshold ≤ 0
    · simp only [h, if_true, hn, if_false]
      exact plain _ _ _ (by omega) (fun i _ _ hx => by simp at hx)
    · obtain ⟨t, rfl⟩ : ∃ t : Nat, threshold = t := ⟨threshold.toNat, by omega⟩
      obtain ⟨e1, e2⟩ := halves t
      simp only [h, if_false, hn, e1, e2, Int.toNat_natCast]
      unfold shown
      by_cases hle : n ≤ t
      · rw [if_pos hle]
        exact plain _ _ _ (by omega) (fun i _ _ hx => by simp at hx; omega)
      · rw [if_neg hle, show decide ((n : Int) - (t : Int) > 0) = true by simp; omega]
        have := loop_jump n ((t + 1) / 2) (t / 2) (by omega) ((t + 1) / 2 - 1) 0 fuel (by omega) (by omega)
        rw [this, show (t + 1) / 2 - 1 + 1 = (t + 1) / 2 by omega]
        simp

example : childSummary 7 4 7 = some [.item 0, .item 1, .dots, .item 5, .item 6] := by decide

/-! ## C37 -/

namespace Iter
variable {α : Type}

private theorem child_ok (cs : List α) (i : Nat) (c : α) (h : cs[i]? = some c) : child cs (i : Int) = .ok c := by
  unfold child Res.ofIdx; simp [h]

private theorem hasNext_true (cs : List α) (i : Nat) (h : i < cs.length) : (Iter.mk i cs.length).hasNext = true := by
  unfold hasNext
  simp only [Bool.and_eq_true, decide_eq_true_eq]
  exact ⟨by simp; intro e; simp [e] at h, by omega⟩

private theorem forward_from (cs : List α) : ∀ (k fuel i : Nat), i + k = cs.length → k ≤ fuel →
    forward cs fuel ⟨i, cs.length⟩ = some (.ok (cs.drop i)) := by
  intro k
  induction k with
  | zero =>
    intro fuel i h1 h2
    have hn : (Iter.mk i cs.length).hasNext = false := by simp [hasNext]; omega
    have hd : cs.drop i = [] := by simp; omega
    cases fuel <;> simp [forward, hn, hd]
  | succ k ih =>
    intro fuel i h1 h2
    obtain ⟨f, rfl⟩ : ∃ f, fuel = f + 1 := ⟨fuel - 1, by omega⟩
    have hi : i < cs.length := by omega
    have hn : (Iter.mk i cs.length).hasNext = true := hasNext_true cs i (by omega)
    have hc : child cs ((i : Int) + 1 - 1) = .ok cs[i] := by
      rw [show (i : Int) + 1 - 1 = i by omega]; exact child_ok cs i _ (by simp)
    have hx : (Iter.mk i cs.length).next cs = .ok (⟨((i + 1 : Nat) : Int), cs.length⟩, cs[i]) := by
      simp only [next, hn, if_true, hc, Res.bind_ok]; push_cast; rfl
    simp only [forward, hn, if_true, hx, ih f (i + 1) (by omega) (by omega), Option.map_some, Res.map'_ok]
    rw [List.drop_eq_getElem_cons hi]

private theorem backward_from (cs : List α) : ∀ (i fuel : Nat), i ≤ cs.length → i ≤ fuel →
    backward cs fuel ⟨i, cs.length⟩ = some (.ok ((cs.take (i - 1)).reverse)) := by
  intro i
  induction i with
  | zero => intro fuel _ _; cases fuel <;> simp [backward, hasPrevious]
  | succ i ih =>
    intro fuel h1 h2
    by_cases h0 : i = 0
    · subst h0; cases fuel <;> simp [backward, hasPrevious]
    · obtain ⟨f, rfl⟩ : ∃ f, fuel = f + 1 := ⟨fuel - 1, by omega⟩
      have hp : (Iter.mk ((i + 1 : Nat) : Int) cs.length).hasPrevious = true := by simp [hasPrevious]; omega
      have hc : child cs (((i + 1 : Nat) : Int) - 1 - 1) = .ok cs[i - 1] := by
        rw [show ((i + 1 : Nat) : Int) - 1 - 1 = ((i - 1 : Nat) : Int) by omega]
        exact child_ok cs (i - 1) _ (List.getElem?_eq_getElem (by omega))
      have hx : (Iter.mk ((i + 1 : Nat) : Int) cs.length).previous cs = .ok (⟨i, cs.length⟩, cs[i - 1]) := by
        simp only [previous, hp, if_true, hc, Res.bind_ok]; push_cast; simp
      simp only [backward, hp, if_true, hx, ih f (by omega) (by omega), Option.map_some, Res.map'_ok]
      congr 2
      obtain ⟨j, rfl⟩ : ∃ j, i = j + 1 := ⟨i - 1, by omega⟩
      simp only [Nat.add_sub_cancel]
      rw [List.take_succ_eq_append_getElem (by omega), List.reverse_append]; rfl

/-- The positions an iterator can reach: 0 .. number of children. -/
def Reachable (cs : List α) (it : Iter) : Prop := ∃ calls : List Call, it = calls.foldl (step cs) (ofNode cs)

private theorem reach_inv (cs : List α) (calls : List Call) :
    ∃ i : Nat, i ≤ cs.length ∧ calls.foldl (step cs) (ofNode cs) = ⟨i, cs.length⟩ := by
  have key : ∀ (calls : List Call) (i : Nat), i ≤ cs.length →
      ∃ j : Nat, j ≤ cs.length ∧ calls.foldl (step cs) ⟨i, cs.length⟩ = ⟨j, cs.length⟩ := by
    intro calls
    induction calls with
    | nil => intro i hi; exact ⟨i, hi, rfl⟩
    | cons c calls ih =>
      intro i hi
      have : ∃ j : Nat, j ≤ cs.length ∧ step cs ⟨i, cs.length⟩ c = ⟨j, cs.length⟩ := by
        cases c with
        | next =>
          simp only [step]
          by_cases hn : i < cs.length
          · have h1 : (Iter.mk i cs.length).hasNext = true := hasNext_true cs i (by omega)
            have hc : child cs ((i : Int) + 1 - 1) = .ok cs[i] := by
              rw [show (i : Int) + 1 - 1 = i by omega]; exact child_ok cs i _ (by simp)
            refine ⟨i + 1, by omega, ?_⟩
            simp only [next, h1, if_true, hc, Res.bind_ok]; push_cast; rfl
          · have h1 : (Iter.mk i cs.length).hasNext = false := by simp [hasNext]; omega
            exact ⟨i, hi, by simp [next, h1]⟩
        | previous =>
          simp only [step]
          by_cases hn : 1 < i
          · have h1 : (Iter.mk i cs.length).hasPrevious = true := by simp [hasPrevious]; omega
            have hc : child cs ((i : Int) - 1 - 1) = .ok cs[i - 2] := by
              rw [show (i : Int) - 1 - 1 = ((i - 2 : Nat) : Int) by omega]
              exact child_ok cs (i - 2) _ (List.getElem?_eq_getElem (by omega))
            refine ⟨i - 1, by omega, ?_⟩
            simp only [previous, h1, if_true, hc, Res.bind_ok]
            congr 1; omega
          · have h1 : (Iter.mk i cs.length).hasPrevious = false := by simp [hasPrevious]; omega
            exact ⟨i, hi, by simp [previous, h1]⟩
        | toFront => exact ⟨0, by omega, rfl⟩
        | toBack => exact ⟨cs.length, Nat.le_refl _, rfl⟩
        | _ => exact ⟨i, hi, rfl⟩
      obtain ⟨j, hj, e⟩ := this
      simp only [List.foldl_cons, e]; exact ih j hj
  exact key calls 0 (by omega)

end Iter

open Iter

variable {α : Type}

/-- C37: whatever calls were made before, after `to_front()` the loop
    `while(has_next()) next()` ends and returns all children, in order, once each. -/
theorem C37_forward_loop (cs : List α) (it : Iter) (h : Reachable cs it) :
    forward cs cs.length it.toFront = some (.ok cs) := by
  obtain ⟨calls, rfl⟩ := h
  obtain ⟨i, -, e⟩ := reach_inv cs calls
  rw [e]
  have := forward_from cs cs.length cs.length 0 (by omega) (Nat.le_refl _)
  simpa [toFront] using this

/-- C37: `peek_next()` returns what `next()` returns, and `next()` steps the index by one. -/
theorem C37_peek_next (cs : List α) (it it' : Iter) (c : α) (h : it.next cs = .ok (it', c)) :
    it.peekNext cs = .ok c ∧ it'.indexOf = it.indexOf + 1 ∧ it'.node cs = .ok c := by
  unfold next at h
  split at h
  · rename_i hn
    rw [Res.bind_eq_ok] at h
    obtain ⟨c', h1, h2⟩ := h
    injection h2 with h2; injection h2 with h2 h3; subst h2 h3
    refine ⟨by unfold peekNext; rw [if_pos hn]; exact h1, by simp [indexOf], ?_⟩
    unfold node; rw [← h1]
  · simp at h

/-- C37: `previous()` after `next()` goes back: from any position past the front, the iterator
    is as it was and `previous()` returns the child the iterator stood on. -/
theorem C37_previous_undoes_next (cs : List α) (it it' : Iter) (c : α) (hr : Reachable cs it) (h0 : 1 ≤ it.index)
    (h : it.next cs = .ok (it', c)) : ∃ c0, it'.previous cs = .ok (it, c0) ∧ it.node cs = .ok c0 := by
  obtain ⟨calls, rfl⟩ := hr
  obtain ⟨i, hi, e⟩ := reach_inv cs calls
  rw [e] at h h0 ⊢
  have h0 : (1 : Int) ≤ i := h0
  unfold next at h
  split at h
  · rename_i hn
    rw [Res.bind_eq_ok] at h
    obtain ⟨c', h1, h2⟩ := h
    injection h2 with h2; injection h2 with h2 h3; subst h2 h3
    have hc : child cs ((i : Int) - 1) = .ok cs[i - 1] := by
      rw [show (i : Int) - 1 = ((i - 1 : Nat) : Int) by omega]
      exact child_ok cs (i - 1) _ (List.getElem?_eq_getElem (by omega))
    refine ⟨cs[i - 1], ?_, hc⟩
    have hp : (Iter.mk ((i : Int) + 1) cs.length).hasPrevious = true := by simp [hasPrevious]; omega
    simp only [previous, hp, if_true]
    rw [show (i : Int) + 1 - 1 - 1 = (i : Int) - 1 by omega, hc, Res.bind_ok, show (i : Int) + 1 - 1 = i by omega]
  · simp at h

/-- C37: no call sequence makes the iterator read outside the child list. -/
theorem C37_in_bounds (cs : List α) (it : Iter) (h : Reachable cs it) :
    it.next cs ≠ .ub ∧ it.peekNext cs ≠ .ub ∧ it.previous cs ≠ .ub ∧ it.peekPrevious cs ≠ .ub := by
  obtain ⟨calls, rfl⟩ := h
  obtain ⟨i, hi, e⟩ := reach_inv cs calls
  rw [e]
  have ok : ∀ j : Int, 0 ≤ j → j < cs.length → ∃ c, child cs j = .ok c := by
    intro j h0 h1
    obtain ⟨k, rfl⟩ : ∃ k : Nat, j = k := ⟨j.toNat, by omega⟩
    exact ⟨cs[k]'(by omega), child_ok cs k _ (List.getElem?_eq_getElem (by omega))⟩
  refine ⟨?_, ?_, ?_, ?_⟩
  · unfold next; split
    · rename_i hn; simp [hasNext] at hn
      obtain ⟨c, hc⟩ := ok ((i : Int) + 1 - 1) (by omega) (by omega)
      simp only [hc, Res.bind_ok]; simp
    · simp
  · unfold peekNext; split
    · rename_i hn; simp [hasNext] at hn
      obtain ⟨c, hc⟩ := ok ((i : Int) + 1 - 1) (by omega) (by omega)
      simp only [hc, Res.bind_ok]; simp
    · simp
  · unfold previous; split
    · rename_i hn; simp [hasPrevious] at hn
      obtain ⟨c, hc⟩ := ok ((i : Int) - 1 - 1) (by omega) (by omega)
      simp only [hc, Res.bind_ok]; simp
    · simp
  · unfold peekPrevious; split
    · rename_i hn; simp [hasPrevious] at hn
      obtain ⟨c, hc⟩ := ok ((i : Int) - 1) (by omega) (by omega)
      simp only [hc, Res.bind_ok]; simp
    · simp

example : Reachable ['a', 'b', 'c'] (⟨2, 3⟩ : Iter) ∧ (1 : Int) ≤ (⟨2, 3⟩ : Iter).index ∧
    (⟨2, 3⟩ : Iter).next ['a', 'b', 'c'] = .ok (⟨3, 3⟩, 'c') := ⟨⟨[.next, .next], by decide⟩, by decide, by decide⟩

/-- C37 is not met by `peek_previous()`: wherever `previous()` succeeds, it returns the child
    the iterator stands on instead of the child `previous()` returns. -/
theorem C37_peek_previous_false (cs : List α) (it it' : Iter) (c : α) (h : it.previous cs = .ok (it', c)) :
    it.peekPrevious cs = it.node cs ∧
    ∃ (l : List Char) (i i' : Iter), Reachable l i ∧ i.previous l = .ok (i', 'a') ∧ i.peekPrevious l = .ok 'b' := by
  refine ⟨?_, ['a', 'b'], ⟨2, 2⟩, ⟨1, 2⟩, ⟨[.toBack], by decide⟩, by decide, by decide⟩
  unfold previous at h
  split at h
  · rename_i hp; unfold peekPrevious node; rw [if_pos hp]
  · simp at h

/-- C37, reverse loop: after `to_back()` the loop `while(has_previous()) previous()` ends and
    returns the children in reverse order without the last one. -/
theorem C37_backward_loop_skips_last (cs : List α) (it : Iter) (h : Reachable cs it) :
    backward cs cs.length it.toBack = some (.ok (cs.take (cs.length - 1)).reverse) := by
  obtain ⟨calls, rfl⟩ := h
  obtain ⟨i, -, e⟩ := reach_inv cs calls
  rw [e]
  exact backward_from cs cs.length cs.length (Nat.le_refl _) (Nat.le_refl _)

/-- C37 needs the child list to stay as it was: an iterator remembers the number of children,
    so after a child is removed the loop reads past the end. -/
theorem C37_removed_child_ub : forward ['a'] 2 (ofNode ['a', 'b']) = some .ub := by decide

end Conduit
