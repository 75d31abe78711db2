import Verif.Model.MeshConvert
import Mathlib.Tactic.Ring
/-
Loops that write into arrays.
-/
namespace Conduit.Mesh
variable {α β : Type}

/-- A sequence of writes. -/
def run (ws : List (Int × α)) (arr : List α) : Res (List α) := ws.foldlM (fun arr w => put arr w.1 w.2) arr

theorem run_nil (arr : List α) : run [] arr = .ok arr := rfl

theorem run_cons (w : Int × α) (ws : List (Int × α)) (arr : List α) :
    run (w :: ws) arr = (put arr w.1 w.2 >>= run ws) := by
  simp only [run, List.foldlM_cons]; rfl

theorem run_append (a b : List (Int × α)) (arr : List α) : run (a ++ b) arr = (run a arr >>= run b) := by
  induction a generalizing arr with
  | nil => rfl
  | cons w a ih =>
    rw [List.cons_append, run_cons, run_cons]
    cases h : put arr w.1 w.2 with
    | ok x => simpa using ih x
    | error => rfl
    | ub => rfl

theorem foldlM_run (f : Int → List α → Res (List α)) (ws : Nat → List (Int × α)) (l : List Nat)
    (h : ∀ d ∈ l, ∀ a, f (d : Int) a = run (ws d) a) (arr : List α) :
    l.foldlM (fun a (d : Nat) => f (d : Int) a) arr = run (l.flatMap ws) arr := by
  induction l generalizing arr with
  | nil => rfl
  | cons d l ih =>
    rw [List.foldlM_cons, h d (by simp), List.flatMap_cons, run_append]
    congr 1
    funext a
    exact ih (fun x hx => h x (by simp [hx])) a

theorem forTo_run (n : Int) (f : Int → List α → Res (List α)) (ws : Nat → List (Int × α))
    (h : ∀ d, d < n.toNat → ∀ a, f (d : Int) a = run (ws d) a) (arr : List α) :
    forTo n f arr = run ((List.range n.toNat).flatMap ws) arr :=
  foldlM_run f ws _ (fun d hd => h d (by simpa using hd)) arr

/-- Writes inside the array, each of the value its place asks for. -/
theorem run_spec (g : Nat → α) (ws : List (Int × α)) (arr : List α)
    (h : ∀ w ∈ ws, 0 ≤ w.1 ∧ w.1 < arr.length ∧ w.2 = g w.1.toNat) :
    ∃ arr', run ws arr = .ok arr' ∧ arr'.length = arr.length ∧
      ∀ p : Nat, arr'[p]? = if (p : Int) ∈ ws.map (·.1) then some (g p) else arr[p]? := by
  induction ws generalizing arr with
  | nil => exact ⟨arr, rfl, rfl, by simp⟩
  | cons w ws ih =>
    obtain ⟨h1, h2, h3⟩ := h w (by simp)
    have hp : put arr w.1 w.2 = .ok (arr.set w.1.toNat w.2) := by simp [put, h1, h2]
    obtain ⟨arr', e1, e2, e3⟩ := ih (arr.set w.1.toNat w.2)
      (by intro x hx; rw [List.length_set]; exact h x (by simp [hx]))
    refine ⟨arr', by rw [run_cons, hp]; exact e1, by rw [e2, List.length_set], fun p => ?_⟩
    rw [e3 p]; simp only [List.map_cons, List.mem_cons]
    by_cases hm : (p : Int) ∈ ws.map (·.1)
    · simp [hm]
    · by_cases hq : (p : Int) = w.1
      · have : w.1.toNat = p := by omega
        rw [if_neg hm, if_pos (Or.inl hq), this, h3, this, List.getElem?_set_self (by omega)]
      · have : w.1.toNat ≠ p := by omega
        rw [if_neg hm, if_neg (by simp [hq, hm]), List.getElem?_set_ne this]

/-- Every place of the array is written. -/
theorem run_all (g : Nat → α) (ws : List (Int × α)) (arr : List α)
    (h : ∀ w ∈ ws, 0 ≤ w.1 ∧ w.1 < arr.length ∧ w.2 = g w.1.toNat)
    (hall : ∀ p : Nat, p < arr.length → (p : Int) ∈ ws.map (·.1)) :
    run ws arr = .ok ((List.range arr.length).map g) := by
  obtain ⟨arr', e1, e2, e3⟩ := run_spec g ws arr h
  rw [e1]
  congr 1
  apply List.ext_getElem?
  intro p
  by_cases hp : p < arr.length
  · rw [e3, if_pos (hall p hp), List.getElem?_map, List.getElem?_range hp]; rfl
  · rw [List.getElem?_eq_none (by omega), List.getElem?_eq_none (by simp; omega)]

theorem alloc_nat (z : α) (n : Nat) : alloc z (n : Int) = .ok (List.replicate n z) := by
  simp [alloc]

/-- A loop that fills an array from front to back. -/
theorem fill_line (n : Nat) (z : α) (g : Nat → α) :
    forTo (n : Int) (fun d arr => put arr d (g d.toNat)) (List.replicate n z) = .ok ((List.range n).map g) := by
  rw [forTo_run (n : Int) _ (fun d => [((d : Int), g d)]) (by
    intro d _ a; rw [run_cons]; simp only [Int.toNat_natCast]
    cases put a (d : Int) (g d) <;> rfl)]
  have := run_all g ((List.range (n : Int).toNat).flatMap fun (d : Nat) => [((d : Int), g d)]) (List.replicate n z)
    (by
      intro w hw
      simp only [List.mem_flatMap, List.mem_range, List.mem_singleton] at hw
      obtain ⟨d, hd, rfl⟩ := hw
      simp at hd ⊢; omega)
    (by
      intro p hp
      simp only [List.length_replicate] at hp
      simp only [List.mem_map, List.mem_flatMap, List.mem_range, List.mem_singleton]
      exact ⟨((p : Int), g p), ⟨p, by simpa using hp, rfl⟩, rfl⟩)
  simpa using this

/-- The three loops over one axis: place `p` of the array gets the value for index `p / bs % len`. -/
theorem fillAxis_eq (bs bc len : Nat) (z : α) (val : Int → Res α) (c : Nat → α)
    (hv : ∀ d : Nat, d < len → val (d : Int) = .ok (c d)) :
    fillAxis (bs : Int) (bc : Int) (len : Int) val (List.replicate (bs * len * bc) z)
      = .ok ((List.range (bs * len * bc)).map fun p => c (p / bs % len)) := by
  unfold fillAxis
  rw [forTo_run (len : Int) _ (fun (d : Nat) => (List.range (bc : Int).toNat).flatMap fun (b : Nat) =>
    (List.range (bs : Int).toNat).flatMap fun (bi : Nat) =>
      [((d : Int) * bs + b * bs * len + bi, c d)])]
  · have := run_all (fun p => c (p / bs % len)) ((List.range (len : Int).toNat).flatMap
      (fun (d : Nat) => (List.range (bc : Int).toNat).flatMap fun (b : Nat) =>
        (List.range (bs : Int).toNat).flatMap fun (bi : Nat) =>
          [((d : Int) * bs + b * bs * len + bi, c d)])) (List.replicate (bs * len * bc) z) ?_ ?_
    · simpa using this
    · intro w hw
      simp only [List.mem_flatMap, List.mem_range, List.mem_singleton, Int.toNat_natCast] at hw
      obtain ⟨d, hd, b, hb, bi, hbi, rfl⟩ := hw
      have e : ((d : Int) * bs + b * bs * len + bi) = ((bi + bs * (d + len * b) : Nat) : Int) := by
        push_cast; ring
      have hlt : bi + bs * (d + len * b) < bs * len * bc := by
        have h1 : bs * (d + len * b) + bs ≤ bs * (len * bc) := by
          rw [← Nat.mul_succ]
          apply Nat.mul_le_mul_left
          have : len * b + len ≤ len * bc := by rw [← Nat.mul_succ]; exact Nat.mul_le_mul_left _ hb
          omega
        rw [Nat.mul_assoc]; omega
      have hdiv : (bi + bs * (d + len * b)) / bs % len = d := by
        rw [Nat.add_mul_div_left _ _ (by omega), Nat.div_eq_of_lt hbi, Nat.zero_add,
          Nat.add_mul_mod_self_left, Nat.mod_eq_of_lt hd]
      refine ⟨by rw [e]; exact Int.natCast_nonneg _, ?_, ?_⟩
      · rw [e, List.length_replicate]; exact Int.ofNat_lt.mpr hlt
      · rw [e, Int.toNat_natCast, hdiv]
    · intro p hp
      simp only [List.length_replicate] at hp
      have hbs : 0 < bs := by
        rcases Nat.eq_zero_or_pos bs with h | h
        · subst h; simp at hp
        · exact h
      have hlen : 0 < len := by
        rcases Nat.eq_zero_or_pos len with h | h
        · subst h; simp at hp
        · exact h
      simp only [List.mem_map, List.mem_flatMap, List.mem_range, List.mem_singleton, Int.toNat_natCast]
      refine ⟨_, ⟨p / bs % len, Nat.mod_lt _ hlen, p / bs / len, ?_, p % bs, Nat.mod_lt _ hbs, rfl⟩, ?_⟩
      · rw [Nat.div_div_eq_div_mul, Nat.div_lt_iff_lt_mul (Nat.mul_pos hbs hlen)]
        rw [Nat.mul_comm bc]; exact hp
      · have h1 := Nat.div_add_mod p bs
        have h2 := Nat.div_add_mod (p / bs) len
        show ((p / bs % len : Nat) : Int) * bs + ((p / bs / len : Nat) : Int) * bs * len + ((p % bs : Nat) : Int) = p
        have h3 : ((bs * (len * (p / bs / len) + p / bs % len) + p % bs : Nat) : Int) = p := by rw [h2, h1]
        rw [← h3]; push_cast; ring
  · intro d hd a
    rw [forTo_run (bc : Int)]
    intro b _ a
    rw [forTo_run (bs : Int)]
    intro bi _ a
    rw [hv d (by simpa using hd), Res.bind_ok, run_cons]
    cases put a ((d : Int) * bs + b * bs * len + bi) (c d) <;> rfl

end Conduit.Mesh
