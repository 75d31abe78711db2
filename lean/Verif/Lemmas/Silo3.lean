import Verif.Lemmas.Silo2
import Verif.Lemmas.O2MCompact
/-
The loops that fill the maps of the zones.
-/
namespace Conduit.Matset
open Conduit.O2M (rd wr ones size target entries Valid Consecutive)
variable {α β γ δ σ : Type}

/-! ### the iterator loops are plain loops if no group is empty -/

theorem manyLoop_eq (r : O2M.Rel α) (hv : Valid r) (hc : Consecutive r) (f : σ → Int → Res σ) (i : Nat) (hi : i < ones r) :
    ∀ (n j fuel : Nat) (s : σ), j + n = size r i → n < fuel →
      manyLoop r f fuel ⟨i, j⟩ s =
        some (((List.range' j n).foldlM (fun s (k : Nat) => f s (target r i k)) s).map' fun s => (⟨i, size r i⟩, s))
  | 0, j, fuel + 1, s, hj, _ => by
    unfold manyLoop
    simp only [O2M.hasNext]
    rw [O2M.elementsMany_eq r hv i hi]
    simp only [Res.bind_ok]
    rw [show decide ((j : Int) < (size r i : Int)) = false by simp; omega]
    simp only [List.range'_zero, List.foldlM_nil, Res.pure_def, Res.map'_ok]
    rw [show (j : Int) = (size r i : Int) by omega]
  | n + 1, j, fuel + 1, s, hj, hf => by
    unfold manyLoop
    simp only [O2M.hasNext]
    rw [O2M.elementsMany_eq r hv i hi]
    simp only [Res.bind_ok]
    rw [show decide ((j : Int) < (size r i : Int)) = true by simp; omega]
    simp only [O2M.next, Res.bind_ok]
    rw [O2M.index_eq r hv i j hi (by omega), Res.bind_ok, ← hc i hi j (by omega)]
    rw [List.range'_succ, List.foldlM_cons]
    cases hfd : f s (target r i j) with
    | ok s' =>
      simp only [Res.bind_ok]
      have := manyLoop_eq r hv hc f i hi n (j + 1) fuel s' (by omega) (by omega)
      rw [← this]
      rfl
    | error => rfl
    | ub => rfl

/-- where the iterator stands before group `i` -/
def itAt (r : O2M.Rel α) : Nat → O2M.It
  | 0 => ⟨0, 0⟩
  | i + 1 => ⟨i, size r i⟩

theorem oneLoop_eq (r : O2M.Rel α) (hv : Valid r) (hc : Consecutive r) (hpos : ∀ i < ones r, 0 < size r i) (g : Int → Res Int)
    (f : Int → σ → Int → Res σ) : ∀ (n i fuel : Nat) (s : σ), i + n = ones r → n + O2M.pfx r (ones r) + 1 < fuel →
      oneLoop r g f fuel (itAt r i) s =
        some ((List.range' i n).foldlM (fun s (i : Nat) => do
          let e ← g i
          (List.range (size r i)).foldlM (fun s (k : Nat) => f e s (target r i k)) s) s)
  | 0, i, fuel + 1, s, hi, _ => by
    have hn : O2M.hasNext r (itAt r i) .data = .ok false := by
      cases i with
      | zero =>
        rw [show itAt r 0 = ⟨0, 0⟩ from rfl]
        simp only [O2M.hasNext]
        rw [O2M.elementsOne_eq]
        rw [if_neg (by omega), show (0 : Int) = ((0 : Nat) : Int) from rfl, O2M.elementsMany_past r 0 (by omega)]
        rfl
      | succ i =>
        rw [show itAt r (i + 1) = ⟨i, size r i⟩ from rfl]
        simp only [O2M.hasNext]
        rw [O2M.elementsOne_eq, if_neg (by omega), O2M.elementsMany_eq r hv i (by omega)]
        simp only [Res.bind_ok]
        rw [show decide ((size r i : Int) < (size r i : Int)) = false by simp]
    unfold oneLoop
    rw [hn]
    rfl
  | n + 1, i, fuel + 1, s, hi, hf => by
    have hlt : i < ones r := by omega
    have hn : O2M.hasNext r (itAt r i) .data = .ok true := by
      cases i with
      | zero =>
        rw [show itAt r 0 = ⟨0, 0⟩ from rfl]
        simp only [O2M.hasNext]
        rw [O2M.elementsOne_eq]
        by_cases h1 : (0 : Int) < (ones r : Int) - 1
        · rw [if_pos h1]
        · rw [if_neg h1, show (0 : Int) = ((0 : Nat) : Int) from rfl, O2M.elementsMany_eq r hv 0 hlt]
          have := hpos 0 hlt
          simp only [Res.bind_ok]
          rw [show decide (((0 : Nat) : Int) < (size r 0 : Int)) = true by simp; omega]
      | succ i =>
        rw [show itAt r (i + 1) = ⟨i, size r i⟩ from rfl]
        simp only [O2M.hasNext]
        rw [O2M.elementsOne_eq, if_pos (by omega)]
    have hnext : ∃ it' : O2M.It, O2M.next r (itAt r i) .one = .ok (it', (i : Int)) ∧ O2M.toFront it' .many = ⟨i, 0⟩ := by
      cases i with
      | zero => exact ⟨⟨0, 1⟩, rfl, rfl⟩
      | succ i =>
        have := hpos i (by omega)
        refine ⟨⟨(i : Int) + 1, size r i⟩, ?_, rfl⟩
        rw [show itAt r (i + 1) = ⟨i, size r i⟩ from rfl]
        simp only [O2M.next]
        rw [if_neg (by omega)]
        rfl
    obtain ⟨it', h1, h2⟩ := hnext
    unfold oneLoop
    rw [hn]
    simp only []
    rw [h1]
    simp only [Res.bind_ok]
    rw [List.range'_succ, List.foldlM_cons]
    cases hg : g i with
    | error => rfl
    | ub => rfl
    | ok e =>
      simp only [Res.bind_ok]
      rw [h2]
      have hm := manyLoop_eq r hv hc (f e) i hlt (size r i) 0 fuel s (by omega) (by
        have := O2M.size_le_total r i hlt; omega)
      rw [show ((0 : Nat) : Int) = (0 : Int) from rfl] at hm
      rw [hm, ← List.range_eq_range']
      cases hr : (List.range (size r i)).foldlM (fun s (k : Nat) => f e s (target r i k)) s with
      | error => rfl
      | ub => rfl
      | ok s' =>
        simp only [Res.map'_ok, Res.bind_ok]
        exact oneLoop_eq r hv hc hpos g f n (i + 1) fuel s' (by omega) (by omega)

/-! ### filling maps -/

/-- The maps hold exactly keys from `xs`, each with one of its values. -/
structure Built (N : Nat) (xs : List (Nat × Int × β)) (maps : List (List (Int × β))) : Prop where
  len : maps.length = N
  sorted : ∀ m ∈ maps, ISorted m
  sound : ∀ (e : Nat) m, maps[e]? = some m → ∀ id v, iget m id = some v → (e, id, v) ∈ xs
  full : ∀ (e : Nat) m, maps[e]? = some m → ∀ id v, (e, id, v) ∈ xs → (iget m id).isSome

theorem Built.nil (N : Nat) : Built N ([] : List (Nat × Int × β)) (List.replicate N []) := by
  refine ⟨by simp, ?_, ?_, ?_⟩
  · intro m hm
    rw [(List.mem_replicate.mp hm).2]
    exact List.Pairwise.nil
  · intro e m hm id v h
    have := (List.mem_replicate.mp (List.mem_of_getElem? hm)).2
    subst this
    simp [iget] at h
  · intro e m _ id v h
    simp at h

theorem Built.step {N : Nat} {xs : List (Nat × Int × β)} {maps : List (List (Int × β))} (h : Built N xs maps) (e : Nat) (he : e < N) (id : Int) (v : β) :
    ∃ maps', putAt maps (e : Int) id v = .ok maps' ∧ Built N (xs ++ [(e, id, v)]) maps' := by
  have hlt : e < maps.length := by rw [h.len]; exact he
  have hm := List.getElem?_eq_getElem hlt
  refine ⟨maps.set e (iset id v maps[e]), ?_, ?_⟩
  · unfold putAt
    rw [O2M.rd_nat _ _ _ hm, Res.bind_ok]
    unfold wr
    rw [if_neg (by omega)]
    rfl
  · refine ⟨by simp [h.len], ?_, ?_, ?_⟩
    · intro m hmem
      rcases List.mem_or_eq_of_mem_set hmem with hmem | rfl
      · exact h.sorted m hmem
      · exact iset_sorted id v (h.sorted _ (List.getElem_mem hlt))
    · intro e' m hm' id' v' hv'
      rw [List.getElem?_set] at hm'
      by_cases hee : e = e'
      · subst hee
        rw [if_pos rfl, if_pos hlt] at hm'
        simp only [Option.some.injEq] at hm'
        subst hm'
        rw [iget_iset] at hv'
        by_cases hid : id = id'
        · subst hid
          rw [if_pos rfl] at hv'
          simp only [Option.some.injEq] at hv'
          subst hv'
          simp
        · rw [if_neg hid] at hv'
          exact List.mem_append_left _ (h.sound e _ hm id' v' hv')
      · rw [if_neg hee] at hm'
        exact List.mem_append_left _ (h.sound e' m hm' id' v' hv')
    · intro e' m hm' id' v' hx
      rw [List.getElem?_set] at hm'
      rw [List.mem_append, List.mem_singleton, Prod.mk.injEq, Prod.mk.injEq] at hx
      by_cases hee : e = e'
      · subst hee
        rw [if_pos rfl, if_pos hlt] at hm'
        simp only [Option.some.injEq] at hm'
        subst hm'
        rw [iget_iset]
        by_cases hid : id = id'
        · rw [if_pos hid]; rfl
        · rw [if_neg hid]
          rcases hx with hx | ⟨_, hx, _⟩
          · exact h.full e _ hm id' v' hx
          · exact absurd hx.symm hid
      · rw [if_neg hee] at hm'
        rcases hx with hx | ⟨hx, _⟩
        · exact h.full e' m hm' id' v' hx
        · exact absurd hx.symm hee

/-- with one value per key the maps hold exactly the entries -/
theorem Built.mem {N : Nat} {xs : List (Nat × Int × β)} {maps : List (List (Int × β))} (h : Built N xs maps)
    (hu : ∀ e id v v', (e, id, v) ∈ xs → (e, id, v') ∈ xs → v = v') {e : Nat} {m} (hm : maps[e]? = some m) (id : Int) (v : β) :
    iget m id = some v ↔ (e, id, v) ∈ xs := by
  constructor
  · exact h.sound e m hm id v
  · intro hx
    obtain ⟨v', hv'⟩ := Option.isSome_iff_exists.mp (h.full e m hm id v hx)
    rw [hv', hu e id v v' hx (h.sound e m hm id v' hv')]

theorem fold_steps {P : List δ → σ → Prop} {f : σ → γ → Res σ} {F : γ → List δ} (l : List γ)
    (hstep : ∀ s pre x, x ∈ l → P pre s → ∃ s', f s x = .ok s' ∧ P (pre ++ F x) s') (pre : List δ) (s : σ) (h : P pre s) :
    ∃ s', l.foldlM f s = .ok s' ∧ P (pre ++ l.flatMap F) s' := by
  induction l generalizing pre s with
  | nil => exact ⟨s, rfl, by simpa using h⟩
  | cons x l ih =>
    obtain ⟨s1, h1, h2⟩ := hstep s pre x List.mem_cons_self h
    obtain ⟨s2, h3, h4⟩ := ih (fun s pre y hy => hstep s pre y (List.mem_cons_of_mem _ hy)) (pre ++ F x) s1 h2
    refine ⟨s2, ?_, ?_⟩
    · rw [List.foldlM_cons, h1]; exact h3
    · rw [List.flatMap_cons, ← List.append_assoc]; exact h4

end Conduit.Matset
