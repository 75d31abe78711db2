import Verif.Lemmas.Silo
import Verif.Spec.Specset
/-
The loops of `specset::to_silo` in closed form.
-/
namespace Conduit.Matset
open Conduit.O2M (rd wr)
variable {α β γ : Type}

/-! ### concatenated blocks -/

theorem flatMap_get {δ ε : Type} (f : δ → List ε) : ∀ (l : List δ) (i : Nat) (x : δ) (k : Nat), l[i]? = some x → k < (f x).length →
    (l.flatMap f)[((l.take i).map fun y => (f y).length).sum + k]? = (f x)[k]?
  | [], i, x, k, h, _ => by simp at h
  | y :: l, 0, x, k, h, hk => by
    simp only [List.getElem?_cons_zero, Option.some.injEq] at h
    subst h
    simp only [List.take_zero, List.map_nil, List.sum_nil, Nat.zero_add, List.flatMap_cons]
    rw [List.getElem?_append_left hk]
  | y :: l, i + 1, x, k, h, hk => by
    have ih := flatMap_get f l i x k (by simpa using h) hk
    simp only [List.take_succ_cons, List.map_cons, List.sum_cons, List.flatMap_cons]
    rw [List.getElem?_append_right (by omega)]
    rw [show (f y).length + ((l.take i).map fun y => (f y).length).sum + k - (f y).length = ((l.take i).map fun y => (f y).length).sum + k by omega]
    exact ih

theorem flatMap_len {δ ε : Type} (f : δ → List ε) : ∀ (l : List δ), (l.flatMap f).length = (l.map fun y => (f y).length).sum
  | [] => rfl
  | y :: l => by simp [flatMap_len f l]

theorem sum_const (T : Nat) : ∀ (n : Nat), ((List.range n).map fun _ => T).sum = n * T
  | 0 => by simp
  | n + 1 => by
    rw [List.range_succ, List.map_append, List.sum_append, sum_const T n]
    simp [Nat.succ_mul]

theorem take_range (n z : Nat) (h : z ≤ n) : (List.range n).take z = List.range z := by
  apply List.ext_getElem?
  intro i
  by_cases hi : i < z
  · rw [List.getElem?_take_of_lt hi, List.getElem?_range (by omega), List.getElem?_range hi]
  · rw [List.getElem?_eq_none (by simp; omega), List.getElem?_eq_none (by simp; omega)]

/-! ### the positions of the materials -/

theorem matPos_spec : ∀ (sp : Specs γ) (mm : List (Str × Int)) (i : Nat) (m : List (Int × Nat)), sp.map (·.1) = mm.map (·.1) → (mm.map (·.2)).Nodup →
    ∃ m', matPos true sp mm i m = .ok m' ∧ (∀ (k : Nat) n id, mm[k]? = some (n, id) → iget m' id = some (i + k)) ∧
      ∀ id, id ∉ mm.map (·.2) → iget m' id = iget m id
  | [], [], i, m, _, _ => ⟨m, rfl, by simp, fun _ _ => rfl⟩
  | [], _ :: _, _, _, h, _ => by simp at h
  | _ :: _, [], _, _, h, _ => by simp at h
  | (n, ss) :: sp, (n', id') :: mm, i, m, h, hn => by
    simp only [List.map_cons, List.cons.injEq] at h
    rw [List.map_cons, List.nodup_cons] at hn
    obtain ⟨m', h1, h2, h3⟩ := matPos_spec sp mm (i + 1) (iset id' i m) h.2 hn.2
    refine ⟨m', ?_, ?_, ?_⟩
    · unfold matPos
      rw [if_pos h.1, if_pos rfl]
      exact h1
    · intro k n'' id hk
      cases k with
      | zero =>
        simp only [List.getElem?_cons_zero, Option.some.injEq, Prod.mk.injEq] at hk
        obtain ⟨_, rfl⟩ := hk
        rw [h3 _ hn.1, iget_iset, if_pos rfl]; rfl
      | succ k =>
        rw [h2 k n'' id (by simpa using hk)]
        congr 1; omega
    · intro id hid
      simp only [List.map_cons, List.mem_cons, not_or] at hid
      rw [h3 id hid.2, iget_iset, if_neg (Ne.symm hid.1)]

/-! ### the mass fractions -/

/-- the values of one zone -/
def zoneMf [Inhabited γ] (sp : Specs γ) (z : Nat) : List γ := sp.flatMap fun m => m.2.map fun s => s.2.getD z default

theorem species_fold [Inhabited γ] (z : Nat) : ∀ (ss : List (Str × List γ)) (acc : List γ), (∀ s ∈ ss, z < s.2.length) →
    ss.foldlM (fun acc s => do .ok (acc ++ [← rd s.2 (z : Int)])) acc = Res.ok (acc ++ ss.map fun s => s.2.getD z default)
  | [], acc, _ => by simp
  | s :: ss, acc, h => by
    have hz := h s List.mem_cons_self
    have hr : rd s.2 (z : Int) = .ok (s.2.getD z default) := by
      rw [O2M.rd_nat _ _ _ (List.getElem?_eq_getElem hz)]
      simp [List.getD, List.getElem?_eq_getElem hz]
    rw [List.foldlM_cons]
    simp only [hr, Res.bind_ok]
    rw [species_fold z ss _ fun x hx => h x (List.mem_cons_of_mem _ hx)]
    simp

theorem zone_fold [Inhabited γ] (z : Nat) : ∀ (sp : Specs γ) (acc : List γ), (∀ m ∈ sp, ∀ s ∈ m.2, z < s.2.length) →
    sp.foldlM (fun acc m => m.2.foldlM (fun acc s => do .ok (acc ++ [← rd s.2 (z : Int)])) acc) acc = Res.ok (acc ++ zoneMf sp z)
  | [], acc, _ => by simp [zoneMf]
  | m :: sp, acc, h => by
    rw [List.foldlM_cons, species_fold z m.2 acc (h m List.mem_cons_self), Res.bind_ok,
      zone_fold z sp _ fun x hx => h x (List.mem_cons_of_mem _ hx)]
    simp [zoneMf]

theorem specMf_eq [Inhabited γ] (sp : Specs γ) (N : Nat) (h : ∀ m ∈ sp, ∀ s ∈ m.2, N ≤ s.2.length) :
    specMf sp N = .ok ((List.range N).flatMap (zoneMf sp)) := by
  have : ∀ (zs : List Nat) (acc : List γ), (∀ z ∈ zs, z < N) → zs.foldlM (fun acc (z : Nat) =>
      sp.foldlM (fun acc m => m.2.foldlM (fun acc s => do .ok (acc ++ [← rd s.2 (z : Int)])) acc) acc) acc = Res.ok (acc ++ zs.flatMap (zoneMf sp)) := by
    intro zs
    induction zs with
    | nil => intro acc _; simp
    | cons z zs ih =>
      intro acc hz
      rw [List.foldlM_cons, zone_fold z sp acc (fun m hm s hs => by
        have := h m hm s hs
        have := hz z List.mem_cons_self
        omega), Res.bind_ok, ih _ fun x hx => hz x (List.mem_cons_of_mem _ hx)]
      simp
  unfold specMf
  rw [this _ _ fun z hz => List.mem_range.mp hz]
  simp

/-- the value of a species at its place -/
theorem mf_get [Inhabited γ] (sp : Specs γ) (N z i k : Nat) (n : Str) (ss : List (Str × List γ)) (hz : z < N) (hi : sp[i]? = some (n, ss)) (hk : k < ss.length) :
    ((List.range N).flatMap (zoneMf sp))[z * (sp.map (·.2.length)).sum + ((sp.map (·.2.length)).take i).sum + k]? =
      some ((ss[k]'hk).2.getD z default) := by
  have hlen : ∀ z, (zoneMf sp z).length = (sp.map (·.2.length)).sum := by
    intro z
    unfold zoneMf
    rw [flatMap_len]
    simp
  have hin := flatMap_get (fun m : Str × List (Str × List γ) => m.2.map fun s => s.2.getD z default) sp i (n, ss) k hi (by simpa using hk)
  have hpos : (((sp.take i).map fun y => (y.2.map fun s => s.2.getD z default).length).sum) = ((sp.map (·.2.length)).take i).sum := by
    simp [List.map_take]
  rw [hpos] at hin
  have hval : (ss.map fun s => s.2.getD z default)[k]? = some ((ss[k]'hk).2.getD z default) := by
    rw [List.getElem?_map, List.getElem?_eq_getElem hk]; rfl
  rw [hval] at hin
  have hin' : (zoneMf sp z)[((sp.map (·.2.length)).take i).sum + k]? = some ((ss[k]'hk).2.getD z default) := hin
  have hlt : ((sp.map (·.2.length)).take i).sum + k < (zoneMf sp z).length := (List.getElem?_eq_some_iff.mp hin').choose
  have := flatMap_get (zoneMf sp) (List.range N) z z _ (List.getElem?_range hz) hlt
  rw [take_range N z (by omega)] at this
  simp only [hlen] at this
  rw [sum_const] at this
  rw [Nat.add_assoc, this, hin']

/-- the name of a species at its place -/
theorem name_get (sp : Specs γ) (i k : Nat) (n : Str) (ss : List (Str × List γ)) (hi : sp[i]? = some (n, ss)) (hk : k < ss.length) :
    (sp.flatMap (·.2.map (·.1)))[((sp.map (·.2.length)).take i).sum + k]? = some (ss[k]'hk).1 := by
  have hin := flatMap_get (fun m : Str × List (Str × List γ) => m.2.map (·.1)) sp i (n, ss) k hi (by simpa using hk)
  have hpos : (((sp.take i).map fun y => (y.2.map (·.1)).length).sum) = ((sp.map (·.2.length)).take i).sum := by
    simp [List.map_take]
  rw [hpos] at hin
  rw [hin, List.getElem?_map, List.getElem?_eq_getElem hk]; rfl

/-! ### the zones -/

theorem mixLoop_chain (O : Silo α β) (idx : Int → Int) {p : Int} {l : List Nat} (hc : Chain O.mixNext p l) :
    ∀ (ids : List Int), (l.map fun d => O.mixMat[d]?) = ids.map some → ∀ (ms : List Int) (start : Int) (fuel : Nat), l.length < fuel →
    mixLoop O idx fuel (p - 1) (ms, start) = some (.ok (ms ++ ids.map idx, start - l.length)) := by
  induction hc with
  | nil =>
    intro ids hids ms start fuel hf
    match fuel, hf with
    | fuel + 1, _ =>
      have : ids = [] := by simpa using hids.symm
      subst this
      unfold mixLoop
      rw [if_neg (by omega)]
      simp
  | cons d q l hd hc ih =>
    intro ids hids ms start fuel hf
    match fuel, hf with
    | fuel + 1, hf =>
      match ids, hids with
      | [], h => simp at h
      | id :: ids, h =>
        simp only [List.map_cons, List.cons.injEq] at h
        unfold mixLoop
        rw [show (d : Int) + 1 - 1 = (d : Int) by omega, if_pos (by omega), O2M.rd_nat _ _ _ h.1, O2M.rd_nat _ _ _ hd]
        simp only
        rw [ih ids h.2 _ _ fuel (by simpa using hf)]
        simp only [List.map_cons, List.append_assoc, List.singleton_append, List.length_cons, Option.some.injEq, Res.ok.injEq, Prod.mk.injEq, true_and]
        omega

/-- what each zone adds to "mix_spec" -/
def segOf (ch : Nat → List Int) (idx : Nat → Int → Int) (z : Nat) (x : Int) : List Int := if 0 ≤ x then [] else (ch z).map (idx z)

theorem specZones_spec (O : Silo α β) (idx : Nat → Int → Int) (ch : Nat → List Int) (fuel : Nat) :
    ∀ (xs : List Int) (z : Nat) (sl ms : List Int),
    (∀ (i : Nat) (x : Int), xs[i]? = some x → x < 0 → ∃ l, Chain O.mixNext (-x) l ∧ (l.map fun d => O.mixMat[d]?) = (ch (z + i)).map some ∧ l.length < fuel) →
    ∃ sl' ms' : List Int, specZones O idx fuel xs z (sl, ms, -1 - (ms.length : Int)) = some (.ok (sl', ms', -1 - (ms'.length : Int))) ∧
      sl'.length = sl.length + xs.length ∧ sl <+: sl' ∧
      ms' = ms ++ ((xs.zipIdx z).flatMap fun y => segOf ch idx y.2 y.1) ∧
      ∀ (i : Nat) (x : Int), xs[i]? = some x → (0 ≤ x → sl'[sl.length + i]? = some (idx (z + i) x)) ∧
        (x < 0 → sl'[sl.length + i]? = some (-1 - ((ms.length + (((xs.take i).zipIdx z).flatMap fun y => segOf ch idx y.2 y.1).length : Nat) : Int)))
  | [], z, sl, ms, _ => ⟨sl, ms, rfl, rfl, List.prefix_rfl, by simp, by simp⟩
  | x :: xs, z, sl, ms, h => by
    have hrest : ∀ (i : Nat) (y : Int), xs[i]? = some y → y < 0 →
        ∃ l, Chain O.mixNext (-y) l ∧ (l.map fun d => O.mixMat[d]?) = (ch (z + 1 + i)).map some ∧ l.length < fuel := by
      intro i y hy h0
      rw [show z + 1 + i = z + (i + 1) by omega]
      exact h (i + 1) y (by simpa using hy) h0
    by_cases hx : 0 ≤ x
    · obtain ⟨sl', ms', h1, h2, h3, h4, h5⟩ := specZones_spec O idx ch fuel xs (z + 1) (sl ++ [idx z x]) ms hrest
      have hseg : segOf ch idx z x = [] := by unfold segOf; rw [if_pos hx]
      refine ⟨sl', ms', ?_, ?_, (List.prefix_append _ _).trans h3, ?_, ?_⟩
      · unfold specZones; rw [if_pos hx]; exact h1
      · rw [h2]; simp; omega
      · rw [h4]; simp [hseg]
      · intro i y hy
        cases i with
        | zero =>
          simp only [List.getElem?_cons_zero, Option.some.injEq] at hy
          subst hy
          refine ⟨fun _ => prefix_get h3 (by simp), fun h0 => by omega⟩
        | succ i =>
          have := h5 i y (by simpa using hy)
          rw [show (sl ++ [idx z x]).length + i = sl.length + (i + 1) by simp; omega, show z + 1 + i = z + (i + 1) by omega] at this
          simpa [hseg] using this
    · obtain ⟨l, hc, hids, hf⟩ := h 0 x rfl (by omega)
      have hloop := mixLoop_chain O (idx z) hc (ch z) (by simpa using hids) ms (-1 - (ms.length : Int)) fuel hf
      have hll : l.length = (ch z).length := by
        have := congrArg List.length hids
        simpa using this
      have hseg : segOf ch idx z x = (ch z).map (idx z) := by unfold segOf; rw [if_neg hx]
      obtain ⟨sl', ms', h1, h2, h3, h4, h5⟩ := specZones_spec O idx ch fuel xs (z + 1) (sl ++ [-1 - (ms.length : Int)]) (ms ++ (ch z).map (idx z)) hrest
      refine ⟨sl', ms', ?_, ?_, (List.prefix_append _ _).trans h3, ?_, ?_⟩
      · unfold specZones
        rw [if_neg hx, show (-1 : Int) * (x + 1) = -x - 1 by omega, hloop]
        simp only
        rw [← h1]
        congr 3
        simp [hll]; omega
      · rw [h2]; simp; omega
      · rw [h4]; simp [hseg]
      · intro i y hy
        cases i with
        | zero =>
          simp only [List.getElem?_cons_zero, Option.some.injEq] at hy
          subst hy
          refine ⟨fun h0 => by omega, fun _ => prefix_get h3 (by simp)⟩
        | succ i =>
          have := h5 i y (by simpa using hy)
          rw [show (sl ++ [-1 - (ms.length : Int)]).length + i = sl.length + (i + 1) by simp; omega, show z + 1 + i = z + (i + 1) by omega] at this
          simp only [List.length_append, List.length_map] at this
          simp only [List.take_succ_cons, List.zipIdx_cons, List.flatMap_cons, List.length_append, hseg, List.length_map, ← Nat.add_assoc]
          exact this

end Conduit.Matset
