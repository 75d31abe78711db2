import Verif.Lemmas.Matset
/-
Lemmas on the single matset conversions.
-/
namespace Conduit.Matset
open Conduit.O2M (rd wr ones size target entries)
variable {α β γ σ : Type}

/-! ### sparse by element to sparse by material -/

/-- appending values to the entries of an ordered map -/
def pushAll (L : List (Str × β)) (m : List (Str × List β)) : List (Str × List β) :=
  L.foldl (fun m x => omod x.1 [] (· ++ [x.2]) m) m

theorem pushAll_sorted (L : List (Str × β)) {m : List (Str × List β)} (h : Sorted m) : Sorted (pushAll L m) := by
  induction L generalizing m with
  | nil => exact h
  | cons x L ih => exact ih (omod_sorted _ _ _ h)

theorem oget_pushAll (L : List (Str × β)) {m : List (Str × List β)} (h : Sorted m) (k : Str) :
    oget (pushAll L m) k = if k ∈ L.map (·.1) ∨ (oget m k).isSome then
      some ((oget m k).getD [] ++ (L.filter fun x => x.1 = k).map (·.2)) else none := by
  induction L generalizing m with
  | nil =>
    cases hm : oget m k <;> simp [pushAll, hm]
  | cons x L ih =>
    have := ih (m := omod x.1 [] (· ++ [x.2]) m) (omod_sorted _ _ _ h)
    show oget (pushAll L _) k = _
    rw [this, oget_omod _ _ _ h]
    by_cases e : k = x.1
    · subst e; simp
    · have e' : ¬ x.1 = k := Ne.symm e
      have hmem : k ∈ (x :: L).map (·.1) ↔ k ∈ L.map (·.1) := by
        rw [List.map_cons, List.mem_cons]; simp only [e, false_or]
      rw [List.filter_cons_of_neg (by simpa using e')]
      simp only [hmem, if_neg e]

theorem sbeToSbm_eq {S : Sbe α} {N : Nat} (h : SbeWF S N) [Inhabited α] :
    sbeToSbm S = .ok (pushAll ((items S).map fun x => (x.2.1, S.vals.getD x.2.2 default)) [],
                      pushAll ((items S).map fun x => (x.2.1, (x.1 : Int))) []) := by
  unfold sbeToSbm
  rw [indexSize_all h, Res.bind_ok]
  simp only [Int.toNat_natCast]
  rw [item_loop h S.vals (Nat.le_refl _) default
    (fun (m : List (Str × List α) × List (Str × List Int)) e nm v =>
      Res.ok (omod nm [] (· ++ [v]) m.1, omod nm [] (· ++ [(e : Int)]) m.2))]
  rw [foldlM_ok]
  congr 1
  unfold pushAll
  rw [List.foldl_map, List.foldl_map]
  generalize (items S) = L
  have : ∀ (L : List (Nat × Str × Nat)) (a : List (Str × List α)) (b : List (Str × List Int)),
      L.foldl (fun (m : List (Str × List α) × List (Str × List Int)) x =>
        (omod x.2.1 [] (· ++ [S.vals.getD x.2.2 default]) m.1, omod x.2.1 [] (· ++ [(x.1 : Int)]) m.2)) (a, b) =
      (L.foldl (fun m x => omod x.2.1 [] (· ++ [S.vals.getD x.2.2 default]) m) a,
       L.foldl (fun m x => omod x.2.1 [] (· ++ [(x.1 : Int)]) m) b) := by
    intro L
    induction L with
    | nil => intros; rfl
    | cons x L ih => intro a b; exact ih _ _
  exact this L [] []

theorem sbeToSbmField_eq {S : Sbe α} {N : Nat} (h : SbeWF S N) (fv : List β) (hf : S.vals.length ≤ fv.length) [Inhabited β] :
    sbeToSbmField S fv = .ok (pushAll ((items S).map fun x => (x.2.1, fv.getD x.2.2 default)) []) := by
  unfold sbeToSbmField
  rw [indexSize_all h, Res.bind_ok]
  simp only [Int.toNat_natCast]
  rw [item_loop h fv hf default (fun m _ nm v => Res.ok (omod nm [] (· ++ [v]) m))]
  rw [foldlM_ok]
  unfold pushAll
  rw [List.foldl_map]

/-- what is stored at a name after pushing one value per item -/
theorem mem_pushAll {ι : Type} (L : List ι) (nm : ι → Str) (f : ι → β) (n : Str) (vs : List β) :
    (n, vs) ∈ pushAll (L.map fun x => (nm x, f x)) [] ↔
      (∃ x ∈ L, nm x = n) ∧ vs = (L.filter fun x => nm x = n).map f := by
  have hs : Sorted ([] : List (Str × List β)) := List.Pairwise.nil
  rw [mem_iff_oget (pushAll_sorted _ hs), oget_pushAll _ hs]
  simp only [oget_nil, List.map_map, Option.isSome_none, Bool.false_eq_true, or_false, Option.getD_none, List.nil_append,
    List.filter_map, List.mem_map, Function.comp_apply, Function.comp_def]
  by_cases e : ∃ x ∈ L, nm x = n
  · rw [if_pos e]
    constructor
    · intro h; exact ⟨e, by simpa using h.symm⟩
    · rintro ⟨_, h⟩; simp [h]
  · rw [if_neg e]
    simp [e]

/-! ### arrays written at given places -/

/-- `row[e] = v` for each pair in turn -/
def setAll (P : List (Nat × β)) (row : List β) : List β := P.foldl (fun r x => r.set x.1 x.2) row

theorem setAll_length (P : List (Nat × β)) (row : List β) : (setAll P row).length = row.length := by
  induction P generalizing row with
  | nil => rfl
  | cons x P ih => exact (ih _).trans (by simp)

theorem setAll_out (P : List (Nat × β)) (row : List β) (e : Nat) (h : ∀ x ∈ P, x.1 ≠ e) : (setAll P row)[e]? = row[e]? := by
  induction P generalizing row with
  | nil => rfl
  | cons x P ih =>
    show (setAll P _)[e]? = _
    rw [ih _ fun y hy => h y (by simp [hy]), List.getElem?_set_ne (h x (by simp))]

theorem setAll_in (P : List (Nat × β)) (row : List β) (e : Nat) (v : β) (he : e < row.length) (h : (e, v) ∈ P)
    (hu : ∀ v', (e, v') ∈ P → v' = v) : (setAll P row)[e]? = some v := by
  induction P generalizing row with
  | nil => simp at h
  | cons x P ih =>
    show (setAll P (row.set x.1 x.2))[e]? = _
    by_cases hm : ∃ v', (e, v') ∈ P
    · obtain ⟨v', hv'⟩ := hm
      have := hu v' (by simp [hv'])
      subst this
      exact ih _ (by simpa using he) hv' fun w hw => hu w (by simp [hw])
    · rw [setAll_out]
      · rcases List.mem_cons.mp h with h | h
        · subst h
          simp [he]
        · exact absurd ⟨v, h⟩ hm
      · rintro ⟨a, b⟩ hy rfl
        exact hm ⟨b, hy⟩

/-! ### sparse by element to full -/

/-- the rows before the walk -/
def initRows (names : List Str) (row : List β) : List (Str × List β) :=
  names.foldl (fun m nm => omod nm [] (fun _ => row) m) []

theorem initRows_aux (names : List Str) (row : List β) (m : List (Str × List β)) (h : Sorted m) :
    Sorted (names.foldl (fun m nm => omod nm [] (fun _ => row) m) m) ∧
    ∀ k, oget (names.foldl (fun m nm => omod nm [] (fun _ => row) m) m) k = if k ∈ names then some row else oget m k := by
  induction names generalizing m with
  | nil => exact ⟨h, by simp⟩
  | cons x names ih =>
    obtain ⟨h1, h2⟩ := ih (omod x [] (fun _ => row) m) (omod_sorted _ _ _ h)
    refine ⟨h1, ?_⟩
    intro k
    show oget (names.foldl _ _) k = _
    rw [h2, oget_omod _ _ _ h]
    by_cases e : k = x
    · simp [e]
    · simp [e]

/-- one step of the walk: `new_vals[nm][e] = v` -/
def put (m : List (Str × List β)) (e : Nat) (nm : Str) (v : β) : Res (List (Str × List β)) := do
  let row ← wr ((oget m nm).getD []) (e : Int) v
  .ok (omod nm [] (fun _ => row) m)

theorem put_all (L : List (Nat × Str × β)) (N : Nat) (m : List (Str × List β)) (h : Sorted m)
    (hL : ∀ x ∈ L, x.1 < N ∧ ∃ row, oget m x.2.1 = some row) (hr : ∀ k row, oget m k = some row → row.length = N) :
    ∃ m', L.foldlM (fun m x => put m x.1 x.2.1 x.2.2) m = .ok m' ∧ Sorted m' ∧
      ∀ k, oget m' k = (oget m k).map (setAll ((L.filter fun x => x.2.1 = k).map fun x => (x.1, x.2.2))) := by
  induction L generalizing m with
  | nil => exact ⟨m, rfl, h, fun k => by cases oget m k <;> simp [setAll]⟩
  | cons x L ih =>
    obtain ⟨hx, row, hrow⟩ := hL x (by simp)
    have hlen := hr _ _ hrow
    have hput : put m x.1 x.2.1 x.2.2 = .ok (omod x.2.1 [] (fun _ => row.set x.1 x.2.2) m) := by
      unfold put wr
      rw [hrow, Option.getD_some, if_neg (by omega)]
      simp
    have hg : ∀ k, oget (omod x.2.1 [] (fun _ => row.set x.1 x.2.2) m) k =
        if k = x.2.1 then some (row.set x.1 x.2.2) else oget m k := fun k => oget_omod _ _ _ h k
    obtain ⟨m', h1, h2, h3⟩ := ih (omod x.2.1 [] (fun _ => row.set x.1 x.2.2) m) (omod_sorted _ _ _ h)
      (by
        intro y hy
        obtain ⟨a, r, b⟩ := hL y (by simp [hy])
        refine ⟨a, ?_⟩
        rw [hg]
        split
        · exact ⟨_, rfl⟩
        · exact ⟨r, b⟩)
      (by
        intro k r hk
        rw [hg] at hk
        split at hk
        · simp only [Option.some.injEq] at hk; subst hk; simpa using hlen
        · exact hr k r hk)
    refine ⟨m', ?_, h2, ?_⟩
    · rw [List.foldlM_cons, hput, Res.bind_ok]; exact h1
    · intro k
      rw [h3, hg]
      by_cases e : k = x.2.1
      · subst e
        simp [hrow, setAll]
      · simp [e, Ne.symm e]

theorem mem_revNames {mm : List (Str × Int)} (hn : (mm.map (·.2)).Nodup) (n : Str) : n ∈ revNames mm ↔ n ∈ mm.map (·.1) := by
  unfold revNames
  rw [List.mem_map, List.mem_map]
  constructor
  · rintro ⟨e, he, rfl⟩
    exact ⟨e, (List.mem_filter.mp he).1, rfl⟩
  · rintro ⟨⟨a, b⟩, he, rfl⟩
    exact ⟨(a, b), List.mem_filter.mpr ⟨he, by simpa using revGet_eq hn he⟩, rfl⟩

theorem walk_spec {S : Sbe α} {N : Nat} (h : SbeWF S N) (vals : List β) (hv : S.vals.length ≤ vals.length) (zero : β) :
    ∃ m, walk S vals zero = .ok m ∧ Sorted m ∧
      ∀ k row, (k, row) ∈ m ↔ k ∈ S.matmap.map (·.1) ∧
        row = setAll (((items S).filter fun x => x.2.1 = k).map fun x => (x.1, vals.getD x.2.2 zero)) (List.replicate N zero) := by
  obtain ⟨hs, hg⟩ := initRows_aux (revNames S.matmap) (List.replicate N zero) [] List.Pairwise.nil
  have hitem : ∀ x ∈ items S, x.1 < N ∧ x.2.1 ∈ S.matmap.map (·.1) := by
    rintro ⟨e, n, d⟩ hx
    obtain ⟨id, hsl, _, hm⟩ := (mem_items h e n d).mp hx
    exact ⟨by rw [← h.zones]; exact hsl.1, List.mem_map.mpr ⟨_, hm, rfl⟩⟩
  obtain ⟨m, h1, h2, h3⟩ := put_all ((items S).map fun x => (x.1, x.2.1, vals.getD x.2.2 zero)) N _ hs
    (by
      intro y hy
      obtain ⟨x, hx, rfl⟩ := List.mem_map.mp hy
      obtain ⟨a, b⟩ := hitem x hx
      refine ⟨a, List.replicate N zero, ?_⟩
      rw [hg]
      rw [if_pos ((mem_revNames h.nums _).mpr b)])
    (by
      intro k row hk
      rw [hg] at hk
      split at hk
      · simp only [Option.some.injEq] at hk; subst hk; simp
      · simp [oget_nil] at hk)
  refine ⟨m, ?_, h2, ?_⟩
  · unfold walk
    rw [indexSize_all h, Res.bind_ok]
    simp only [Int.toNat_natCast]
    have := item_loop h vals hv zero (fun m e nm v => put m e nm v)
      (List.foldl (fun m nm => omod nm [] (fun _ => List.replicate N zero) m) [] (revNames S.matmap))
    unfold put at this
    rw [this, ← h1, foldlM_map']
    rfl
  · intro k row
    rw [mem_iff_oget h2, h3, hg, List.filter_map, List.map_map]
    simp only [oget_nil, mem_revNames h.nums]
    by_cases e : k ∈ S.matmap.map (·.1)
    · rw [if_pos e]
      constructor
      · intro hh; exact ⟨e, by simpa [Function.comp_def] using hh.symm⟩
      · rintro ⟨_, hh⟩; simp [hh, Function.comp_def]
    · rw [if_neg e]
      constructor
      · intro hh; simp at hh
      · rintro ⟨hh, _⟩; exact absurd hh e

end Conduit.Matset
