import Verif.Lemmas.TopoMeta
/-
Lemmas on associations: from children back to parents.
-/
namespace Conduit.Mesh.Meta
variable {F : Type}

/-- Numbers as signed ones. -/
abbrev ints (l : List Nat) : List Int := l.map fun p : Nat => (p : Int)

theorem mapM_ok_map {α β : Type} (f : α → Res β) (g : α → β) (l : List α) (h : ∀ x ∈ l, f x = .ok (g x)) : l.mapM f = .ok (l.map g) := by
  induction l with
  | nil => rfl
  | cons a l ih =>
    rw [List.mapM_cons, h a (by simp), Res.bind_ok, ih (fun x hx => h x (by simp [hx])), Res.bind_ok]; rfl

/-! ### counting children -/

theorem countStep (m v : Nat) (c : List Int) (hv : v < m) (hc : c.length = m) (n : Int) (hn : c[v]? = some n) :
    (do
      let n ← pick c (v : Int)
      put c (v : Int) (n + 1)) = Res.ok (c.set v (n + 1)) := by
  rw [pick_nat c v n hn, Res.bind_ok]
  unfold put
  rw [if_pos ⟨by omega, by omega⟩]; rfl

theorem count_fold (m : Nat) (l : List Nat) : ∀ done : List Nat, (∀ v ∈ l, v < m) →
    (ints l).foldlM (fun sizes v => do
      let n ← pick sizes v
      put sizes v (n + 1)) ((List.range m).map fun j => (done.count j : Int)) =
    Res.ok ((List.range m).map fun j => ((done ++ l).count j : Int)) := by
  induction l with
  | nil => intro done _; simp
  | cons v l ih =>
    intro done hv
    have hvm : v < m := hv v (by simp)
    have hstep := countStep m v ((List.range m).map fun j => (done.count j : Int)) hvm (by simp) (done.count v : Int) (by
      rw [List.getElem?_map, List.getElem?_range hvm]; rfl)
    rw [ints, List.map_cons, List.foldlM_cons, hstep, Res.bind_ok]
    have hset : ((List.range m).map fun j => (done.count j : Int)).set v ((done.count v : Int) + 1) =
        (List.range m).map fun j => ((done ++ [v]).count j : Int) := by
      apply List.ext_getElem?
      intro j
      by_cases hj : j < m
      · by_cases e : j = v
        · subst e
          rw [List.getElem?_set_self (by simpa using hj), List.getElem?_map, List.getElem?_range hj]
          simp
        · rw [List.getElem?_set_ne (by omega), List.getElem?_map, List.getElem?_map, List.getElem?_range hj]
          have : ¬ v = j := fun h => e h.symm
          simp [List.count_cons, this]
      · rw [List.getElem?_eq_none (by simp; omega), List.getElem?_eq_none (by simp; omega)]
    rw [hset]
    have := ih (done ++ [v]) (fun x hx => hv x (by simp [hx]))
    rw [List.append_assoc] at this
    exact this

/-! ### sorted by key -/

theorem split_last {α : Type} (key : α → Nat) (m : Nat) (l : List α) (hs : l.Pairwise fun a b => key a ≤ key b)
    (hk : ∀ a ∈ l, key a < m + 1) : l = l.filter (fun a => decide (key a < m)) ++ l.filter (fun a => decide (key a = m)) := by
  induction l with
  | nil => rfl
  | cons a l ih =>
    rw [List.pairwise_cons] at hs
    have ihh := ih hs.2 (fun b hb => hk b (by simp [hb]))
    have ha := hk a (by simp)
    by_cases h : key a < m
    · rw [List.filter_cons_of_pos (by simpa using h), List.filter_cons_of_neg (by simp; omega), List.cons_append, ← ihh]
    · have e : key a = m := by omega
      have hall : ∀ b ∈ l, key b = m := by
        intro b hb
        have := hs.1 b hb
        have := hk b (by simp [hb])
        omega
      rw [List.filter_cons_of_neg (by simpa using h), List.filter_cons_of_pos (by simpa using e)]
      have h1 : l.filter (fun a => decide (key a < m)) = [] := by
        rw [List.filter_eq_nil_iff]; intro b hb; have := hall b hb; simp; omega
      have h2 : l.filter (fun a => decide (key a = m)) = l := by
        rw [List.filter_eq_self]; intro b hb; simpa using hall b hb
      rw [h1, h2]; rfl

theorem group_sorted {α : Type} (key : α → Nat) (m : Nat) : ∀ (l : List α), (l.Pairwise fun a b => key a ≤ key b) →
    (∀ a ∈ l, key a < m) → l = (List.range m).flatMap fun j => l.filter fun a => decide (key a = j) := by
  induction m with
  | zero =>
    intro l _ hk
    cases l with
    | nil => rfl
    | cons a l => exact absurd (hk a (by simp)) (by omega)
  | succ m ih =>
    intro l hs hk
    have h1 := split_last key m l hs hk
    have h2 := ih (l.filter fun a => decide (key a < m)) (hs.sublist List.filter_sublist) (by
      intro a ha; simpa using (List.mem_filter.1 ha).2)
    rw [List.range_succ, List.flatMap_append, List.flatMap_singleton]
    have h3 : ((List.range m).flatMap fun j => l.filter fun a => decide (key a = j)) = l.filter fun a => decide (key a < m) := by
      conv_rhs => rw [h2]
      apply List.flatMap_congr
      intro j hj
      rw [List.filter_filter]
      apply List.filter_congr
      intro a _
      have : j < m := by simpa using hj
      by_cases e : key a = j
      · simp [e, this]
      · simp [e]
    rw [h3]; exact h1

/-! ### sorting the bins -/

theorem sortBy_short (l : List Int) (h : l.length ≤ 1) : sortBy intLt l = l := by
  match l, h with
  | [], _ => rfl
  | [a], _ => rfl

theorem sort_bins (segs : List (List Int)) : ∀ (done : List Int),
    ((segs.map fun s => (s.length : Int)).zip (runningSums (done.length : Int) (segs.map fun s => (s.length : Int)))).foldl
      (fun d p => if p.1 > 1 then sortRange d p.2.toNat p.1.toNat else d) (done ++ segs.flatten) =
    done ++ (segs.map (sortBy intLt)).flatten := by
  induction segs with
  | nil => intro done; simp
  | cons s segs ih =>
    intro done
    have hlen : (sortBy intLt s).length = s.length := (sortBy_perm intLt s).length_eq
    have hstep : (if (s.length : Int) > 1 then
        sortRange (done ++ (s :: segs).flatten) (done.length : Int).toNat (s.length : Int).toNat
        else done ++ (s :: segs).flatten) = done ++ sortBy intLt s ++ segs.flatten := by
      split
      · simp only [Int.toNat_natCast, sortRange, List.flatten_cons]
        have h1 : (done ++ (s ++ segs.flatten)).take done.length = done := by simp
        have h2 : (done ++ (s ++ segs.flatten)).drop done.length = s ++ segs.flatten := by simp
        have h3 : (done ++ (s ++ segs.flatten)).drop (done.length + s.length) = segs.flatten := by
          rw [← List.append_assoc, List.drop_append_of_le_length (by simp)]; simp
        rw [h1, h2, h3]; simp
      · rw [sortBy_short s (by omega)]; simp
    simp only [List.map_cons, runningSums, List.zip_cons_cons, List.foldl_cons]
    rw [hstep]
    have := ih (done ++ sortBy intLt s)
    simp only [List.length_append, hlen, Nat.cast_add] at this
    rw [this]
    simp

/-! ### parents of children -/

/-- Pairs of parent and child. -/
def pairsOf (down : List (List Nat)) : List (Nat × Nat) := down.zipIdx.flatMap fun p => p.1.map fun j => (p.2, j)

/-- The parents of a child. -/
def upOf (down : List (List Nat)) (j : Nat) : List Nat := down.zipIdx.flatMap fun p => List.replicate (p.1.count j) p.2

def ups (down : List (List Nat)) (m : Nat) : List (List Nat) := (List.range m).map (upOf down)

theorem filter_eq_replicate (js : List Nat) (c j : Nat) :
    ((js.map fun j => (c, j)).filter fun p => decide (p.2 = j)).map (·.1) = List.replicate (js.count j) c := by
  induction js with
  | nil => rfl
  | cons a js ih =>
    rw [List.map_cons]
    by_cases e : a = j
    · subst e
      rw [List.filter_cons_of_pos (by simp), List.map_cons, ih, List.count_cons_self, List.replicate_succ]
    · rw [List.filter_cons_of_neg (by simpa using e), ih, List.count_cons_of_ne e]

theorem pairs_filter (down : List (List Nat)) (j : Nat) :
    ((pairsOf down).filter fun p => decide (p.2 = j)).map (·.1) = upOf down j := by
  unfold pairsOf upOf
  rw [List.filter_flatMap, List.map_flatMap]
  apply List.flatMap_congr
  intro p _
  exact filter_eq_replicate p.1 p.2 j

theorem pairs_snd (down : List (List Nat)) : (pairsOf down).map (·.2) = down.flatten := by
  unfold pairsOf
  rw [List.map_flatMap]
  have : (fun p : List Nat × Nat => (p.1.map fun j => (p.2, j)).map (·.2)) = Prod.fst := by
    funext p; simp [List.map_map, Function.comp_def]
  rw [this, List.flatMap_def, List.zipIdx_map_fst]

theorem zipIdx_lt (down : List (List Nat)) (k : Nat) :
    (down.zipIdx k).Pairwise (fun p q => p.2 < q.2) := by
  induction down generalizing k with
  | nil => simp
  | cons a down ih =>
    rw [List.zipIdx_cons, List.pairwise_cons]
    refine ⟨fun q hq => ?_, ih (k + 1)⟩
    have := List.le_snd_of_mem_zipIdx hq
    simp only; omega

theorem upOf_sorted (down : List (List Nat)) (j : Nat) : (upOf down j).Pairwise (· ≤ ·) := by
  unfold upOf
  rw [List.flatMap_def, List.pairwise_flatten]
  refine ⟨?_, ?_⟩
  · intro l hl
    obtain ⟨p, _, rfl⟩ := List.mem_map.1 hl
    rw [List.pairwise_replicate]; right; exact Nat.le_refl _
  · rw [List.pairwise_map]
    refine (zipIdx_lt down 0).imp ?_
    intro p q h x hx y hy
    rw [List.mem_replicate] at hx hy
    omega

theorem upOf_length (down : List (List Nat)) (j : Nat) : (upOf down j).length = down.flatten.count j := by
  rw [← pairs_filter, List.length_map, ← pairs_snd, List.count_eq_countP, List.countP_map, List.countP_eq_length_filter]
  congr 1

theorem upOf_count_aux (down : List (List Nat)) (j c : Nat) : ∀ k, k ≤ c →
    ((down.zipIdx k).flatMap fun p => List.replicate (p.1.count j) p.2).count c = (down[c - k]?.getD []).count j := by
  induction down with
  | nil => intro k _; simp
  | cons a down ih =>
    intro k hk
    rw [List.zipIdx_cons, List.flatMap_cons, List.count_append]
    by_cases e : k = c
    · subst e
      simp only [List.count_replicate_self, Nat.sub_self, List.getElem?_cons_zero, Option.getD_some]
      have : ((down.zipIdx (k + 1)).flatMap fun p => List.replicate (p.1.count j) p.2).count k = 0 := by
        rw [List.count_eq_zero]
        intro hm
        obtain ⟨p, hp, hx⟩ := List.mem_flatMap.1 hm
        have := List.le_snd_of_mem_zipIdx hp
        rw [List.mem_replicate] at hx
        omega
      omega
    · rw [ih (k + 1) (by omega)]
      have h0 : (List.replicate (a.count j) k).count c = 0 := by
        rw [List.count_eq_zero]; intro hm; rw [List.mem_replicate] at hm; omega
      have h1 : c - k = (c - (k + 1)) + 1 := by omega
      rw [h0, h1, List.getElem?_cons_succ]; simp

theorem upOf_count (down : List (List Nat)) (j c : Nat) : (upOf down j).count c = (down[c]?.getD []).count j := by
  have := upOf_count_aux down j c 0 (Nat.zero_le _)
  simpa [upOf] using this

theorem ints_sorted (l : List Nat) (h : l.Pairwise (· ≤ ·)) : sortBy intLt (ints l) = ints l := by
  refine List.Perm.eq_of_pairwise (le := fun x y => intLt y x = false) ?_ (sortBy_sorted strictTot_int _) ?_ (sortBy_perm _ _)
  · intro a b _ _ h1 h2; simp only [intLt, decide_eq_false_iff_not] at h1 h2; omega
  · rw [ints, List.pairwise_map]
    exact h.imp (by intro a b h; simp only [intLt, decide_eq_false_iff_not]; omega)

theorem childToParent_ok (down : List (List Nat)) (m : Nat) (hm : ∀ j ∈ down.flatten, j < m) (pc : Assoc)
    (hd : pc.data = ints down.flatten)
    (hp : parentPairs pc = .ok ((pairsOf down).map fun p => ((p.1 : Int), (p.2 : Int)))) :
    childToParent m pc = .ok ⟨ints (ups down m).flatten, ints ((ups down m).map (·.length)), ints (starts (ups down m)), 1⟩ := by
  unfold childToParent
  rw [hd]
  have h0 : List.replicate m (0 : Int) = (List.range m).map fun j => (([] : List Nat).count j : Int) := by
    simp [List.map_const']
  rw [h0, count_fold m down.flatten [] hm, Res.bind_ok, hp, Res.bind_ok]
  have hsizes : ((List.range m).map fun j => (([] ++ down.flatten).count j : Int)) = ints ((ups down m).map (·.length)) := by
    simp only [ups, ints, List.map_map, List.nil_append]
    apply List.map_congr_left
    intro j _
    simp only [Function.comp_apply, upOf_length]
  rw [hsizes]
  -- the pairs by child
  have hL := sortBy_perm sndLt ((pairsOf down).map fun p => ((p.1 : Int), (p.2 : Int)))
  have hkeys : ∀ a ∈ sortBy sndLt ((pairsOf down).map fun p => ((p.1 : Int), (p.2 : Int))), ∃ j : Nat, j < m ∧ a.2 = (j : Int) := by
    intro a ha
    obtain ⟨p, hp, rfl⟩ := List.mem_map.1 (hL.mem_iff.1 ha)
    exact ⟨p.2, hm _ (by rw [← pairs_snd]; exact List.mem_map_of_mem hp), rfl⟩
  have hsort : (sortBy sndLt ((pairsOf down).map fun p => ((p.1 : Int), (p.2 : Int)))).Pairwise fun a b => a.2.toNat ≤ b.2.toNat := by
    have h1 : (sortBy sndLt ((pairsOf down).map fun p => ((p.1 : Int), (p.2 : Int)))).map (·.2) =
        sortBy intLt (((pairsOf down).map fun p => ((p.1 : Int), (p.2 : Int))).map (·.2)) :=
      (sortBy_map intLt (fun p : Int × Int => p.2) _).symm
    have h2 := sortBy_sorted strictTot_int (((pairsOf down).map fun p => ((p.1 : Int), (p.2 : Int))).map (·.2))
    rw [← h1, List.pairwise_map] at h2
    refine h2.imp ?_
    intro a b h
    simp only [intLt, decide_eq_false_iff_not] at h
    omega
  have hgroup := group_sorted (fun a : Int × Int => a.2.toNat) m _ hsort (by
    intro a ha
    obtain ⟨j, hj, e⟩ := hkeys a ha
    simp only [e]; omega)
  generalize hLL : sortBy sndLt ((pairsOf down).map fun p => ((p.1 : Int), (p.2 : Int))) = L at hL hkeys hsort hgroup ⊢
  have hperm : ∀ j, ((L.filter fun a => decide (a.2.toNat = j)).map (·.1)).Perm (ints (upOf down j)) := by
    intro j
    have h1 := (hL.filter fun a => decide (a.2.toNat = j)).map (·.1)
    refine h1.trans (List.Perm.of_eq ?_)
    rw [List.filter_map, List.map_map, ← pairs_filter, ints, List.map_map]
    rfl
  have hdata : L.map (·.1) = ((List.range m).map fun j => (L.filter fun a => decide (a.2.toNat = j)).map (·.1)).flatten := by
    conv_lhs => rw [hgroup]
    rw [List.map_flatMap, List.flatMap_def]
  have hlens : ((List.range m).map fun j => (L.filter fun a => decide (a.2.toNat = j)).map (·.1)).map (fun s => (s.length : Int)) =
      ints ((ups down m).map (·.length)) := by
    simp only [ups, ints, List.map_map]
    apply List.map_congr_left
    intro j _
    have := (hperm j).length_eq
    simp only [Function.comp_apply]
    rw [this]; simp
  have hbins := sort_bins ((List.range m).map fun j => (L.filter fun a => decide (a.2.toNat = j)).map (·.1)) []
  rw [hlens, ← hdata] at hbins
  simp only [List.nil_append, List.length_nil, Nat.cast_zero] at hbins
  have hsorted : (((List.range m).map fun j => (L.filter fun a => decide (a.2.toNat = j)).map (·.1)).map (sortBy intLt)).flatten =
      ints (ups down m).flatten := by
    rw [ints, List.map_flatten, ups, List.map_map, List.map_map]
    congr 1
    apply List.map_congr_left
    intro j _
    simp only [Function.comp_apply]
    rw [sortBy_congr strictTot_int _ _ (hperm j), ints_sorted _ (upOf_sorted down j)]
  rw [hsorted] at hbins
  simp only
  rw [hbins]
  simp only [ints]
  rw [runningSums_starts]

theorem ups_mapsUp (down : List (List Nat)) (m : Nat) : MapsUp down m (ups down m) where
  length := by simp [ups]
  sorted l hl := by
    obtain ⟨j, _, rfl⟩ := List.mem_map.1 hl
    exact upOf_sorted down j
  at_ j l hl c := by
    unfold ups at hl
    rw [List.getElem?_map] at hl
    by_cases hj : j < m
    · rw [List.getElem?_range hj] at hl
      simp only [Option.map_some, Option.some.injEq] at hl
      subst hl
      exact upOf_count down j c
    · rw [List.getElem?_eq_none (by simp; omega)] at hl
      cases hl

end Conduit.Mesh.Meta
