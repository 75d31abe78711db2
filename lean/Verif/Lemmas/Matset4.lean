import Verif.Lemmas.Matset3
/-
Lemmas on the conversions from and to sparse by material matsets.
-/
namespace Conduit.Matset
open Conduit.O2M (rd wr ones size target entries)
variable {α β γ σ : Type}

/-! ### the number of elements -/

/-- the values of a list, each once -/
def once : List Int → List Int
  | [] => []
  | a :: l => if a ∈ l then once l else a :: once l

theorem mem_once (l : List Int) (x : Int) : x ∈ once l ↔ x ∈ l := by
  induction l with
  | nil => rfl
  | cons a l ih =>
    unfold once
    split
    · rename_i h
      rw [ih, List.mem_cons]
      constructor
      · exact .inr
      · rintro (rfl | h')
        · exact h
        · exact h'
    · rw [List.mem_cons, List.mem_cons, ih]

theorem once_nodup (l : List Int) : (once l).Nodup := by
  induction l with
  | nil => exact List.nodup_nil
  | cons a l ih =>
    unfold once
    split
    · exact ih
    · rename_i h
      exact List.nodup_cons.mpr ⟨by rwa [mem_once], ih⟩

theorem distinct_once (l : List Int) : distinct l = (once l).length := by
  induction l with
  | nil => rfl
  | cons a l ih =>
    unfold distinct once
    split
    · exact ih
    · simp [ih]

theorem numElems_dense {eids : List (Str × List Int)} {N : Nat} (h : Dense eids N) : numElems eids = N := by
  unfold numElems
  rw [distinct_once]
  have hp : (once (eids.flatMap (·.2))).Perm ((List.range N).map fun (i : Nat) => (i : Int)) := by
    rw [List.perm_ext_iff_of_nodup (once_nodup _)]
    · intro x
      rw [mem_once, List.mem_flatMap, List.mem_map]
      have := h x
      constructor
      · rintro ⟨⟨n, es⟩, he, hx⟩
        obtain ⟨h1, h2⟩ := this.mp ⟨n, es, he, hx⟩
        exact ⟨x.toNat, by rw [List.mem_range]; omega, by omega⟩
      · rintro ⟨i, hi, rfl⟩
        rw [List.mem_range] at hi
        obtain ⟨n, es, he, hx⟩ := this.mpr (by omega)
        exact ⟨(n, es), he, hx⟩
    · unfold List.Nodup
      rw [List.pairwise_map]
      refine List.Pairwise.imp ?_ (List.nodup_range (n := N))
      intro a b hab e
      exact hab (by omega)
  rw [hp.length_eq]; simp

/-! ### create_sbm_rep -/

theorem setFst_aux (l : List (Str × List Int)) (hl : (l.map (·.1)).Nodup) (m : List (Str × List Int × List β)) (h : Sorted m) :
    Sorted (l.foldl (fun m e => omod e.1 ([], []) (fun p => (e.2, p.2)) m) m) ∧
    ∀ k, oget (l.foldl (fun m e => omod e.1 ([], []) (fun p => (e.2, p.2)) m) m) k =
      match oget l k with
      | some x => some (x, ((oget m k).getD ([], [])).2)
      | none => oget m k := by
  induction l generalizing m with
  | nil => exact ⟨h, fun k => rfl⟩
  | cons x l ih =>
    simp only [List.map_cons, List.nodup_cons] at hl
    obtain ⟨h1, h2⟩ := ih hl.2 (omod x.1 ([], []) (fun p => (x.2, p.2)) m) (omod_sorted _ _ _ h)
    refine ⟨h1, ?_⟩
    intro k
    show oget (l.foldl _ _) k = _
    rw [h2, oget_omod _ _ _ h, oget_cons]
    by_cases e : k = x.1
    · subst e
      have : oget l x.1 = none := oget_none fun y hy hk => hl.1 (List.mem_map.mpr ⟨y, hy, hk⟩)
      simp [this]
    · simp [e, Ne.symm e]

theorem setSnd_aux (l : List (Str × List β)) (hl : (l.map (·.1)).Nodup) (m : List (Str × List Int × List β)) (h : Sorted m) :
    Sorted (l.foldl (fun m e => omod e.1 ([], []) (fun p => (p.1, e.2)) m) m) ∧
    ∀ k, oget (l.foldl (fun m e => omod e.1 ([], []) (fun p => (p.1, e.2)) m) m) k =
      match oget l k with
      | some x => some (((oget m k).getD ([], [])).1, x)
      | none => oget m k := by
  induction l generalizing m with
  | nil => exact ⟨h, fun k => rfl⟩
  | cons x l ih =>
    simp only [List.map_cons, List.nodup_cons] at hl
    obtain ⟨h1, h2⟩ := ih hl.2 (omod x.1 ([], []) (fun p => (p.1, x.2)) m) (omod_sorted _ _ _ h)
    refine ⟨h1, ?_⟩
    intro k
    show oget (l.foldl _ _) k = _
    rw [h2, oget_omod _ _ _ h, oget_cons]
    by_cases e : k = x.1
    · subst e
      have : oget l x.1 = none := oget_none fun y hy hk => hl.1 (List.mem_map.mpr ⟨y, hy, hk⟩)
      simp [this]
    · simp [e, Ne.symm e]

theorem sbmRep_sorted {eids : List (Str × List Int)} {vals : List (Str × List β)} (h : SbmWF eids vals) : Sorted (sbmRep eids vals) := by
  obtain ⟨h1, _⟩ := setFst_aux (β := β) eids h.enames [] List.Pairwise.nil
  exact (setSnd_aux vals h.vnames _ h1).1

theorem oget_sbmRep {eids : List (Str × List Int)} {vals : List (Str × List β)} (h : SbmWF eids vals) (k : Str) :
    oget (sbmRep eids vals) k = (oget eids k).bind fun es => (oget vals k).map fun vs => (es, vs) := by
  obtain ⟨h1, h2⟩ := setFst_aux (β := β) eids h.enames [] List.Pairwise.nil
  obtain ⟨h3, h4⟩ := setSnd_aux vals h.vnames _ h1
  show oget (vals.foldl _ _) k = _
  rw [h4, h2]
  have hs := h.same k
  rw [← oget_isSome, ← oget_isSome] at hs
  cases he : oget eids k with
  | none =>
    cases hv : oget vals k with
    | none => simp [oget_nil]
    | some v =>
      obtain ⟨_, hx⟩ := hs.mpr ⟨v, hv⟩
      rw [he] at hx; simp at hx
  | some es =>
    obtain ⟨v, hv⟩ := hs.mp ⟨es, he⟩
    simp [hv]

theorem mem_sbmRep {eids : List (Str × List Int)} {vals : List (Str × List β)} (h : SbmWF eids vals) (k : Str) (es : List Int) (vs : List β) :
    (k, es, vs) ∈ sbmRep eids vals ↔ (k, es) ∈ eids ∧ (k, vs) ∈ vals := by
  rw [mem_iff_oget (sbmRep_sorted h), oget_sbmRep h, oget_nodup h.enames, oget_nodup h.vnames]
  cases oget eids k <;> cases oget vals k <;> simp

theorem sorted_ext {m m' : List (Str × β)} (h : Sorted m) (h' : Sorted m') (he : ∀ k, oget m k = oget m' k) : m = m' := by
  induction m generalizing m' with
  | nil =>
    cases m' with
    | nil => rfl
    | cons y m' => have := he y.1; simp [oget_nil, oget_cons] at this
  | cons x m ih =>
    cases m' with
    | nil => have := he x.1; simp [oget_nil, oget_cons] at this
    | cons y m' =>
      have a1 := (List.pairwise_cons.mp h).1
      have a2 : Sorted m := (List.pairwise_cons.mp h).2
      have b1 := (List.pairwise_cons.mp h').1
      have b2 : Sorted m' := (List.pairwise_cons.mp h').2
      have hxy : x.1 = y.1 := by
        refine Decidable.byContradiction fun hne => ?_
        have hx : x ∈ y :: m' := by
          have : (x.1, x.2) ∈ y :: m' := by
            rw [mem_iff_oget h', ← he, oget_cons]; simp
          exact this
        have hy : y ∈ x :: m := by
          have : (y.1, y.2) ∈ x :: m := by
            rw [mem_iff_oget h, he, oget_cons]; simp
          exact this
        rcases List.mem_cons.mp hx with rfl | hx
        · exact hne rfl
        rcases List.mem_cons.mp hy with rfl | hy
        · exact hne rfl
        have := strLt_trans (a1 y hy) (b1 x hx)
        rw [strLt_irrefl] at this; simp at this
      have hv : x.2 = y.2 := by
        have := he x.1
        rw [oget_cons, if_pos rfl, oget_cons, if_pos hxy.symm] at this
        simpa using this
      have hx : x = y := Prod.ext hxy hv
      subst hx
      congr 1
      apply ih a2 b2
      intro k
      have := he k
      rw [oget_cons, oget_cons] at this
      by_cases e : x.1 = k
      · subst e
        rw [oget_none, oget_none]
        · intro z hz hk; have := b1 z hz; rw [hk, strLt_irrefl] at this; simp at this
        · intro z hz hk; have := a1 z hz; rw [hk, strLt_irrefl] at this; simp at this
      · simpa [e] using this

theorem map_sorted {m : List (Str × β)} (h : Sorted m) (f : Str → β → γ) : Sorted (m.map fun x => (x.1, f x.1 x.2)) := by
  unfold Sorted
  rw [List.pairwise_map]
  exact h

theorem oget_map (m : List (Str × β)) (f : Str → β → γ) (k : Str) : oget (m.map fun x => (x.1, f x.1 x.2)) k = (oget m k).map (f k) := by
  induction m with
  | nil => rfl
  | cons x m ih =>
    rw [List.map_cons, oget_cons, oget_cons, ih]
    by_cases e : x.1 = k
    · simp [e]
    · simp [e]

/-- Two tables over the same element ids are iterated in the same order. -/
theorem sbmRep_same {eids : List (Str × List Int)} {vals : List (Str × List α)} {fvs : List (Str × List β)}
    (h : SbmWF eids vals) (h' : SbmWF eids fvs) :
    (sbmRep eids vals).map (fun x => (x.1, x.2.1)) = (sbmRep eids fvs).map (fun x => (x.1, x.2.1)) := by
  apply sorted_ext (map_sorted (sbmRep_sorted h) fun _ p => p.1) (map_sorted (sbmRep_sorted h') fun _ p => p.1)
  intro k
  have e1 := oget_map (sbmRep eids vals) (fun _ p => p.1) k
  have e2 := oget_map (sbmRep eids fvs) (fun _ p => p.1) k
  rw [e1, e2, oget_sbmRep h, oget_sbmRep h']
  have hs := h.same k
  have hs' := h'.same k
  rw [← oget_isSome, ← oget_isSome] at hs hs'
  cases he : oget eids k with
  | none => rfl
  | some es =>
    obtain ⟨v, hv⟩ := hs.mp ⟨es, he⟩
    obtain ⟨w, hw⟩ := hs'.mp ⟨es, he⟩
    simp [hv, hw]

/-! ### sparse by material to full -/

theorem fillRow_spec {N : Nat} (zero : β) (p : List Int × List β) (hl : p.1.length = p.2.length) (hr : ∀ x ∈ p.1, 0 ≤ x ∧ x < N) :
    fillRow N zero p = .ok (setAll ((p.1.map Int.toNat).zip p.2) (List.replicate N zero)) := by
  unfold fillRow
  have key : ∀ k ≤ p.2.length, (List.range k).foldlM (fun row (i : Nat) => do
      let e ← rd p.1 (i : Int)
      let v ← rd p.2 (i : Int)
      wr row e v) (List.replicate N zero) = Res.ok (setAll (((p.1.map Int.toNat).zip p.2).take k) (List.replicate N zero)) := by
    intro k
    induction k with
    | zero => intro _; rfl
    | succ k ih =>
      intro hk
      have h1 : k < p.1.length := by omega
      have h2 : k < p.2.length := by omega
      rw [List.range_succ, foldlM_append', ih (by omega), Res.bind_ok, List.foldlM_cons]
      rw [O2M.rd_nat p.1 k _ (List.getElem?_eq_getElem h1), O2M.rd_nat p.2 k _ (List.getElem?_eq_getElem h2)]
      have hx := hr _ (List.getElem_mem h1)
      simp only [Res.bind_ok]
      unfold wr
      rw [if_neg (by rw [setAll_length]; simp; omega)]
      simp only [Res.bind_ok, List.foldlM_nil, Res.pure_def, Res.ok.injEq]
      rw [List.take_add_one]
      have hz : ((p.1.map Int.toNat).zip p.2)[k]? = some (p.1[k].toNat, p.2[k]) := by
        rw [List.getElem?_zip_eq_some]
        simp [h1, h2]
      rw [hz]
      simp [setAll]
  have := key p.2.length (Nat.le_refl _)
  rw [this, List.take_of_length_le (by simp; omega)]

theorem repToFull_spec {N : Nat} (zero : β) (m : List (Str × List Int × List β))
    (h : ∀ x ∈ m, x.2.1.length = x.2.2.length ∧ ∀ e ∈ x.2.1, 0 ≤ e ∧ e < N) :
    repToFull N zero m = .ok (m.map fun x => (x.1, setAll ((x.2.1.map Int.toNat).zip x.2.2) (List.replicate N zero))) := by
  induction m with
  | nil => rfl
  | cons x m ih =>
    obtain ⟨k, p⟩ := x
    obtain ⟨h1, h2⟩ := h (k, p) (by simp)
    unfold repToFull
    rw [fillRow_spec zero p h1 h2, Res.bind_ok, ih fun y hy => h y (by simp [hy])]
    rfl

theorem sbmToFull_spec {N : Nat} (zero : β) {eids : List (Str × List Int)} {vals : List (Str × List β)} (h : SbmWF eids vals) (hd : Dense eids N) :
    ∃ m, sbmToFull zero vals eids = .ok m ∧ Sorted m ∧
      ∀ n row, (n, row) ∈ m ↔ ∃ es vs, (n, es) ∈ eids ∧ (n, vs) ∈ vals ∧
        row = setAll ((es.map Int.toNat).zip vs) (List.replicate N zero) := by
  refine ⟨_, ?_, map_sorted (sbmRep_sorted h) fun _ p => setAll ((p.1.map Int.toNat).zip p.2) (List.replicate N zero), ?_⟩
  · unfold sbmToFull
    rw [numElems_dense hd, repToFull_spec]
    rintro ⟨n, es, vs⟩ hx
    obtain ⟨h1, h2⟩ := (mem_sbmRep h n es vs).mp hx
    exact ⟨h.len n es vs h1 h2, fun e he => (hd e).mp ⟨n, es, h1, he⟩⟩
  · intro n row
    rw [List.mem_map]
    constructor
    · rintro ⟨⟨n', es, vs⟩, hx, heq⟩
      simp only [Prod.mk.injEq] at heq
      obtain ⟨rfl, rfl⟩ := heq
      obtain ⟨h1, h2⟩ := (mem_sbmRep h n' es vs).mp hx
      exact ⟨es, vs, h1, h2, rfl⟩
    · rintro ⟨es, vs, h1, h2, rfl⟩
      exact ⟨(n, es, vs), (mem_sbmRep h n es vs).mpr ⟨h1, h2⟩, rfl⟩

/-! ### sparse by material to sparse by element -/

theorem spread_spec {N : Nat} (x : β → γ) (dβ : β) (p : List Int × List β) (hl : p.1.length = p.2.length)
    (hr : ∀ e ∈ p.1, 0 ≤ e ∧ e < N) (F : Nat → List γ) :
    spread x p ((List.range N).map F) = .ok ((List.range N).map fun e =>
      F e ++ ((List.range p.1.length).filter fun k => p.1.getD k (-1) = (e : Int)).map fun k => x (p.2.getD k dβ)) := by
  unfold spread
  have key : ∀ k ≤ p.2.length, (List.range k).foldlM (fun rows (i : Nat) => do
      let e ← rd p.1 (i : Int)
      let v ← rd p.2 (i : Int)
      let row ← rd rows e
      wr rows e (row ++ [x v])) ((List.range N).map F) = Res.ok ((List.range N).map fun e =>
        F e ++ ((List.range k).filter fun k => p.1.getD k (-1) = (e : Int)).map fun k => x (p.2.getD k dβ)) := by
    intro k
    induction k with
    | zero => intro _; simp
    | succ k ih =>
      intro hk
      have h1 : k < p.1.length := by omega
      have h2 : k < p.2.length := by omega
      rw [List.range_succ, foldlM_append', ih (by omega), Res.bind_ok, List.foldlM_cons]
      rw [O2M.rd_getD p.1 k (-1) h1, O2M.rd_getD p.2 k dβ h2]
      have hx : 0 ≤ p.1.getD k (-1) ∧ p.1.getD k (-1) < N := by
        have : p.1.getD k (-1) = p.1[k] := by simp [List.getD, List.getElem?_eq_getElem h1]
        rw [this]; exact hr _ (List.getElem_mem h1)
      obtain ⟨t, ht⟩ := Int.eq_ofNat_of_zero_le hx.1
      have ht' : t < N := by omega
      simp only [Res.bind_ok, ht]
      rw [O2M.rd_nat _ t _ (by rw [List.getElem?_map, List.getElem?_range ht']; rfl), Res.bind_ok]
      unfold wr
      rw [if_neg (by simp; omega)]
      simp only [Res.bind_ok, List.foldlM_nil, Res.pure_def, Res.ok.injEq, Int.toNat_natCast]
      apply List.ext_getElem?
      intro i
      rw [List.getElem?_set]
      by_cases hi : i < N
      · rw [List.getElem?_map, List.getElem?_map, List.getElem?_range hi]
        by_cases e : t = i
        · subst e
          have hf : List.filter (fun k => decide (p.1.getD k (-1) = (t : Int))) [k] = [k] := by
            rw [List.filter_cons]; simp only [ht, decide_true, if_true, List.filter_nil]
          simp only [List.filter_append, hf, List.length_map, List.length_range, ht', if_true, Option.map_some, List.map_append,
            List.map_cons, List.map_nil, List.append_assoc]
        · have hne : ¬ ((t : Int) = (i : Int)) := by omega
          have hf : List.filter (fun k => decide (p.1.getD k (-1) = (i : Int))) [k] = [] := by
            rw [List.filter_cons]; simp only [ht, hne, decide_false, List.filter_nil]; rfl
          simp only [if_neg e, Option.map_some, List.filter_append, hf, List.append_nil]
      · have e : t ≠ i := by omega
        rw [if_neg e, List.getElem?_eq_none (by simp; omega), List.getElem?_eq_none (by simp; omega)]
  have := key p.2.length (Nat.le_refl _)
  rw [this, hl]

/-- the entries of element `e`: materials in name order, with the position in their arrays -/
def places (R : List (Str × List Int)) (e : Nat) : List (Str × Nat) :=
  R.flatMap fun m => ((List.range m.2.length).filter fun k => m.2.getD k (-1) = (e : Int)).map fun k => (m.1, k)

theorem spread_all {N : Nat} (x : Str → β → γ) (dβ : β) (m : List (Str × List Int × List β)) (val : Str → List β)
    (hm : ∀ y ∈ m, y.2.1.length = y.2.2.length ∧ (∀ e ∈ y.2.1, 0 ≤ e ∧ e < N) ∧ val y.1 = y.2.2) (F : Nat → List γ) :
    m.foldlM (fun rows y => spread (x y.1) y.2 rows) ((List.range N).map F) = .ok ((List.range N).map fun e =>
      F e ++ (places (m.map fun y => (y.1, y.2.1)) e).map fun q => x q.1 ((val q.1).getD q.2 dβ)) := by
  induction m generalizing F with
  | nil => simp [places]
  | cons y m ih =>
    obtain ⟨h1, h2, h3⟩ := hm y (by simp)
    rw [List.foldlM_cons, spread_spec (x y.1) dβ y.2 h1 h2, Res.bind_ok, ih fun z hz => hm z (by simp [hz])]
    congr 1
    apply List.map_congr_left
    intro e _
    simp only [places, List.map_cons, List.flatMap_cons, List.map_append, List.map_map, List.append_assoc]
    congr 2
    apply List.map_congr_left
    intro k _
    simp [h3]

theorem rows_acc {δ : Type} (vf : δ → α) (idf : δ → Int) (gs : List (List δ)) :
    ∀ (done : List (List δ)) (a : Acc α), a.After done idf vf →
      Acc.After (gs.foldl (fun (a : Acc α) row =>
        (⟨a.vals ++ row.map vf, a.ids ++ row.map idf, a.sizes ++ [(row.length : Int)], a.offsets ++ [a.offset],
          a.offset + row.length⟩ : Acc α)) a) (done ++ gs) idf vf := by
  induction gs with
  | nil => intro done a h; simpa using h
  | cons g gs ih =>
    intro done a h
    have := ih (done ++ [g]) _ (h.push g)
    simpa using this

/-- `oget` with a default -/
def valOf (m : List (Str × List β)) (n : Str) : List β := (oget m n).getD []

theorem valOf_eq {m : List (Str × List β)} (h : (m.map (·.1)).Nodup) {n : Str} {vs : List β} (hm : (n, vs) ∈ m) : valOf m n = vs := by
  unfold valOf
  rw [(oget_nodup h n vs).mp hm]; rfl

theorem rep_ok {N : Nat} {eids : List (Str × List Int)} {vals : List (Str × List β)} (h : SbmWF eids vals) (hd : Dense eids N) :
    ∀ y ∈ sbmRep eids vals, y.2.1.length = y.2.2.length ∧ (∀ e ∈ y.2.1, 0 ≤ e ∧ e < N) ∧ valOf vals y.1 = y.2.2 := by
  rintro ⟨n, es, vs⟩ hx
  obtain ⟨h1, h2⟩ := (mem_sbmRep h n es vs).mp hx
  exact ⟨h.len n es vs h1 h2, fun e he => (hd e).mp ⟨n, es, h1, he⟩, valOf_eq h.vnames h2⟩

theorem replicate_range (N : Nat) : List.replicate N ([] : List γ) = (List.range N).map fun _ => [] := by
  induction N with
  | zero => rfl
  | succ N ih => rw [List.replicate_succ', ih, List.range_succ]; simp

/-- the element ids in the order in which the conversions go through the materials -/
def idsOf (eids : List (Str × List Int)) (vals : List (Str × List β)) : List (Str × List Int) :=
  (sbmRep eids vals).map fun y => (y.1, y.2.1)

theorem sbmToSbe_spec {N : Nat} (dα : α) {eids : List (Str × List Int)} {vfs : List (Str × List α)} (h : SbmWF eids vfs) (hd : Dense eids N) :
    ∃ S, sbmToSbe vfs eids = .ok S ∧ Grouped S ((List.range N).map (places (idsOf eids vfs))) ∧
      S.matmap = vfs.zipIdx.map (fun x => (x.1.1, (x.2 : Int))) ∧
      S.ids = ((List.range N).map (places (idsOf eids vfs))).flatten.map (fun q => (oget S.matmap q.1).getD 0) ∧
      S.vals = ((List.range N).map (places (idsOf eids vfs))).flatten.map (fun q => (valOf vfs q.1).getD q.2 dα) := by
  let mm := vfs.zipIdx.map (fun x => (x.1.1, (x.2 : Int)))
  have hs := spread_all (N := N) (fun n (v : α) => (v, (oget mm n).getD 0)) dα (sbmRep eids vfs) (valOf vfs) (rep_ok h hd) (fun _ => [])
  have hacc := rows_acc (fun y : α × Int => y.1) (fun y => y.2)
    ((List.range N).map fun e => (places (idsOf eids vfs) e).map fun q => ((valOf vfs q.1).getD q.2 dα, (oget mm q.1).getD 0)) []
    (⟨[], [], [], [], 0⟩ : Acc α) ⟨rfl, rfl, rfl, rfl, rfl⟩
  generalize hA : List.foldl _ (⟨[], [], [], [], 0⟩ : Acc α) _ = a at hacc
  obtain ⟨h1, h2, h3, h4, _⟩ := hacc
  refine ⟨⟨mm, some a.sizes, some a.offsets, none, a.ids, a.vals⟩, ?_, ⟨?_, ?_, rfl⟩, rfl, ?_, ?_⟩
  rotate_left
  · exact congrArg some (h3.trans (by simp [List.map_map, Function.comp_def]))
  · refine congrArg some (h4.trans ?_)
    simp only [List.nil_append, List.length_map, List.length_range]
    apply List.map_congr_left
    intro e _
    unfold pre
    rw [← List.map_take, ← List.map_take, List.map_map, List.map_map]
    simp [Function.comp_def]
  · refine h2.trans ?_
    simp only [List.nil_append, List.map_flatten, List.map_map, Function.comp_def]
  · refine h1.trans ?_
    simp only [List.nil_append, List.map_flatten, List.map_map, Function.comp_def]
  · unfold sbmToSbe
    rw [numElems_dense hd, replicate_range]
    simp only [List.nil_append] at hs
    show ((sbmRep eids vfs).foldlM (fun rows m => spread (fun v => (v, (oget mm m.1).getD 0)) m.2 rows)
      ((List.range N).map fun _ => []) >>= fun rows => _) = _
    rw [hs, Res.bind_ok, ← hA]
    rfl

theorem sbmToSbeField_spec {N : Nat} (dβ : β) {eids : List (Str × List Int)} {vfs : List (Str × List α)} {fvs : List (Str × List β)}
    (h : SbmWF eids vfs) (h' : SbmWF eids fvs) (hd : Dense eids N) :
    sbmToSbeField eids fvs = .ok (((List.range N).map (places (idsOf eids vfs))).flatten.map fun q => (valOf fvs q.1).getD q.2 dβ) := by
  unfold sbmToSbeField
  rw [numElems_dense hd, replicate_range]
  have hs := spread_all (N := N) (fun _ (v : β) => id v) dβ (sbmRep eids fvs) (valOf fvs) (rep_ok h' hd) (fun _ => [])
  have hs' : (sbmRep eids fvs).foldlM (fun rows y => spread id y.2 rows) ((List.range N).map fun _ => ([] : List β)) = _ := hs
  rw [hs', Res.bind_ok]
  have hR := sbmRep_same h h'
  unfold idsOf
  rw [hR]
  simp only [List.nil_append, List.map_flatten, List.map_map, Function.comp_def, id]

theorem mem_places {eids : List (Str × List Int)} {vals : List (Str × List β)} (h : SbmWF eids vals) (e : Nat) (n : Str) (k : Nat) :
    (n, k) ∈ places (idsOf eids vals) e ↔ ∃ es : List Int, (n, es) ∈ eids ∧ es[k]? = some (e : Int) := by
  unfold places idsOf
  rw [List.mem_flatMap]
  constructor
  · rintro ⟨⟨n', es⟩, hm, hq⟩
    obtain ⟨⟨n'', es', vs⟩, hx, heq⟩ := List.mem_map.mp hm
    simp only [Prod.mk.injEq] at heq
    obtain ⟨rfl, rfl⟩ := heq
    obtain ⟨k', hk, heq⟩ := List.mem_map.mp hq
    simp only [Prod.mk.injEq] at heq
    obtain ⟨rfl, rfl⟩ := heq
    obtain ⟨hk1, hk2⟩ := List.mem_filter.mp hk
    simp only [List.mem_range] at hk1
    simp only [decide_eq_true_eq, List.getD, List.getElem?_eq_getElem hk1, Option.getD_some] at hk2
    exact ⟨es', ((mem_sbmRep h _ _ _).mp hx).1, by rw [List.getElem?_eq_getElem hk1, hk2]⟩
  · rintro ⟨es, he, hk⟩
    have : n ∈ vals.map (·.1) := (h.same n).mp (List.mem_map.mpr ⟨_, he, rfl⟩)
    obtain ⟨⟨n', vs⟩, hv, rfl⟩ := List.mem_map.mp this
    refine ⟨(n', es), List.mem_map.mpr ⟨(n', es, vs), (mem_sbmRep h _ _ _).mpr ⟨he, hv⟩, rfl⟩, ?_⟩
    obtain ⟨hlt, _⟩ := List.getElem?_eq_some_iff.mp hk
    exact List.mem_map.mpr ⟨k, List.mem_filter.mpr ⟨by simpa using hlt, by simp [List.getD, hk]⟩, rfl⟩

/-! ### full to sparse by material -/

/-- the elements of a column with a volume fraction above epsilon -/
def bigAt (big : α → Bool) (dα : α) (c : List α) (n : Nat) : List Nat := (List.range n).filter fun e => big (c.getD e dα)

theorem keepBig_eq (big : α → Bool) (dα : α) (c : List α) (n : Nat) (h : n ≤ c.length) :
    keepBig big c n = ((bigAt big dα c n).map fun e => c.getD e dα, (bigAt big dα c n).map fun (e : Nat) => (e : Int)) := by
  induction n with
  | zero => rfl
  | succ n ih =>
    have hn : n < c.length := by omega
    unfold keepBig
    rw [ih (by omega), List.getElem?_eq_getElem hn]
    have hg : c.getD n dα = c[n] := by simp [List.getD, List.getElem?_eq_getElem hn]
    unfold bigAt
    rw [List.range_succ, List.filter_append]
    simp only
    by_cases hb : big c[n] = true
    · have hf : List.filter (fun e => big (c.getD e dα)) [n] = [n] := by
        rw [List.filter_cons]; simp only [hg, hb, if_true, List.filter_nil]
      rw [if_pos hb, hf, List.map_append, List.map_append, List.map_cons, List.map_cons, hg]; rfl
    · have hf : List.filter (fun e => big (c.getD e dα)) [n] = [] := by
        rw [List.filter_cons]; simp only [hg, hb, List.filter_nil]; rfl
      rw [if_neg hb, hf, List.append_nil]

theorem keepField_eq (big : α → Bool) (dα : α) (dβ : β) (c : List α) (f : List β) (n : Nat) (h : n ≤ c.length) (h' : n ≤ f.length) :
    keepField big c f n = .ok ((bigAt big dα c n).map fun e => f.getD e dβ) := by
  induction n with
  | zero => rfl
  | succ n ih =>
    unfold keepField
    rw [ih (by omega) (by omega), Res.bind_ok, O2M.rd_getD c n dα (by omega), Res.bind_ok]
    unfold bigAt
    rw [List.range_succ, List.filter_append]
    by_cases hb : big (c.getD n dα) = true
    · rw [if_pos hb, O2M.rd_getD f n dβ (by omega), Res.bind_ok]
      have hb' : (List.filter (fun e => big (c.getD e dα)) [n]) = [n] := by simp only [List.filter_cons, hb, if_true, List.filter_nil]
      rw [hb', List.map_append]; rfl
    · rw [if_neg hb]
      have hb' : (List.filter (fun e => big (c.getD e dα)) [n]) = [] := by simp only [List.filter_cons, hb, List.filter_nil]; rfl
      rw [hb', List.append_nil]

theorem keepFields_eq (big : α → Bool) (dα : α) (dβ : β) (N : Nat) (l : List (Str × List α × List β))
    (h : ∀ x ∈ l, x.2.1.length = N ∧ x.2.2.length = N) :
    keepFields big l = .ok (l.map fun x => (x.1, (bigAt big dα x.2.1 N).map fun e => x.2.2.getD e dβ)) := by
  induction l with
  | nil => rfl
  | cons x l ih =>
    obtain ⟨n, c, f⟩ := x
    obtain ⟨h1, h2⟩ := h (n, c, f) (by simp)
    simp only at h1 h2
    unfold keepFields
    rw [keepField_eq big dα dβ c f c.length (by omega) (by omega), Res.bind_ok, ih fun y hy => h y (by simp [hy]), h1]
    rfl

theorem fullToSbm_eq (big : α → Bool) (dα : α) (vfs : List (Str × List α)) (N : Nat) (h : FullWF vfs N) :
    fullToSbm big vfs = (vfs.map fun x => (x.1, (bigAt big dα x.2 N).map fun e => x.2.getD e dα),
      vfs.map fun x => (x.1, (bigAt big dα x.2 N).map fun (e : Nat) => (e : Int))) := by
  unfold fullToSbm
  congr 1
  · apply List.map_congr_left
    intro x hx
    rw [keepBig_eq big dα x.2 x.2.length (Nat.le_refl _), h.len x hx]
  · apply List.map_congr_left
    intro x hx
    rw [keepBig_eq big dα x.2 x.2.length (Nat.le_refl _), h.len x hx]

theorem fullToSbmField_eq (big : α → Bool) (dα : α) (dβ : β) (vfs : List (Str × List α)) (fvs : List (Str × List β))
    (hn : vfs.map (·.1) = fvs.map (·.1)) (N : Nat) (h : FullWF vfs N) (h' : FullWF fvs N) :
    fullToSbmField big vfs fvs =
      .ok ((vfs.zip fvs).map fun t => (t.1.1, (bigAt big dα t.1.2 N).map fun e => t.2.2.getD e dβ)) := by
  unfold fullToSbmField
  rw [pairUp_eq vfs fvs hn, Res.bind_ok, keepFields_eq big dα dβ N, List.map_map]
  · rfl
  · intro x hx
    obtain ⟨⟨a, b⟩, hab, rfl⟩ := List.mem_map.mp hx
    have := List.of_mem_zip hab
    exact ⟨h.len a this.1, h'.len b this.2⟩

end Conduit.Matset
