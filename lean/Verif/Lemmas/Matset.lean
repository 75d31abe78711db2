import Verif.Spec.Matset
import Verif.Lemmas.O2M
/-
Lemmas on the ordered map and on the element loops of the matset conversions.
-/
namespace Conduit.Matset
open Conduit.O2M (rd wr ones size target entries)
variable {α β γ σ : Type}

/-! ### string order -/

theorem strLt_irrefl (a : Str) : strLt a a = false := by
  induction a with
  | nil => rfl
  | cons c cs ih => simp [strLt, ih]

theorem strLt_trans : ∀ {a b c : Str}, strLt a b = true → strLt b c = true → strLt a c = true
  | _, [], _, h, _ => by simp [strLt] at h
  | _, _ :: _, [], _, h => by simp [strLt] at h
  | [], _ :: _, _ :: _, _, _ => rfl
  | x :: xs, y :: ys, z :: zs, h, h' => by
    simp only [strLt] at *
    by_cases h1 : x.toNat < y.toNat
    · by_cases h2 : y.toNat < z.toNat
      · simp [Nat.lt_trans h1 h2]
      · by_cases h3 : z.toNat < y.toNat
        · simp [h2, h3] at h'
        · have : x.toNat < z.toNat := by omega
          simp [this]
    · by_cases h1' : y.toNat < x.toNat
      · simp [h1, h1'] at h
      · simp only [h1, h1', if_false] at h
        by_cases h2 : y.toNat < z.toNat
        · have : x.toNat < z.toNat := by omega
          simp [this]
        · by_cases h3 : z.toNat < y.toNat
          · simp [h2, h3] at h'
          · simp only [h2, h3, if_false] at h'
            have a1 : ¬ x.toNat < z.toNat := by omega
            have a2 : ¬ z.toNat < x.toNat := by omega
            simp only [a1, a2, if_false]
            exact strLt_trans h h'

theorem strLt_total : ∀ {a b : Str}, a ≠ b → strLt a b = false → strLt b a = true
  | [], [], h, _ => absurd rfl h
  | [], _ :: _, _, h => by simp [strLt] at h
  | _ :: _, [], _, _ => rfl
  | x :: xs, y :: ys, h, h' => by
    simp only [strLt] at *
    by_cases h1 : x.toNat < y.toNat
    · simp [h1] at h'
    · by_cases h2 : y.toNat < x.toNat
      · simp [h2]
      · have hc : x = y := Char.toNat_inj.mp (by omega)
        simp only [h1, h2, if_false] at *
        exact strLt_total (fun e => h (by rw [hc, e])) h'

/-! ### the ordered map -/

/-- keys strictly ascending -/
def Sorted (m : List (Str × β)) : Prop := m.Pairwise fun a b => strLt a.1 b.1 = true

theorem oget_nil (k : Str) : oget ([] : List (Str × β)) k = none := rfl

theorem oget_cons (e : Str × β) (m : List (Str × β)) (k : Str) :
    oget (e :: m) k = if e.1 = k then some e.2 else oget m k := by
  unfold oget; by_cases h : e.1 = k <;> simp [h]

theorem oget_none {m : List (Str × β)} {k : Str} (h : ∀ e ∈ m, e.1 ≠ k) : oget m k = none := by
  induction m with
  | nil => rfl
  | cons e m ih => rw [oget_cons, if_neg (h e (by simp)), ih fun x hx => h x (by simp [hx])]

theorem omod_keys (k : Str) (d : β) (f : β → β) (m : List (Str × β)) :
    ∀ e ∈ omod k d f m, e.1 = k ∨ ∃ e' ∈ m, e'.1 = e.1 := by
  induction m with
  | nil => simp [omod]
  | cons x m ih =>
    obtain ⟨k', v⟩ := x
    intro e he
    simp only [omod] at he
    split at he
    · rcases List.mem_cons.mp he with rfl | h
      · exact .inr ⟨(k', v), by simp, rfl⟩
      · exact .inr ⟨e, by simp [h], rfl⟩
    · split at he
      · rcases List.mem_cons.mp he with rfl | h
        · exact .inl rfl
        · exact .inr ⟨e, h, rfl⟩
      · rcases List.mem_cons.mp he with rfl | h
        · exact .inr ⟨(k', v), by simp, rfl⟩
        · rcases ih e h with h | ⟨e', he', hk⟩
          · exact .inl h
          · exact .inr ⟨e', by simp [he'], hk⟩

theorem omod_sorted (k : Str) (d : β) (f : β → β) {m : List (Str × β)} (h : Sorted m) : Sorted (omod k d f m) := by
  induction m with
  | nil => simp [omod, Sorted]
  | cons x m ih =>
    obtain ⟨k', v⟩ := x
    have h1 := (List.pairwise_cons.mp h).1
    have h2 : Sorted m := (List.pairwise_cons.mp h).2
    simp only [omod]
    split
    · rename_i e; subst e; exact List.pairwise_cons.mpr ⟨h1, h2⟩
    · split
      · rename_i hne hlt
        refine List.pairwise_cons.mpr ⟨?_, h⟩
        intro y hy
        rcases List.mem_cons.mp hy with rfl | hy
        · exact hlt
        · exact strLt_trans hlt (h1 y hy)
      · rename_i hne hlt
        refine List.pairwise_cons.mpr ⟨?_, ih h2⟩
        intro y hy
        rcases omod_keys k d f m y hy with h | ⟨e', he', hk⟩
        · rw [h]; exact strLt_total hne (by simpa using hlt)
        · rw [← hk]; exact h1 e' he'

theorem oget_omod (k : Str) (d : β) (f : β → β) {m : List (Str × β)} (h : Sorted m) (k' : Str) :
    oget (omod k d f m) k' = if k' = k then some (f ((oget m k).getD d)) else oget m k' := by
  induction m with
  | nil =>
    simp only [omod, oget_cons, oget_nil]
    by_cases e : k' = k
    · simp [e]
    · rw [if_neg (Ne.symm e), if_neg e]
  | cons x m ih =>
    obtain ⟨x, v⟩ := x
    have h1 := (List.pairwise_cons.mp h).1
    have h2 : Sorted m := (List.pairwise_cons.mp h).2
    simp only [omod]
    split
    · rename_i e; subst e
      simp only [oget_cons, if_true, Option.getD_some]
      by_cases e : k' = k
      · simp [e]
      · rw [if_neg (Ne.symm e), if_neg (Ne.symm e), if_neg e]
    · rename_i hne
      split
      · rename_i hlt
        have hn : oget m k = none := oget_none fun e he hk => by
          have := strLt_trans hlt (h1 e he)
          rw [hk, strLt_irrefl] at this; simp at this
        rw [oget_cons, oget_cons (x, v) m k, if_neg (Ne.symm hne), hn]
        by_cases e : k' = k
        · simp [e]
        · rw [if_neg (Ne.symm e), if_neg e]
      · rw [oget_cons, oget_cons (x, v) m k, if_neg (Ne.symm hne), ih h2, oget_cons]
        by_cases e : k' = k
        · subst e; simp [Ne.symm hne]
        · simp [e]

theorem mem_iff_oget {m : List (Str × β)} (h : Sorted m) (k : Str) (v : β) : (k, v) ∈ m ↔ oget m k = some v := by
  induction m with
  | nil => simp [oget_nil]
  | cons x m ih =>
    have h1 := (List.pairwise_cons.mp h).1
    have h2 : Sorted m := (List.pairwise_cons.mp h).2
    rw [oget_cons, List.mem_cons]
    by_cases e : x.1 = k
    · rw [if_pos e]
      constructor
      · rintro (rfl | hm)
        · rfl
        · have := h1 _ hm
          rw [e, strLt_irrefl] at this; simp at this
      · intro hv; left; rw [← e]; simp only [Option.some.injEq] at hv; rw [← hv]
    · rw [if_neg e, ← ih h2]
      constructor
      · rintro (rfl | hm)
        · exact absurd rfl e
        · exact hm
      · exact .inr

theorem sorted_names {m : List (Str × β)} (h : Sorted m) : (m.map (·.1)).Nodup := by
  unfold List.Nodup
  rw [List.pairwise_map]
  refine List.Pairwise.imp ?_ h
  intro a b hab e
  rw [e, strLt_irrefl] at hab; simp at hab

/-- lookup in an association list with distinct keys -/
theorem oget_nodup {m : List (Str × β)} (h : (m.map (·.1)).Nodup) (k : Str) (v : β) : (k, v) ∈ m ↔ oget m k = some v := by
  induction m with
  | nil => simp [oget_nil]
  | cons x m ih =>
    simp only [List.map_cons, List.nodup_cons] at h
    rw [oget_cons, List.mem_cons]
    by_cases e : x.1 = k
    · rw [if_pos e]
      constructor
      · rintro (rfl | hm)
        · rfl
        · exact absurd (List.mem_map.mpr ⟨_, hm, e.symm⟩) h.1
      · intro hv; left; rw [← e]; simp only [Option.some.injEq] at hv; rw [← hv]
    · rw [if_neg e, ← ih h.2]
      constructor
      · rintro (rfl | hm)
        · exact absurd rfl e
        · exact hm
      · exact .inr

theorem oget_isSome {m : List (Str × β)} (k : Str) : (∃ v, oget m k = some v) ↔ k ∈ m.map (·.1) := by
  induction m with
  | nil => simp [oget_nil]
  | cons x m ih =>
    rw [oget_cons]
    by_cases e : x.1 = k
    · simp [e]
    · rw [if_neg e, ih]; simp [Ne.symm e]

theorem mem_unique {m : List (Str × β)} (h : (m.map (·.1)).Nodup) {k : Str} {v v' : β} (a : (k, v) ∈ m) (b : (k, v') ∈ m) : v = v' := by
  have h1 := (oget_nodup h k v).mp a
  have h2 := (oget_nodup h k v').mp b
  rw [h1] at h2; simpa using h2

/-! ### the double loop over a one-to-many relation -/

theorem foldlM_congr {f g : σ → γ → Res σ} (l : List γ) (s : σ) (h : ∀ s, ∀ x ∈ l, f s x = g s x) :
    l.foldlM f s = l.foldlM g s := by
  induction l generalizing s with
  | nil => rfl
  | cons x l ih =>
    rw [List.foldlM_cons, List.foldlM_cons, h s x (by simp)]
    cases g s x with
    | ok a => simp only [Res.bind_ok]; exact ih a fun s y hy => h s y (by simp [hy])
    | error => rfl
    | ub => rfl

theorem foldlM_ok {f : σ → γ → σ} (l : List γ) (s : σ) : (l.foldlM (fun s x => Res.ok (f s x)) s) = .ok (l.foldl f s) := by
  induction l generalizing s with
  | nil => rfl
  | cons x l ih => simp [List.foldlM_cons, ih]

theorem bind_assoc' {a b c : Type} (x : Res a) (f : a → Res b) (g : b → Res c) : (x >>= f) >>= g = x >>= fun y => f y >>= g := by
  cases x <;> rfl

theorem foldlM_append' {f : σ → γ → Res σ} (l l' : List γ) (s : σ) : (l ++ l').foldlM f s = l.foldlM f s >>= fun t => l'.foldlM f t := by
  induction l generalizing s with
  | nil => rfl
  | cons x l ih =>
    rw [List.cons_append, List.foldlM_cons, List.foldlM_cons, bind_assoc']
    congr 1
    funext t
    exact ih t

theorem foldlM_flatMap {δ : Type} {f : σ → γ → Res σ} (l : List δ) (F : δ → List γ) (s : σ) :
    (l.flatMap F).foldlM f s = l.foldlM (fun t x => (F x).foldlM f t) s := by
  induction l generalizing s with
  | nil => rfl
  | cons x l ih =>
    rw [List.flatMap_cons, foldlM_append', List.foldlM_cons]
    congr 1
    funext t
    exact ih t

theorem foldlM_map' {δ : Type} {f : σ → γ → Res σ} (l : List δ) (F : δ → γ) (s : σ) :
    (l.map F).foldlM f s = l.foldlM (fun t x => f t (F x)) s := by
  induction l generalizing s with
  | nil => rfl
  | cons x l ih =>
    rw [List.map_cons, List.foldlM_cons, List.foldlM_cons]
    congr 1
    funext t
    exact ih t

theorem indexSize_all {S : Sbe α} {N : Nat} (h : SbeWF S N) : O2M.indexSize S.rel (-1) = .ok (N : Int) := by
  obtain ⟨o, ho, hl⟩ := h.offs
  unfold O2M.indexSize
  rw [if_pos rfl]
  by_cases hN : 0 < N
  · rw [if_pos (by simp [O2M.acc, Sbe.rel, ho]; omega)]
    simp [O2M.acc, Sbe.rel, ho, hl]
  · have hN : N = 0 := by omega
    have hi := h.none hN
    subst hN
    have ho' : o = [] := by simpa using hl
    rw [if_neg (by simp [O2M.acc, Sbe.rel, ho, ho']), if_neg (by simp [O2M.acc, Sbe.rel, hi])]
    rfl

theorem indexSize_one {S : Sbe α} {N : Nat} (h : SbeWF S N) (i : Nat) (hi : i < N) :
    O2M.indexSize S.rel (i : Int) = .ok (size S.rel i : Int) := by
  have hi' : i < ones S.rel := by rw [h.zones]; exact hi
  have := O2M.elementsMany_eq S.rel h.rel i hi'
  unfold O2M.indexSize
  rw [if_neg (by omega)]
  unfold O2M.elementsMany at this
  rw [O2M.elementsOne_eq, if_pos (by omega)] at this
  unfold O2M.acc
  cases hs : S.rel.sizes with
  | none => simp [size, hs]
  | some s =>
    have hl : i < s.length := by simpa [ones, hs] using hi'
    simp only [hs] at this
    simp only [Option.getD_some]
    rw [if_pos (by omega)]; exact this

/-- The double loop of the conversions visits the entries of the relation in order. -/
theorem double_loop {S : Sbe α} {N : Nat} (h : SbeWF S N) (g : σ → Nat → Int → Res σ) (m : σ) :
    (List.range N).foldlM (fun m (e : Nat) => do
      let s ← O2M.indexSize S.rel (e : Int)
      (List.range s.toNat).foldlM (fun m (k : Nat) => do
        let d ← O2M.indexIndex S.rel (e : Int) (k : Int)
        g m e d) m) m =
    (entries S.rel).foldlM (fun m x => g m x.1 (target S.rel x.1 x.2)) m := by
  unfold entries
  rw [foldlM_flatMap, h.zones]
  apply foldlM_congr
  intro s e he
  have he : e < N := by simpa using he
  rw [indexSize_one h e he, Res.bind_ok, foldlM_map']
  simp only [Int.toNat_natCast]
  apply foldlM_congr
  intro t k hk
  have hk : k < size S.rel e := by simpa using hk
  rw [O2M.indexIndex_eq S.rel h.rel e k (by rw [h.zones]; exact he) hk]
  rfl

/-- the positions visited, with their element and material name -/
def items (S : Sbe α) : List (Nat × Str × Nat) :=
  (entries S.rel).map fun x =>
    (x.1, revGet S.matmap (S.ids.getD (target S.rel x.1 x.2).toNat 0), (target S.rel x.1 x.2).toNat)

theorem mem_entries (r : O2M.Rel α) (i j : Nat) : (i, j) ∈ entries r ↔ i < ones r ∧ j < size r i := by
  unfold entries
  simp

theorem revGet_mem (mm : List (Str × Int)) (id : Int) (h : id ∈ mm.map (·.2)) : (revGet mm id, id) ∈ mm := by
  unfold revGet
  cases hf : mm.reverse.find? fun e => e.2 = id with
  | none =>
    rw [List.find?_eq_none] at hf
    obtain ⟨e, he, rfl⟩ := List.mem_map.mp h
    exact absurd (by simp) (hf e (by simpa using he))
  | some e =>
    have h1 := List.mem_of_find?_eq_some hf
    have h2 := List.find?_some hf
    simp only [decide_eq_true_eq] at h2
    subst h2
    simpa using h1

theorem nodup_map_inj {γ δ : Type} {f : γ → δ} {l : List γ} (h : (l.map f).Nodup) {a b : γ} (ha : a ∈ l) (hb : b ∈ l) (e : f a = f b) : a = b := by
  induction l with
  | nil => simp at ha
  | cons x l ih =>
    simp only [List.map_cons, List.nodup_cons, List.mem_map, not_exists, not_and] at h
    rcases List.mem_cons.mp ha with ha' | ha' <;> rcases List.mem_cons.mp hb with hb' | hb'
    · rw [ha', hb']
    · exact absurd (ha' ▸ e).symm (h.1 b hb')
    · exact absurd (hb' ▸ e) (h.1 a ha')
    · exact ih h.2 ha' hb'

theorem revGet_eq {mm : List (Str × Int)} (hn : (mm.map (·.2)).Nodup) {n : Str} {id : Int} (h : (n, id) ∈ mm) : revGet mm id = n := by
  have h' := revGet_mem mm id (List.mem_map.mpr ⟨_, h, rfl⟩)
  have := nodup_map_inj hn h' h rfl
  exact (Prod.mk.inj this).1

theorem mem_items {S : Sbe α} {N : Nat} (h : SbeWF S N) (e : Nat) (n : Str) (d : Nat) :
    (e, n, d) ∈ items S ↔ ∃ id, Slot S e d ∧ S.ids[d]? = some id ∧ (n, id) ∈ S.matmap := by
  unfold items
  rw [List.mem_map]
  constructor
  · rintro ⟨⟨i, j⟩, hm, heq⟩
    have hm := (mem_entries _ _ _).mp hm
    simp only [Prod.mk.injEq] at heq
    obtain ⟨rfl, rfl, rfl⟩ := heq
    have hp := h.pos i (by rw [← h.zones]; exact hm.1) j hm.2
    have hs : Slot S i (target S.rel i j).toNat := ⟨hm.1, j, hm.2, by omega⟩
    obtain ⟨h1, _⟩ := h.data _ _ hs
    have hid : S.ids[(target S.rel i j).toNat]? = some (S.ids.getD (target S.rel i j).toNat 0) := by
      simp [List.getD, List.getElem?_eq_getElem h1]
    exact ⟨_, hs, hid, revGet_mem _ _ (h.known _ _ _ hs hid)⟩
  · rintro ⟨id, ⟨he, j, hj, ht⟩, hid, hm⟩
    refine ⟨(e, j), (mem_entries _ _ _).mpr ⟨he, hj⟩, ?_⟩
    simp only [ht, Int.toNat_natCast, List.getD, hid, Option.getD_some, revGet_eq h.nums hm]

/-- The double loop when it reads a value and the material id at each position. -/
theorem item_loop {S : Sbe α} {N : Nat} (h : SbeWF S N) (vals : List β) (hv : S.vals.length ≤ vals.length)
    (dflt : β) (g : σ → Nat → Str → β → Res σ) (m : σ) :
    (List.range N).foldlM (fun m (e : Nat) => do
      let s ← O2M.indexSize S.rel (e : Int)
      (List.range s.toNat).foldlM (fun m (k : Nat) => do
        let d ← O2M.indexIndex S.rel (e : Int) (k : Int)
        let v ← rd vals d
        let id ← rd S.ids d
        g m e (revGet S.matmap id) v) m) m =
    (items S).foldlM (fun m x => g m x.1 x.2.1 (vals.getD x.2.2 dflt)) m := by
  rw [double_loop h (fun m e d => do
        let v ← rd vals d
        let id ← rd S.ids d
        g m e (revGet S.matmap id) v)]
  unfold items
  rw [foldlM_map']
  apply foldlM_congr
  rintro s ⟨i, j⟩ hx
  have hx := (mem_entries _ _ _).mp hx
  have hp := h.pos i (by rw [← h.zones]; exact hx.1) j hx.2
  obtain ⟨t, ht⟩ := Int.eq_ofNat_of_zero_le hp
  have hs : Slot S i t := ⟨hx.1, j, hx.2, ht⟩
  obtain ⟨h1, h2⟩ := h.data _ _ hs
  simp only [ht]
  rw [O2M.rd_getD vals t dflt (by omega), O2M.rd_getD S.ids t 0 h1]
  rfl

end Conduit.Matset
