import Verif.Model.SchemaRaw
import Verif.Spec.Tree
import Verif.Lemmas.Str
namespace Conduit
open Spec

/-! ### paths -/
theorem segments_not_mem {c : Char} {s : Str} (h : c ∉ s) : segments c s = [s] := by
  induction s with
  | nil => rfl
  | cons a s ih =>
    simp only [List.mem_cons, not_or] at h
    rw [segments, if_neg (fun e => h.1 e.symm), ih h.2]; rfl

theorem segments_append {c : Char} {a b : Str} (h : c ∉ a) :
    segments c (a ++ c :: b) = a :: segments c b := by
  induction a with
  | nil => simp [segments]
  | cons x a ih =>
    simp only [List.mem_cons, not_or] at h
    rw [List.cons_append, segments, if_neg (fun e => h.1 e.symm), ih h.2]; rfl

theorem segments_ne_nil (c : Char) (s : Str) : segments c s ≠ [] := by
  cases s with
  | nil => simp [segments]
  | cons a s => rw [segments]; split <;> simp

theorem names_eq (p : Str) : Tree.names p =
    if (splitPath p).2 = [] then [(splitPath p).1] else (splitPath p).1 :: Tree.names (splitPath p).2 := by
  by_cases h : '/' ∈ p
  · obtain ⟨a, b, rfl, ha⟩ := exists_first h
    have hs : splitPath (a ++ '/' :: b) = (a, b) := by
      unfold splitPath; rw [splitString_append ha]
    rw [hs]
    unfold Tree.names
    rw [segments_append ha]
    by_cases hb : b = []
    · subst hb; simp [segments]
    · simp only [hb, if_false]
      have hne := segments_ne_nil '/' b
      obtain ⟨x, xs, hx⟩ := List.exists_cons_of_ne_nil hne
      rw [hx]
      cases xs with
      | nil =>
        have : x ≠ [] := by
          rintro rfl
          by_cases hm : '/' ∈ b
          · obtain ⟨u, v, rfl, hu⟩ := exists_first hm
            rw [segments_append hu] at hx
            have := segments_ne_nil '/' v
            simp_all
          · rw [segments_not_mem hm] at hx; simp_all
        simp [this]
      | cons y ys =>
        simp only [List.length_cons, List.getLast?_cons_cons, List.dropLast_cons_cons]
        split <;> simp_all
  · have hs : splitPath p = (p, []) := splitString_not_mem h
    rw [hs]; simp [Tree.names, segments_not_mem h]

namespace RSchema

/-! ### the name table -/
theorem mfind_merase (k j : Str) (m : List (Str × Int)) :
    mfind k (merase j m) = if k = j then none else mfind k m := by
  unfold mfind merase
  induction m with
  | nil => simp
  | cons e m ih =>
    obtain ⟨a, v⟩ := e
    by_cases haj : a = j
    · subst haj
      simp only [List.filter_cons, bne_self_eq_false, Bool.false_eq_true, if_false, ih, List.lookup_cons]
      by_cases hk : k = a
      · simp [hk]
      · have : (k == a) = false := by simpa using hk
        simp [hk, this]
    · have : (a != j) = true := by simpa using haj
      simp only [List.filter_cons, this, if_true, List.lookup_cons, ih]
      by_cases hk : k = a
      · subst hk; simp [haj]
      · have : (k == a) = false := by simpa using hk
        simp [this]

theorem mfind_mset (k j : Str) (v : Int) (m : List (Str × Int)) :
    mfind k (mset j v m) = if k = j then some v else mfind k m := by
  by_cases h : k = j
  · subst h; simp [mset, mfind, List.lookup_cons]
  · have h' : (k == j) = false := by simpa using h
    have := mfind_merase k j m
    rw [if_neg h] at this
    rw [if_neg h, ← this, mset]
    unfold mfind
    rw [List.lookup_cons, h']

theorem mfind_decr (k : Str) : ∀ (l : List Str) (m : List (Str × Int)), l.Nodup →
    mfind k (l.foldl mdecr m) = if k ∈ l then some ((mfind k m).getD 0 - 1) else mfind k m
  | [], m, _ => by simp
  | a :: l, m, h => by
    rw [List.nodup_cons] at h
    rw [List.foldl_cons, mfind_decr k l _ h.2]
    unfold mdecr
    rw [mfind_mset]
    by_cases hk : k = a
    · subst hk; simp [h.1]
    · simp [hk]

/-- name table, order vector and number of children agree -/
def ObjOK (m : List (Str × Int)) (o : List Str) (n : Nat) : Prop :=
  o.length = n ∧ o.Nodup ∧ ∀ k i, mfind k m = some i ↔ 0 ≤ i ∧ o[i.toNat]? = some k

mutual
/-- every object of the tree has consistent tables -/
def WF : RSchema → Prop
  | .leaf d => d.id ≠ .object ∧ d.id ≠ .list
  | .object m o c => ObjOK m o c.length ∧ WFs c
  | .list c => WFs c
def WFs : List RSchema → Prop
  | [] => True
  | x :: xs => WF x ∧ WFs xs
end

mutual
/-- forget the tables -/
def abs : RSchema → Tree
  | .leaf d => .leaf d
  | .object _ o c => .obj (o.zip (abss c))
  | .list c => .lst (abss c)
def abss : List RSchema → List Tree
  | [] => []
  | x :: xs => abs x :: abss xs
end

theorem abss_eq (c : List RSchema) : abss c = c.map abs := by
  induction c with
  | nil => rfl
  | cons x xs ih => simp [abss, ih]

theorem WFs_iff (c : List RSchema) : WFs c ↔ ∀ x ∈ c, WF x := by
  induction c with
  | nil => simp [WFs]
  | cons x xs ih => simp [WFs, ih]

theorem ObjOK.find {m o n} (h : ObjOK m o n) (k : Str) :
    mfind k m = (o.findIdx? (· == k)).map (fun i : Nat => (i : Int)) := by
  obtain ⟨_, hnd, hf⟩ := h
  cases hx : o.findIdx? (· == k) with
  | none =>
    have := List.findIdx?_eq_none_iff.1 hx
    cases hm : mfind k m with
    | none => rfl
    | some i =>
      obtain ⟨_, hi⟩ := (hf k i).1 hm
      have := this k (List.mem_of_getElem? hi)
      simp at this
  | some i =>
    obtain ⟨hl, h1, _⟩ := List.findIdx?_eq_some_iff_getElem.1 hx
    apply (hf k i).2
    simp only [beq_iff_eq] at h1
    simp [h1, hl]

theorem ObjOK.isSome {m o n} (h : ObjOK m o n) (k : Str) : (mfind k m).isSome = decide (k ∈ o) := by
  rw [h.find]
  by_cases hk : k ∈ o
  · have : o.findIdx? (· == k) ≠ none := by
      rw [Ne, List.findIdx?_eq_none_iff]; intro hh; have := hh k hk; simp at this
    obtain ⟨i, hi⟩ := Option.ne_none_iff_exists'.1 this
    simp [hi, hk]
  · have : o.findIdx? (· == k) = none := by
      rw [List.findIdx?_eq_none_iff]; intro x hx; simp; rintro rfl; exact hk hx
    simp [this, hk]

theorem ObjOK.nil : ObjOK [] [] 0 := by
  refine ⟨rfl, List.nodup_nil, fun k i => ?_⟩
  simp [mfind]

theorem ObjOK.push {m o n} (h : ObjOK m o n) (k : Str) (hk : k ∉ o) :
    ObjOK (mset k n m) (o ++ [k]) (n + 1) := by
  obtain ⟨hl, hnd, hf⟩ := h
  refine ⟨by simp [hl], ?_, fun j i => ?_⟩
  · rw [List.nodup_append]; refine ⟨hnd, by simp, ?_⟩
    intro a ha b hb; simp at hb; subst hb; rintro rfl; exact hk ha
  · rw [mfind_mset]
    by_cases hj : j = k
    · subst hj
      simp only [if_true, Option.some.injEq]
      constructor
      · rintro rfl; refine ⟨by omega, ?_⟩; simp [hl]
      · rintro ⟨h0, hi⟩
        by_cases hlt : i.toNat < o.length
        · rw [List.getElem?_append_left hlt] at hi
          exact absurd (List.mem_of_getElem? hi) hk
        · have : i.toNat = o.length := by
            have := (List.getElem?_eq_some_iff.1 hi).1; simp at this; omega
          omega
    · rw [if_neg hj, hf]
      constructor
      · rintro ⟨h0, hi⟩; refine ⟨h0, ?_⟩
        rw [List.getElem?_append_left (List.getElem?_eq_some_iff.1 hi).1]; exact hi
      · rintro ⟨h0, hi⟩; refine ⟨h0, ?_⟩
        by_cases hlt : i.toNat < o.length
        · rwa [List.getElem?_append_left hlt] at hi
        · have : i.toNat = o.length := by
            have := (List.getElem?_eq_some_iff.1 hi).1; simp at this; omega
          rw [this] at hi; simp at hi; exact absurd hi.symm hj

theorem getElem?_inj_nodup {o : List Str} (h : o.Nodup) {i j : Nat} {k : Str}
    (hi : o[i]? = some k) (hj : o[j]? = some k) : i = j :=
  (List.getElem?_inj (List.getElem?_eq_some_iff.1 hi).1 h).1 (hi.trans hj.symm)

theorem ObjOK.removeAt {m o n} (h : ObjOK m o n) (idx : Nat) (k : Str) (hk : o[idx]? = some k) :
    ObjOK (merase k ((o.drop idx).foldl mdecr m)) (o.eraseIdx idx) (n - 1) := by
  obtain ⟨hl, hnd, hf⟩ := h
  have hlt := (List.getElem?_eq_some_iff.1 hk).1
  refine ⟨by rw [List.length_eraseIdx, if_pos hlt, hl], ?_, fun j i => ?_⟩
  · exact hnd.sublist (List.eraseIdx_sublist _ _)
  · rw [mfind_merase, mfind_decr _ _ _ (hnd.sublist (List.drop_sublist _ _)), List.getElem?_eraseIdx]
    by_cases hj : j = k
    · subst hj
      simp only [if_true, reduceCtorEq, false_iff, not_and]
      intro h0
      split
      · intro hh; have := getElem?_inj_nodup hnd hh hk; omega
      · intro hh; have := getElem?_inj_nodup hnd hh hk; omega
    · rw [if_neg hj]
      by_cases hm : j ∈ o
      · obtain ⟨q, hq⟩ := List.getElem?_of_mem hm
        have hfq : mfind j m = some (q : Int) := (hf j q).2 ⟨by omega, by simpa using hq⟩
        have hqi : q ≠ idx := by rintro rfl; rw [hq] at hk; exact hj (by simpa using hk)
        rw [hfq]
        by_cases hd : j ∈ o.drop idx
        · have hge : idx ≤ q := by
            obtain ⟨r, hr⟩ := List.getElem?_of_mem hd
            rw [List.getElem?_drop] at hr
            have := getElem?_inj_nodup hnd hr hq; omega
          simp only [hd, if_true, Option.getD_some, Option.some.injEq]
          constructor
          · rintro rfl
            refine ⟨by omega, ?_⟩
            rw [if_neg (by omega)]
            rw [← hq]; congr 1; omega
          · rintro ⟨h0, hh⟩
            split at hh
            · have := getElem?_inj_nodup hnd hh hq; omega
            · have := getElem?_inj_nodup hnd hh hq; omega
        · have hltq : q < idx := by
            apply Classical.byContradiction; intro hge
            apply hd
            apply List.mem_of_getElem? (i := q - idx)
            rw [List.getElem?_drop, ← hq]; congr 1; omega
          simp only [hd, if_false, Option.some.injEq]
          constructor
          · rintro rfl
            refine ⟨by omega, ?_⟩
            rw [if_pos (by omega)]; simpa using hq
          · rintro ⟨h0, hh⟩
            split at hh
            · have := getElem?_inj_nodup hnd hh hq; omega
            · have := getElem?_inj_nodup hnd hh hq; omega
      · have hd : j ∉ o.drop idx := fun hh => hm (List.mem_of_mem_drop hh)
        rw [if_neg hd, hf]
        constructor
        · rintro ⟨_, hh⟩; exact absurd (List.mem_of_getElem? hh) hm
        · rintro ⟨_, hh⟩; exfalso; apply hm
          split at hh <;> exact List.mem_of_getElem? hh

theorem ObjOK.rename {m o n} (h : ObjOK m o n) (cur new : Str) (idx : Nat)
    (hc : o[idx]? = some cur) (hn : new ∉ o) :
    ObjOK (mset new idx (merase cur m)) (o.set idx new) n := by
  obtain ⟨hl, hnd, hf⟩ := h
  have hlt := (List.getElem?_eq_some_iff.1 hc).1
  refine ⟨by simp [hl], ?_, fun j i => ?_⟩
  · rw [List.Nodup, List.pairwise_iff_getElem]
    intro a b ha hb hab
    simp only [List.length_set] at ha hb
    have hne := (List.pairwise_iff_getElem.1 hnd) a b ha hb hab
    rw [List.getElem_set, List.getElem_set]
    by_cases hai : idx = a
    · rw [if_pos hai, if_neg (by omega)]
      intro hh; exact hn (by rw [hh]; exact List.getElem_mem _)
    · rw [if_neg hai]
      by_cases hb' : idx = b
      · rw [if_pos hb']
        intro hh; exact hn (hh ▸ List.getElem_mem _)
      · rw [if_neg hb']; exact hne
  · rw [mfind_mset, mfind_merase, List.getElem?_set]
    by_cases hj : j = new
    · subst hj
      simp only [if_true, Option.some.injEq]
      constructor
      · rintro rfl; simp [hlt]
      · rintro ⟨h0, hh⟩
        split at hh
        · omega
        · exact absurd (List.mem_of_getElem? hh) hn
    · rw [if_neg hj]
      by_cases hjc : j = cur
      · subst hjc
        simp only [if_true, reduceCtorEq, false_iff, not_and]
        intro h0
        split
        · simp [hlt]; exact fun e => hj e.symm
        · intro hh; have := getElem?_inj_nodup hnd hh hc; omega
      · rw [if_neg hjc, hf]
        constructor
        · rintro ⟨h0, hh⟩
          refine ⟨h0, ?_⟩
          rw [if_neg ?_]; exact hh
          rintro rfl; rw [hh] at hc; exact hjc (by simpa using hc)
        · rintro ⟨h0, hh⟩
          refine ⟨h0, ?_⟩
          split at hh
          · simp [hlt] at hh; exact absurd hh.symm hj
          · exact hh

end RSchema
end Conduit
