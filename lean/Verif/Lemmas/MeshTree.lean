import Verif.Spec.Mesh
/-
Trees: looking up children, the widest leaf type.
-/
namespace Conduit.Mesh
variable {F : Type}

theorem sameClass_trans {a b c : ETy} (h1 : sameClass a b = true) (h2 : sameClass b c = true) :
    sameClass a c = true := by
  cases a <;> cases b <;> cases c <;> simp_all [sameClass]

/-- A leaf type counts: its class is that of a default type. -/
def Counts (defs : List ETy) (t : ETy) : Prop := ∃ d ∈ defs, sameClass t d = true

theorem bytes_pos (t : ETy) : 0 < t.bytes := by
  rcases t with ⟨_, w⟩ | w | _
  · cases w <;> simp [ETy.bytes]
  · cases w <;> simp [ETy.bytes]
  · simp [ETy.bytes]

theorem widestLeaf_cases (defs : List ETy) (w : Option ETy) (t : ETy) :
    widestLeaf defs w t = w ∨ (widestLeaf defs w t = some t ∧ Counts defs t) := by
  induction defs generalizing w with
  | nil => left; rfl
  | cons d defs ih =>
    show widestLeaf defs (if sameClass t d && decide (widthOf w < t.bytes) then some t else w) t = w ∨
      (widestLeaf defs (if sameClass t d && decide (widthOf w < t.bytes) then some t else w) t = some t ∧ _)
    by_cases h : (sameClass t d && decide (widthOf w < t.bytes)) = true
    · rw [if_pos h]
      right
      refine ⟨?_, d, by simp, by simp at h; exact h.1⟩
      rcases ih (some t) with h1 | h1
      · exact h1
      · exact h1.1
    · rw [if_neg h]
      rcases ih w with h1 | ⟨h1, d', h2, h3⟩
      · exact .inl h1
      · exact .inr ⟨h1, d', by simp [h2], h3⟩

theorem widestLeaf_mono (defs : List ETy) (w : Option ETy) (t : ETy) :
    widthOf w ≤ widthOf (widestLeaf defs w t) := by
  induction defs generalizing w with
  | nil => exact Nat.le_refl _
  | cons d defs ih =>
    show widthOf w ≤ widthOf (widestLeaf defs (if sameClass t d && decide (widthOf w < t.bytes) then some t else w) t)
    refine Nat.le_trans ?_ (ih _)
    by_cases h : (sameClass t d && decide (widthOf w < t.bytes)) = true
    · rw [if_pos h]; simp at h; simp only [widthOf]; exact Nat.le_of_lt h.2
    · rw [if_neg h]; exact Nat.le_refl _

theorem widestLeaf_ge (defs : List ETy) (w : Option ETy) (t : ETy) (h : Counts defs t) :
    t.bytes ≤ widthOf (widestLeaf defs w t) := by
  obtain ⟨d, hd, hs⟩ := h
  induction defs generalizing w with
  | nil => simp at hd
  | cons e defs ih =>
    show t.bytes ≤ widthOf (widestLeaf defs (if sameClass t e && decide (widthOf w < t.bytes) then some t else w) t)
    rcases List.mem_cons.mp hd with rfl | hd
    · refine Nat.le_trans ?_ (widestLeaf_mono defs _ t)
      by_cases h : widthOf w < t.bytes
      · rw [if_pos (by simp [hs, h])]; exact Nat.le_refl _
      · simp [hs, h]; omega
    · exact ih _ hd

/-- A leaf below one of the nodes. -/
def BagLeaf (bag : List (BNode F)) (t : ETy) : Prop := ∃ n ∈ bag, HasLeaf n t

theorem bagLeaf_obj (ks : List (Str × BNode F)) (bag : List (BNode F)) (t : ETy) :
    BagLeaf ((childNodes ks).reverse ++ bag) t ↔ BagLeaf (.obj ks :: bag) t := by
  constructor
  · rintro ⟨n, hn, h⟩
    rcases List.mem_append.mp hn with hn | hn
    · rw [List.mem_reverse, childNodes, List.mem_map] at hn
      obtain ⟨⟨name, c⟩, hk, rfl⟩ := hn
      exact ⟨_, by simp, .obj ks name c t hk h⟩
    · exact ⟨n, by simp [hn], h⟩
  · rintro ⟨n, hn, h⟩
    rcases List.mem_cons.mp hn with rfl | hn
    · cases h with
      | leaf _ _ h => simp [BNode.ety] at h
      | obj _ name c _ hk h =>
        exact ⟨c, by simp [childNodes]; exact .inl ⟨name, hk⟩, h⟩
    · exact ⟨n, by simp [hn], h⟩

theorem bagLeaf_list (ks : List (BNode F)) (bag : List (BNode F)) (t : ETy) :
    BagLeaf (ks.reverse ++ bag) t ↔ BagLeaf (.list ks :: bag) t := by
  constructor
  · rintro ⟨n, hn, h⟩
    rcases List.mem_append.mp hn with hn | hn
    · exact ⟨_, by simp, .list ks n t (List.mem_reverse.mp hn) h⟩
    · exact ⟨n, by simp [hn], h⟩
  · rintro ⟨n, hn, h⟩
    rcases List.mem_cons.mp hn with rfl | hn
    · cases h with
      | leaf _ _ h => simp [BNode.ety] at h
      | list _ c _ hk h => exact ⟨c, by simp [hk], h⟩
    · exact ⟨n, by simp [hn], h⟩

theorem bagLeaf_leaf (n : BNode F) (u : ETy) (hu : n.ety = some u) (bag : List (BNode F)) (t : ETy) :
    BagLeaf (n :: bag) t ↔ t = u ∨ BagLeaf bag t := by
  constructor
  · rintro ⟨m, hm, h⟩
    rcases List.mem_cons.mp hm with rfl | hm
    · left
      cases h with
      | leaf _ _ h => rw [hu] at h; exact (Option.some.inj h).symm
      | obj => simp [BNode.ety] at hu
      | list => simp [BNode.ety] at hu
    · exact .inr ⟨m, hm, h⟩
  · rintro (rfl | ⟨m, hm, h⟩)
    · exact ⟨n, by simp, .leaf n t hu⟩
    · exact ⟨m, by simp [hm], h⟩

theorem bagLeaf_empty (bag : List (BNode F)) (t : ETy) : BagLeaf (.empty :: bag) t ↔ BagLeaf bag t := by
  constructor
  · rintro ⟨m, hm, h⟩
    rcases List.mem_cons.mp hm with rfl | hm
    · cases h with
      | leaf _ _ h => simp [BNode.ety] at h
    · exact ⟨m, hm, h⟩
  · rintro ⟨m, hm, h⟩; exact ⟨m, by simp [hm], h⟩

/-- What the loop gives: the start or a counting leaf type, and at least as wide as all of them. -/
structure WidestOf (defs : List ETy) (bag : List (BNode F)) (w r : Option ETy) : Prop where
  from_ : r = w ∨ ∃ t, r = some t ∧ BagLeaf bag t ∧ Counts defs t
  mono : widthOf w ≤ widthOf r
  ge : ∀ t, BagLeaf bag t → Counts defs t → t.bytes ≤ widthOf r

theorem widestOf_leaf (defs : List ETy) (n : BNode F) (u : ETy) (hu : n.ety = some u) (bag : List (BNode F))
    (w r : Option ETy) (h : WidestOf defs bag (widestLeaf defs w u) r) : WidestOf defs (n :: bag) w r := by
  refine ⟨?_, Nat.le_trans (widestLeaf_mono defs w u) h.mono, fun t ht hc => ?_⟩
  · rcases h.from_ with h1 | ⟨t, h1, h2, h3⟩
    · rcases widestLeaf_cases defs w u with h4 | ⟨h4, h5⟩
      · exact .inl (h1.trans h4)
      · exact .inr ⟨u, h1.trans h4, (bagLeaf_leaf n u hu bag u).mpr (.inl rfl), h5⟩
    · exact .inr ⟨t, h1, (bagLeaf_leaf n u hu bag t).mpr (.inr h2), h3⟩
  · rcases (bagLeaf_leaf n u hu bag t).mp ht with rfl | ht
    · exact Nat.le_trans (widestLeaf_ge defs w t hc) h.mono
    · exact h.ge t ht hc

theorem widestOf_congr (defs : List ETy) (b1 b2 : List (BNode F)) (hb : ∀ t, BagLeaf b1 t ↔ BagLeaf b2 t)
    (w r : Option ETy) (h : WidestOf defs b1 w r) : WidestOf defs b2 w r := by
  refine ⟨?_, h.mono, fun t ht => h.ge t ((hb t).mpr ht)⟩
  rcases h.from_ with h1 | ⟨t, h1, h2, h3⟩
  · exact .inl h1
  · exact .inr ⟨t, h1, (hb t).mp h2, h3⟩

theorem widestLoop_spec (defs : List ETy) (bag : List (BNode F)) (w : Option ETy) :
    WidestOf defs bag w (widestLoop defs bag w) := by
  induction bag, w using widestLoop.induct (defs := defs) with
  | case1 w =>
    rw [widestLoop]
    exact ⟨.inl rfl, Nat.le_refl _, fun t ⟨n, hn, _⟩ => by simp at hn⟩
  | case2 w ks bag ih => rw [widestLoop]; exact widestOf_congr _ _ _ (bagLeaf_obj ks bag) _ _ ih
  | case3 w ks bag ih => rw [widestLoop]; simp at ih; exact widestOf_congr _ _ _ (bagLeaf_list ks bag) _ _ ih
  | case4 w bag ih => rw [widestLoop]; exact widestOf_congr _ _ _ (fun t => (bagLeaf_empty bag t).symm) _ _ ih
  | case5 w t l bag ih => rw [widestLoop]; exact widestOf_leaf _ _ _ rfl _ _ _ ih
  | case6 w b l bag ih => rw [widestLoop]; exact widestOf_leaf _ _ _ rfl _ _ _ ih
  | case7 w s bag ih => rw [widestLoop]; exact widestOf_leaf _ _ _ rfl _ _ _ ih

/-! ### children -/

theorem get_obj_nodup (ks : List (Str × BNode F)) (i : Nat) (a : Str) (v : BNode F)
    (hn : (ks.map (·.1)).Nodup) (h : ks[i]? = some (a, v)) : (BNode.obj ks).get a = .ok v := by
  unfold BNode.get
  have : (BNode.obj ks).kids = ks := rfl
  rw [this]
  clear this
  induction ks generalizing i with
  | nil => simp at h
  | cons k ks ih =>
    cases i with
    | zero => simp at h; simp [h]
    | succ i =>
      simp only [List.getElem?_cons_succ] at h
      rw [List.map_cons, List.nodup_cons] at hn
      have hne : ¬ (k.1 == a) = true := by
        intro he
        have : k.1 = a := by simpa using he
        exact hn.1 (this ▸ List.mem_map.mpr ⟨_, List.mem_of_getElem? h, rfl⟩)
      rw [List.find?_cons_of_neg (by simpa using hne)]
      exact ih i hn.2 h

theorem hasLeaf_get (n : BNode F) (name : Str) (c : BNode F) (t : ETy) (h : n.get name = .ok c)
    (hc : HasLeaf c t) : HasLeaf n t := by
  unfold BNode.get at h
  cases hf : n.kids.find? (fun k => k.1 == name) with
  | none => rw [hf] at h; simp at h
  | some k =>
    rw [hf] at h
    have hk : k.2 = c := by simpa using h
    have hm := List.mem_of_find?_eq_some hf
    cases n with
    | obj ks => exact .obj ks k.1 c t (by rw [← hk]; exact hm) hc
    | _ => simp [BNode.kids] at hm

/-! ### loops over names -/

theorem forNames_ok {α β : Type} (f : Nat → α → Res β) (k : Nat) (as : List α) (bs : List β)
    (hl : as.length = bs.length)
    (h : ∀ (i : Nat) (a : α) (b : β), as[i]? = some a → bs[i]? = some b → f (k + i) a = .ok b) :
    forNames f k as = .ok bs := by
  induction as generalizing k bs with
  | nil => cases bs with
    | nil => rfl
    | cons => simp at hl
  | cons a as ih =>
    cases bs with
    | nil => simp at hl
    | cons b bs =>
      have h0 := h 0 a b (by simp) (by simp)
      simp only [Nat.add_zero] at h0
      have h1 := ih (k + 1) bs (by simpa using hl) (fun i a' b' ha hb => by
        have := h (i + 1) a' b' (by simpa using ha) (by simpa using hb)
        rwa [show k + (i + 1) = k + 1 + i by omega] at this)
      simp [forNames, h0, h1]

end Conduit.Mesh
