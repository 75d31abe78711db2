import Verif.Model.Adjset
import Verif.Lemmas.Matset
import Verif.Lemmas.JsonParse
/-
Adjacency sets: containers, sorting, canonical names.
-/
namespace Conduit.Mesh
variable {F κ β γ : Type}

/-! ### strict total orders -/

/-- A strict total order. -/
structure StrictTot (lt : κ → κ → Bool) : Prop where
  irrefl : ∀ a, lt a a = false
  trans : ∀ {a b c}, lt a b = true → lt b c = true → lt a c = true
  total : ∀ {a b}, a ≠ b → lt a b = false → lt b a = true

theorem strictTot_str : StrictTot Matset.strLt :=
  ⟨Matset.strLt_irrefl, Matset.strLt_trans, Matset.strLt_total⟩

theorem strictTot_int : StrictTot intLt where
  irrefl a := by simp [intLt]
  trans h1 h2 := by simp only [intLt, decide_eq_true_eq] at *; omega
  total h1 h2 := by simp only [intLt, decide_eq_true_eq, decide_eq_false_iff_not] at *; omega

theorem setLt_trans : ∀ {a b c : List Int}, setLt a b = true → setLt b c = true → setLt a c = true
  | _, [], _, h, _ => by simp [setLt] at h
  | _, _ :: _, [], _, h => by simp [setLt] at h
  | [], _ :: _, _ :: _, _, _ => by simp [setLt]
  | a :: as, b :: bs, c :: cs, h1, h2 => by
    simp only [setLt] at *
    by_cases hab : a < b
    · by_cases hbc : b < c
      · rw [if_pos (by omega)]
      · by_cases hcb : c < b
        · rw [if_neg hbc, if_pos hcb] at h2; simp at h2
        · rw [if_pos (by omega)]
    · by_cases hba : b < a
      · rw [if_neg hab, if_pos hba] at h1; simp at h1
      · rw [if_neg hab, if_neg hba] at h1
        by_cases hbc : b < c
        · rw [if_pos (by omega)]
        · by_cases hcb : c < b
          · rw [if_neg hbc, if_pos hcb] at h2; simp at h2
          · rw [if_neg hbc, if_neg hcb] at h2
            rw [if_neg (by omega), if_neg (by omega)]
            exact setLt_trans h1 h2

theorem setLt_total : ∀ {a b : List Int}, a ≠ b → setLt a b = false → setLt b a = true
  | [], [], h, _ => absurd rfl h
  | [], _ :: _, _, h => by simp [setLt] at h
  | _ :: _, [], _, _ => by simp [setLt]
  | a :: as, b :: bs, hne, h => by
    simp only [setLt] at *
    by_cases hab : a < b
    · rw [if_pos hab] at h; simp at h
    · rw [if_neg hab] at h
      by_cases hba : b < a
      · rw [if_pos hba]
      · rw [if_neg hba] at h
        rw [if_neg hba, if_neg hab]
        have he : a = b := by omega
        subst he
        exact setLt_total (fun e => hne (by rw [e])) h

theorem strictTot_set : StrictTot setLt where
  irrefl a := by
    induction a with
    | nil => rfl
    | cons x a ih => simp [setLt, ih]
  trans := setLt_trans
  total := setLt_total

/-! ### sorting -/

theorem insertBy_perm (lt : κ → κ → Bool) (a : κ) (l : List κ) : (insertBy lt a l).Perm (a :: l) := by
  induction l with
  | nil => exact .refl _
  | cons b l ih =>
    simp only [insertBy]
    split
    · exact (ih.cons b).trans (.swap a b l)
    · exact .refl _

theorem sortBy_perm (lt : κ → κ → Bool) (l : List κ) : (sortBy lt l).Perm l := by
  induction l with
  | nil => exact .refl _
  | cons a l ih => exact (insertBy_perm lt a _).trans (ih.cons a)

theorem insertBy_sorted {lt : κ → κ → Bool} (h : StrictTot lt) (a : κ) (l : List κ)
    (hl : l.Pairwise fun x y => lt y x = false) : (insertBy lt a l).Pairwise fun x y => lt y x = false := by
  induction l with
  | nil => simp [insertBy]
  | cons b l ih =>
    rw [List.pairwise_cons] at hl
    simp only [insertBy]
    split
    · rename_i hb
      rw [List.pairwise_cons]
      refine ⟨fun y hy => ?_, ih hl.2⟩
      rcases List.mem_cons.mp ((insertBy_perm lt a l).mem_iff.mp hy) with rfl | hy
      · cases hc : lt y b with
        | false => rfl
        | true => have := h.trans hb hc; rw [h.irrefl] at this; simp at this
      · exact hl.1 y hy
    · rename_i hb
      have hb : lt b a = false := by simpa using hb
      rw [List.pairwise_cons]
      refine ⟨fun y hy => ?_, List.pairwise_cons.mpr hl⟩
      rcases List.mem_cons.mp hy with rfl | hy
      · exact hb
      · cases hc : lt y a with
        | false => rfl
        | true =>
          exfalso
          have hyb := hl.1 y hy
          by_cases he : y = b
          · subst he; rw [hb] at hc; simp at hc
          · have := h.trans (h.total he hyb) hc
            rw [hb] at this; simp at this

theorem sortBy_sorted {lt : κ → κ → Bool} (h : StrictTot lt) (l : List κ) :
    (sortBy lt l).Pairwise fun x y => lt y x = false := by
  induction l with
  | nil => simp [sortBy]
  | cons a l ih => exact insertBy_sorted h a _ ih

theorem sortBy_congr {lt : κ → κ → Bool} (h : StrictTot lt) (l m : List κ) (hp : l.Perm m) : sortBy lt l = sortBy lt m := by
  refine List.Perm.eq_of_pairwise ?_ (sortBy_sorted h l) (sortBy_sorted h m)
    (((sortBy_perm lt l).trans hp).trans (sortBy_perm lt m).symm)
  intro a b _ _ h1 h2
  by_cases he : a = b
  · exact he
  · have := h.total he h2; rw [h1] at this; simp at this

theorem insertBy_map (lt : κ → κ → Bool) (f : γ → κ) (a : γ) (l : List γ) :
    insertBy lt (f a) (l.map f) = (insertBy (fun x y => lt (f x) (f y)) a l).map f := by
  induction l with
  | nil => rfl
  | cons b l ih =>
    simp only [insertBy, List.map_cons]
    split
    · rw [ih, List.map_cons]
    · rfl

theorem sortBy_map (lt : κ → κ → Bool) (f : γ → κ) (l : List γ) :
    sortBy lt (l.map f) = (sortBy (fun x y => lt (f x) (f y)) l).map f := by
  induction l with
  | nil => rfl
  | cons a l ih => simp only [List.map_cons, sortBy, List.foldr_cons] at ih ⊢; rw [ih, insertBy_map]

/-! ### sets -/

theorem mem_setInsert (x : Int) (s : List Int) (y : Int) : y ∈ setInsert x s ↔ y = x ∨ y ∈ s := by
  induction s with
  | nil => simp [setInsert]
  | cons z s ih =>
    simp only [setInsert]
    split
    · rename_i h; subst h; simp
    · split
      · simp
      · simp only [List.mem_cons, ih]
        constructor
        · rintro (h | h | h) <;> simp [h]
        · rintro (h | h | h) <;> simp [h]

theorem setInsert_sorted (x : Int) (s : List Int) (h : s.Pairwise (· < ·)) : (setInsert x s).Pairwise (· < ·) := by
  induction s with
  | nil => simp [setInsert]
  | cons z s ih =>
    rw [List.pairwise_cons] at h
    simp only [setInsert]
    split
    · exact List.pairwise_cons.mpr h
    · split
      · rename_i h1 h2
        refine List.pairwise_cons.mpr ⟨fun y hy => ?_, List.pairwise_cons.mpr h⟩
        rcases List.mem_cons.mp hy with rfl | hy
        · exact h2
        · have := h.1 y hy; omega
      · rename_i h1 h2
        refine List.pairwise_cons.mpr ⟨fun y hy => ?_, ih h.2⟩
        rcases (mem_setInsert x s y).mp hy with rfl | hy
        · omega
        · exact h.1 y hy

theorem sorted_ext (s t : List Int) (hs : s.Pairwise (· < ·)) (ht : t.Pairwise (· < ·)) (h : ∀ x, x ∈ s ↔ x ∈ t) : s = t := by
  induction s generalizing t with
  | nil =>
    cases t with
    | nil => rfl
    | cons y t => exact absurd ((h y).mpr (by simp)) (by simp)
  | cons x s ih =>
    cases t with
    | nil => exact absurd ((h x).mp (by simp)) (by simp)
    | cons y t =>
      rw [List.pairwise_cons] at hs ht
      have hxy : x = y := by
        rcases List.mem_cons.mp ((h x).mp (by simp)) with e | e
        · exact e
        · rcases List.mem_cons.mp ((h y).mpr (by simp)) with e' | e'
          · exact e'.symm
          · have := ht.1 x e; have := hs.1 y e'; omega
      subst hxy
      congr 1
      refine ih t hs.2 ht.2 fun z => ?_
      constructor
      · intro hz
        rcases List.mem_cons.mp ((h z).mp (by simp [hz])) with e | e
        · have := hs.1 z hz; omega
        · exact e
      · intro hz
        rcases List.mem_cons.mp ((h z).mpr (by simp [hz])) with e | e
        · have := ht.1 z hz; omega
        · exact e

/-! ### maps -/

/-- Keys ascending. -/
def KSorted (lt : κ → κ → Bool) (m : List (κ × β)) : Prop := m.Pairwise fun a b => lt a.1 b.1 = true

theorem mapMod_keys [DecidableEq κ] (lt : κ → κ → Bool) (k : κ) (d : β) (f : β → β) (m : List (κ × β)) (x : κ) :
    x ∈ (mapMod lt k d f m).map (·.1) ↔ x = k ∨ x ∈ m.map (·.1) := by
  induction m with
  | nil => simp [mapMod]
  | cons e m ih =>
    obtain ⟨k', v⟩ := e
    simp only [mapMod]
    split
    · rename_i h; subst h; simp
    · split
      · simp
      · simp only [List.map_cons, List.mem_cons, ih]
        constructor
        · rintro (h | h | h) <;> simp [h]
        · rintro (h | h | h) <;> simp [h]

theorem mapMod_sorted [DecidableEq κ] {lt : κ → κ → Bool} (h : StrictTot lt) (k : κ) (d : β) (f : β → β) (m : List (κ × β))
    (hm : KSorted lt m) : KSorted lt (mapMod lt k d f m) := by
  induction m with
  | nil => simp [mapMod, KSorted]
  | cons e m ih =>
    obtain ⟨k', v⟩ := e
    unfold KSorted at hm ⊢
    rw [List.pairwise_cons] at hm
    simp only [mapMod]
    split
    · exact List.pairwise_cons.mpr hm
    · rename_i hne
      split
      · rename_i hlt
        refine List.pairwise_cons.mpr ⟨fun y hy => ?_, List.pairwise_cons.mpr hm⟩
        rcases List.mem_cons.mp hy with rfl | hy
        · exact hlt
        · exact h.trans hlt (hm.1 y hy)
      · rename_i hlt
        refine List.pairwise_cons.mpr ⟨fun y hy => ?_, ih hm.2⟩
        rcases (mapMod_keys lt k d f m y.1).mp (List.mem_map_of_mem hy) with e | e
        · rw [e]; exact h.total hne (by simpa using hlt)
        · obtain ⟨z, hz, hzy⟩ := List.mem_map.mp e
          rw [← hzy]; exact hm.1 z hz

theorem mapGet_none_of [DecidableEq κ] (m : List (κ × β)) (k : κ) (h : ∀ e ∈ m, e.1 ≠ k) : mapGet m k = none := by
  rw [mapGet, List.find?_eq_none.mpr (fun e he => by simpa using h e he)]; rfl

theorem mapGet_cons [DecidableEq κ] (e : κ × β) (m : List (κ × β)) (k : κ) :
    mapGet (e :: m) k = if e.1 = k then some e.2 else mapGet m k := by
  unfold mapGet
  rw [List.find?_cons]
  by_cases h : e.1 = k <;> simp [h]

theorem mapGet_mod [DecidableEq κ] {lt : κ → κ → Bool} (h : StrictTot lt) (k : κ) (d : β) (f : β → β) (m : List (κ × β))
    (hm : KSorted lt m) (x : κ) :
    mapGet (mapMod lt k d f m) x = if k = x then some (f ((mapGet m k).getD d)) else mapGet m x := by
  induction m with
  | nil => simp [mapMod, mapGet_cons, mapGet]
  | cons e m ih =>
    obtain ⟨k', v⟩ := e
    unfold KSorted at hm
    rw [List.pairwise_cons] at hm
    simp only [mapMod]
    split
    · rename_i he
      subst he
      simp only [mapGet_cons, if_pos, Option.getD_some]
      split <;> rfl
    · rename_i hne
      split
      · rename_i hlt
        have hn : mapGet ((k', v) :: m) k = none := by
          apply mapGet_none_of
          intro y hy he
          rcases List.mem_cons.mp hy with rfl | hy
          · exact hne he.symm
          · have := h.trans hlt (hm.1 y hy)
            rw [he, h.irrefl] at this; simp at this
        rw [mapGet_cons, hn]
        simp
      · rw [mapGet_cons, ih hm.2, mapGet_cons, mapGet_cons]
        simp only [if_neg (Ne.symm hne)]
        by_cases hx : k' = x
        · have : k ≠ x := by rw [← hx]; exact hne
          simp [hx, this]
        · simp [hx]

theorem mem_iff_mapGet [DecidableEq κ] {lt : κ → κ → Bool} (h : StrictTot lt) (m : List (κ × β)) (hm : KSorted lt m) (e : κ × β) :
    e ∈ m ↔ mapGet m e.1 = some e.2 := by
  induction m with
  | nil => simp [mapGet]
  | cons y m ih =>
    unfold KSorted at hm
    rw [List.pairwise_cons] at hm
    rw [mapGet_cons, List.mem_cons, ih hm.2]
    split
    · rename_i he
      constructor
      · rintro (rfl | hm')
        · rfl
        · have := hm.1 e ((ih hm.2).mpr hm')
          rw [he, h.irrefl] at this; simp at this
      · intro h2
        exact .inl (by obtain ⟨a, b⟩ := e; obtain ⟨c, d⟩ := y; simp at he h2; rw [he, h2])
    · rename_i he
      constructor
      · rintro (rfl | hm')
        · exact absurd rfl he
        · exact hm'
      · exact .inr

theorem ksorted_nodup {lt : κ → κ → Bool} (h : StrictTot lt) (m : List (κ × β)) (hm : KSorted lt m) : (m.map (·.1)).Nodup := by
  rw [List.nodup_iff_pairwise_ne, List.pairwise_map]
  exact hm.imp fun {a b} hab he => by rw [he, h.irrefl] at hab; simp at hab

/-! ### canonical names -/

theorem intText_chars (i : Int) (c : Char) (h : c ∈ intText i) : c ≠ '_' ∧ c ≠ '\x00' := by
  unfold intText at h
  have hd : ∀ n : Nat, c ∈ Nat.toDigits 10 n → c ≠ '_' ∧ c ≠ '\x00' := by
    intro n hc
    have := Conduit.isDigit_toDigits hc
    constructor <;> (rintro rfl; revert this; decide)
  split at h
  · rcases List.mem_cons.mp h with rfl | h
    · decide
    · exact hd _ h
  · exact hd _ h

theorem splitVecLoop_token (sep : Char) (acc tok rest : Str) (h : ∀ c ∈ tok, c ≠ sep ∧ c ≠ '\x00') :
    splitVecLoop sep acc (tok ++ rest) = splitVecLoop sep (tok.reverse ++ acc) rest := by
  induction tok generalizing acc with
  | nil => rfl
  | cons c tok ih =>
    have hc := h c (by simp)
    rw [List.cons_append, splitVecLoop, if_neg hc.2, if_neg hc.1, ih _ (fun c hc => h c (by simp [hc]))]
    simp

theorem splitVecLoop_tokens (l : List Int) (acc : Str) (ha : acc ≠ []) :
    splitVecLoop '_' acc (l.flatMap fun d => '_' :: intText d) = acc.reverse :: l.map intText := by
  induction l generalizing acc with
  | nil => simp [splitVecLoop, List.length_pos_iff.mpr ha]
  | cons d l ih =>
    rw [List.flatMap_cons, List.cons_append, splitVecLoop, if_neg (by decide), if_pos rfl,
      if_pos (List.length_pos_iff.mpr ha), splitVecLoop_token _ _ _ _ (intText_chars d), List.append_nil, ih]
    · simp
    · obtain ⟨c, r, h, _⟩ := Conduit.intText_head d
      rw [h]; simp

theorem splitVec_canonical (dom : Int) (nb : List Int) :
    splitVec (canonicalName dom nb) '_' = chars! "group" :: (sortBy intLt (dom :: nb)).map intText := by
  unfold splitVec canonicalName
  rw [splitVecLoop_token _ _ _ _ (by decide), splitVecLoop_tokens _ _ (by decide)]
  rfl

theorem atoi_intText (i : Int) : atoi (intText i) = i := by
  have hv : ∀ n, JV.digitsVal (Nat.toDigits 10 n) = n := fun n => Nat.ofDigitChars_ten_toDigits
  have ht : ∀ n, (Nat.toDigits 10 n).takeWhile Char.isDigit = Nat.toDigits 10 n := by
    intro n
    have := Conduit.takeWhile_digits' (Nat.toDigits 10 n) [] (fun _ => Conduit.isDigit_toDigits) (by simp)
    simpa using this
  unfold intText
  split
  · rename_i h
    simp only [atoi, ht, hv]
    omega
  · rename_i h
    obtain ⟨c, r, hc, hc1, _⟩ := Conduit.digit_head i.toNat
    have h1 : c ≠ '-' := by rintro rfl; revert hc1; decide
    have h2 : c ≠ '+' := by rintro rfl; revert hc1; decide
    have : atoi (Nat.toDigits 10 i.toNat) = (JV.digitsVal ((Nat.toDigits 10 i.toNat).takeWhile Char.isDigit) : Int) := by
      rw [hc]
      unfold atoi
      split
      · rename_i he; simp at he; exact absurd he.1 h1
      · rename_i he; simp at he; exact absurd he.1 h2
      · rfl
    rw [this, ht, hv]
    omega

theorem canonicalName_inj (dom : Int) (a b : List Int) (h : canonicalName dom a = canonicalName dom b) : a.Perm b := by
  have h1 := congrArg (fun s => (splitVec s '_').tail.map atoi) h
  simp only [splitVec_canonical, List.tail_cons, List.map_map] at h1
  have hid : (atoi ∘ intText) = id := by funext i; exact atoi_intText i
  rw [hid, List.map_id, List.map_id] at h1
  have hp := (sortBy_perm intLt (dom :: a)).symm.trans (h1 ▸ sortBy_perm intLt (dom :: b))
  exact (List.perm_cons dom).mp hp

theorem canonicalName_congr (d e : Int) (a b : List Int) (h : (d :: a).Perm (e :: b)) : canonicalName d a = canonicalName e b := by
  unfold canonicalName
  rw [sortBy_congr strictTot_int _ _ h]

theorem canonicalName_ne_intText (dom : Int) (nb : List Int) (i : Int) : canonicalName dom nb ≠ intText i := by
  intro h
  obtain ⟨c, r, hc, hh⟩ := Conduit.intText_head i
  rw [hc] at h
  have : c = 'g' := by
    have := congrArg List.head? h
    simpa [canonicalName] using this.symm
  subst this
  revert hh; decide

theorem ascending_iff (l : List Int) : ascending l = true ↔ l.Pairwise (· < ·) := by
  induction l with
  | nil => simp [ascending]
  | cons a l ih =>
    cases l with
    | nil => simp [ascending]
    | cons b l =>
      simp only [ascending, Bool.and_eq_true, decide_eq_true_eq, ih]
      rw [List.pairwise_cons (a := a)]
      constructor
      · rintro ⟨h1, h2⟩
        refine ⟨fun y hy => ?_, h2⟩
        rcases List.mem_cons.mp hy with rfl | hy
        · exact h1
        · have := (List.pairwise_cons.mp h2).1 y hy; omega
      · rintro ⟨h1, h2⟩
        exact ⟨h1 b (by simp), h2⟩

theorem isPrefixOf_append (a b : Str) : a.isPrefixOf (a ++ b) = true := by
  rw [List.isPrefixOf_iff_prefix]; exact List.prefix_append a b

/-- The name of a group is a canonical one if it has a neighbor, and neighbors and domain are distinct. -/
theorem canonicalOk_name (dom : Int) (nb : List Int) :
    canonicalOk (canonicalName dom nb) = true ↔ nb ≠ [] ∧ (dom :: nb).Nodup := by
  have hp : (chars! "group").isPrefixOf (canonicalName dom nb) = true := isPrefixOf_append _ _
  unfold canonicalOk
  rw [if_pos hp]
  simp only [splitVec_canonical, List.tail_cons, List.map_map, Bool.and_eq_true, decide_eq_true_eq]
  have hid : (atoi ∘ intText) = id := by funext i; exact atoi_intText i
  rw [hid, List.map_id, ascending_iff]
  have hl := (sortBy_perm intLt (dom :: nb)).length_eq
  simp only [List.length_cons, List.length_map, hl]
  have hs := sortBy_sorted strictTot_int (dom :: nb)
  have hn := (sortBy_perm intLt (dom :: nb)).nodup_iff
  constructor
  · rintro ⟨h1, h2⟩
    refine ⟨by intro h; subst h; simp at h1, hn.mp ?_⟩
    rw [List.nodup_iff_pairwise_ne]
    exact h2.imp fun h => by omega
  · rintro ⟨h1, h2⟩
    refine ⟨by have := List.length_pos_iff.mpr h1; omega, ?_⟩
    have h3 := hn.mpr h2
    rw [List.nodup_iff_pairwise_ne] at h3
    refine (List.pairwise_and_iff.mpr ⟨hs, h3⟩).imp ?_
    rintro a b ⟨h4, h5⟩
    simp only [intLt, decide_eq_false_iff_not] at h4
    omega

end Conduit.Mesh
