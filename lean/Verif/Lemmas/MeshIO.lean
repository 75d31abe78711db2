import Verif.Spec.MeshIO
import Verif.Lemmas.MeshIndex7
import Verif.Lemmas.Str
/-
Paths in a tree (C88).
-/
namespace Conduit.MeshIO
open Conduit.Mesh

section
variable {F : Type}

/-- The node below `n` by these names. -/
def down : BNode F → List Str → Res (BNode F)
  | n, [] => .ok n
  | n, s :: ss => match n.get s with
    | .ok c => down c ss
    | _ => .error

/-- The path of these names. -/
def slash : List Str → Str
  | [] => []
  | [s] => s
  | s :: t :: r => s ++ '/' :: slash (t :: r)

theorem slash_cons {s : Str} {r : List Str} (h : r ≠ []) : slash (s :: r) = s ++ '/' :: slash r := by
  cases r with
  | nil => exact absurd rfl h
  | cons t r => rfl

theorem slash_ne {l : List Str} (h : l ≠ []) (hg : ∀ s ∈ l, GoodName s) : slash l ≠ [] := by
  cases l with
  | nil => exact absurd rfl h
  | cons s r =>
    have := (hg s List.mem_cons_self).1
    cases r with
    | nil => exact this
    | cons t r => simp [slash]

theorem split_last {s : Str} (h : GoodName s) : splitPath s = (s, []) := splitString_not_mem h.2.1

theorem split_slash {s : Str} {r : List Str} (h : GoodName s) (hr : r ≠ []) :
    splitPath (slash (s :: r)) = (s, slash r) := by
  rw [slash_cons hr]; exact splitString_append h.2.1

theorem cull_slash {l : List Str} (hg : ∀ s ∈ l, GoodName s) : RSchema.cullSlash (slash l) = slash l := by
  cases l with
  | nil => rfl
  | cons s r =>
    obtain ⟨h1, h2, -⟩ := hg s List.mem_cons_self
    cases s with
    | nil => exact absurd rfl h1
    | cons c s =>
      have hc : c ≠ '/' := fun e => h2 (e ▸ List.mem_cons_self)
      cases r with
      | nil => simp [slash, RSchema.cullSlash, hc]
      | cons t r => simp [slash, RSchema.cullSlash, hc]

theorem length_slash {s : Str} {r : List Str} (hr : r ≠ []) : (slash r).length < (slash (s :: r)).length := by
  rw [slash_cons hr]; simp; omega

theorem hasPathIn_iff {l : List Str} (hl : l ≠ []) (hg : ∀ s ∈ l, GoodName s) (fuel : Nat) (hf : (slash l).length ≤ fuel)
    (n : BNode F) : hasPathIn (fuel + 1) n (slash l) = true ↔ ∃ x, down n l = .ok x := by
  induction l generalizing n fuel with
  | nil => exact absurd rfl hl
  | cons s r ih =>
    have hs := hg s List.mem_cons_self
    rw [hasPathIn, cull_slash hg]
    by_cases hr : r = []
    · subst hr
      rw [show slash [s] = s from rfl, split_last hs]
      simp only [down]
      rcases get_cases n s with ⟨x, hx⟩ | hx <;> simp [hx]
    · rw [split_slash hs hr]
      simp only [down]
      have hne := slash_ne hr fun t ht => hg t (List.mem_cons_of_mem _ ht)
      have hlt := length_slash (s := s) hr
      rcases get_cases n s with ⟨x, hx⟩ | hx
      · rw [hx]
        simp only [if_neg hne]
        obtain ⟨f, rfl⟩ : ∃ f, fuel = f + 1 := ⟨fuel - 1, by omega⟩
        exact ih hr (fun t ht => hg t (List.mem_cons_of_mem _ ht)) f (by omega) x
      · rw [hx]; simp

theorem hasPath_iff {l : List Str} (hl : l ≠ []) (hg : ∀ s ∈ l, GoodName s) (n : BNode F) :
    hasPath n (slash l) = true ↔ ∃ x, down n l = .ok x := hasPathIn_iff hl hg _ (Nat.le_refl _) n

theorem hasPath_root {l : List Str} (hl : l ≠ []) (hg : ∀ s ∈ l, GoodName s) (n : BNode F) :
    hasPath n ('/' :: slash l) = true ↔ ∃ x, down n l = .ok x := by
  rw [← hasPathIn_iff hl hg ((slash l).length + 1) (by omega) n, hasPath, List.length_cons, hasPathIn, hasPathIn, cull_slash hg,
    show RSchema.cullSlash ('/' :: slash l) = slash l from rfl]

theorem fetchIn_down {l : List Str} (hl : l ≠ []) (hg : ∀ s ∈ l, GoodName s) (fuel : Nat) (hf : (slash l).length ≤ fuel)
    {n x : BNode F} (h : down n l = .ok x) : fetchIn (fuel + 1) n (slash l) = .ok x := by
  induction l generalizing n fuel with
  | nil => exact absurd rfl hl
  | cons s r ih =>
    have hs := hg s List.mem_cons_self
    rw [fetchIn, if_neg (slash_ne hl hg)]
    simp only [down] at h
    rcases get_cases n s with ⟨y, hy⟩ | hy
    · rw [hy] at h
      by_cases hr : r = []
      · subst hr
        rw [show slash [s] = s from rfl, split_last hs]
        simp only [if_neg hs.1, if_true, getOrEmpty_ok hy]
        exact h
      · rw [split_slash hs hr]
        have hne := slash_ne hr fun t ht => hg t (List.mem_cons_of_mem _ ht)
        have hlt := length_slash (s := s) hr
        simp only [if_neg hs.1, if_neg hne, getOrEmpty_ok hy]
        obtain ⟨f, rfl⟩ : ∃ f, fuel = f + 1 := ⟨fuel - 1, by omega⟩
        exact ih hr (fun t ht => hg t (List.mem_cons_of_mem _ ht)) f (by omega) h
    · rw [hy] at h; cases h

theorem fetch_down {l : List Str} (hl : l ≠ []) (hg : ∀ s ∈ l, GoodName s) {n x : BNode F} (h : down n l = .ok x) :
    fetch n (slash l) = .ok x := fetchIn_down hl hg _ (Nat.le_refl _) h

theorem fetch_root {l : List Str} (hl : l ≠ []) (hg : ∀ s ∈ l, GoodName s) {n x : BNode F} (h : down n l = .ok x) :
    fetch n ('/' :: slash l) = .ok x := by
  rw [fetch, fetchIn, if_neg (by simp)]
  have : splitPath ('/' :: slash l) = ([], slash l) := splitString_append (c := '/') (a := []) (by simp)
  rw [this]
  simp only [if_true, List.length_cons]
  exact fetchIn_down hl hg _ (Nat.le_refl _) h

/-- Reading what is there, and what is not. -/
theorem readAt_root {l : List Str} (hl : l ≠ []) (hg : ∀ s ∈ l, GoodName s) {n x : BNode F} (h : down n l = .ok x) (out : BNode F) :
    readAt n ('/' :: slash l) out = .ok (x.update out) := by
  rw [readAt, if_pos ((hasPath_root hl hg n).2 ⟨x, h⟩), fetch_root hl hg h]; rfl

/-- The tree with the node by these names changed. -/
def alter (f : BNode F → BNode F) : List Str → BNode F → BNode F
  | [], n => f n
  | s :: r, n => .obj (modKid s (alter f r) n.kids)

theorem modKid_const (s : Str) (g : BNode F → BNode F) (ks : List (Str × BNode F)) :
    modKid s (fun _ => g ((BNode.obj ks).getOrEmpty s)) ks = modKid s g ks := by
  induction ks with
  | nil => simp [modKid, getOrEmpty_error (get_nil s)]
  | cons k ks ih =>
    obtain ⟨t, x⟩ := k
    by_cases e : t = s
    · subst e
      rw [modKid_cons_self, modKid_cons_self, getOrEmpty_ok (get_cons_self _ _ _)]
    · rw [modKid_cons_ne e, modKid_cons_ne e]
      have : (BNode.obj ((t, x) :: ks)).getOrEmpty s = (BNode.obj ks).getOrEmpty s := by
        unfold BNode.getOrEmpty; rw [get_cons_ne e]
      rw [this, ih]

theorem changeIn_alter (f : BNode F → BNode F) {l : List Str} (hl : l ≠ []) (hg : ∀ s ∈ l, GoodName s) (fuel : Nat)
    (hf : (slash l).length ≤ fuel) (n : BNode F) : changeIn f (fuel + 1) n (slash l) = .ok (alter f l n) := by
  induction l generalizing n fuel with
  | nil => exact absurd rfl hl
  | cons s r ih =>
    have hs := hg s List.mem_cons_self
    rw [changeIn, if_neg (slash_ne hl hg)]
    by_cases hr : r = []
    · subst hr
      rw [show slash [s] = s from rfl, split_last hs]
      simp only [if_neg hs.1, if_true, alter]
    · rw [split_slash hs hr]
      have hne := slash_ne hr fun t ht => hg t (List.mem_cons_of_mem _ ht)
      have hlt := length_slash (s := s) hr
      simp only [if_neg hs.1, if_neg hne]
      obtain ⟨g, rfl⟩ : ∃ g, fuel = g + 1 := ⟨fuel - 1, by omega⟩
      rw [ih hr (fun t ht => hg t (List.mem_cons_of_mem _ ht)) g (by omega), Res.bind_ok, alter, ← getOrEmpty_kids,
        modKid_const s (alter f r)]

theorem change_alter (f : BNode F → BNode F) {l : List Str} (hl : l ≠ []) (hg : ∀ s ∈ l, GoodName s) (n : BNode F) :
    change f n (slash l) = .ok (alter f l n) := changeIn_alter f hl hg _ (Nat.le_refl _) n

/-- What is by these names, or an empty node. -/
def downOr : BNode F → List Str → BNode F
  | n, [] => n
  | n, s :: ss => downOr (n.getOrEmpty s) ss

theorem down_alter (f : BNode F → BNode F) (l : List Str) (n : BNode F) : down (alter f l n) l = .ok (f (downOr n l)) := by
  induction l generalizing n with
  | nil => rfl
  | cons s r ih =>
    rw [alter, down, get_modKid_self]
    simp only [getOrEmpty_kids]
    exact ih _

theorem get_alter_ne (f : BNode F → BNode F) {s t : Str} (r : List Str) (n : BNode F) (h : s ≠ t) :
    (alter f (s :: r) n).get t = n.get t := by
  rw [alter, get_modKid_ne h]; rfl

theorem down_append (n : BNode F) (a b : List Str) : down n (a ++ b) = (down n a).bind fun x => down x b := by
  induction a generalizing n with
  | nil => rfl
  | cons s a ih =>
    simp only [List.cons_append, down]
    rcases get_cases n s with ⟨x, hx⟩ | hx
    · simp only [hx]; exact ih x
    · simp [hx, Res.bind]

theorem downOr_empty (l : List Str) : downOr (.empty : BNode F) l = .empty := by
  induction l with
  | nil => rfl
  | cons s r ih => exact ih

end
end Conduit.MeshIO
