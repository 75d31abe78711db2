import Verif.Lemmas.PlainMsg2
import Verif.Model.NodeIO
import Verif.Model.ListOf
namespace Conduit
namespace Leak
open Spec Schema Node Relay

/-! Which blocks are live after an operation. -/

theorem of_bind {α β : Type} {x : Res α} {f : α → Res β} {r : β} (h : x.bind f = .ok r) : ∃ a, x = .ok a ∧ f a = .ok r := by
  cases x with
  | ok a => exact ⟨a, rfl, h⟩
  | error => cases h
  | ub => cases h

/-- no block became live -/
def Le (m m' : Mem) : Prop := ∀ b, Live m' b → Live m b

theorem Le.refl (m : Mem) : Le m m := fun _ h => h
theorem Le.trans {a b c : Mem} (h : Le a b) (k : Le b c) : Le a c := fun x hx => h x (k x hx)

theorem le_set {m : Mem} {k : Nat} {bs : List UInt8} {x : Option (List UInt8)} (h : m[k]? = some (some bs)) : Le m (m.set k x) := by
  rintro b ⟨c, hc⟩
  by_cases hb : b = k
  · subst hb; exact ⟨bs, h⟩
  · rw [List.getElem?_set_ne (fun h => hb h.symm)] at hc
    exact ⟨c, hc⟩

theorem le_store {m m' : Mem} {p : Option Ptr} {off : Int} {xs : List UInt8} (h : m.store p off xs = .ok m') : Le m m' := by
  unfold Mem.store at h
  split at h
  · injection h with h; subst h; exact Le.refl _
  · split at h
    · cases h
    · split at h
      · rename_i hb
        split at h
        · injection h with h; subst h; exact le_set hb
        · cases h
      · cases h

theorem le_memcpy {m m' : Mem} {p q : Option Ptr} {i j : Int} {len : Nat} (h : m.memcpy p i q j len = .ok m') : Le m m' := by
  unfold Mem.memcpy at h
  split at h
  · split at h
    · cases h
    · exact le_store h
  · cases h
  · cases h

theorem le_copyLoop {p q : Option Ptr} {eb : Nat} {ds ss : Int} : ∀ (k : Nat) {m m' : Mem} {i j : Int},
    Mem.copyLoop p eb ds q ss k m i j = .ok m' → Le m m'
  | 0, m, m', _, _, h => by
    rw [Mem.copyLoop] at h
    injection h with h; subst h; exact Le.refl _
  | k + 1, m, m', i, j, h => by
    rw [Mem.copyLoop] at h
    split at h
    · rename_i h1
      exact (le_memcpy h1).trans (le_copyLoop k h)
    · cases h
    · cases h

theorem le_strided {m m' : Mem} {p q : Option Ptr} {i j ds ss : Int} {n eb : Nat} (h : m.stridedCopy p i n eb ds q j ss = .ok m') : Le m m' := by
  unfold Mem.stridedCopy at h
  split at h
  · exact le_memcpy h
  · exact le_copyLoop _ h

theorem le_storeElems {p : Option Ptr} {st : Int} : ∀ (es : List (List UInt8)) {m m' : Mem} {i : Int}, storeElems p st es i m = .ok m' → Le m m'
  | [], m, m', _, h => by
    rw [storeElems] at h
    injection h with h; subst h; exact Le.refl _
  | e :: es, m, m', i, h => by
    rw [storeElems] at h
    obtain ⟨m1, h1, h2⟩ := of_bind h
    exact (le_store h1).trans (le_storeElems es h2)

mutual
theorem le_compactWrite (p : Option Ptr) : ∀ (n : Node) {i : Int} {m m' : Mem}, compactWrite p n i m = .ok m' → Le m m'
  | .leaf x d, i, m, m', h => by
    rw [compactWrite] at h
    unfold compactElements at h
    split at h
    · injection h with h; subst h; exact Le.refl _
    · split at h
      · cases h
      · exact le_strided h
  | .obj _ es, i, m, m', h => by rw [compactWrite] at h; exact le_compactWriteE p es h
  | .lst _ es, i, m, m', h => by rw [compactWrite] at h; exact le_compactWriteL p es h
theorem le_compactWriteE (p : Option Ptr) : ∀ (n : List (Str × Node)) {i : Int} {m m' : Mem}, compactWriteE p n i m = .ok m' → Le m m'
  | [], i, m, m', h => by
    rw [compactWriteE] at h
    injection h with h; subst h; exact Le.refl _
  | (_, c) :: es, i, m, m', h => by
    rw [compactWriteE] at h
    obtain ⟨m1, h1, h2⟩ := of_bind h
    exact (le_compactWrite p c h1).trans (le_compactWriteE p es h2)
theorem le_compactWriteL (p : Option Ptr) : ∀ (n : List Node) {i : Int} {m m' : Mem}, compactWriteL p n i m = .ok m' → Le m m'
  | [], i, m, m', h => by
    rw [compactWriteL] at h
    injection h with h; subst h; exact Le.refl _
  | c :: es, i, m, m', h => by
    rw [compactWriteL] at h
    obtain ⟨m1, h1, h2⟩ := of_bind h
    exact (le_compactWrite p c h1).trans (le_compactWriteL p es h2)
end

/-- what was freed: no block became live, and the blocks of `l` are not -/
def Gone (m m' : Mem) (l : List Ptr) : Prop := ∀ b, Live m' b → Live m b ∧ b ∉ l.map Ptr.blk

theorem Gone.trans {a b c : Mem} {l k : List Ptr} (h : Gone a b l) (g : Gone b c k) : Gone a c (l ++ k) := by
  intro x hx
  obtain ⟨h1, h2⟩ := g x hx
  obtain ⟨h3, h4⟩ := h x h1
  refine ⟨h3, ?_⟩
  rw [List.map_append, List.mem_append]
  rintro (h | h)
  · exact h4 h
  · exact h2 h

theorem Gone.swap {a b : Mem} {l k : List Ptr} (h : Gone a b (l ++ k)) : Gone a b (k ++ l) := by
  intro x hx
  obtain ⟨h1, h2⟩ := h x hx
  refine ⟨h1, fun h => h2 ?_⟩
  rw [List.map_append, List.mem_append] at h ⊢
  exact h.symm

theorem gone_nil (m : Mem) : Gone m m [] := fun _ h => ⟨h, by simp⟩

theorem gone_freeOwn {x : Info} {e : Bool} {m m' : Mem} (he : e = true → x.alloced = false) (h : freeOwn x e m = .ok m') : Gone m m' (ownPtr x) := by
  unfold freeOwn at h
  by_cases ha : x.alloced = true
  · have hf : e = false := by
      cases e with
      | false => rfl
      | true => rw [he rfl] at ha; cases ha
    rw [ha, hf] at h
    simp only [Bool.not_false, Bool.and_self, if_true] at h
    split at h
    · rename_i p hp
      unfold Mem.free at h
      split at h
      · cases h
      · split at h
        · rename_i hb
          injection h with h
          subst h
          intro b hl
          refine ⟨le_set hb b hl, ?_⟩
          rw [ownPtr, if_pos ha, hp]
          simp only [Option.toList, List.map_cons, List.map_nil, List.mem_singleton]
          rintro rfl
          obtain ⟨c, hc⟩ := hl
          rw [List.getElem?_set_self (List.getElem?_eq_some_iff.1 hb).1] at hc
          cases hc
        · cases h
    · rename_i hp
      injection h with h
      subst h
      rw [ownPtr, if_pos ha, hp]
      exact gone_nil _
  · rw [if_neg (by simp [ha])] at h
    injection h with h
    subst h
    rw [ownPtr, if_neg ha]
    exact gone_nil _

mutual
theorem gone_release : ∀ (n : Node) {m m' : Mem}, Clean n → releaseMem n m = .ok m' → Gone m m' (owned n)
  | .leaf x d, m, m', hc, h => by
    rw [releaseMem] at h
    rw [owned]
    exact gone_freeOwn (fun he => hc.2 (by simpa using he)) h
  | .obj x es, m, m', hc, h => by
    rw [releaseMem] at h
    obtain ⟨m1, h1, h2⟩ := of_bind h
    rw [owned]
    exact ((gone_releaseE es hc.2 h1).trans (gone_freeOwn (by simp) h2)).swap
  | .lst x es, m, m', hc, h => by
    rw [releaseMem] at h
    obtain ⟨m1, h1, h2⟩ := of_bind h
    rw [owned]
    exact ((gone_releaseL es hc.2 h1).trans (gone_freeOwn (by simp) h2)).swap
theorem gone_releaseE : ∀ (n : List (Str × Node)) {m m' : Mem}, CleanE n → releaseE n m = .ok m' → Gone m m' (ownedE n)
  | [], m, m', hc, h => by
    rw [releaseE] at h
    injection h with h; subst h; exact gone_nil _
  | (_, c) :: es, m, m', hc, h => by
    rw [releaseE] at h
    obtain ⟨m1, h1, h2⟩ := of_bind h
    exact (gone_release c hc.1 h1).trans (gone_releaseE es hc.2 h2)
theorem gone_releaseL : ∀ (n : List Node) {m m' : Mem}, CleanL n → releaseL n m = .ok m' → Gone m m' (ownedL n)
  | [], m, m', hc, h => by
    rw [releaseL] at h
    injection h with h; subst h; exact gone_nil _
  | c :: es, m, m', hc, h => by
    rw [releaseL] at h
    obtain ⟨m1, h1, h2⟩ := of_bind h
    exact (gone_release c hc.1 h1).trans (gone_releaseL es hc.2 h2)
end

theorem gone_reset {n k : Node} {m m' : Mem} (hc : Clean n) (h : n.reset m = .ok (m', k)) : Gone m m' (owned n) ∧ k = .leaf n.releasedInfo {} := by
  unfold Node.reset at h
  obtain ⟨m1, h1, h2⟩ := of_bind h
  injection h2 with h2
  injection h2 with h2 h3
  subst h2
  exact ⟨gone_release n hc h1, h3.symm⟩

/-- the blocks live after an allocation -/
theorem live_allocate {m : Mem} {k : Int} {b : Nat} (h : Live (allocate m k).1 b) : Live m b ∨ ∃ p, (allocate m k).2 = ⟨some p, true⟩ ∧ p.blk = b := by
  unfold allocate at h ⊢
  split at h
  · exact .inl h
  · rename_i hk
    rw [if_neg hk]
    obtain ⟨c, hc⟩ := h
    simp only [Mem.alloc] at hc ⊢
    by_cases hb : b < m.length
    · rw [List.getElem?_append_left hb] at hc
      exact .inl ⟨c, hc⟩
    · refine .inr ⟨_, rfl, ?_⟩
      have := (List.getElem?_eq_some_iff.1 hc).1
      simp at this
      simp only
      omega

theorem allocate_alloced (m : Mem) (k : Int) : (allocate m k).2.alloced = true := by
  unfold allocate
  split <;> rfl

end Leak
end Conduit
