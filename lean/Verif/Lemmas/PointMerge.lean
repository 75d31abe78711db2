import Verif.Spec.PointMerge
import Verif.Lemmas.MeshRead
/-
The tree of the merged points: what is put in is found again.
-/
namespace Conduit.Merge
open Conduit.Mesh
variable {F : Type}

/-- All points of a tree. -/
def KTree.all : KTree F → List (V3 F × Nat)
  | .leaf _ pts => pts
  | .node _ _ _ l r => l.all ++ r.all

/-- The box of every node has its points. -/
def KTree.Good (o : MOps F) : KTree F → Prop
  | .leaf b pts => ∀ q ∈ pts, b.has o q.1 = true
  | .node b _ _ l r => (∀ q ∈ l.all ++ r.all, b.has o q.1 = true) ∧ l.Good o ∧ r.Good o

theorem KTree.Good.has {o : MOps F} {t : KTree F} (h : t.Good o) : ∀ q ∈ t.all, t.bb.has o q.1 = true := by
  cases t with
  | leaf b pts => exact h
  | node b d s l r => exact h.1

theorem find_sound (o : MOps F) (p : V3 F) (tol : F) (t : KTree F) (i : Nat) (h : t.find o p tol = some i) :
    ∃ q, (q, i) ∈ t.all ∧ Near o tol p q := by
  induction t with
  | leaf b pts =>
    simp only [KTree.find, Option.map_eq_some_iff] at h
    obtain ⟨⟨q, j⟩, h1, rfl⟩ := h
    have h2 := List.find?_some h1
    exact ⟨q, List.mem_of_find?_eq_some h1, h2⟩
  | node b d s l r ihl ihr =>
    have hl : l.find o p tol = some i → ∃ q, (q, i) ∈ (KTree.node b d s l r).all ∧ Near o tol p q := fun h => by
      obtain ⟨q, h1, h2⟩ := ihl h
      exact ⟨q, List.mem_append_left _ h1, h2⟩
    have hr : r.find o p tol = some i → ∃ q, (q, i) ∈ (KTree.node b d s l r).all ∧ Near o tol p q := fun h => by
      obtain ⟨q, h1, h2⟩ := ihr h
      exact ⟨q, List.mem_append_right _ h1, h2⟩
    unfold KTree.find at h
    dsimp only at h
    split at h
    · split at h
      · split at h
        · rename_i j hj; exact hl (hj.trans h)
        · exact hr h
      · split at h
        · rename_i j hj; exact hr (hj.trans h)
        · exact hl h
    · split at h
      · exact hl h
      · split at h
        · exact hr h
        · cases h

/-- A point in a box is seen when the box is looked at with the tolerance. -/
def Reach (o : MOps F) (tol : F) (p q : V3 F) : Prop := Near o tol p q ∧ ∀ b : BB F, b.has o q = true → b.near o p tol = true

theorem find_complete (o : MOps F) (p q : V3 F) (tol : F) (i : Nat) (t : KTree F) (hg : t.Good o) (hq : (q, i) ∈ t.all)
    (hr : Reach o tol p q) : t.find o p tol ≠ none := by
  induction t with
  | leaf b pts =>
    simp only [KTree.find, ne_eq, Option.map_eq_none_iff, List.find?_eq_none, not_forall]
    exact ⟨(q, i), hq, fun h => h hr.1⟩
  | node b d s l r ihl ihr =>
    have hL : (q, i) ∈ l.all → l.find o p tol ≠ none := fun h => ihl hg.2.1 h
    have hR : (q, i) ∈ r.all → r.find o p tol ≠ none := fun h => ihr hg.2.2 h
    have nl : (q, i) ∈ l.all → l.bb.near o p tol = true := fun h => hr.2 _ (hg.2.1.has _ h)
    have nr : (q, i) ∈ r.all → r.bb.near o p tol = true := fun h => hr.2 _ (hg.2.2.has _ h)
    unfold KTree.find
    dsimp only
    rcases List.mem_append.mp hq with h | h
    · have h1 := hL h
      rw [nl h]
      cases hb : r.bb.near o p tol
      · simpa using h1
      · simp only [Bool.and_self, if_true]
        cases hl : l.find o p tol with
        | none => exact absurd hl h1
        | some k => split <;> [simp; (split <;> simp)]
    · have h1 := hR h
      rw [nr h]
      cases hb : l.bb.near o p tol
      · simpa using h1
      · simp only [Bool.and_self, if_true]
        cases hl : r.find o p tol with
        | none => exact absurd hl h1
        | some k => split <;> [(split <;> simp); simp]

theorem split_fold (o : MOps F) (dim : Nat) (m : F) (x : V3 F × Nat) (l : List (V3 F × Nat))
    (s : (BB F × List (V3 F × Nat)) × (BB F × List (V3 F × Nat))) :
    let r := l.foldl (fun s x => if o.lt (x.1.at dim) m then (leafAdd o s.1 x, s.2) else (s.1, leafAdd o s.2 x)) s
    (x ∈ r.1.2 ++ r.2.2 ↔ x ∈ s.1.2 ++ s.2.2 ∨ x ∈ l) := by
  induction l generalizing s with
  | nil => simp
  | cons y l ih =>
    simp only [List.foldl_cons]
    refine (ih _).trans ?_
    split
    · simp only [leafAdd, List.mem_append, List.mem_cons, List.not_mem_nil, or_false]
      constructor
      · rintro ((( h | h) | h) | h) <;> simp [h]
      · rintro ((h | h) | h | h) <;> simp [h]
    · simp only [leafAdd, List.mem_append, List.mem_cons, List.not_mem_nil, or_false]
      constructor
      · rintro ((h | h | h) | h) <;> simp [h]
      · rintro ((h | h) | h | h) <;> simp [h]

theorem insert_all (o : MOps F) (bucket : Nat) (q : V3 F × Nat) (t : KTree F) (x : V3 F × Nat) :
    x ∈ (t.insert o bucket q).all ↔ x ∈ t.all ∨ x = q := by
  induction t with
  | leaf b pts =>
    unfold KTree.insert
    split
    · have := split_fold o (longest o (b.expand o q.1)) (medianOf o pts (longest o (b.expand o q.1)) q.1) x (pts ++ [q])
        ((BB.none o, []), (BB.none o, []))
      dsimp only at this
      simp only [splitLeaf, KTree.all]
      rw [this]; simp
    · simp [KTree.all]
  | node b d s l r ihl ihr =>
    unfold KTree.insert
    split
    · simp only [KTree.all, List.mem_append, ihl]
      constructor
      · rintro ((h | h) | h) <;> simp [h]
      · rintro ((h | h) | h) <;> simp [h]
    · simp only [KTree.all, List.mem_append, ihr]
      constructor
      · rintro (h | h | h) <;> simp [h]
      · rintro ((h | h) | h) <;> simp [h]

/-! ### boxes -/

theorem Ordered.asymm {o : MOps F} (h : Ordered o) {a b : F} (hab : o.lt a b = true) : o.lt b a = false := by
  cases hb : o.lt b a with
  | false => rfl
  | true => have := h.trans a b a hab hb; rw [h.irrefl] at this; cases this

theorem minF_le {o : MOps F} (h : Ordered o) (a b : F) : o.lt a (minF o a b) = false ∧ o.lt b (minF o a b) = false := by
  unfold minF
  split
  · rename_i hab; exact ⟨h.asymm hab, h.irrefl b⟩
  · rename_i hab; exact ⟨h.irrefl a, by simpa using hab⟩

theorem le_maxF {o : MOps F} (h : Ordered o) (a b : F) : o.lt (maxF o a b) a = false ∧ o.lt (maxF o a b) b = false := by
  unfold maxF
  split
  · rename_i hab; exact ⟨h.asymm hab, h.irrefl b⟩
  · rename_i hab; exact ⟨by simpa using h.irrefl a, by simpa using hab⟩

theorem within_iff {o : MOps F} (h : Ordered o) (lo hi p : V3 F) : within o lo hi p = true ↔
    (o.lt p.a lo.a = false ∧ o.lt p.b lo.b = false ∧ o.lt p.c lo.c = false) ∧
    (o.lt hi.a p.a = false ∧ o.lt hi.b p.b = false ∧ o.lt hi.c p.c = false) := by
  simp only [within, h.le_iff, Bool.and_eq_true, Bool.not_eq_true', and_assoc]

theorem has_expand {o : MOps F} (h : Ordered o) (b : BB F) (p q : V3 F) (hb : b.has o q = true ∨ q = p) :
    (b.expand o p).has o q = true := by
  unfold BB.has at *
  rw [within_iff h]
  dsimp only [BB.expand]
  rcases hb with hb | rfl
  · rw [within_iff h] at hb
    obtain ⟨⟨a1, a2, a3⟩, b1, b2, b3⟩ := hb
    exact ⟨⟨h.negTrans _ _ _ a1 (minF_le h _ _).1, h.negTrans _ _ _ a2 (minF_le h _ _).1, h.negTrans _ _ _ a3 (minF_le h _ _).1⟩,
      h.negTrans _ _ _ (le_maxF h _ _).1 b1, h.negTrans _ _ _ (le_maxF h _ _).1 b2, h.negTrans _ _ _ (le_maxF h _ _).1 b3⟩
  · exact ⟨⟨(minF_le h _ _).2, (minF_le h _ _).2, (minF_le h _ _).2⟩, (le_maxF h _ _).2, (le_maxF h _ _).2, (le_maxF h _ _).2⟩

theorem split_good {o : MOps F} (h : Ordered o) (dim : Nat) (m : F) (l : List (V3 F × Nat))
    (s : (BB F × List (V3 F × Nat)) × (BB F × List (V3 F × Nat)))
    (hs : (∀ q ∈ s.1.2, s.1.1.has o q.1 = true) ∧ ∀ q ∈ s.2.2, s.2.1.has o q.1 = true) :
    let r := l.foldl (fun s x => if o.lt (x.1.at dim) m then (leafAdd o s.1 x, s.2) else (s.1, leafAdd o s.2 x)) s
    (∀ q ∈ r.1.2, r.1.1.has o q.1 = true) ∧ ∀ q ∈ r.2.2, r.2.1.has o q.1 = true := by
  induction l generalizing s with
  | nil => exact hs
  | cons y l ih =>
    simp only [List.foldl_cons]
    refine ih _ ?_
    have hadd : ∀ t : BB F × List (V3 F × Nat), (∀ q ∈ t.2, t.1.has o q.1 = true) →
        ∀ q ∈ (leafAdd o t y).2, (leafAdd o t y).1.has o q.1 = true := by
      intro t ht q hq
      simp only [leafAdd, List.mem_append, List.mem_singleton] at hq
      rcases hq with hq | rfl
      · exact has_expand h _ _ _ (.inl (ht q hq))
      · exact has_expand h _ _ _ (.inr rfl)
    split
    · exact ⟨hadd _ hs.1, hs.2⟩
    · exact ⟨hs.1, hadd _ hs.2⟩

theorem insert_good {o : MOps F} (h : Ordered o) (bucket : Nat) (q : V3 F × Nat) (t : KTree F) (hg : t.Good o) :
    (t.insert o bucket q).Good o := by
  induction t with
  | leaf b pts =>
    unfold KTree.insert
    split
    · have h1 := split_good h (longest o (b.expand o q.1)) (medianOf o pts (longest o (b.expand o q.1)) q.1) (pts ++ [q])
        ((BB.none o, []), (BB.none o, [])) ⟨(by simp), (by simp)⟩
      dsimp only at h1
      refine ⟨?_, h1.1, h1.2⟩
      intro x hx
      have h2 := (split_fold o (longest o (b.expand o q.1)) (medianOf o pts (longest o (b.expand o q.1)) q.1) x (pts ++ [q])
        ((BB.none o, []), (BB.none o, []))).mp hx
      simp only [List.append_nil, List.not_mem_nil, false_or, List.mem_append, List.mem_singleton] at h2
      rcases h2 with h2 | rfl
      · exact has_expand h _ _ _ (.inl (hg x h2))
      · exact has_expand h _ _ _ (.inr rfl)
    · intro x hx
      rcases List.mem_append.mp hx with hx | hx
      · exact has_expand h _ _ _ (.inl (has_expand h _ _ _ (.inl (hg x hx))))
      · rw [List.mem_singleton.mp hx]; exact has_expand h _ _ _ (.inr rfl)
  | node b d s l r ihl ihr =>
    have hbig : ∀ x, x ∈ l.all ++ r.all ∨ x = q → (b.expand o q.1).has o x.1 = true := by
      rintro x (hx | rfl)
      · exact has_expand h _ _ _ (.inl (hg.1 x hx))
      · exact has_expand h _ _ _ (.inr rfl)
    unfold KTree.insert
    split
    · refine ⟨fun x hx => hbig x ?_, ihl hg.2.1, hg.2.2⟩
      rcases List.mem_append.mp hx with hx | hx
      · rcases (insert_all o bucket q l x).mp hx with hx | hx
        · exact .inl (List.mem_append_left _ hx)
        · exact .inr hx
      · exact .inl (List.mem_append_right _ hx)
    · refine ⟨fun x hx => hbig x ?_, hg.2.1, ihr hg.2.2⟩
      rcases List.mem_append.mp hx with hx | hx
      · exact .inl (List.mem_append_left _ hx)
      · rcases (insert_all o bucket q r x).mp hx with hx | hx
        · exact .inl (List.mem_append_right _ hx)
        · exact .inr hx

theorem reach_same {o : MOps F} {tol : F} (h : Ordered o) (ht : Tolerance o tol) {p q : V3 F} (hs : Same o p q) : Reach o tol p q := by
  refine ⟨ht.zero p q hs, fun b hb => ?_⟩
  unfold BB.has at hb
  unfold BB.near
  rw [within_iff h] at *
  obtain ⟨⟨a1, a2, a3⟩, b1, b2, b3⟩ := hb
  have s0 := hs 0 (by omega); have s1 := hs 1 (by omega); have s2 := hs 2 (by omega)
  simp only [V3.at] at s0 s1 s2
  exact ⟨⟨h.negTrans _ _ _ (h.negTrans _ _ _ s0.1 a1) (ht.sub _), h.negTrans _ _ _ (h.negTrans _ _ _ s1.1 a2) (ht.sub _),
      h.negTrans _ _ _ (h.negTrans _ _ _ s2.1 a3) (ht.sub _)⟩,
    h.negTrans _ _ _ (ht.add _) (h.negTrans _ _ _ b1 s0.2), h.negTrans _ _ _ (ht.add _) (h.negTrans _ _ _ b2 s1.2),
      h.negTrans _ _ _ (ht.add _) (h.negTrans _ _ _ b3 s2.2)⟩

theorem reach_near {o : MOps F} {tol : F} (h : Ordered o) (he : ExactTol o tol) {p q : V3 F} (hn : Near o tol p q) : Reach o tol p q := by
  refine ⟨hn, fun b hb => ?_⟩
  unfold BB.has at hb
  unfold BB.near
  rw [within_iff h] at *
  obtain ⟨⟨a1, a2, a3⟩, b1, b2, b3⟩ := hb
  have s0 := he.near p q hn 0 (by omega); have s1 := he.near p q hn 1 (by omega); have s2 := he.near p q hn 2 (by omega)
  simp only [V3.at] at s0 s1 s2
  exact ⟨⟨h.negTrans _ _ _ s0.1 (he.sub _ _ a1), h.negTrans _ _ _ s1.1 (he.sub _ _ a2), h.negTrans _ _ _ s2.1 (he.sub _ _ a3)⟩,
    h.negTrans _ _ _ (he.add _ _ b1) s0.2, h.negTrans _ _ _ (he.add _ _ b2) s1.2, h.negTrans _ _ _ (he.add _ _ b3) s2.2⟩

end Conduit.Merge
