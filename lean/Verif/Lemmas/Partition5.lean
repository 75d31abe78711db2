import Verif.Lemmas.Partition4
import Mathlib.Data.List.Perm.Subperm
/-
The domains of the chunks.
-/
namespace Conduit.Part
open Conduit.Mesh

/-! ### free domain ids -/

theorem skip_spec (reserved : List Int) : ∀ (fuel : Nat) (d : Int),
    (skip reserved fuel d ∉ reserved ∧ d ≤ skip reserved fuel d) ∨ ∀ j : Nat, j < fuel → d + j ∈ reserved
  | 0, d => by
    right
    intro j hj
    omega
  | fuel + 1, d => by
    unfold skip
    by_cases h : reserved.contains d
    · rw [if_pos h]
      rcases skip_spec reserved fuel (d + 1) with ⟨h1, h2⟩ | h1
      · exact .inl ⟨h1, by omega⟩
      · right
        intro j hj
        cases j with
        | zero => simpa using List.contains_iff_mem.mp h
        | succ j =>
          have := h1 j (by omega)
          rw [show d + ((j + 1 : Nat) : Int) = d + 1 + (j : Int) by push_cast; omega]
          exact this
    · rw [if_neg h]
      exact .inl ⟨fun hm => h (List.contains_iff_mem.mpr hm), by omega⟩

/-- The next id is not reserved. -/
theorem nextId_spec (reserved : List Int) (d : Int) : nextId reserved d ∉ reserved ∧ d ≤ nextId reserved d := by
  rcases skip_spec reserved (reserved.length + 1) d with h | h
  · exact h
  · exfalso
    have nd : ((List.range (reserved.length + 1)).map fun j : Nat => d + (j : Int)).Nodup := by
      refine List.Pairwise.map _ ?_ List.nodup_range
      intro a b hab e
      exact hab (by omega)
    have sub : ((List.range (reserved.length + 1)).map fun j : Nat => d + (j : Int)) ⊆ reserved := by
      intro x hx
      obtain ⟨j, hj, rfl⟩ := List.mem_map.mp hx
      exact h j (List.mem_range.mp hj)
    have := (List.Nodup.subperm nd sub).length_le
    simp at this
    omega

theorem nextId_gt {reserved : List Int} {d : Int} (h : d ∈ reserved) : d < nextId reserved d := by
  obtain ⟨h1, h2⟩ := nextId_spec reserved d
  rcases Int.lt_or_eq_of_le h2 with h3 | h3
  · exact h3
  · rw [← h3] at h1
    exact absurd h h1

theorem nextId_succ {reserved : List Int} {d : Int} (h : d ∈ reserved) (hm : ∀ x ∈ reserved, x ≤ d) : nextId reserved d = d + 1 := by
  unfold nextId
  have : reserved.length ≠ 0 := fun h0 => by
    rw [List.length_eq_zero_iff.mp h0] at h
    cases h
  obtain ⟨n, hn⟩ : ∃ n, reserved.length = n + 1 := ⟨reserved.length - 1, by omega⟩
  rw [hn]
  unfold skip
  rw [if_pos (List.contains_iff_mem.mpr h)]
  unfold skip
  rw [if_neg]
  intro hc
  have := hm _ (List.contains_iff_mem.mp hc)
  omega

/-! ### chunks without a domain of their own -/

/-- The values are the numbers from `a` to `b`, in ascending order. -/
def Ascending (a b : Int) (l : List Int) : Prop := l.Pairwise (· ≤ ·) ∧ ∀ v, v ∈ l ↔ a ≤ v ∧ v ≤ b

theorem ascending_one (d : Int) : Ascending d d [d] := by
  refine ⟨List.pairwise_singleton _ _, ?_⟩
  intro v
  rw [List.mem_singleton]
  omega

theorem ascending_same {d b : Int} {l : List Int} (h : Ascending d b l) (hb : d ≤ b) : Ascending d b (d :: l) := by
  refine ⟨List.pairwise_cons.mpr ⟨fun x hx => ((h.2 x).mp hx).1, h.1⟩, ?_⟩
  intro v
  rw [List.mem_cons, h.2]
  omega

theorem ascending_next {d b : Int} {l : List Int} (h : Ascending (d + 1) b l) (hb : d ≤ b) : Ascending d b (d :: l) := by
  refine ⟨List.pairwise_cons.mpr ⟨fun x hx => by have := ((h.2 x).mp hx).1; omega, h.1⟩, ?_⟩
  intro v
  rw [List.mem_cons, h.2]
  omega

theorem numberAll_free : ∀ (dds : List Int) {reserved : List Int} {d : Int}, (∀ x ∈ dds, x = -1) → d ∈ reserved → (∀ x ∈ reserved, x ≤ d) →
    dds ≠ [] → Ascending d (d + dds.length - 1) (numberAll reserved d dds)
  | [], _, _, _, _, _, h => absurd rfl h
  | dd :: rest, reserved, d, hf, hd, hm, _ => by
    unfold numberAll
    rw [if_pos (hf dd (List.mem_cons_self))]
    have e := nextId_succ hd hm
    simp only [e]
    by_cases hr : rest = []
    · subst hr
      simp only [numberAll, List.length_cons, List.length_nil]
      have := ascending_one d
      simpa using this
    · have := numberAll_free rest (reserved := (d + 1) :: reserved) (d := d + 1) (fun x hx => hf x (List.mem_cons_of_mem _ hx))
        (List.mem_cons_self) (fun x hx => by
          rcases List.mem_cons.mp hx with rfl | hx
          · omega
          · have := hm x hx
            omega) hr
      rw [show d + 1 + (rest.length : Int) - 1 = d + ((dd :: rest).length : Int) - 1 by rw [List.length_cons]; push_cast; omega] at this
      exact ascending_next this (by rw [List.length_cons]; push_cast; omega)

theorem numberAll_length : ∀ (dds : List Int) {reserved : List Int} {d : Int}, (numberAll reserved d dds).length = dds.length
  | [], _, _ => rfl
  | dd :: rest, _, _ => by
    unfold numberAll
    split
    · simp [numberAll_length rest]
    · simp [numberAll_length rest]

theorem group_length : ∀ (chunks : List (Int × Int)) {reserved : List Int} {d a b c e : Int}, (group reserved d a b c e chunks).length = chunks.length
  | [], _, _, _, _, _, _ => rfl
  | (size, dd) :: rest, _, _, _, _, _, _ => by
    unfold group
    split
    · simp only
      split <;> simp [group_length rest]
    · simp [group_length rest]

theorem sum_pos : ∀ {chunks : List (Int × Int)}, (∀ c ∈ chunks, 1 ≤ c.1) → chunks ≠ [] → 1 ≤ (chunks.map (·.1)).sum
  | [], _, h => absurd rfl h
  | c :: rest, h, _ => by
    have := h c (List.mem_cons_self)
    rw [List.map_cons, List.sum_cons]
    by_cases hr : rest = []
    · subst hr
      simp
      omega
    · have := sum_pos (chunks := rest) (fun x hx => h x (List.mem_cons_of_mem _ hx)) hr
      omega

/-- Grouping chunks with elements gives as many domains as wanted, one after the other. -/
theorem group_free : ∀ (chunks : List (Int × Int)) {reserved : List Int} {d rem per remT running : Int},
    (∀ c ∈ chunks, c.2 = -1 ∧ 1 ≤ c.1) → d ∈ reserved → (∀ x ∈ reserved, x ≤ d) → chunks ≠ [] →
    rem = (chunks.map (·.1)).sum → 0 ≤ remT → remT + 1 ≤ chunks.length → (remT = 0 → per = running + rem) →
    Ascending d (d + remT) (group reserved d rem per remT running chunks)
  | [], _, _, _, _, _, _, _, _, _, h, _, _, _, _ => absurd rfl h
  | (size, dd) :: rest, reserved, d, rem, per, remT, running, hc, hd, hm, _, hrem, h0, hle, hper => by
    have hc0 := hc (size, dd) (List.mem_cons_self)
    have hrest : ∀ c ∈ rest, c.2 = -1 ∧ 1 ≤ c.1 := fun c h => hc c (List.mem_cons_of_mem _ h)
    rw [List.map_cons, List.sum_cons] at hrem
    simp only at hrem hc0
    rw [List.length_cons] at hle
    unfold group
    rw [if_pos hc0.1]
    simp only
    by_cases hr : rest = []
    · subst hr
      have : remT = 0 := by simp at hle; omega
      subst this
      rw [if_neg (by simp)]
      simpa [group] using ascending_one d
    · have hlen : (rest.length : Int) ≠ 0 := by
        intro h
        exact hr (List.length_eq_zero_iff.mp (by exact_mod_cast h))
      have hpos := sum_pos (fun c h => (hrest c h).2) hr
      by_cases hclose : (rest.length : Int) ≠ 0 ∧ (running + size ≥ per ∨ (rest.length : Int) = remT)
      · rw [if_pos hclose]
        have hT : 1 ≤ remT := by
          by_contra hcon
          have : remT = 0 := by omega
          have := hper this
          rcases hclose.2 with h | h <;> omega
        rw [nextId_succ hd hm]
        apply ascending_next ?_ (by omega)
        have := group_free rest (reserved := (d + 1) :: reserved) (d := d + 1) (rem := rem - size)
          (per := Int.tdiv (rem - size) (max remT 1)) (remT := remT - 1) (running := 0) hrest (List.mem_cons_self)
          (fun x hx => by
            rcases List.mem_cons.mp hx with rfl | hx
            · omega
            · have := hm x hx
              omega) hr (by omega) (by omega) (by omega) (by
            intro h
            have : remT = 1 := by omega
            subst this
            simp)
        rw [show d + 1 + (remT - 1) = d + remT by omega] at this
        exact this
      · rw [if_neg hclose]
        apply ascending_same ?_ (by omega)
        have hne : (rest.length : Int) ≠ remT := fun h => hclose ⟨hlen, .inr h⟩
        exact group_free rest hrest hd hm hr (by omega) h0 (by omega) (by intro h; have := hper h; omega)

/-- A target of 0 gives one domain. -/
theorem group_one : ∀ (chunks : List (Int × Int)) {reserved : List Int} {d rem per remT running : Int},
    (∀ c ∈ chunks, c.2 = -1 ∧ 1 ≤ c.1) → chunks ≠ [] → rem = (chunks.map (·.1)).sum → (chunks.length : Int) ≤ remT → per = running + rem →
    ∀ v ∈ group reserved d rem per remT running chunks, v = d
  | [], _, _, _, _, _, _, _, h, _, _, _ => absurd rfl h
  | (size, dd) :: rest, reserved, d, rem, per, remT, running, hc, _, hrem, hle, hper => by
    have hc0 := hc (size, dd) (List.mem_cons_self)
    have hrest : ∀ c ∈ rest, c.2 = -1 ∧ 1 ≤ c.1 := fun c h => hc c (List.mem_cons_of_mem _ h)
    rw [List.map_cons, List.sum_cons] at hrem
    simp only at hrem hc0
    rw [List.length_cons] at hle
    unfold group
    rw [if_pos hc0.1]
    simp only
    by_cases hr : rest = []
    · subst hr
      rw [if_neg (by simp)]
      simp [group]
    · have hpos := sum_pos (fun c h => (hrest c h).2) hr
      rw [if_neg (by
        rintro ⟨_, h | h⟩
        · omega
        · push_cast at hle
          omega)]
      intro v hv
      rcases List.mem_cons.mp hv with rfl | hv
      · rfl
      · exact group_one rest hrest hr (by omega) (by push_cast at hle; omega) (by omega) v hv

theorem chunks_count {chunks : List (Int × Int)} (h : ∀ c ∈ chunks, c.2 = -1) : countTargets (chunks.map (·.2)) = chunks.length := by
  rw [countTargets_free, List.length_map]
  intro d hd
  obtain ⟨c, hc, rfl⟩ := List.mem_map.mp hd
  exact h c hc

theorem uint32_id {n : Int} (h0 : 0 ≤ n) (h1 : n < 4294967296) : uint32.cast n = n := by
  unfold uint32 IntTy.cast
  simp [IntWidth.card]
  omega

/-- Chunks with elements and without a domain of their own go to as many domains as wanted. -/
theorem mapChunks_free {target : Nat} {chunks : List (Int × Int)} (hc : ∀ c ∈ chunks, c.2 = -1 ∧ 1 ≤ c.1) (h1 : 1 ≤ target)
    (h2 : target ≤ chunks.length) (h3 : target < 4294967296) :
    ∃ dests, mapChunks target chunks = .ok dests ∧ dests.length = chunks.length ∧ Ascending 0 (target - 1) dests := by
  have hne : chunks ≠ [] := fun h => by
    rw [h] at h2
    simp at h2
    omega
  have hres : (chunks.map (·.2)).filter (· != -1) = [] := by
    rw [List.filter_eq_nil_iff]
    intro d hd
    obtain ⟨c, h, rfl⟩ := List.mem_map.mp hd
    simp [(hc c h).1]
  have h0 : nextId [] 0 = 0 := by decide
  unfold mapChunks
  simp only [hres, chunks_count fun c h => (hc c h).1, h0]
  by_cases he : chunks.length = target
  · rw [if_pos he]
    refine ⟨_, rfl, by rw [numberAll_length, List.length_map], ?_⟩
    have := numberAll_free (chunks.map (·.2)) (reserved := [0]) (d := 0) (fun x hx => by
      obtain ⟨c, h, rfl⟩ := List.mem_map.mp hx
      exact (hc c h).1) (List.mem_cons_self) (fun x hx => by simp at hx; omega) (by simpa using hne)
    rw [List.length_map, he] at this
    simpa using this
  · rw [if_neg he, if_pos (by omega)]
    refine ⟨_, rfl, group_length _, ?_⟩
    have := group_free chunks (reserved := [0]) (d := 0) (rem := (chunks.map (·.1)).sum)
      (per := Int.tdiv (chunks.map (·.1)).sum (max (target : Int) 1)) (remT := (target : Int) - 1) (running := 0) hc (List.mem_cons_self)
      (fun x hx => by simp at hx; omega) hne rfl (by omega) (by omega) (by
        intro h
        have : target = 1 := by omega
        subst this
        simp)
    rw [uint32_id (by omega) (by omega)]
    simpa using this

/-! ### chunks with domains of their own -/

/-- A chunk with a domain goes there, and no other chunk without one does. -/
def Respects (dds dests : List Int) : Prop :=
  dests.length = dds.length ∧ ∀ (i : Nat) (dd v : Int), dds[i]? = some dd → dests[i]? = some v →
    (dd ≠ -1 → v = dd) ∧ (dd = -1 → v ∉ dds.filter (· != -1))

theorem numberAll_spec (named : List Int) : ∀ (dds : List Int) {reserved : List Int} {d : Int}, d ∈ reserved → d ∉ named →
    (∀ x ∈ named, x ∈ reserved) →
    ∃ fs : List Int, fs.length = dds.countP (· == -1) ∧ fs.Pairwise (· < ·) ∧ (∀ f ∈ fs, f ∉ named ∧ d ≤ f) ∧
      (∀ v, v ∈ numberAll reserved d dds ↔ v ∈ fs ∨ v ∈ dds.filter (· != -1)) ∧
      (∀ (i : Nat) (dd v : Int), dds[i]? = some dd → (numberAll reserved d dds)[i]? = some v → (dd ≠ -1 → v = dd) ∧ (dd = -1 → v ∈ fs))
  | [], _, _, _, _, _ => ⟨[], by simp, by simp, by simp, by simp [numberAll], by simp⟩
  | dd :: rest, reserved, d, hd, hn, hsub => by
    by_cases hf : dd = -1
    · subst hf
      obtain ⟨n1, n2⟩ := nextId_spec reserved d
      have n3 := nextId_gt hd
      obtain ⟨fs, g1, g2, g3, g4, g5⟩ := numberAll_spec named rest (reserved := nextId reserved d :: reserved) (d := nextId reserved d)
        (List.mem_cons_self) (fun h => n1 (hsub _ h)) (fun x hx => List.mem_cons_of_mem _ (hsub x hx))
      have e : numberAll reserved d (-1 :: rest) = d :: numberAll (nextId reserved d :: reserved) (nextId reserved d) rest := by
        conv => lhs; unfold numberAll
        simp
      refine ⟨d :: fs, by simp [g1], ?_, ?_, ?_, ?_⟩
      · exact List.pairwise_cons.mpr ⟨fun f hf => by have := (g3 f hf).2; omega, g2⟩
      · intro f hf
        rcases List.mem_cons.mp hf with rfl | hf
        · exact ⟨hn, by omega⟩
        · have := g3 f hf
          exact ⟨this.1, by omega⟩
      · intro v
        rw [e, List.mem_cons, g4, List.mem_cons, List.filter_cons_of_neg (by simp), or_assoc]
      · intro i x v hx hv
        rw [e] at hv
        cases i with
        | zero =>
          simp only [List.getElem?_cons_zero, Option.some.injEq] at hx hv
          subst hx hv
          exact ⟨fun h => absurd rfl h, fun _ => List.mem_cons_self⟩
        | succ i =>
          simp only [List.getElem?_cons_succ] at hx hv
          have := g5 i x v hx hv
          exact ⟨this.1, fun h => List.mem_cons_of_mem _ (this.2 h)⟩
    · obtain ⟨fs, g1, g2, g3, g4, g5⟩ := numberAll_spec named rest hd hn hsub
      have e : numberAll reserved d (dd :: rest) = dd :: numberAll reserved d rest := by
        conv => lhs; unfold numberAll
        rw [if_neg hf]
      refine ⟨fs, by simp [g1, hf], g2, g3, ?_, ?_⟩
      · intro v
        rw [e, List.mem_cons, g4, List.filter_cons_of_pos (by simpa using hf), List.mem_cons]
        constructor
        · rintro (h | h | h)
          · exact .inr (.inl h)
          · exact .inl h
          · exact .inr (.inr h)
        · rintro (h | h | h)
          · exact .inr (.inl h)
          · exact .inl h
          · exact .inr (.inr h)
      · intro i x v hx hv
        rw [e] at hv
        cases i with
        | zero =>
          simp only [List.getElem?_cons_zero, Option.some.injEq] at hx hv
          subst hx hv
          exact ⟨fun _ => rfl, fun h => absurd h hf⟩
        | succ i =>
          simp only [List.getElem?_cons_succ] at hx hv
          exact g5 i x v hx hv

theorem group_spec (named : List Int) : ∀ (chunks : List (Int × Int)) {reserved : List Int} {d a b c e : Int}, d ∈ reserved → d ∉ named →
    (∀ x ∈ named, x ∈ reserved) →
    ∀ (i : Nat) (s dd v : Int), chunks[i]? = some (s, dd) → (group reserved d a b c e chunks)[i]? = some v → (dd ≠ -1 → v = dd) ∧ (dd = -1 → v ∉ named)
  | [], _, _, _, _, _, _, _, _, _ => by simp
  | (size, x) :: rest, reserved, d, a, b, c, e, hd, hn, hsub => by
    intro i s dd v hx hv
    unfold group at hv
    by_cases hf : x = -1
    · rw [if_pos hf] at hv
      simp only at hv
      split at hv
      · obtain ⟨n1, n2⟩ := nextId_spec reserved d
        cases i with
        | zero =>
          simp only [List.getElem?_cons_zero, Option.some.injEq, Prod.mk.injEq] at hx hv
          obtain ⟨-, rfl⟩ := hx
          subst hv
          exact ⟨fun h => absurd hf h, fun _ => hn⟩
        | succ i =>
          simp only [List.getElem?_cons_succ] at hx hv
          exact group_spec named rest (List.mem_cons_self) (fun h => n1 (hsub _ h)) (fun y hy => List.mem_cons_of_mem _ (hsub y hy)) i s dd v hx hv
      · cases i with
        | zero =>
          simp only [List.getElem?_cons_zero, Option.some.injEq, Prod.mk.injEq] at hx hv
          obtain ⟨-, rfl⟩ := hx
          subst hv
          exact ⟨fun h => absurd hf h, fun _ => hn⟩
        | succ i =>
          simp only [List.getElem?_cons_succ] at hx hv
          exact group_spec named rest hd hn hsub i s dd v hx hv
    · rw [if_neg hf] at hv
      cases i with
      | zero =>
        simp only [List.getElem?_cons_zero, Option.some.injEq, Prod.mk.injEq] at hx hv
        obtain ⟨-, rfl⟩ := hx
        subst hv
        exact ⟨fun _ => rfl, fun h => absurd h hf⟩
      | succ i =>
        simp only [List.getElem?_cons_succ] at hx hv
        exact group_spec named rest hd hn hsub i s dd v hx hv

/-- Whatever the target, the domains asked for are respected. -/
theorem mapChunks_respects {target : Nat} {chunks : List (Int × Int)} {dests : List Int} (h : mapChunks target chunks = .ok dests) :
    Respects (chunks.map (·.2)) dests := by
  unfold mapChunks at h
  simp only at h
  generalize hr : (chunks.map (·.2)).filter (· != -1) = named at h
  obtain ⟨n1, _⟩ := nextId_spec named 0
  split at h
  · cases h
    obtain ⟨fs, g1, g2, g3, g4, g5⟩ := numberAll_spec named (chunks.map (·.2)) (reserved := nextId named 0 :: named) (d := nextId named 0)
      (List.mem_cons_self) n1 (fun x hx => List.mem_cons_of_mem _ hx)
    refine ⟨numberAll_length _, ?_⟩
    intro i dd v hx hv
    have := g5 i dd v hx hv
    rw [hr]
    exact ⟨this.1, fun e => (g3 _ (this.2 e)).1⟩
  · split at h
    · cases h
      refine ⟨by rw [group_length, List.length_map], ?_⟩
      intro i dd v hx hv
      rw [List.getElem?_map] at hx
      obtain ⟨⟨s, x⟩, hc, rfl⟩ := Option.map_eq_some_iff.mp hx
      rw [hr]
      exact group_spec named chunks (List.mem_cons_self) n1 (fun x hx => List.mem_cons_of_mem _ hx) i s x v hc hv
    · cases h

/-- As many targets as wanted: that many domains. -/
theorem mapChunks_exact {chunks : List (Int × Int)} {dests : List Int}
    (h : mapChunks (countTargets (chunks.map (·.2))) chunks = .ok dests) : (unique dests).length = countTargets (chunks.map (·.2)) := by
  unfold mapChunks at h
  simp only [if_true] at h
  cases h
  obtain ⟨n1, _⟩ := nextId_spec ((chunks.map (·.2)).filter (· != -1)) 0
  obtain ⟨fs, g1, g2, g3, g4, _⟩ := numberAll_spec ((chunks.map (·.2)).filter (· != -1)) (chunks.map (·.2))
    (reserved := nextId ((chunks.map (·.2)).filter (· != -1)) 0 :: (chunks.map (·.2)).filter (· != -1))
    (d := nextId ((chunks.map (·.2)).filter (· != -1)) 0)
    (List.mem_cons_self) n1 (fun x hx => List.mem_cons_of_mem _ hx)
  unfold countTargets
  rw [← g1, ← List.length_append]
  apply List.Perm.length_eq
  apply (List.perm_ext_iff_of_nodup (unique_nodup _) ?_).mpr
  · intro v
    rw [unique_mem, g4, List.mem_append, unique_mem]
  · rw [List.nodup_append]
    refine ⟨g2.imp (fun h => by omega), unique_nodup _, ?_⟩
    intro a ha b hb e
    subst e
    exact (g3 a ha).1 (unique_mem.mp hb)

/-! ### putting the chunks of a domain together -/

theorem filter_keys {β : Type} (f : β → Int) : ∀ (z : List β) {l : List Int}, l.Nodup → (∀ x ∈ z, f x ∈ l) →
    (l.flatMap fun d => z.filter fun x => f x == d).Perm z
  | [], l, _, _ => by simp
  | x :: z, l, hl, hk => by
    have ih := filter_keys f z hl fun y hy => hk y (List.mem_cons_of_mem _ hy)
    obtain ⟨l1, l2, rfl⟩ := List.append_of_mem (hk x (List.mem_cons_self))
    have hd := List.nodup_append.mp hl
    have hc := List.nodup_cons.mp hd.2.1
    have off : ∀ {m : List Int}, f x ∉ m → (m.flatMap fun d => (x :: z).filter fun y => f y == d) = m.flatMap fun d => z.filter fun y => f y == d := by
      intro m hm
      induction m with
      | nil => rfl
      | cons a m ihm =>
        rw [List.flatMap_cons, List.flatMap_cons, ihm fun h => hm (List.mem_cons_of_mem _ h), List.filter_cons_of_neg]
        intro h
        exact hm (by rw [beq_iff_eq.mp h]; exact List.mem_cons_self)
    rw [List.flatMap_append, List.flatMap_cons] at ih ⊢
    rw [off fun h => hd.2.2 _ h _ (List.mem_cons_self) rfl, off hc.1, List.filter_cons_of_pos (by simp), List.cons_append]
    exact List.perm_middle.trans (List.Perm.cons x ih)

/-- Every chunk goes to one domain. -/
theorem assemble_perm {dests : List Int} {chunks : List Piece} (h : dests.length = chunks.length) :
    ((assemble dests chunks).flatMap fun o => o.2).Perm chunks := by
  unfold assemble
  rw [List.flatMap_map]
  have := filter_keys (fun p : Int × Piece => p.1) (dests.zip chunks) (unique_nodup dests) fun x hx => by
    rw [unique_mem]
    exact (List.of_mem_zip (a := x.1) (b := x.2) hx).1
  have := this.map (·.2)
  rw [List.map_flatMap, List.map_snd_zip (by omega)] at this
  exact this

theorem assemble_nonempty {dests : List Int} {chunks : List Piece} (h : dests.length = chunks.length) : ∀ o ∈ assemble dests chunks, o.2 ≠ [] := by
  intro o ho
  unfold assemble at ho
  obtain ⟨d, hd, rfl⟩ := List.mem_map.mp ho
  rw [unique_mem] at hd
  obtain ⟨i, hi, e⟩ := List.getElem_of_mem hd
  intro h0
  have : chunks[i] ∈ ((dests.zip chunks).filter fun p => p.1 == d).map (·.2) := by
    refine List.mem_map.mpr ⟨(dests[i], chunks[i]'(by omega)), List.mem_filter.mpr ⟨?_, by simp [e]⟩, rfl⟩
    have hz : i < (dests.zip chunks).length := by rw [List.length_zip]; omega
    have := List.getElem_mem hz
    rwa [List.getElem_zip] at this
  have h0 : ((dests.zip chunks).filter fun p => p.1 == d).map (·.2) = [] := h0
  rw [h0] at this
  cases this

end Conduit.Part
