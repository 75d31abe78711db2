import Verif.Lemmas.Partition3
/-
The loop of split_selections.
-/
namespace Conduit.Part
open Conduit.Mesh
variable {F : Type}

theorem countTargets_free {dds : List Int} (h : ∀ d ∈ dds, d = -1) : countTargets dds = dds.length := by
  unfold countTargets
  have e : dds.filter (· != -1) = [] := by
    rw [List.filter_eq_nil_iff]
    intro d hd
    simp [h d hd]
  have e2 : unique [] = [] := by simp [unique]
  rw [e, e2, List.countP_eq_length.mpr]
  · rfl
  · intro d hd
    simp [h d hd]

theorem free_count {ss : List (Sel × Dom F)} (h : ∀ p ∈ ss, destDomain p.1 = -1) :
    countTargets (ss.map fun p => destDomain p.1) = ss.length := by
  rw [countTargets_free, List.length_map]
  intro d hd
  obtain ⟨p, hp, rfl⟩ := List.mem_map.mp hd
  exact h p hp

theorem largest_none : ∀ (lens : List Int) (n : Nat) (size : Int) (best : Option Nat), (∀ l ∈ lens, l ≤ size) →
    largest n size best lens = best
  | [], _, _, _, _ => rfl
  | l :: lens, n, size, best, h => by
    unfold largest
    rw [if_neg (by have := h l (List.mem_cons_self); omega)]
    exact largest_none lens (n + 1) size best fun x hx => h x (List.mem_cons_of_mem _ hx)

/-- The largest selection, if one has elements. -/
theorem largest_some : ∀ (lens : List Int) (n : Nat) (size : Int) (best : Option Nat), (∃ l ∈ lens, size < l) →
    ∃ i L, largest n size best lens = some (n + i) ∧ lens[i]? = some L ∧ size < L ∧ ∀ l ∈ lens, l ≤ L
  | [], _, _, _, h => by
    obtain ⟨l, hl, _⟩ := h
    cases hl
  | l :: lens, n, size, best, h => by
    unfold largest
    by_cases h1 : l > size
    · rw [if_pos h1]
      by_cases h2 : ∃ x ∈ lens, l < x
      · obtain ⟨i, L, e1, e2, e3, e4⟩ := largest_some lens (n + 1) l (some n) h2
        refine ⟨i + 1, L, by rw [e1]; congr 1; omega, by simpa using e2, by omega, ?_⟩
        intro x hx
        rcases List.mem_cons.mp hx with rfl | hx
        · omega
        · exact e4 x hx
      · have h2' : ∀ x ∈ lens, x ≤ l := fun x hx => by
          by_contra hc
          exact h2 ⟨x, hx, by omega⟩
        refine ⟨0, l, largest_none lens _ _ _ h2', rfl, by omega, ?_⟩
        intro x hx
        rcases List.mem_cons.mp hx with rfl | hx
        · omega
        · exact h2' x hx
    · rw [if_neg h1]
      have h3 : ∃ x ∈ lens, size < x := by
        obtain ⟨x, hx, hs⟩ := h
        rcases List.mem_cons.mp hx with rfl | hx
        · omega
        · exact ⟨x, hx, hs⟩
      obtain ⟨i, L, e1, e2, e3, e4⟩ := largest_some lens (n + 1) size best h3
      refine ⟨i + 1, L, by rw [e1]; congr 1; omega, by simpa using e2, e3, ?_⟩
      intro x hx
      rcases List.mem_cons.mp hx with rfl | hx
      · omega
      · exact e4 x hx

theorem mapM_index {α β : Type} {f : α → Res β} : ∀ {l : List α} {r : List β}, l.mapM f = .ok r → ∀ {i : Nat} {b : β}, r[i]? = some b →
    ∃ a, l[i]? = some a ∧ f a = .ok b
  | [], r, h, i, b, hb => by
    cases h
    simp at hb
  | a :: l, r, h, i, b, hb => by
    rw [List.mapM_cons] at h
    obtain ⟨x, hx, h⟩ := Res.bind_eq_ok.mp h
    obtain ⟨xs, hxs, h⟩ := Res.bind_eq_ok.mp h
    cases h
    cases i with
    | zero =>
      simp only [List.getElem?_cons_zero, Option.some.injEq] at hb
      subst hb
      exact ⟨a, rfl, hx⟩
    | succ i =>
      simp only [List.getElem?_cons_succ] at hb
      obtain ⟨y, hy, e⟩ := mapM_index hxs hb
      exact ⟨y, by simpa using hy, e⟩

theorem elements_ok (A : Arith F) {p : Sel × Dom F} {ids : List Int} (h : elementIds A p.1 p.2.mesh = .ok ids) :
    elementsOf A p = ids.map fun e => (p.2.idx, e) := by
  unfold elementsOf
  rw [h]

/-- Replacing a selection by its parts keeps the elements. -/
theorem elements_replace (A : Arith F) {ss : List (Sel × Dom F)} {n : Nat} {s : Sel} {d : Dom F} {p0 p1 : Sel} {ids i0 i1 : List Int}
    (hn : ss[n]? = some (s, d)) (hi : elementIds A s d.mesh = .ok ids) (h0 : elementIds A p0 d.mesh = .ok i0)
    (h1 : elementIds A p1 d.mesh = .ok i1) (hp : (i0 ++ i1).Perm ids) :
    (elementsOfAll A (ss.take n ++ [p0, p1].map (fun p => (p, d)) ++ ss.drop (n + 1))).Perm (elementsOfAll A ss) := by
  have e := take_drop_of hn
  unfold elementsOfAll
  conv => rhs; rw [e]
  rw [List.flatMap_append, List.flatMap_append, List.append_assoc, List.flatMap_append]
  refine List.Perm.append_left _ ?_
  rw [List.flatMap_cons (x := (s, d))]
  refine List.Perm.append_right _ ?_
  simp only [List.map_cons, List.map_nil, List.flatMap_cons, List.flatMap_nil, List.append_nil]
  rw [elements_ok A (p := (p0, d)) h0, elements_ok A (p := (p1, d)) h1, elements_ok A (p := (s, d)) hi, ← List.map_append]
  exact hp.map _

/-- Whatever the target, the elements are kept. -/
theorem splitAll_keeps (A : Arith F) (target : Nat) : ∀ (fuel : Nat) {ss ss' : List (Sel × Dom F)},
    (∀ p ∈ ss, (∀ n v q, p.1.kind ≠ .field n v q) ∧ ∃ ids, elementIds A p.1 p.2.mesh = .ok ids) →
    splitAll A target fuel ss = .ok (some ss') → (elementsOfAll A ss').Perm (elementsOfAll A ss) ∧
      (∀ p ∈ ss', (∀ n v q, p.1.kind ≠ .field n v q) ∧ ∃ ids, elementIds A p.1 p.2.mesh = .ok ids)
  | 0, ss, ss', _, h => by
    unfold splitAll at h
    cases h
  | fuel + 1, ss, ss', hk, h => by
    unfold splitAll at h
    simp only at h
    split at h
    · cases h
      exact ⟨List.Perm.refl _, hk⟩
    · obtain ⟨lens, hl, h⟩ := Res.bind_eq_ok.mp h
      split at h
      · cases h
      · rename_i n hn
        split at h
        · cases h
        · rename_i s d hs
          obtain ⟨ps, hps, h⟩ := Res.bind_eq_ok.mp h
          have hmem : (s, d) ∈ ss := List.mem_of_getElem? hs
          obtain ⟨hf, ids, hi⟩ := hk (s, d) hmem
          by_cases he : ps = []
          · rw [if_pos he] at h
            exact splitAll_keeps A target fuel hk h
          · rw [if_neg he] at h
            have hpos : ∃ L, lens[n]? = some L ∧ 0 < L := by
              by_cases hx : ∃ l ∈ lens, 0 < l
              · obtain ⟨i, L, e1, e2, e3, _⟩ := largest_some lens 0 0 none hx
                rw [hn] at e1
                have : n = i := by simpa using e1
                subst this
                exact ⟨L, e2, e3⟩
              · rw [largest_none lens 0 0 none (fun l hl => by
                  by_contra hc
                  exact hx ⟨l, hl, by omega⟩)] at hn
                cases hn
            obtain ⟨L, eL, hL⟩ := hpos
            obtain ⟨p, ep, hlen⟩ := mapM_index hl eL
            rw [hs] at ep
            cases ep
            have hb : ∀ a b, s.kind = .logical a b → 1 < L := by
              intro a b e
              by_contra hc
              apply he
              simp only [split, e] at hps
              simp only [selLength, e] at hlen
              cases hlen
              have := Res.ok.inj hps
              rw [← this]
              unfold splitLogical
              rw [if_neg (by omega)]
              rfl
            obtain ⟨p0, p1, i0, i1, rfl, ⟨k0, k1, rfl, rfl, f0, f1⟩, e0, e1, hp, _⟩ := split_ids A hf hlen hL hb hi hps
            have hk' : ∀ p ∈ ss.take n ++ [part s k0, part s k1].map (fun p => (p, d)) ++ ss.drop (n + 1),
                (∀ n v q, p.1.kind ≠ .field n v q) ∧ ∃ ids, elementIds A p.1 p.2.mesh = .ok ids := by
              intro p hp
              rcases List.mem_append.mp hp with hp | hp
              · rcases List.mem_append.mp hp with hp | hp
                · exact hk p (List.mem_of_mem_take hp)
                · simp only [List.map_cons, List.map_nil, List.mem_cons, List.not_mem_nil, or_false] at hp
                  rcases hp with rfl | rfl
                  · exact ⟨f0, i0, e0⟩
                  · exact ⟨f1, i1, e1⟩
              · exact hk p (List.mem_of_mem_drop hp)
            obtain ⟨r1, r2⟩ := splitAll_keeps A target fuel hk' h
            exact ⟨r1.trans (elements_replace A hs hi e0 e1 hp), r2⟩

/-! ### the target is reached -/

theorem elements_length (A : Arith F) {p : Sel × Dom F} {ids : List Int} (h : elementIds A p.1 p.2.mesh = .ok ids) :
    (elementsOf A p).length = ids.length := by
  rw [elements_ok A h, List.length_map]

theorem inside_lengths (A : Arith F) : ∀ {ss : List (Sel × Dom F)}, (∀ p ∈ ss, Inside A p.2.mesh p.1) →
    ss.mapM (fun p => selLength A p.1 p.2.mesh) = .ok (ss.map fun p => ((elementsOf A p).length : Int))
  | [], _ => rfl
  | p :: ss, h => by
    obtain ⟨ids, hi, hl, _⟩ := inside_ids A (h p (List.mem_cons_self))
    rw [List.mapM_cons, hl, inside_lengths A fun q hq => h q (List.mem_cons_of_mem _ hq)]
    simp only [Res.bind_ok, List.map_cons, elements_length A hi]
    rfl

theorem inside_pos (A : Arith F) {p : Sel × Dom F} (h : Inside A p.2.mesh p.1) : 1 ≤ (elementsOf A p).length := by
  obtain ⟨ids, hi, _, h1⟩ := inside_ids A h
  rw [elements_length A hi]
  exact h1

theorem all_single (A : Arith F) : ∀ {ss : List (Sel × Dom F)}, (∀ p ∈ ss, (elementsOf A p).length ≤ 1) → (elementsOfAll A ss).length ≤ ss.length
  | [], _ => by simp [elementsOfAll]
  | p :: ss, h => by
    have ih := all_single A fun q hq => h q (List.mem_cons_of_mem _ hq)
    have := h p (List.mem_cons_self)
    unfold elementsOfAll at ih ⊢
    rw [List.flatMap_cons, List.length_append, List.length_cons]
    omega

theorem pos_count (A : Arith F) : ∀ {ss : List (Sel × Dom F)}, (∀ p ∈ ss, 1 ≤ (elementsOf A p).length) → ss.length ≤ (elementsOfAll A ss).length
  | [], _ => by simp
  | p :: ss, h => by
    have ih := pos_count A fun q hq => h q (List.mem_cons_of_mem _ hq)
    have := h p (List.mem_cons_self)
    unfold elementsOfAll at ih ⊢
    rw [List.flatMap_cons, List.length_append, List.length_cons]
    omega

/-- A turn of the loop on selections inside the mesh: the largest is split, or all have one element. -/
theorem splitAll_turn (A : Arith F) {target fuel : Nat} {ss : List (Sel × Dom F)} (hk : ∀ p ∈ ss, Inside A p.2.mesh p.1)
    (hne : ss ≠ []) (hlt : ss.length < target) :
    (∃ n s d p0 p1, ss[n]? = some (s, d) ∧ Inside A d.mesh p0 ∧ Inside A d.mesh p1 ∧ p0.whole = some false ∧ p1.whole = some false ∧
        (elementsOfAll A (ss.take n ++ [p0, p1].map (fun p => (p, d)) ++ ss.drop (n + 1))).Perm (elementsOfAll A ss) ∧
        (split A s d.mesh = .ok [p0, p1]) ∧
        splitAll A target (fuel + 1) ss = splitAll A target fuel (ss.take n ++ [p0, p1].map (fun p => (p, d)) ++ ss.drop (n + 1))) ∨
      ((∀ p ∈ ss, (elementsOf A p).length = 1) ∧ ((∀ p ∈ ss, ∃ a b, p.1.kind = .logical a b) →
        splitAll A target (fuel + 1) ss = splitAll A target fuel ss)) := by
  have hfree := free_count (ss := ss) fun p hp => inside_free (hk p hp)
  have hlens := inside_lengths A hk
  have hx : ∃ l ∈ ss.map (fun p => ((elementsOf A p).length : Int)), 0 < l := by
    cases ss with
    | nil => exact absurd rfl hne
    | cons p ss =>
      refine ⟨_, List.mem_cons_self, ?_⟩
      have := inside_pos A (hk p (List.mem_cons_self))
      show 0 < ((elementsOf A p).length : Int)
      omega
  obtain ⟨i, L, e1, e2, e3, e4⟩ := largest_some _ 0 0 none hx
  rw [List.getElem?_map] at e2
  obtain ⟨⟨s, d⟩, hs, eL⟩ := Option.map_eq_some_iff.mp e2
  have hmem : (s, d) ∈ ss := List.mem_of_getElem? hs
  have hin := hk (s, d) hmem
  obtain ⟨ids, hi, hl, h1⟩ := inside_ids A hin
  have step : splitAll A target (fuel + 1) ss = (split A s d.mesh >>= fun ps =>
      splitAll A target fuel (if ps = [] then ss else ss.take i ++ ps.map (fun p => (p, d)) ++ ss.drop (i + 1))) := by
    conv => lhs; unfold splitAll
    simp only
    rw [hfree, if_neg (by
      rintro (h | h)
      · exact hne (List.length_eq_zero_iff.mp h)
      · omega), hlens]
    simp only [Res.bind_ok, e1, Nat.zero_add, hs]
  have eids : (elementsOf A (s, d)).length = ids.length := elements_length A hi
  by_cases hL : 1 < ids.length
  · left
    obtain ⟨p0, p1, i0, i1, h2, h3, h4, h5, h6, h7, h8, h9⟩ := inside_split A hin hi hL
    refine ⟨i, s, d, p0, p1, hs, h3, h4, h8, h9, elements_replace A hs hi h5 h6 h7, h2, ?_⟩
    rw [step, h2]
    simp
  · right
    have one : ids.length = 1 := by omega
    refine ⟨?_, ?_⟩
    · intro p hp
      have a := e4 _ (List.mem_map.mpr ⟨p, hp, rfl⟩)
      have b := inside_pos A (hk p hp)
      omega
    · intro hlog
      obtain ⟨a, b, e⟩ := hlog (s, d) hmem
      have : split A s d.mesh = .ok [] := by
        unfold split
        unfold selLength at hl
        have e : s.kind = .logical a b := e
        rw [e] at hl
        have := Res.ok.inj hl
        rw [one] at this
        simp only [e]
        unfold splitLogical
        rw [if_neg (by omega)]
        rfl
      rw [step, this]
      simp

/-- With enough elements the loop ends with as many selections as wanted, each with elements. -/
theorem splitAll_reaches (A : Arith F) (Q : Sel × Dom F → Prop)
    (hQ : ∀ s d ps, Q (s, d) → split A s d.mesh = .ok ps → ∀ p ∈ ps, p.whole = some false → Inside A d.mesh p → Q (p, d)) (target : Nat) :
    ∀ (k : Nat) {fuel : Nat} {ss : List (Sel × Dom F)}, ss.length + k = target → k < fuel → ss ≠ [] → (∀ p ∈ ss, Inside A p.2.mesh p.1 ∧ Q p) →
    target ≤ (elementsOfAll A ss).length →
    ∃ ss', splitAll A target fuel ss = .ok (some ss') ∧ ss'.length = target ∧ (∀ p ∈ ss', Inside A p.2.mesh p.1 ∧ Q p) ∧
      (elementsOfAll A ss').Perm (elementsOfAll A ss)
  | 0, fuel, ss, hk, hf, hne, hin, _ => by
    refine ⟨ss, ?_, by omega, hin, List.Perm.refl _⟩
    cases fuel with
    | zero => omega
    | succ fuel =>
      unfold splitAll
      simp only
      rw [free_count (ss := ss) fun p hp => inside_free (hin p hp).1, if_pos (.inr (by omega))]
  | k + 1, fuel, ss, hk, hf, hne, hin, htot => by
    cases fuel with
    | zero => omega
    | succ fuel =>
      rcases splitAll_turn A (fuel := fuel) (fun p hp => (hin p hp).1) hne (show ss.length < target by omega) with
        ⟨n, s, d, p0, p1, hs, h0, h1, w0, w1, hp, hsp, e⟩ | ⟨h, _⟩
      · have hn := (List.getElem?_eq_some_iff.mp hs).1
        obtain ⟨ss', r1, r2, r3, r4⟩ := splitAll_reaches A Q hQ target k (fuel := fuel)
          (ss := ss.take n ++ [p0, p1].map (fun p => (p, d)) ++ ss.drop (n + 1))
          (by simp only [List.length_append, List.length_take, List.length_map, List.length_cons, List.length_nil, List.length_drop]; omega)
          (by omega) (by simp) (by
            intro p hp
            rcases List.mem_append.mp hp with hp | hp
            · rcases List.mem_append.mp hp with hp | hp
              · exact hin p (List.mem_of_mem_take hp)
              · have hq := (hin (s, d) (List.mem_of_getElem? hs)).2
                simp only [List.map_cons, List.map_nil, List.mem_cons, List.not_mem_nil, or_false] at hp
                rcases hp with rfl | rfl
                · exact ⟨h0, hQ s d _ hq hsp p0 (by simp) w0 h0⟩
                · exact ⟨h1, hQ s d _ hq hsp p1 (by simp) w1 h1⟩
            · exact hin p (List.mem_of_mem_drop hp)) (by rw [hp.length_eq]; exact htot)
        exact ⟨ss', by rw [e, r1], r2, r3, r4.trans hp⟩
      · have := all_single A (ss := ss) fun p hp => Nat.le_of_eq (h p hp)
        omega

/-- With fewer elements than wanted, logical selections are split forever. -/
theorem splitAll_hangs (A : Arith F) (target : Nat) : ∀ (fuel : Nat) {ss : List (Sel × Dom F)}, ss ≠ [] →
    (∀ p ∈ ss, Inside A p.2.mesh p.1 ∧ ∃ a b, p.1.kind = .logical a b) → (elementsOfAll A ss).length < target →
    splitAll A target fuel ss = .ok none
  | 0, _, _, _, _ => rfl
  | fuel + 1, ss, hne, hin, htot => by
    have hc := pos_count A (ss := ss) fun p hp => inside_pos A (hin p hp).1
    rcases splitAll_turn A (fuel := fuel) (fun p hp => (hin p hp).1) hne (show ss.length < target by omega) with
      ⟨n, s, d, p0, p1, hs, h0, h1, _, _, hp, hsp, e⟩ | ⟨_, h⟩
    · rw [e]
      obtain ⟨a, b, ek⟩ := (hin (s, d) (List.mem_of_getElem? hs)).2
      have kinds : (∃ a b, p0.kind = .logical a b) ∧ ∃ a b, p1.kind = .logical a b := by
        have ek : s.kind = .logical a b := ek
        unfold split at hsp
        rw [ek] at hsp
        have hsp := Res.ok.inj hsp
        unfold splitLogical at hsp
        split at hsp
        · split at hsp <;> simp only [List.map_cons, List.map_nil, List.cons.injEq, and_true] at hsp <;> obtain ⟨rfl, rfl⟩ := hsp <;>
            exact ⟨⟨_, _, rfl⟩, ⟨_, _, rfl⟩⟩
        · cases hsp
      apply splitAll_hangs A target fuel (by simp)
      · intro p hp
        rcases List.mem_append.mp hp with hp | hp
        · rcases List.mem_append.mp hp with hp | hp
          · exact hin p (List.mem_of_mem_take hp)
          · simp only [List.map_cons, List.map_nil, List.mem_cons, List.not_mem_nil, or_false] at hp
            rcases hp with rfl | rfl
            · exact ⟨h0, kinds.1⟩
            · exact ⟨h1, kinds.2⟩
        · exact hin p (List.mem_of_mem_drop hp)
      · rw [hp.length_eq]
        exact htot
    · rw [h fun p hp => (hin p hp).2]
      exact splitAll_hangs A target fuel hne hin htot

end Conduit.Part
