import Verif.Lemmas.MeshFiles
/-
Lemmas on writing N domains to M files.
-/
namespace Conduit.Files

/-- The domains of each rank and where they are to go. -/
structure Plan where
  ranks : Nat
  count : Nat → Nat
  first : Nat → Nat
  toFile : Nat → Nat
  files : Nat
  trunc : Bool
  fails : Nat → Bool
  inFile : ∀ r d, r < ranks → d < count r → toFile (first r + d) < files

variable (P : Plan)

/-- The domains of rank `r` for file `f`, by their place on the rank. -/
def Plan.mine (r f : Nat) : List Nat := (List.range (P.count r)).filter fun d => P.toFile (P.first r + d) == f

theorem Plan.mem_mine {r f d : Nat} : d ∈ P.mine r f ↔ d < P.count r ∧ P.toFile (P.first r + d) = f := by
  simp [mine]

/-- The writes of some domains of rank `r` to file `f`, the first with this truncation. -/
def tag (r f first : Nat) : Bool → List Nat → List Write
  | _, [] => []
  | t, d :: ds => ⟨r, f, first + d, t⟩ :: tag r f first false ds

/-- All the ranks before `T f` have yet to write to file `f`, and they only. -/
structure RankAt (T : Nat → Nat) (r : Nat) (k : Rank) : Prop where
  count : k.count = P.count r
  first : k.first = P.first r
  toFile : ∀ d, d < P.count r → k.toFile d = P.toFile (P.first r + d)
  pending : ∀ d, d < P.count r → k.pending d = decide (r < T (P.toFile (P.first r + d)))
  good : k.good = true

/-- Some rank has written to file `f`. -/
def Plan.Touched (T : Nat → Nat) (f : Nat) : Prop := ∃ r, T f ≤ r ∧ r < P.ranks ∧ P.mine r f ≠ []

structure At (T : Nat → Nat) (ks : List Rank) : Prop where
  ranks : ks.length = P.ranks
  le : ∀ f, T f ≤ P.ranks
  rank : ∀ r k, ks[r]? = some k → RankAt P T r k
  created : ∀ f, (ks.any fun k => k.created f) = true ↔ P.trunc = true ∧ P.Touched T f

/-! ### Batons -/

theorem foldl_if {α β : Type} (c : α → Bool) (v : β) (l : List α) (b : β) :
    l.foldl (fun b d => if c d then v else b) b = if l.any c then v else b := by
  induction l generalizing b with
  | nil => rfl
  | cons a l ih =>
    rw [List.foldl_cons, ih, List.any_cons]
    cases c a <;> simp

theorem baton_eq (r : Nat) (k : Rank) (f : Nat) :
    baton r k f = if ∃ d < k.count, k.pending d = true ∧ k.toFile d = f then (r : Int) else -1 := by
  unfold baton
  rw [foldl_if]
  congr 1
  simp

theorem foldl_max_mem (l : List Int) (x : Int) : l.foldl max x = x ∨ l.foldl max x ∈ l := by
  induction l generalizing x with
  | nil => exact .inl rfl
  | cons a l ih =>
    rw [List.foldl_cons]
    rcases ih (max x a) with h | h
    · rw [h]
      rcases Int.le_total x a with c | c
      · rw [Int.max_eq_right c]; exact .inr (List.mem_cons_self)
      · rw [Int.max_eq_left c]; exact .inl rfl
    · exact .inr (List.mem_cons_of_mem _ h)

theorem le_foldl_max (l : List Int) (x : Int) : x ≤ l.foldl max x ∧ ∀ y ∈ l, y ≤ l.foldl max x := by
  induction l generalizing x with
  | nil => exact ⟨Int.le_refl _, by simp⟩
  | cons a l ih =>
    rw [List.foldl_cons]
    obtain ⟨h1, h2⟩ := ih (max x a)
    refine ⟨Int.le_trans (Int.le_max_left _ _) h1, fun y hy => ?_⟩
    rcases List.mem_cons.1 hy with rfl | hy
    · exact Int.le_trans (Int.le_max_right _ _) h1
    · exact h2 y hy

theorem maxOf_spec {l : List Int} (h : l ≠ []) : maxOf l ∈ l ∧ ∀ y ∈ l, y ≤ maxOf l := by
  cases l with
  | nil => exact absurd rfl h
  | cons x l =>
    refine ⟨?_, fun y hy => ?_⟩
    · rcases foldl_max_mem l x with h | h
      · rw [maxOf, h]; exact List.mem_cons_self
      · exact List.mem_cons_of_mem _ h
    · rcases List.mem_cons.1 hy with rfl | hy
      · exact (le_foldl_max l _).1
      · exact (le_foldl_max l x).2 y hy

/-- The rank that has the baton of file `f`, if any. -/
inductive Baton (T : Nat → Nat) (f : Nat) : Int → Prop
  | rank {b : Nat} (h : b < T f) (hr : b < P.ranks) (hm : P.mine b f ≠ []) (hl : ∀ r, b < r → r < T f → r < P.ranks → P.mine r f = []) :
      Baton T f b
  | none (h : ∀ r, r < T f → r < P.ranks → P.mine r f = []) : Baton T f (-1)

theorem ne_nil_iff_exists {α : Type} {l : List α} : l ≠ [] ↔ ∃ a, a ∈ l := by
  constructor
  · exact List.exists_mem_of_ne_nil l
  · rintro ⟨a, h⟩ rfl
    cases h

variable {P}

theorem RankAt.baton {T : Nat → Nat} {r : Nat} {k : Rank} (h : RankAt P T r k) (f : Nat) :
    baton r k f = if r < T f ∧ P.mine r f ≠ [] then (r : Int) else -1 := by
  rw [baton_eq]
  have : (∃ d < k.count, k.pending d = true ∧ k.toFile d = f) ↔ r < T f ∧ P.mine r f ≠ [] := by
    rw [ne_nil_iff_exists]
    simp only [Plan.mem_mine, h.count]
    constructor
    · rintro ⟨d, h1, h2, h3⟩
      rw [h.toFile d h1] at h3
      rw [h.pending d h1, h3] at h2
      exact ⟨of_decide_eq_true h2, d, h1, h3⟩
    · rintro ⟨h1, d, h2, h3⟩
      refine ⟨d, h2, ?_, by rw [h.toFile d h2, h3]⟩
      rw [h.pending d h2, h3]
      exact decide_eq_true h1
  by_cases hc : r < T f ∧ P.mine r f ≠ []
  · rw [if_pos hc, if_pos (this.2 hc)]
  · rw [if_neg hc, if_neg (fun h => hc (this.1 h))]

theorem At.baton {T : Nat → Nat} {ks : List Rank} (h : At P T ks) (hP : 0 < P.ranks) (f : Nat) :
    Baton P T f (maxOf (ks.mapIdx fun r k => baton r k f)) := by
  have hb : ∀ r, r < P.ranks → (if r < T f ∧ P.mine r f ≠ [] then (r : Int) else -1) ∈
      ks.mapIdx fun r k => Files.baton r k f := by
    intro r hr
    rw [← h.ranks] at hr
    rw [← (h.rank r _ (List.getElem?_eq_getElem hr)).baton f]
    exact List.mem_mapIdx.2 ⟨r, hr, rfl⟩
  have hm : ∀ b ∈ ks.mapIdx fun r k => Files.baton r k f, ∃ r < P.ranks,
      b = if r < T f ∧ P.mine r f ≠ [] then (r : Int) else -1 := by
    intro b hb
    obtain ⟨r, hr, rfl⟩ := List.mem_mapIdx.1 hb
    exact ⟨r, by rw [← h.ranks]; exact hr, (h.rank r _ (List.getElem?_eq_getElem hr)).baton f⟩
  obtain ⟨q1, q2⟩ := maxOf_spec (ne_nil_iff_exists.2 ⟨_, hb 0 hP⟩)
  obtain ⟨r, hr, e⟩ := hm _ q1
  rw [e] at q2 ⊢
  by_cases c : r < T f ∧ P.mine r f ≠ []
  · rw [if_pos c] at q2 ⊢
    refine .rank c.1 hr c.2 fun r' h1 h2 h3 => ?_
    by_cases c' : P.mine r' f = []
    · exact c'
    · have := q2 _ (hb r' h3)
      rw [if_pos ⟨h2, c'⟩] at this
      omega
  · rw [if_neg c] at q2 ⊢
    refine .none fun r' h2 h3 => ?_
    by_cases c' : P.mine r' f = []
    · exact c'
    · have := q2 _ (hb r' h3)
      rw [if_pos ⟨h2, c'⟩] at this
      omega

/-! ### The writes of a rank -/

/-- Some of the domains cannot be written. -/
def Bad (fails : Nat → Bool) (first : Nat) (ds : List Nat) : Prop := ∃ d ∈ ds, fails (first + d) = true

/-- Once something went wrong nothing more is done. -/
theorem writeDomain_bad {trunc : Bool} {fails : Nat → Bool} {rank f : Nat} {s : Rank × List Write} (h : s.1.good = false)
    (l : List Nat) : l.foldl (writeDomain trunc fails rank f) s = s := by
  induction l with
  | nil => rfl
  | cons d l ih => rw [List.foldl_cons, show writeDomain trunc fails rank f s d = s by simp [writeDomain, h], ih]

theorem writeDomains_spec {trunc : Bool} {fails : Nat → Bool} {rank f : Nat} (l : List Nat) (k : Rank) (ws : List Write)
    (hg : k.good = true) (hl : l.Nodup) (hp : ∀ d ∈ l, k.toFile d = f → k.pending d = true) :
    let ds := l.filter fun d => k.toFile d == f
    let s := l.foldl (writeDomain trunc fails rank f) (k, ws)
    (Bad fails k.first ds ∧ s.1.good = false) ∨
    (¬ Bad fails k.first ds ∧ s.2 = ws ++ tag rank f k.first (trunc && !k.gCreated f) ds ∧
      s.1.count = k.count ∧ s.1.first = k.first ∧ s.1.toFile = k.toFile ∧ s.1.gBatons = k.gBatons ∧ s.1.good = true ∧
      (∀ d, s.1.pending d = (k.pending d && !(decide (d ∈ l) && k.toFile d == f))) ∧
      (∀ g, s.1.created g = (k.created g || (g == f && (trunc && !k.gCreated f) && !ds.isEmpty))) ∧
      (∀ g, s.1.gCreated g = (k.gCreated g || (g == f && (trunc && !k.gCreated f) && !ds.isEmpty)))) := by
  induction l generalizing k ws with
  | nil =>
    refine .inr ⟨by simp [Bad], by simp [tag], rfl, rfl, rfl, rfl, hg, by simp, by simp, by simp⟩
  | cons d l ih =>
    rw [List.nodup_cons] at hl
    intro ds s
    by_cases c : k.toFile d = f
    · have hpd := hp d List.mem_cons_self c
      have hds : ds = d :: l.filter fun d => k.toFile d == f := by simp [ds, c]
      by_cases hf : fails (k.first + d) = true
      · refine .inl ⟨⟨d, by rw [hds]; exact List.mem_cons_self, hf⟩, ?_⟩
        have : ∃ k', k'.good = false ∧ writeDomain trunc fails rank f (k, ws) d = (k', ws) := by
          unfold writeDomain
          simp only [hg, hpd, c, beq_self_eq_true, Bool.and_self, hf, if_true]
          split <;> exact ⟨_, rfl, rfl⟩
        obtain ⟨k', h1, h2⟩ := this
        show (l.foldl (writeDomain trunc fails rank f) (writeDomain trunc fails rank f (k, ws) d)).1.good = false
        rw [h2, writeDomain_bad (by exact h1)]
        exact h1
      · have : ∃ k', writeDomain trunc fails rank f (k, ws) d = (k', ws ++ [⟨rank, f, k.first + d, trunc && !k.gCreated f⟩]) ∧
            k'.count = k.count ∧ k'.first = k.first ∧ k'.toFile = k.toFile ∧ k'.gBatons = k.gBatons ∧ k'.good = true ∧
            k'.pending = put k.pending d false ∧
            (∀ g, k'.created g = (k.created g || (g == f && (trunc && !k.gCreated f)))) ∧
            (∀ g, k'.gCreated g = (k.gCreated g || (g == f && (trunc && !k.gCreated f)))) := by
          unfold writeDomain
          simp only [hg, hpd, c, beq_self_eq_true, Bool.and_self, if_true]
          by_cases ht : (trunc && !k.gCreated f) = true
          · rw [if_pos ht, if_neg hf]
            refine ⟨_, rfl, rfl, rfl, rfl, rfl, rfl, rfl, fun g => ?_, fun g => ?_⟩ <;>
            · simp only [put, ht]
              by_cases e : g = f <;> simp [e]
          · rw [if_neg ht, if_neg hf]
            simp only [Bool.not_eq_true] at ht
            exact ⟨_, rfl, rfl, rfl, rfl, rfl, hg, rfl, by simp [ht], by simp [ht]⟩
        obtain ⟨k', h1, e1, e2, e3, e4, e5, e6, e7, e8⟩ := this
        have ht' : (trunc && !k'.gCreated f) = false := by
          rw [e8]
          cases trunc <;> cases k.gCreated f <;> simp
        rcases ih k' (ws ++ [⟨rank, f, k.first + d, trunc && !k.gCreated f⟩]) e5 hl.2 (fun x hx hxf => by
            rw [e3] at hxf
            have hne : x ≠ d := fun h => hl.1 (by rw [← h]; exact hx)
            rw [e6]
            simp only [put, if_neg hne]
            exact hp x (List.mem_cons_of_mem _ hx) hxf) with ⟨q1, q2⟩ | ⟨q1, q2, q3, q4, q5, q6, q7, q8, q9, q10⟩
        · refine .inl ⟨?_, ?_⟩
          · obtain ⟨x, hx, hxf⟩ := q1
            rw [e3] at hx
            rw [e2] at hxf
            exact ⟨x, by rw [hds]; exact List.mem_cons_of_mem _ hx, hxf⟩
          · show (l.foldl (writeDomain trunc fails rank f) (writeDomain trunc fails rank f (k, ws) d)).1.good = false
            rw [h1]; exact q2
        · have hs : s = l.foldl (writeDomain trunc fails rank f) (k', ws ++ [⟨rank, f, k.first + d, trunc && !k.gCreated f⟩]) := by
            show l.foldl (writeDomain trunc fails rank f) (writeDomain trunc fails rank f (k, ws) d) = _
            rw [h1]
          rw [← hs] at q2 q3 q4 q5 q6 q7 q8 q9 q10
          rw [e3] at q1 q2 q5 q8 q9 q10
          rw [e2] at q1 q2 q4
          refine .inr ⟨?_, ?_, q3.trans e1, q4, q5, q6.trans e4, q7, fun x => ?_, fun g => ?_, fun g => ?_⟩
          · rw [hds]
            rintro ⟨x, hx, hxf⟩
            rcases List.mem_cons.1 hx with rfl | hx
            · exact hf hxf
            · exact q1 ⟨x, hx, hxf⟩
          · rw [q2, hds, ht']
            simp [tag]
          · rw [q8, e6]
            unfold put
            by_cases hxd : x = d
            · simp [hxd, c]
            · simp [hxd]
          · rw [q9, ht', e7, hds]
            simp
          · rw [q10, ht', e8, hds]
            simp
    · have h1 : writeDomain trunc fails rank f (k, ws) d = (k, ws) := by simp [writeDomain, c]
      have hds : ds = l.filter fun d => k.toFile d == f := by simp [ds, c]
      have hs : s = l.foldl (writeDomain trunc fails rank f) (k, ws) := by
        show l.foldl (writeDomain trunc fails rank f) (writeDomain trunc fails rank f (k, ws) d) = _
        rw [h1]
      rw [hds, hs]
      rcases ih k ws hg hl.2 (fun x hx => hp x (List.mem_cons_of_mem _ hx)) with q | ⟨q1, q2, q3, q4, q5, q6, q7, q8, q9, q10⟩
      · exact .inl q
      · refine .inr ⟨q1, q2, q3, q4, q5, q6, q7, fun x => ?_, q9, q10⟩
        rw [q8]
        by_cases hxd : x = d
        · subst hxd
          have : (k.toFile x == f) = false := by simp [c]
          rw [this]; simp
        · simp [hxd]

end Conduit.Files
