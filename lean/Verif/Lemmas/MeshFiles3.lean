import Verif.Lemmas.MeshFiles2
/-
Lemmas on writing N domains to M files: a round.
-/
namespace Conduit.Files

theorem writeFile_bad {trunc : Bool} {fails : Nat → Bool} {rank : Nat} {s : Rank × List Write} (h : s.1.good = false)
    (l : List Nat) : l.foldl (writeFile trunc fails rank) s = s := by
  induction l with
  | nil => rfl
  | cons d l ih => rw [List.foldl_cons, show writeFile trunc fails rank s d = s by simp [writeFile, h], ih]

theorem flatMap_congr_mem {α β : Type} {l : List α} {f g : α → List β} (h : ∀ a ∈ l, f a = g a) : l.flatMap f = l.flatMap g := by
  induction l with
  | nil => rfl
  | cons a l ih =>
    rw [List.flatMap_cons, List.flatMap_cons, h a List.mem_cons_self, ih fun b hb => h b (List.mem_cons_of_mem _ hb)]

theorem mem_cons_decide {a b : Nat} {l : List Nat} (h : ¬ a = b) : decide (a ∈ b :: l) = decide (a ∈ l) := by
  simp [h]

/-- The places of the domains for file `f`. -/
def Rank.for (k : Rank) (f : Nat) : List Nat := (List.range k.count).filter fun d => k.toFile d == f
/-- The baton of file `f` is with this rank. -/
def Rank.holds (k : Rank) (rank f : Nat) : Bool := k.gBatons f == (rank : Int)

theorem writeFiles_spec {trunc : Bool} {fails : Nat → Bool} {rank : Nat} (l : List Nat) (k : Rank) (ws : List Write)
    (hg : k.good = true) (hl : l.Nodup)
    (hp : ∀ d, d < k.count → k.toFile d ∈ l → k.holds rank (k.toFile d) = true → k.pending d = true) :
    let s := l.foldl (writeFile trunc fails rank) (k, ws)
    ((∃ f ∈ l, k.holds rank f = true ∧ Bad fails k.first (k.for f)) ∧ s.1.good = false) ∨
    ((∀ f ∈ l, k.holds rank f = true → ¬ Bad fails k.first (k.for f)) ∧
      s.2 = ws ++ (l.filter (k.holds rank)).flatMap (fun f => tag rank f k.first (trunc && !k.gCreated f) (k.for f)) ∧
      s.1.count = k.count ∧ s.1.first = k.first ∧ s.1.toFile = k.toFile ∧ s.1.gBatons = k.gBatons ∧ s.1.good = true ∧
      (∀ d, d < k.count → s.1.pending d = (k.pending d && !(decide (k.toFile d ∈ l) && k.holds rank (k.toFile d)))) ∧
      (∀ g, s.1.created g = (k.created g || (decide (g ∈ l) && k.holds rank g && (trunc && !k.gCreated g) && !(k.for g).isEmpty)))) := by
  induction l generalizing k ws with
  | nil => exact .inr ⟨by simp, by simp, rfl, rfl, rfl, rfl, hg, by simp, by simp⟩
  | cons f l ih =>
    rw [List.nodup_cons] at hl
    intro s
    by_cases c : k.holds rank f = true
    · have hw : writeFile trunc fails rank (k, ws) f = (List.range k.count).foldl (writeDomain trunc fails rank f) (k, ws) := by
        unfold writeFile
        rw [if_pos]
        simp only [hg, Bool.true_and]
        exact c
      have hs : s = l.foldl (writeFile trunc fails rank) ((List.range k.count).foldl (writeDomain trunc fails rank f) (k, ws)) := by
        rw [← hw]; rfl
      rcases writeDomains_spec (trunc := trunc) (fails := fails) (rank := rank) (f := f) (List.range k.count) k ws hg
        List.nodup_range (fun d hd hdf => hp d (by simpa using hd) (by rw [hdf]; exact List.mem_cons_self) (by rw [hdf]; exact c)) with
        ⟨q1, q2⟩ | ⟨q1, q2, q3, q4, q5, q6, q7, q8, q9, q10⟩
      · refine .inl ⟨⟨f, List.mem_cons_self, c, q1⟩, ?_⟩
        rw [hs, writeFile_bad q2]; exact q2
      · generalize (List.range k.count).foldl (writeDomain trunc fails rank f) (k, ws) = s' at hs q2 q3 q4 q5 q6 q7 q8 q9 q10
        obtain ⟨k', ws'⟩ := s'
        simp only at hs q2 q3 q4 q5 q6 q7 q8 q9 q10
        have hh : ∀ g, k'.holds rank g = k.holds rank g := fun g => by simp only [Rank.holds, q6]
        have hfor : ∀ g, k'.for g = k.for g := fun g => by simp only [Rank.for, q3, q5]
        have hcr : ∀ g, g ≠ f → k'.gCreated g = k.gCreated g := fun g hgf => by rw [q10]; simp [hgf]
        rcases ih k' ws' q7 hl.2 (fun d hd hdl hdh => by
            rw [q3] at hd
            rw [q5] at hdl hdh
            rw [hh] at hdh
            rw [q8, hp d hd (List.mem_cons_of_mem _ hdl) hdh]
            have : k.toFile d ≠ f := fun h => hl.1 (by rw [← h]; exact hdl)
            simp [this]) with ⟨⟨g, r1, r2, r3⟩, r4⟩ | ⟨r1, r2, r3, r4, r5, r6, r7, r8, r9⟩
        · refine .inl ⟨⟨g, List.mem_cons_of_mem _ r1, by rw [← hh]; exact r2, ?_⟩, by rw [hs]; exact r4⟩
          rw [hfor, q4] at r3
          exact r3
        · rw [← hs] at r2 r3 r4 r5 r6 r7 r8 r9
          refine .inr ⟨?_, ?_, r3.trans q3, r4.trans q4, r5.trans q5, r6.trans q6, r7, fun d hd => ?_, fun g => ?_⟩
          · intro g hgl hgh
            rcases List.mem_cons.1 hgl with rfl | hgl
            · exact q1
            · have := r1 g hgl (by rw [hh]; exact hgh)
              rw [hfor, q4] at this
              exact this
          · rw [r2, q2, List.filter_cons, if_pos c, List.flatMap_cons, List.append_assoc]
            have e1 : l.filter (k'.holds rank) = l.filter (k.holds rank) := by
              congr 1; funext g; exact hh g
            rw [e1, q4]
            congr 1
            congr 1
            apply flatMap_congr_mem
            intro g hgm
            have : g ≠ f := fun h => hl.1 (by rw [← h]; exact (List.mem_filter.1 hgm).1)
            rw [hcr g this, hfor]
          · rw [r8 d (by rw [q3]; exact hd), q8, q5, hh]
            by_cases e : k.toFile d = f
            · rw [e]
              simp [hl.1, c, hd]
            · rw [mem_cons_decide e, show (k.toFile d == f) = false by simp [e]]
              simp
          · rw [r9, q9, hh, hfor]
            by_cases e : g = f
            · subst e
              simp [hl.1, c]
              rfl
            · rw [hcr g e, mem_cons_decide e, show (g == f) = false by simp [e]]
              simp
    · have hw : writeFile trunc fails rank (k, ws) f = (k, ws) := by
        unfold writeFile
        rw [if_neg]
        simp only [hg, Bool.true_and]
        exact c
      have hs : s = l.foldl (writeFile trunc fails rank) (k, ws) := by
        show l.foldl (writeFile trunc fails rank) (writeFile trunc fails rank (k, ws) f) = _
        rw [hw]
      rw [hs]
      simp only [Bool.not_eq_true] at c
      rcases ih k ws hg hl.2 (fun d hd hdl => hp d hd (List.mem_cons_of_mem _ hdl)) with
        ⟨⟨g, r1, r2, r3⟩, r4⟩ | ⟨r1, r2, r3, r4, r5, r6, r7, r8, r9⟩
      · exact .inl ⟨⟨g, List.mem_cons_of_mem _ r1, r2, r3⟩, r4⟩
      · refine .inr ⟨?_, ?_, r3, r4, r5, r6, r7, fun d hd => ?_, fun g => ?_⟩
        · intro g hgl hgh
          rcases List.mem_cons.1 hgl with rfl | hgl
          · rw [c] at hgh; cases hgh
          · exact r1 g hgl hgh
        · rw [r2, List.filter_cons, if_neg (by simp [c])]
        · rw [r8 d hd]
          by_cases e : k.toFile d = f
          · rw [e]; simp [c]
          · rw [mem_cons_decide e]
        · rw [r9]
          by_cases e : g = f
          · rw [e]; simp [c]
          · rw [mem_cons_decide e]

/-! ### A round -/

variable {P : Plan}

/-- The ranks that have yet to write to each file after a round with these batons. -/
def after (B : Nat → Int) (f : Nat) : Nat := (B f).toNat

/-- Before the first write of a round, after the batons are known. -/
def readyRank (P : Plan) (T : Nat → Nat) (B : Nat → Int) (r : Nat) (k : Rank) : Prop :=
  RankAt P T r k ∧ k.gBatons = B ∧ ∀ f, k.gCreated f = true ↔ P.trunc = true ∧ P.Touched T f

theorem RankAt.for_eq {T : Nat → Nat} {r : Nat} {k : Rank} (h : RankAt P T r k) (f : Nat) : k.for f = P.mine r f := by
  unfold Rank.for Plan.mine
  rw [h.count]
  apply List.filter_congr
  intro d hd
  rw [h.toFile d (by simpa using hd)]

theorem At.ready {T : Nat → Nat} {ks : List Rank} (h : At P T ks) (hP : 0 < P.ranks) :
    ∃ B, (∀ f, Baton P T f (B f)) ∧ (ks.map (reduce ks)).length = P.ranks ∧
      (∀ f, ((ks.map (reduce ks)).any fun k => k.created f) = true ↔ P.trunc = true ∧ P.Touched T f) ∧
      ∀ r k, (ks.map (reduce ks))[r]? = some k → readyRank P T B r k := by
  refine ⟨fun f => maxOf (ks.mapIdx fun r k => Files.baton r k f), h.baton hP, by simp [h.ranks], ?_, ?_⟩
  · intro f
    rw [← h.created f, List.any_map]
    rfl
  · intro r k hk
    rw [List.getElem?_map] at hk
    obtain ⟨k0, hk0, rfl⟩ := Option.map_eq_some_iff.1 hk
    have q := h.rank r k0 hk0
    exact ⟨⟨q.count, q.first, q.toFile, q.pending, q.good⟩, rfl, h.created⟩

/-- The writes of rank `r` in a round with batons `B`. -/
noncomputable def roundWrites (P : Plan) (T : Nat → Nat) (B : Nat → Int) (r : Nat) : List Write :=
  ((List.range P.files).filter fun f => B f == (r : Int)).flatMap fun f =>
    tag r f (P.first r) (P.trunc && !(@decide (P.Touched T f) (Classical.propDecidable _))) (P.mine r f)

theorem baton_rank {T : Nat → Nat} {f r : Nat} {b : Int} (h : Baton P T f b) (e : b = (r : Int)) :
    r < T f ∧ r < P.ranks ∧ P.mine r f ≠ [] ∧ ∀ r', r < r' → r' < T f → r' < P.ranks → P.mine r' f = [] := by
  cases h with
  | rank h1 h2 h3 h4 =>
    obtain rfl := Int.ofNat.inj e
    exact ⟨h1, h2, h3, h4⟩
  | none => omega

/-- The round of one rank. -/
theorem ready_round {T : Nat → Nat} {B : Nat → Int} (hB : ∀ f, Baton P T f (B f)) {r : Nat} {k : Rank} (hr : r < P.ranks)
    (h : readyRank P T B r k) :
    ((∃ f, B f = (r : Int) ∧ Bad P.fails (P.first r) (P.mine r f)) ∧ (writeFiles P.files P.trunc P.fails r k).1.good = false) ∨
    ((∀ f, B f = (r : Int) → ¬ Bad P.fails (P.first r) (P.mine r f)) ∧
      (writeFiles P.files P.trunc P.fails r k).2 = roundWrites P T B r ∧
      RankAt P (after B) r (writeFiles P.files P.trunc P.fails r k).1 ∧
      (writeFiles P.files P.trunc P.fails r k).1.gBatons = B ∧
      ∀ g, (writeFiles P.files P.trunc P.fails r k).1.created g = true ↔
        k.created g = true ∨ (B g = (r : Int) ∧ P.trunc = true ∧ ¬ P.Touched T g)) := by
  obtain ⟨hk, hb, hc⟩ := h
  have hholds : ∀ f, k.holds r f = true ↔ B f = (r : Int) := fun f => by simp [Rank.holds, hb]
  have hlt : ∀ f, B f = (r : Int) → f < P.files := by
    intro f hf
    obtain ⟨d, hd⟩ := List.exists_mem_of_ne_nil _ (baton_rank (hB f) hf).2.2.1
    obtain ⟨hd, e⟩ := P.mem_mine.1 hd
    have := P.inFile r d hr hd
    rwa [e] at this
  have htr : ∀ f, (P.trunc && !k.gCreated f) = (P.trunc && !(@decide (P.Touched T f) (Classical.propDecidable _))) := by
    intro f
    cases ht : P.trunc with
    | false => rfl
    | true =>
      have := hc f
      by_cases hx : P.Touched T f
      · rw [this.2 ⟨ht, hx⟩, @decide_eq_true _ (Classical.propDecidable _) hx]
      · rw [@decide_eq_false _ (Classical.propDecidable _) hx]
        cases hy : k.gCreated f with
        | false => rfl
        | true => exact absurd (this.1 hy).2 hx
  rcases writeFiles_spec (trunc := P.trunc) (fails := P.fails) (rank := r) (List.range P.files) k [] hk.good List.nodup_range
    (fun d hd hdl hdh => by
      rw [hk.count] at hd
      rw [hk.pending d hd]
      rw [hk.toFile d hd, hholds] at hdh
      exact decide_eq_true (baton_rank (hB _) hdh).1) with ⟨⟨f, q1, q2, q3⟩, q4⟩ | ⟨q1, q2, q3, q4, q5, q6, q7, q8, q9⟩
  · refine .inl ⟨⟨f, (hholds f).1 q2, ?_⟩, q4⟩
    rw [hk.for_eq, hk.first] at q3
    exact q3
  · refine .inr ⟨?_, ?_, ?_, q6.trans hb, ?_⟩
    · intro f hf
      have := q1 f (by simpa using hlt f hf) ((hholds f).2 hf)
      rw [hk.for_eq, hk.first] at this
      exact this
    · unfold writeFiles
      rw [q2, List.nil_append]
      unfold roundWrites
      have e1 : (List.range P.files).filter (k.holds r) = (List.range P.files).filter fun f => B f == (r : Int) := by
        apply List.filter_congr
        intro f _
        simp [Rank.holds, hb]
      rw [e1]
      apply flatMap_congr_mem
      intro f _
      rw [hk.for_eq, hk.first, htr]
    · refine ⟨q3.trans hk.count, q4.trans hk.first, fun d hd => ?_, fun d hd => ?_, q7⟩
      · unfold writeFiles
        rw [q5]; exact hk.toFile d hd
      · unfold writeFiles
        rw [q8 d (by rw [hk.count]; exact hd), hk.pending d hd, hk.toFile d hd]
        have hm : P.toFile (P.first r + d) ∈ List.range P.files := by simpa using P.inFile r d hr hd
        have hmine : P.mine r (P.toFile (P.first r + d)) ≠ [] :=
          ne_nil_iff_exists.2 ⟨d, P.mem_mine.2 ⟨hd, rfl⟩⟩
        generalize P.toFile (P.first r + d) = f at hm hmine
        simp only [hm, decide_true, Bool.true_and]
        have hbf := hB f
        unfold after
        generalize hbe : B f = b at hbf
        have hh := hholds f
        rw [hbe] at hh
        cases hbf with
        | none h0 =>
          have h1 : ¬ r < T f := fun h => hmine (h0 r h hr)
          simp [h1]
        | @rank b h1 h2 h3 h4 =>
          simp only [Int.toNat_natCast]
          by_cases e : r = b
          · subst e
            simp [hh.2 rfl]
          · have hne : k.holds r f = false := by
              cases hx : k.holds r f with
              | false => rfl
              | true => exact absurd (Int.ofNat.inj (hh.1 hx)).symm e
            rw [hne]
            simp only [Bool.not_false, Bool.and_true]
            rw [decide_eq_decide]
            constructor
            · intro hlt
              by_cases hrb : r < b
              · exact hrb
              · exact absurd (h4 r (by omega) hlt hr) hmine
            · intro; omega
    · intro g
      unfold writeFiles
      rw [q9 g]
      simp only [Bool.or_eq_true, Bool.and_eq_true, decide_eq_true_eq, hholds, List.mem_range, Bool.not_eq_true']
      constructor
      · rintro (h | ⟨⟨⟨h1, h2⟩, h3, h4⟩, h5⟩)
        · exact .inl h
        · refine .inr ⟨h2, h3, fun ht => ?_⟩
          rw [(hc g).2 ⟨h3, ht⟩] at h4; cases h4
      · rintro (h | ⟨h1, h2, h3⟩)
        · exact .inl h
        · refine .inr ⟨⟨⟨hlt g h1, h1⟩, h2, ?_⟩, ?_⟩
          · cases hy : k.gCreated g with
            | false => rfl
            | true => exact absurd ((hc g).1 hy).2 h3
          · rw [hk.for_eq]
            have := (baton_rank (hB g) h1).2.2.1
            cases hmm : P.mine r g with
            | nil => exact absurd hmm this
            | cons => rfl

end Conduit.Files
