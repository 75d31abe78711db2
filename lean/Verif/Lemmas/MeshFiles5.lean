import Verif.Lemmas.MeshFiles4
/-
Lemmas on writing domains to files and reading them.
-/
namespace Conduit.Files

variable {P : Plan}

/-- Some domain yet to be written cannot be. -/
def Plan.Stuck (P : Plan) (T : Nat → Nat) : Prop :=
  ∃ r d, r < P.ranks ∧ d < P.count r ∧ r < T (P.toFile (P.first r + d)) ∧ P.fails (P.first r + d) = true

theorem another_eq {files : Nat} {k : Rank} {B : Nat → Int} (h : k.gBatons = B) :
    another files k = (List.range files).any fun f => B f != -1 := by
  rw [another, h]

theorem twirl_spec (hP : 0 < P.ranks) (fuel : Nat) (T : Nat → Nat) (ks : List Rank) (h : At P T ks) (hT : ∀ f, T f < fuel) :
    (P.Stuck T → ∃ rounds, twirl P.files P.trunc P.fails fuel ks = some (.raised, rounds)) ∧
    (¬ P.Stuck T → ∃ rounds, twirl P.files P.trunc P.fails fuel ks = some (.done, rounds) ∧ rounds.length ≤ fuel ∧
      (∀ ws ∈ rounds, ¬ Collide ws) ∧ ∀ es, InRounds rounds es → ∀ f, es.filter (·.file == f) = P.rest T f) := by
  induction fuel generalizing T ks with
  | zero => exact absurd (hT 0) (Nat.not_lt_zero _)
  | succ fuel ih =>
    obtain ⟨B, hB, hr⟩ := h.round hP
    simp only [twirl]
    have hcol : ¬ Collide ((List.range P.ranks).map (roundWrites P T B)) := by
      rintro ⟨r, r', l, l', w, w', hne, h1, h2, h3, h4, h5⟩
      have get : ∀ (r : Nat) l, ((List.range P.ranks).map (roundWrites P T B))[r]? = some l → l = roundWrites P T B r := by
        intro r l hl
        rw [List.getElem?_map] at hl
        obtain ⟨a, ha, rfl⟩ := Option.map_eq_some_iff.1 hl
        obtain ⟨-, rfl⟩ := List.getElem?_eq_some_iff.1 ha
        simp
      rw [get r l h1] at h3
      rw [get r' l' h2] at h4
      have q1 := mem_roundWrites h3
      have q2 := mem_roundWrites h4
      rw [← h5, q1] at q2
      exact hne (Int.ofNat.inj q2)
    -- what is still to be written, of what was
    have hlate : ∀ r d, r < P.ranks → d < P.count r → r < T (P.toFile (P.first r + d)) →
        B (P.toFile (P.first r + d)) ≠ (r : Int) → r < after B (P.toFile (P.first r + d)) := by
      intro r d hr hd hlt hne
      have hm : P.mine r (P.toFile (P.first r + d)) ≠ [] := ne_nil_iff_exists.2 ⟨d, P.mem_mine.2 ⟨hd, rfl⟩⟩
      generalize P.toFile (P.first r + d) = f at hlt hne hm
      have hb := hB f
      unfold after
      generalize B f = b at hb hne
      cases hb with
      | none h0 => exact absurd (h0 r hlt hr) hm
      | @rank b h1 h2 h3 h4 =>
        rw [Int.toNat_natCast]
        by_cases e : b < r
        · exact absurd (h4 r e hlt hr) hm
        · have : b ≠ r := fun e => hne (by rw [e])
          omega
    have hearly : ∀ r f, r < P.ranks → r < after B f → P.mine r f ≠ [] → r < T f := by
      intro r f hr hlt hm
      have hb := hB f
      unfold after at hlt
      generalize B f = b at hb hlt
      cases hb with
      | none h0 => simp at hlt
      | @rank b h1 h2 h3 h4 =>
        rw [Int.toNat_natCast] at hlt
        omega
    rcases hr with ⟨⟨r, f, hf, d, hd, hbad⟩, hg⟩ | ⟨hok, hg, hw, hat, hgb⟩
    · rw [hg]
      simp only [Bool.not_false, if_true]
      refine ⟨fun _ => ⟨_, rfl⟩, fun hs => absurd ?_ hs⟩
      obtain ⟨hd, e⟩ := P.mem_mine.1 hd
      obtain ⟨q1, q2, -⟩ := baton_rank (hB f) hf
      exact ⟨r, d, q2, hd, by rw [e]; exact q1, hbad⟩
    · rw [hg, hw]
      simp only [Bool.not_true, Bool.false_eq_true, if_false]
      generalize ((ks.map (reduce ks)).mapIdx (writeFiles P.files P.trunc P.fails)).map (·.1) = ks' at hat hgb
      have hne : ks' ≠ [] := by
        intro e
        have := hat.ranks
        rw [e] at this
        simp at this
        omega
      obtain ⟨k0, hk0⟩ := List.exists_mem_of_ne_nil _ hne
      by_cases c : ((List.range P.files).any fun f => B f != -1) = true
      · rw [if_pos (List.all_eq_true.2 fun k hk => by rw [another_eq (hgb k hk)]; exact c)]
        have hT' : ∀ f, after B f < fuel := by
          obtain ⟨g, -, hg⟩ := List.any_eq_true.1 c
          have hpos : 0 < fuel := by
            have hb := hB g
            have := hT g
            generalize B g = b at hb hg
            cases hb with
            | none => simp at hg
            | rank h1 => omega
          intro f
          have hb := hB f
          have := hT f
          unfold after
          generalize B f = b at hb
          cases hb with
          | none => simpa using hpos
          | rank h1 => rw [Int.toNat_natCast]; omega
        obtain ⟨i1, i2⟩ := ih (after B) ks' hat hT'
        have hst : P.Stuck T ↔ P.Stuck (after B) := by
          constructor
          · rintro ⟨r, d, h1, h2, h3, h4⟩
            refine ⟨r, d, h1, h2, hlate r d h1 h2 h3 fun hb => ?_, h4⟩
            exact hok r _ hb ⟨d, P.mem_mine.2 ⟨h2, rfl⟩, h4⟩
          · rintro ⟨r, d, h1, h2, h3, h4⟩
            exact ⟨r, d, h1, h2, hearly r _ h1 h3 (ne_nil_iff_exists.2 ⟨d, P.mem_mine.2 ⟨h2, rfl⟩⟩), h4⟩
        refine ⟨fun hs => ?_, fun hs => ?_⟩
        · obtain ⟨rounds, e⟩ := i1 (hst.1 hs)
          rw [e]
          exact ⟨_, rfl⟩
        · obtain ⟨rounds, e, q1, q2, q3⟩ := i2 fun h => hs (hst.2 h)
          rw [e]
          refine ⟨_, rfl, by simpa using q1, ?_, ?_⟩
          · intro ws hws
            rcases List.mem_cons.1 hws with rfl | hws
            · exact hcol
            · exact q2 ws hws
          · intro es hes f
            cases hes with
            | round hi ht =>
              rw [List.filter_append, q3 _ ht f]
              exact (round_rest h.le hB hi f).symm
      · have c' : ((List.range P.files).any fun f => B f != -1) = false := by simpa using c
        rw [if_neg (fun hall => by
          have := List.all_eq_true.1 hall k0 hk0
          rw [another_eq (hgb k0 hk0), c'] at this
          cases this)]
        rw [if_pos (List.all_eq_true.2 fun k hk => by rw [another_eq (hgb k hk), c']; rfl)]
        have hnone : ∀ r f, r < P.ranks → r < T f → P.mine r f = [] := by
          intro r f hr hlt
          by_cases hm : P.mine r f = []
          · exact hm
          obtain ⟨d, hd⟩ := List.exists_mem_of_ne_nil _ hm
          obtain ⟨hd, e⟩ := P.mem_mine.1 hd
          have hfl := P.inFile r d hr hd
          rw [e] at hfl
          have hbf : B f = -1 := by
            have := List.any_eq_false.1 c' f (by simpa using hfl)
            simpa using this
          have hb := hB f
          rw [hbf] at hb
          generalize hx : (-1 : Int) = b at hb
          cases hb with
          | none h0 => exact h0 r hlt hr
          | rank => omega
        refine ⟨fun ⟨r, d, h1, h2, h3, h4⟩ => ?_, fun hs => ?_⟩
        · exact absurd (hnone r _ h1 h3) (ne_nil_iff_exists.2 ⟨d, P.mem_mine.2 ⟨h2, rfl⟩⟩)
        · refine ⟨_, rfl, by simp, ?_, ?_⟩
          · intro ws hws
            rw [List.mem_singleton] at hws
            rw [hws]; exact hcol
          · intro es hes f
            cases hes with
            | round hi ht =>
              cases ht with
              | done =>
                rw [round_rest h.le hB hi f, List.append_nil]
                have : P.rest (after B) f = [] := by
                  unfold Plan.rest
                  rw [P.seq_empty fun r hr => ?_]
                  · rfl
                  · by_cases hm : P.mine r f = []
                    · exact hm
                    have hrr : r < P.ranks := Nat.lt_of_lt_of_le hr (hat.le f)
                    exact hnone r f hrr (hearly r f hrr hr hm)
                rw [this, List.append_nil]

/-! ### From the start -/

/-- The plan of `write_mesh`. -/
def plan (files : Nat) (trunc : Bool) (fails : Nat → Bool) (counts : List Nat) (m : DomainMap)
    (h : SharedOut counts.sum files m) : Plan where
  ranks := counts.length
  count r := counts.getD r 0
  first := firstDomain counts
  toFile d := m.toFile.getD d 0
  files := files
  trunc := trunc
  fails := fails
  inFile := by
    intro r d hr hd
    have hlt : firstDomain counts r + d < m.toFile.length := by
      rw [h.mapped]
      have e : counts.sum = firstDomain counts r + (counts.drop r).sum := by
        rw [firstDomain, ← List.sum_append, List.take_append_drop]
      rw [List.drop_eq_getElem_cons hr, List.sum_cons] at e
      rw [List.getD_eq_getElem?_getD, List.getElem?_eq_getElem hr] at hd
      simp only [Option.getD_some] at hd
      omega
    have := h.inFile (firstDomain counts r + d) _ (List.getElem?_eq_getElem hlt)
    rw [List.getD_eq_getElem?_getD, List.getElem?_eq_getElem hlt]
    exact this

theorem firstDomain_succ {counts : List Nat} {r : Nat} (hr : r < counts.length) :
    firstDomain counts (r + 1) = firstDomain counts r + counts.getD r 0 := by
  unfold firstDomain
  rw [List.take_succ_eq_append_getElem hr, List.sum_append, List.getD_eq_getElem?_getD, List.getElem?_eq_getElem hr]
  simp

theorem range_firstDomain (counts : List Nat) (n : Nat) (hn : n ≤ counts.length) :
    List.range (firstDomain counts n) = (List.range n).flatMap fun r => (List.range (counts.getD r 0)).map (firstDomain counts r + ·) := by
  induction n with
  | zero => rfl
  | succ n ih =>
    rw [firstDomain_succ (by omega), List.range_succ, List.flatMap_append, ← ih (by omega), List.range_add]
    simp

theorem filter_flatMap' {α β : Type} (p : β → Bool) (l : List α) (g : α → List β) :
    (l.flatMap g).filter p = l.flatMap fun a => (g a).filter p := by
  induction l with
  | nil => rfl
  | cons a l ih => rw [List.flatMap_cons, List.filter_append, ih, List.flatMap_cons]

theorem perm_flatMap_reverse {α β : Type} (l : List α) (g : α → List β) : List.Perm (l.reverse.flatMap g) (l.flatMap g) := by
  induction l with
  | nil => exact .refl _
  | cons a l ih =>
    rw [List.reverse_cons, List.flatMap_append, List.flatMap_cons]
    simp only [List.flatMap_cons, List.flatMap_nil, List.append_nil]
    exact (List.perm_append_comm).trans (List.Perm.append_left _ ih)

theorem seq_perm {files : Nat} {trunc : Bool} {fails : Nat → Bool} {counts : List Nat} {m : DomainMap}
    (h : SharedOut counts.sum files m) (f : Nat) :
    List.Perm (((plan files trunc fails counts m h).seq counts.length f).map (·.2))
      ((List.range m.toFile.length).filter fun d => m.toFile[d]? = some f) := by
  have e1 : (List.range m.toFile.length).filter (fun d => m.toFile[d]? = some f) =
      (List.range m.toFile.length).filter fun d => m.toFile.getD d 0 == f := by
    apply List.filter_congr
    intro d hd
    rw [List.mem_range] at hd
    rw [List.getD_eq_getElem?_getD, List.getElem?_eq_getElem hd]
    by_cases e : m.toFile[d] = f <;> simp [e]
  have e2 : m.toFile.length = firstDomain counts counts.length := by
    rw [h.mapped, firstDomain, List.take_length]
  rw [e1, e2, range_firstDomain counts _ (Nat.le_refl _), filter_flatMap']
  unfold Plan.seq
  rw [List.map_flatMap]
  refine (perm_flatMap_reverse _ _).trans (List.Perm.of_eq ?_)
  apply flatMap_congr_mem
  intro r _
  rw [List.filter_map, List.map_map]
  rfl

theorem start_at {files : Nat} {trunc : Bool} {fails : Nat → Bool} {counts : List Nat} {m : DomainMap}
    (h : SharedOut counts.sum files m) :
    At (plan files trunc fails counts m h) (fun _ => counts.length)
      ((List.range counts.length).map (Rank.start counts m.toFile)) := by
  refine ⟨by simp [plan], fun _ => Nat.le_refl _, ?_, ?_⟩
  · intro r k hk
    rw [List.getElem?_map] at hk
    obtain ⟨a, ha, rfl⟩ := Option.map_eq_some_iff.1 hk
    obtain ⟨hl, rfl⟩ := List.getElem?_eq_some_iff.1 ha
    rw [List.length_range] at hl
    simp only [List.getElem_range]
    exact ⟨rfl, rfl, fun _ _ => rfl, fun d _ => (decide_eq_true hl).symm, rfl⟩
  · intro f
    constructor
    · intro hx
      obtain ⟨k, hk, hc⟩ := List.any_eq_true.1 hx
      obtain ⟨r, -, rfl⟩ := List.mem_map.1 hk
      cases hc
    · rintro ⟨-, r, h1, h2, -⟩
      exact absurd h2 (Nat.not_lt.2 h1)

theorem not_touched {files : Nat} {trunc : Bool} {fails : Nat → Bool} {counts : List Nat} {m : DomainMap}
    (h : SharedOut counts.sum files m) (f : Nat) : ¬ (plan files trunc fails counts m h).Touched (fun _ => counts.length) f := by
  rintro ⟨r, h1, h2, -⟩
  exact absurd h2 (Nat.not_lt.2 h1)

theorem stuck_iff {files : Nat} {trunc : Bool} {fails : Nat → Bool} {counts : List Nat} {m : DomainMap}
    (h : SharedOut counts.sum files m) :
    (plan files trunc fails counts m h).Stuck (fun _ => counts.length) ↔ ∃ d < counts.sum, fails d = true := by
  have e : counts.sum = firstDomain counts counts.length := by rw [firstDomain, List.take_length]
  constructor
  · rintro ⟨r, d, h1, h2, -, h4⟩
    refine ⟨_, ?_, h4⟩
    rw [← List.mem_range, e, range_firstDomain counts _ (Nat.le_refl _)]
    exact List.mem_flatMap.2 ⟨r, List.mem_range.2 h1, List.mem_map.2 ⟨d, List.mem_range.2 h2, rfl⟩⟩
  · rintro ⟨d, hd, hf⟩
    rw [← List.mem_range, e, range_firstDomain counts _ (Nat.le_refl _)] at hd
    obtain ⟨r, hr, hd⟩ := List.mem_flatMap.1 hd
    obtain ⟨x, hx, rfl⟩ := List.mem_map.1 hd
    exact ⟨r, x, List.mem_range.1 hr, List.mem_range.1 hx, List.mem_range.1 hr, hf⟩

/-! ### The root file -/

theorem rootTurn_aux (trunc created : Bool) (rank : Nat) (s : Session) (ds : List Nat) :
    ds.foldl (fun h d =>
      let h := match h with
        | some h => h
        | none => ⟨rank, trunc && !created, []⟩
      some { h with doms := h.doms ++ [d] }) (some s) = some { s with doms := s.doms ++ ds } := by
  induction ds generalizing s with
  | nil => simp
  | cons d ds ih => rw [List.foldl_cons, ih]; simp

theorem rootTurn_eq (trunc created : Bool) (rank : Nat) (ds : List Nat) :
    rootTurn trunc created rank ds = if ds = [] then none else some ⟨rank, trunc && !created, ds⟩ := by
  cases ds with
  | nil => rfl
  | cons d ds =>
    rw [rootTurn, List.foldl_cons, if_neg (List.cons_ne_nil _ _)]
    exact rootTurn_aux trunc created rank ⟨rank, trunc && !created, [d]⟩ ds

theorem rootTurns_spec (trunc created : Bool) (rank first : Nat) (counts : List Nat) (c : Option (List Nat)) :
    (rootTurns trunc created rank first counts).foldl Session.apply c =
      if counts.sum = 0 then c else
        some ((if trunc && !created then [] else c.getD []) ++ List.range' first counts.sum) := by
  induction counts generalizing created rank first c with
  | nil => rfl
  | cons n counts ih =>
    simp only [rootTurns]
    rw [rootTurn_eq, List.foldl_append]
    by_cases hn : n = 0
    · subst hn
      simp only [List.range'_zero, if_true]
      rw [show (none : Option Session).toList = [] from rfl, List.foldl_nil, ih]
      simp
    · have hne : List.range' first n ≠ [] := by
        intro e
        have := congrArg List.length e
        simp at this
        exact hn this
      rw [if_neg hne]
      rw [show (some (⟨rank, trunc && !created, List.range' first n⟩ : Session)).toList =
        [⟨rank, trunc && !created, List.range' first n⟩] from rfl, List.foldl_cons, List.foldl_nil, ih, List.sum_cons,
        if_neg (by omega : ¬ n + counts.sum = 0)]
      simp only [Option.any_some, Session.apply]
      have e : (trunc && !(created || (trunc && !created))) = false := by
        cases trunc <;> cases created <;> rfl
      simp only [e, Bool.false_eq_true, if_false, Option.getD_some]
      by_cases hs : counts.sum = 0
      · rw [if_pos hs, hs, Nat.add_zero]
      · rw [if_neg hs, List.append_assoc, List.range'_append_1]

/-! ### Reading -/

theorem readRange_eq {n p r : Nat} (hr : r < p) : readRange n p r = (before n p r, before n p (r + 1)) := by
  have e : ((List.range r).map fun i => ((List.range p).map (readSize n p)).getD i 0).sum = before n p r := by
    unfold before
    congr 1
    apply List.map_congr_left
    intro i hi
    rw [List.mem_range] at hi
    rw [List.getD_eq_getElem?_getD, List.getElem?_map, List.getElem?_range (by omega)]
    rfl
  unfold readRange
  simp only [e, before_succ]
  rfl

end Conduit.Files
