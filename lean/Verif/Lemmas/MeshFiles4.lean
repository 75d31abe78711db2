import Verif.Lemmas.MeshFiles3
/-
Lemmas on writing N domains to M files: all rounds.
-/
namespace Conduit.Files

/-! ### Interleavings -/

theorem interleave_filter {α : Type} (p : α → Bool) (i : Nat) {ls : List (List α)} {es : List α} (h : Interleave ls es)
    (hi : ∀ (j : Nat) l, ls[j]? = some l → j ≠ i → l.filter p = []) : es.filter p = (ls.getD i []).filter p := by
  induction h with
  | @done ls h =>
    rw [List.getD_eq_getElem?_getD]
    cases e : ls[i]? with
    | none => rfl
    | some l => rw [h l (List.mem_of_getElem? e)]; rfl
  | @step ls l es a r h t ih =>
    have hr : r < ls.length := by
      obtain ⟨hr, -⟩ := List.getElem?_eq_some_iff.1 h
      exact hr
    have ih := ih fun j l' hj hji => by
      by_cases e : r = j
      · subst e
        rw [List.getElem?_set_self hr] at hj
        obtain rfl := Option.some.inj hj
        have := hi r _ h hji
        rw [List.filter_cons] at this
        split at this
        · cases this
        · exact this
      · rw [List.getElem?_set_ne e] at hj
        exact hi j l' hj hji
    rw [List.filter_cons, ih]
    by_cases e : r = i
    · subst e
      simp only [List.getD_eq_getElem?_getD]
      rw [List.getElem?_set_self hr, h]
      simp [List.filter_cons]
    · simp only [List.getD_eq_getElem?_getD]
      rw [List.getElem?_set_ne e]
      have := hi r _ h e
      rw [List.filter_cons] at this
      split at this
      · cases this
      · rw [if_neg (by assumption)]

/-! ### What the files hold -/

/-- The writes of some domains by some ranks to file `f`, the first with this truncation. -/
def tagAll (f : Nat) : Bool → List (Nat × Nat) → List Write
  | _, [] => []
  | t, (r, d) :: l => ⟨r, f, d, t⟩ :: tagAll f false l

theorem tag_eq (r f first : Nat) (t : Bool) (ds : List Nat) : tag r f first t ds = tagAll f t (ds.map fun d => (r, first + d)) := by
  induction ds generalizing t with
  | nil => rfl
  | cons d ds ih => simp [tag, tagAll, ih]

theorem tagAll_append (f : Nat) (t : Bool) (a b : List (Nat × Nat)) :
    tagAll f t (a ++ b) = tagAll f t a ++ tagAll f (t && a.isEmpty) b := by
  induction a generalizing t with
  | nil => simp [tagAll]
  | cons x a ih =>
    rw [List.cons_append, tagAll, tagAll, ih]
    simp

theorem tagAll_file {f : Nat} {t : Bool} {l : List (Nat × Nat)} {w : Write} (h : w ∈ tagAll f t l) : w.file = f := by
  induction l generalizing t with
  | nil => cases h
  | cons x l ih =>
    rcases List.mem_cons.1 h with rfl | h
    · rfl
    · exact ih h

theorem disk_filter (s : Disk) (es : List Write) (f : Nat) :
    es.foldl Disk.write s f = (es.filter (·.file == f)).foldl
      (fun c w => some ((if w.trunc then [] else c.getD []) ++ [w.dom])) (s f) := by
  induction es generalizing s with
  | nil => rfl
  | cons w es ih =>
    rw [List.foldl_cons, ih, List.filter_cons]
    by_cases e : w.file = f
    · subst e
      simp [Disk.write]
    · have e' : ¬ f = w.file := fun h => e h.symm
      simp [Disk.write, e, e']

theorem tagAll_apply (f : Nat) (t : Bool) (l : List (Nat × Nat)) (c : Option (List Nat)) :
    (tagAll f t l).foldl (fun c w => some ((if w.trunc then [] else c.getD []) ++ [w.dom])) c =
      if l = [] then c else some ((if t then [] else c.getD []) ++ l.map (·.2)) := by
  induction l generalizing t c with
  | nil => rfl
  | cons x l ih =>
    rw [tagAll, List.foldl_cons, ih, if_neg (List.cons_ne_nil _ _)]
    by_cases e : l = []
    · subst e; simp
    · rw [if_neg e]; simp

/-! ### A round -/

variable {P : Plan}

theorem mem_roundWrites {T : Nat → Nat} {B : Nat → Int} {r : Nat} {w : Write} (h : w ∈ roundWrites P T B r) :
    B w.file = (r : Int) := by
  unfold roundWrites at h
  obtain ⟨f, hf, hw⟩ := List.mem_flatMap.1 h
  rw [tag_eq] at hw
  rw [tagAll_file hw]
  simpa using (List.mem_filter.1 hf).2

theorem filter_flatMap_tag (l : List Nat) (hl : l.Nodup) (g : Nat → List Write) (hg : ∀ f, ∀ w ∈ g f, w.file = f) (f : Nat) :
    (l.flatMap g).filter (·.file == f) = if f ∈ l then g f else [] := by
  induction l with
  | nil => simp
  | cons a l ih =>
    rw [List.nodup_cons] at hl
    rw [List.flatMap_cons, List.filter_append, ih hl.2]
    by_cases e : a = f
    · subst e
      rw [if_neg hl.1, if_pos List.mem_cons_self, List.append_nil, List.filter_eq_self]
      intro w hw
      simp [hg a w hw]
    · have : (g a).filter (·.file == f) = [] := by
        rw [List.filter_eq_nil_iff]
        intro w hw
        simp [hg a w hw, e]
      rw [this, List.nil_append]
      have e' : f ∈ a :: l ↔ f ∈ l := by
        rw [List.mem_cons]
        exact ⟨fun h => h.resolve_left (fun h => e h.symm), .inr⟩
      by_cases hx : f ∈ l
      · rw [if_pos hx, if_pos (e'.2 hx)]
      · rw [if_neg hx, if_neg (fun h => hx (e'.1 h))]

theorem roundWrites_filter {T : Nat → Nat} {B : Nat → Int} (hB : ∀ f, Baton P T f (B f)) {r f : Nat} (h : B f = (r : Int)) :
    (roundWrites P T B r).filter (·.file == f) =
      tag r f (P.first r) (P.trunc && !(@decide (P.Touched T f) (Classical.propDecidable _))) (P.mine r f) := by
  unfold roundWrites
  rw [filter_flatMap_tag _ (List.Nodup.sublist List.filter_sublist List.nodup_range) _ (fun f w hw => by
    rw [tag_eq] at hw; exact tagAll_file hw), if_pos]
  rw [List.mem_filter]
  refine ⟨?_, by simpa using h⟩
  obtain ⟨d, hd⟩ := List.exists_mem_of_ne_nil _ (baton_rank (hB f) h).2.2.1
  obtain ⟨hd, e⟩ := P.mem_mine.1 hd
  have := P.inFile r d (baton_rank (hB f) h).2.1 hd
  rw [e] at this
  simpa using this

/-- The rank and number of the domains of file `f` on the ranks before `n`, from the last rank on. -/
def Plan.seq (P : Plan) (n f : Nat) : List (Nat × Nat) :=
  (List.range n).reverse.flatMap fun r => (P.mine r f).map fun d => (r, P.first r + d)

theorem Plan.seq_succ (n f : Nat) : P.seq (n + 1) f = (P.mine n f).map (fun d => (n, P.first n + d)) ++ P.seq n f := by
  simp [Plan.seq, List.range_succ]

theorem Plan.seq_empty {n f : Nat} (h : ∀ r, r < n → P.mine r f = []) : P.seq n f = [] := by
  induction n with
  | zero => rfl
  | succ n ih => rw [P.seq_succ, h n (Nat.lt_succ_self n), ih fun r hr => h r (Nat.lt_succ_of_lt hr)]; rfl

theorem Plan.seq_skip {b n f : Nat} (hb : b < n) (h : ∀ r, b < r → r < n → P.mine r f = []) :
    P.seq n f = (P.mine b f).map (fun d => (b, P.first b + d)) ++ P.seq b f := by
  induction n with
  | zero => omega
  | succ n ih =>
    by_cases e : b = n
    · subst e; exact P.seq_succ b f
    · rw [P.seq_succ, h n (by omega) (Nat.lt_succ_self n), ih (by omega) fun r h1 h2 => h r h1 (by omega)]; rfl

/-- What is written to file `f` from now on. -/
noncomputable def Plan.rest (P : Plan) (T : Nat → Nat) (f : Nat) : List Write :=
  tagAll f (P.trunc && !(@decide (P.Touched T f) (Classical.propDecidable _))) (P.seq (T f) f)

theorem round_rest {T : Nat → Nat} {B : Nat → Int} (hle : ∀ f, T f ≤ P.ranks) (hB : ∀ f, Baton P T f (B f)) {es : List Write}
    (h : Interleave ((List.range P.ranks).map (roundWrites P T B)) es) (f : Nat) :
    P.rest T f = es.filter (·.file == f) ++ P.rest (after B) f := by
  have get : ∀ (r : Nat) l, ((List.range P.ranks).map (roundWrites P T B))[r]? = some l → l = roundWrites P T B r := by
    intro r l hl
    rw [List.getElem?_map] at hl
    obtain ⟨a, ha, rfl⟩ := Option.map_eq_some_iff.1 hl
    obtain ⟨-, rfl⟩ := List.getElem?_eq_some_iff.1 ha
    simp
  have other : ∀ r : Nat, B f ≠ (r : Int) → (roundWrites P T B r).filter (·.file == f) = [] := by
    intro r hr
    rw [List.filter_eq_nil_iff]
    intro w hw hwf
    have e := mem_roundWrites hw
    rw [show w.file = f by simpa using hwf] at e
    exact hr e
  have hb := hB f
  have hbs := @roundWrites_filter P T B hB
  unfold Plan.rest
  unfold after
  generalize hbe : B f = b at hb other
  cases hb with
  | none h0 =>
    have e1 : P.seq (T f) f = [] := P.seq_empty fun r hr => h0 r hr (Nat.lt_of_lt_of_le hr (hle f))
    rw [e1, interleave_filter _ P.ranks h fun j l hj _ => by rw [get j l hj]; exact other j (by omega)]
    simp [tagAll, Plan.seq, List.getD_eq_getElem?_getD]
  | @rank b h1 h2 h3 h4 =>
    rw [interleave_filter _ b h fun j l hj hjb => by
      rw [get j l hj]
      exact other j (fun e => hjb (Int.ofNat.inj e).symm)]
    have e1 : ((List.range P.ranks).map (roundWrites P T B)).getD b [] = roundWrites P T B b := by
      simp [List.getD_eq_getElem?_getD, h2]
    rw [e1, hbs hbe, P.seq_skip h1 fun r q1 q2 => h4 r q1 q2 (Nat.lt_of_lt_of_le q2 (hle f)), tagAll_append, ← tag_eq,
      Int.toNat_natCast]
    have e2 : P.Touched (fun f => (B f).toNat) f := ⟨b, by simp [hbe], h2, h3⟩
    have e3 : ((P.mine b f).map fun d => (b, P.first b + d)).isEmpty = false := by
      cases hm : P.mine b f with
      | nil => exact absurd hm h3
      | cons => rfl
    rw [e3]
    congr 2
    have e5 : P.Touched (after B) f := e2
    simp [Bool.and_false]
    exact fun _ => e5

theorem At.round {T : Nat → Nat} {ks : List Rank} (h : At P T ks) (hP : 0 < P.ranks) :
    ∃ B, (∀ f, Baton P T f (B f)) ∧
      let out := (ks.map (reduce ks)).mapIdx (writeFiles P.files P.trunc P.fails)
      (((∃ r f : Nat, B f = (r : Int) ∧ Bad P.fails (P.first r) (P.mine r f)) ∧ (out.map (·.1)).all (·.good) = false) ∨
       ((∀ r f : Nat, B f = (r : Int) → ¬ Bad P.fails (P.first r) (P.mine r f)) ∧ (out.map (·.1)).all (·.good) = true ∧
        out.map (·.2) = (List.range P.ranks).map (roundWrites P T B) ∧ At P (after B) (out.map (·.1)) ∧
        ∀ k ∈ out.map (·.1), k.gBatons = B)) := by
  obtain ⟨B, hB, hl, hc, hr⟩ := h.ready hP
  refine ⟨B, hB, ?_⟩
  generalize ks.map (reduce ks) = ks at hl hc hr
  intro out
  have hout : ∀ r k, ks[r]? = some k → out[r]? = some (writeFiles P.files P.trunc P.fails r k) := by
    intro r k hk
    show (ks.mapIdx _)[r]? = _
    rw [List.getElem?_mapIdx, hk]; rfl
  have hlen : out.length = P.ranks := by rw [← hl]; exact List.length_mapIdx
  have hk : ∀ r, r < P.ranks → ∃ k, ks[r]? = some k := fun r h => ⟨ks[r]'(by rw [hl]; exact h), List.getElem?_eq_getElem _⟩
  by_cases c : ∃ r f : Nat, B f = (r : Int) ∧ Bad P.fails (P.first r) (P.mine r f)
  · refine .inl ⟨c, ?_⟩
    obtain ⟨r, f, hf, hbad⟩ := c
    have hlt := (baton_rank (hB f) hf).2.1
    obtain ⟨k, hk⟩ := hk r hlt
    rcases ready_round hB hlt (hr r k hk) with ⟨-, q⟩ | ⟨q, -⟩
    · rw [List.all_eq_false]
      refine ⟨_, List.mem_map.2 ⟨_, List.mem_of_getElem? (hout r k hk), rfl⟩, by simp [q]⟩
    · exact absurd hbad (q f hf)
  · have c' : ∀ r f : Nat, B f = (r : Int) → ¬ Bad P.fails (P.first r) (P.mine r f) := fun r f h1 h2 => c ⟨r, f, h1, h2⟩
    have hgood : ∀ r k, ks[r]? = some k →
        (writeFiles P.files P.trunc P.fails r k).2 = roundWrites P T B r ∧
        RankAt P (after B) r (writeFiles P.files P.trunc P.fails r k).1 ∧
        (writeFiles P.files P.trunc P.fails r k).1.gBatons = B ∧
        ∀ g, (writeFiles P.files P.trunc P.fails r k).1.created g = true ↔
          k.created g = true ∨ (B g = (r : Int) ∧ P.trunc = true ∧ ¬ P.Touched T g) := by
      intro r k hk
      have hlt : r < P.ranks := by
        obtain ⟨q, -⟩ := List.getElem?_eq_some_iff.1 hk
        rw [← hl]; exact q
      rcases ready_round hB hlt (hr r k hk) with ⟨⟨f, q1, q2⟩, -⟩ | ⟨-, q⟩
      · exact absurd q2 (c' r f q1)
      · exact q
    have hget : ∀ r x, out[r]? = some x → ∃ k, ks[r]? = some k ∧ x = writeFiles P.files P.trunc P.fails r k := by
      intro r x hx
      have hx' : (ks.mapIdx (writeFiles P.files P.trunc P.fails))[r]? = some x := hx
      rw [List.getElem?_mapIdx] at hx'
      obtain ⟨k, q1, q2⟩ := Option.map_eq_some_iff.1 hx'
      exact ⟨k, q1, q2.symm⟩
    have hmem : ∀ k' ∈ out.map (·.1), ∃ r k, ks[r]? = some k ∧ k' = (writeFiles P.files P.trunc P.fails r k).1 := by
      intro k' hk'
      obtain ⟨x, hx, rfl⟩ := List.mem_map.1 hk'
      obtain ⟨r, hr⟩ := List.getElem?_of_mem hx
      obtain ⟨k, q1, q2⟩ := hget r x hr
      exact ⟨r, k, q1, by rw [q2]⟩
    refine .inr ⟨c', ?_, ?_, ⟨?_, ?_, ?_, ?_⟩, ?_⟩
    · rw [List.all_eq_true]
      intro k' hk'
      obtain ⟨r, k, q1, rfl⟩ := hmem k' hk'
      exact (hgood r k q1).2.1.good
    · apply List.ext_getElem?
      intro r
      rw [List.getElem?_map, List.getElem?_map]
      by_cases e : r < P.ranks
      · obtain ⟨k, hk⟩ := hk r e
        rw [hout r k hk, List.getElem?_range e]
        simp [(hgood r k hk).1]
      · rw [List.getElem?_eq_none (by omega), List.getElem?_eq_none (by simp; omega)]; rfl
    · simp [hlen]
    · intro f
      have := hB f
      unfold after
      generalize B f = b at this
      cases this with
      | none => simp
      | rank _ h2 => simp; omega
    · intro r k' hk'
      rw [List.getElem?_map] at hk'
      obtain ⟨x, hx, rfl⟩ := Option.map_eq_some_iff.1 hk'
      obtain ⟨k, q1, rfl⟩ := hget r x hx
      exact (hgood r k q1).2.1
    · intro g
      rw [List.any_eq_true]
      have key : (∃ x ∈ out.map (·.1), x.created g = true) ↔ (P.trunc = true ∧ P.Touched T g) ∨
          ((∃ r : Nat, B g = (r : Int)) ∧ P.trunc = true ∧ ¬ P.Touched T g) := by
        constructor
        · rintro ⟨x, hx, hxc⟩
          obtain ⟨r, k, q1, rfl⟩ := hmem x hx
          rcases ((hgood r k q1).2.2.2 g).1 hxc with q | ⟨q, q'⟩
          · exact .inl ((hc g).1 (List.any_eq_true.2 ⟨k, List.mem_of_getElem? q1, q⟩))
          · exact .inr ⟨⟨r, q⟩, q'⟩
        · rintro (q | ⟨⟨r, q⟩, q'⟩)
          · obtain ⟨k, hkm, hkc⟩ := List.any_eq_true.1 ((hc g).2 q)
            obtain ⟨r, hr⟩ := List.getElem?_of_mem hkm
            exact ⟨_, List.mem_map.2 ⟨_, List.mem_of_getElem? (hout r k hr), rfl⟩, ((hgood r k hr).2.2.2 g).2 (.inl hkc)⟩
          · obtain ⟨k, hk⟩ := hk r (baton_rank (hB g) q).2.1
            exact ⟨_, List.mem_map.2 ⟨_, List.mem_of_getElem? (hout r k hk), rfl⟩, ((hgood r k hk).2.2.2 g).2 (.inr ⟨q, q'⟩)⟩
      rw [key]
      have hb := hB g
      generalize hbe : B g = b at hb
      cases hb with
      | none h0 =>
        have : P.Touched (after B) g ↔ P.Touched T g := by
          constructor
          · rintro ⟨r, -, q2, q3⟩
            refine ⟨r, ?_, q2, q3⟩
            by_cases e : r < T g
            · exact absurd (h0 r e q2) q3
            · omega
          · rintro ⟨r, q1, q2, q3⟩
            exact ⟨r, by simp [after, hbe], q2, q3⟩
        rw [this]
        constructor
        · rintro (q | ⟨⟨r, q⟩, -⟩)
          · exact q
          · omega
        · exact .inl
      | @rank b h1 h2 h3 h4 =>
        have : P.Touched (after B) g := ⟨b, by simp [after, hbe], h2, h3⟩
        constructor
        · rintro (q | q)
          · exact ⟨q.1, this⟩
          · exact ⟨q.2.1, this⟩
        · rintro ⟨q, -⟩
          by_cases e : P.Touched T g
          · exact .inl ⟨q, e⟩
          · exact .inr ⟨⟨b, rfl⟩, q, e⟩
    · intro k' hk'
      obtain ⟨r, k, q1, rfl⟩ := hmem k' hk'
      exact (hgood r k q1).2.2.1

end Conduit.Files
