import Verif.Lemmas.Diff
namespace Conduit
open Spec Node Ieee

/-- what `diff` needs of a node -/
def Comparable (m : Mem) (n : Node) : Prop := Readable m n ∧ Strings m n ∧ DistinctV (val m n)

theorem stringsE_iff {m : Mem} : ∀ {es : List (Str × Node)}, StringsE m es ↔ ∀ p ∈ es, Strings m p.2
  | [] => by simp [StringsE]
  | (k, c) :: es => by simp [StringsE, stringsE_iff (es := es)]
theorem stringsL_iff {m : Mem} : ∀ {es : List Node}, StringsL m es ↔ ∀ p ∈ es, Strings m p
  | [] => by simp [StringsL]
  | c :: es => by simp [StringsL, stringsL_iff (es := es)]
theorem distinctVE_iff : ∀ {es : List (Str × Val)}, DistinctVE es ↔ ∀ p ∈ es, DistinctV p.2
  | [] => by simp [DistinctVE]
  | (k, c) :: es => by simp [DistinctVE, distinctVE_iff (es := es)]
theorem distinctVL_iff : ∀ {es : List Val}, DistinctVL es ↔ ∀ p ∈ es, DistinctV p
  | [] => by simp [DistinctVL]
  | c :: es => by simp [DistinctVL, distinctVL_iff (es := es)]

theorem comparable_obj {m : Mem} {x : Info} {es : List (Str × Node)} (h : Comparable m (.obj x es)) :
    (es.map Prod.fst).Nodup ∧ ∀ p ∈ es, Comparable m p.2 := by
  obtain ⟨h1, h2, h3⟩ := h
  simp only [Readable, readableE_iff, readableL_iff] at h1
  simp only [Strings, stringsE_iff] at h2
  simp only [val, DistinctV, names_valE, distinctVE_iff] at h3
  refine ⟨h3.1, fun p hp => ⟨h1 p.2 (List.mem_map_of_mem hp), h2 p hp, h3.2 (p.1, val m p.2) ?_⟩⟩
  rw [valE_eq]; exact List.mem_map_of_mem (f := fun e : Str × Node => (e.1, val m e.2)) hp

theorem comparable_lst {m : Mem} {x : Info} {es : List Node} (h : Comparable m (.lst x es)) : ∀ p ∈ es, Comparable m p := by
  obtain ⟨h1, h2, h3⟩ := h
  simp only [Readable, readableL_iff] at h1
  simp only [Strings, stringsL_iff] at h2
  simp only [val, DistinctV, distinctVL_iff, valL_eq] at h3
  exact fun p hp => ⟨h1 p hp, h2 p hp, h3 _ (List.mem_map_of_mem hp)⟩

theorem diffThis_false (ns : List (Str × Node)) : ∀ fs : List (Str × (Node → Res Bool)),
    diffThis ns fs = .ok false ↔ ∀ p ∈ fs, ∃ A c B, ns = A ++ (p.1, c) :: B ∧ p.1 ∉ A.map Prod.fst ∧ p.2 c = .ok false
  | [] => by simp [diffThis]
  | (name, f) :: fs => by
    simp only [diffThis]
    rw [or_ok_false, diffThis_false ns fs]
    simp only [List.mem_cons, forall_eq_or_imp]
    apply and_congr_left'
    cases hp : posOf ns name with
    | none =>
      have hn := posOf_none hp
      simp only [Res.ok.injEq, Bool.true_eq_false, false_iff, not_exists, not_and]
      rintro A c B rfl
      exact absurd (by simp) hn
    | some i =>
      obtain ⟨A, d, B, rfl, rfl, h3⟩ := posOf_some hp
      simp only [List.getElem?_append_right (Nat.le_refl _), Nat.sub_self, List.getElem?_cons_zero]
      constructor
      · intro h; exact ⟨A, d, B, rfl, h3, h⟩
      · rintro ⟨A', c, B', h1, h2, h4⟩
        have e1 := entry_split (d := (.obj [])) (B := B.map fun e => (e.1, Val.obj [])) (A := A.map fun e => (e.1, Val.obj [])) (n := name) (by simpa using h3)
        have hl : A.length = A'.length := by
          have p1 := posOf_split (d := d) (B := B) h3
          rw [h1, posOf_split h2] at p1
          injection p1 with p1; exact p1.symm
        have := List.append_inj h1 hl
        have := this.2
        injection this with this
        injection this with _ this
        rw [this]; exact h4

theorem diffOther_false (fs : List (Str × (Node → Res Bool))) : ∀ ns : List (Str × Node),
    diffOther fs ns = .ok false ↔ ∀ p ∈ ns, ∃ e, fs.find? (fun e => e.1 == p.1) = some e ∧ e.2 p.2 = .ok false
  | [] => by simp [diffOther]
  | (name, c) :: ns => by
    simp only [diffOther]
    rw [or_ok_false, diffOther_false fs ns]
    simp only [List.mem_cons, forall_eq_or_imp]
    apply and_congr_left'
    cases hp : fs.find? (fun e => e.1 == name) with
    | none => simp
    | some e => simp

theorem names_diffE (compat : Bool) (c : DiffCfg) (m : Mem) : ∀ es, (diffE compat c m es).map Prod.fst = es.map Prod.fst
  | [] => rfl
  | (n, t) :: es => by simp [diffE, names_diffE compat c m es]

/-- the second loop adds nothing but the check for names only the other has -/
theorem diffOther_names {ns : List (Str × Node)} (hns : (ns.map Prod.fst).Nodup) {fs : List (Str × (Node → Res Bool))}
    (h : diffThis ns fs = .ok false) :
    diffOther fs ns = .ok false ↔ ∀ n ∈ ns.map Prod.fst, n ∈ fs.map Prod.fst := by
  rw [diffThis_false] at h
  rw [diffOther_false]
  constructor
  · intro h' n hn
    obtain ⟨p, hp, rfl⟩ := List.mem_map.1 hn
    obtain ⟨e, he, -⟩ := h' p hp
    have h1 := List.mem_of_find?_eq_some he
    have h2 := List.find?_some he
    simp only [beq_iff_eq] at h2
    rw [← h2]; exact List.mem_map_of_mem h1
  · intro h' p hp
    have := h' p.1 (List.mem_map_of_mem hp)
    cases he : fs.find? (fun e => e.1 == p.1) with
    | none =>
      obtain ⟨q, hq, hq'⟩ := List.mem_map.1 this
      have := List.find?_eq_none.1 he q hq
      simp [hq'] at this
    | some e =>
      refine ⟨e, rfl, ?_⟩
      have h1 := List.mem_of_find?_eq_some he
      have h2 := List.find?_some he
      simp only [beq_iff_eq] at h2
      obtain ⟨A, c, B, h3, h4, h5⟩ := h e h1
      obtain ⟨k, pc⟩ := p
      simp only at h2; subst h2
      rw [h3] at hp hns
      simp only [List.map_append, List.map_cons, List.nodup_append, List.nodup_cons] at hns
      have : pc = c := by
        rcases List.mem_append.1 hp with hp | hp
        · exact absurd (List.mem_map_of_mem (f := Prod.fst) hp) h4
        · rcases List.mem_cons.1 hp with hp | hp
          · injection hp
          · exact absurd (List.mem_map_of_mem (f := Prod.fst) hp) hns.2.1.1
      rw [this]; exact h5

theorem sameE_iff (pre big : Bool) (eps : FVal) : ∀ {es es' : List (Str × Val)}, SameE pre big eps es es' ↔
    ∀ p ∈ es, ∃ c', entry p.1 es' = some c' ∧ SameV pre big eps p.2 c'
  | [], _ => by simp [SameE]
  | (n, c) :: es, es' => by simp [SameE, sameE_iff pre big eps (es := es)]

mutual
theorem diff_false {compat : Bool} {c : DiffCfg} {m : Mem} (hr : c.relaxint = false) : ∀ (t n : Node), Comparable m t → Comparable m n →
    (diff compat c m t n = .ok false ↔ SameV compat c.big c.eps (val m t) (val m n))
  | .leaf x d, n, ht, hn => by
    rw [diff]
    unfold leafDiff
    by_cases hid : d.id = n.dtype.id
    · rw [if_neg (by simpa using hid)]
      cases n with
      | obj y ns => exact absurd hid ht.1.1
      | lst y ns => exact absurd hid ht.1.2.1
      | leaf y e =>
        have hid' : d.id = e.id := hid
        by_cases he : d.id = .empty
        · rw [if_pos he]
          simp only [val, if_pos he, if_pos (hid' ▸ he), SameV, LeafSame]
          simp
        · rw [if_neg he]
          simp only [val, if_neg he, if_neg (hid' ▸ he : ¬ e.id = .empty), SameV]
          rw [arrayDiff_false hid' he ht.1 hn.1 ht.2.1 hn.2.1]
          simp [hid']
    · rw [if_pos hid, hr]
      simp only [Bool.false_eq_true, if_false, Res.ok.injEq, Bool.true_eq_false, false_iff]
      intro h
      cases n with
      | leaf y e =>
        have hid' : d.id ≠ e.id := hid
        simp only [val] at h
        split at h <;> split at h
        · exact hid' (by simp [*])
        · rename_i h1 h2; exact h2 h.1.symm
        · rename_i h1 h2; exact h1 h.1
        · exact hid' h.1
      | obj y ns => simp only [val] at h; split at h <;> exact h
      | lst y ns => simp only [val] at h; split at h <;> exact h
  | .obj x es, n, ht, hn => by
    cases n with
    | leaf y e =>
      simp only [diff, val, Res.ok.injEq, Bool.true_eq_false, false_iff]
      split <;> simp [SameV]
    | lst y ns => simp [diff, val, SameV]
    | obj y ns =>
      obtain ⟨t1, t2⟩ := comparable_obj ht
      obtain ⟨n1, n2⟩ := comparable_obj hn
      have hE := diffE_false (compat := compat) hr es ns t2 n2
      simp only [diff, val, SameV]
      rw [or_ok_false, hE]
      apply and_congr_right
      intro hs
      cases compat
      · simp only [Bool.false_eq_true, if_false, false_or]
        rw [diffOther_names n1 (hE.2 hs), names_diffE, names_valE, names_valE]
      · simp
  | .lst x es, n, ht, hn => by
    cases n with
    | leaf y e =>
      simp only [diff, val, Res.ok.injEq, Bool.true_eq_false, false_iff]
      split <;> simp [SameV]
    | obj y ns => simp [diff, val, SameV]
    | lst y ns =>
      simp only [diff, val, SameV]
      rw [← diffL_false (compat := compat) hr es ns (comparable_lst ht) (comparable_lst hn)]
theorem diffE_false {compat : Bool} {c : DiffCfg} {m : Mem} (hr : c.relaxint = false) : ∀ (es ns : List (Str × Node)),
    (∀ p ∈ es, Comparable m p.2) → (∀ p ∈ ns, Comparable m p.2) →
    (diffThis ns (diffE compat c m es) = .ok false ↔ SameE compat c.big c.eps (valE m es) (valE m ns))
  | [], ns, _, _ => by simp [diffE, diffThis, valE, SameE]
  | (k, t) :: es, ns, ht, hn => by
    have ih := diffE_false (compat := compat) hr es ns (fun p hp => ht p (List.mem_cons_of_mem _ hp)) hn
    rw [diffThis_false] at ih ⊢
    simp only [diffE, valE, SameE, List.mem_cons, forall_eq_or_imp]
    rw [ih]
    apply and_congr_left'
    constructor
    · rintro ⟨A, cc, B, rfl, h2, h3⟩
      refine ⟨val m cc, ?_, ?_⟩
      · rw [valE_append]; simp only [valE]
        exact entry_split (by rw [names_valE]; exact h2)
      · exact (diff_false hr t cc (ht _ List.mem_cons_self) (hn (k, cc) (by simp))).1 h3
    · rintro ⟨c', h1, h2⟩
      cases hp : posOf ns k with
      | none =>
        have := posOf_none hp
        rw [entry_none (by rw [names_valE]; exact this)] at h1; cases h1
      | some i =>
        obtain ⟨A, cc, B, rfl, -, h3⟩ := posOf_some hp
        rw [valE_append] at h1; simp only [valE] at h1
        rw [entry_split (by rw [names_valE]; exact h3)] at h1
        injection h1 with h1; subst h1
        exact ⟨A, cc, B, rfl, h3, (diff_false hr t cc (ht _ List.mem_cons_self) (hn (k, cc) (by simp))).2 h2⟩
theorem diffL_false {compat : Bool} {c : DiffCfg} {m : Mem} (hr : c.relaxint = false) : ∀ (es ns : List Node),
    (∀ p ∈ es, Comparable m p) → (∀ p ∈ ns, Comparable m p) →
    ((do let r ← diffZip (diffL compat c m es) ns
         .ok (r || (if compat then decide (es.length > ns.length) else decide (es.length ≠ ns.length))) : Res Bool) = .ok false ↔
      SameL compat c.big c.eps (valL m es) (valL m ns))
  | [], ns, _, _ => by
    simp only [diffL, diffZip, Res.bind_ok, valL, SameL, Bool.false_or, List.length_nil, Res.ok.injEq]
    cases compat
    · cases ns <;> simp [valL]
    · simp
  | t :: es, [], _, _ => by
    simp only [diffL, diffZip, Res.bind_ok, valL, SameL, Bool.false_or, Res.ok.injEq]
    cases compat <;> simp
  | t :: es, n :: ns, ht, hn => by
    have ih := diffL_false (compat := compat) hr es ns (fun p hp => ht p (List.mem_cons_of_mem _ hp)) (fun p hp => hn p (List.mem_cons_of_mem _ hp))
    have i1 := diff_false (compat := compat) hr t n (ht _ List.mem_cons_self) (hn _ List.mem_cons_self)
    simp only [diffL, diffZip, valL, SameL]
    rw [← ih, ← i1]
    simp only [List.length_cons, Nat.add_lt_add_iff_right, gt_iff_lt, ne_eq, Nat.add_right_cancel_iff]
    cases diff compat c m t n with
    | ok r => cases diffZip (diffL compat c m es) ns with
      | ok s => cases r <;> simp
      | error => simp
      | ub => simp
    | error => simp
    | ub => simp
end

/-! ### relations between the notions -/

theorem near_symm {big : Bool} {eps : FVal} {f : Fmt} {a b : List (Option UInt8)} (h : Near big eps f a b) : Near big eps f b a := by
  unfold Near at *; rw [far_symm]; exact h

theorem pairs_symm {α : Type} {R : α → α → Prop} (hR : ∀ a b, R a b → R b a) : ∀ {as bs : List α}, Pairs false R as bs → Pairs false R bs as
  | [], [], _ => by simp [Pairs]
  | [], _ :: _, h => by simp [Pairs] at h
  | _ :: _, [], h => h.elim
  | a :: as, b :: bs, h => ⟨hR _ _ h.1, pairs_symm hR h.2⟩

theorem pairs_refl {α : Type} {pre : Bool} {R : α → α → Prop} (hR : ∀ a, R a a) : ∀ as : List α, Pairs pre R as as
  | [] => .inr rfl
  | a :: as => ⟨hR a, pairs_refl hR as⟩

theorem leafSame_symm {big : Bool} {eps : FVal} {id : TypeId} {es es' : List (List (Option UInt8))}
    (h : LeafSame false big eps id es es') : LeafSame false big eps id es' es := by
  unfold LeafSame at *
  by_cases h1 : id = .empty
  · rw [if_pos h1]; trivial
  · rw [if_neg h1] at h ⊢
    by_cases h2 : id = .char8Str
    · rw [if_pos h2] at h ⊢
      cases h3 : textOf es <;> cases h4 : textOf es' <;> rw [h3, h4] at h <;> simp_all
    · rw [if_neg h2] at h ⊢
      cases hf : format id <;> rw [hf] at h
      · exact pairs_symm (fun _ _ h => h.symm) h
      · exact pairs_symm (fun _ _ h => near_symm h) h

theorem leafSame_refl {pre big : Bool} {eps : FVal} (he : NonNeg eps) (id : TypeId) (es : List (List (Option UInt8))) :
    LeafSame pre big eps id es es := by
  unfold LeafSame
  by_cases h1 : id = .empty
  · rw [if_pos h1]; trivial
  · rw [if_neg h1]
    by_cases h2 : id = .char8Str
    · rw [if_pos h2]
      cases h3 : textOf es <;> cases pre <;> simp
    · rw [if_neg h2]
      cases hf : format id
      · exact pairs_refl (fun _ => rfl) es
      · exact pairs_refl (fun _ => far_self _ he _) es

theorem leafSame_weaken {big : Bool} {eps : FVal} {id : TypeId} {es es' : List (List (Option UInt8))}
    (h : LeafSame false big eps id es es') : LeafSame true big eps id es es' := by
  unfold LeafSame at *
  by_cases h1 : id = .empty
  · rw [if_pos h1]; trivial
  · rw [if_neg h1] at h ⊢
    by_cases h2 : id = .char8Str
    · rw [if_pos h2] at h ⊢
      cases h3 : textOf es <;> cases h4 : textOf es' <;> rw [h3, h4] at h <;> simp_all
    · rw [if_neg h2] at h ⊢
      cases hf : format id <;> rw [hf] at h
      · exact (pairs_pre.1 h).1
      · exact (pairs_pre.1 h).1

theorem entry_iff_mem {n : Str} {c : Val} : ∀ {es : List (Str × Val)}, (es.map Prod.fst).Nodup → (entry n es = some c ↔ (n, c) ∈ es)
  | [], _ => by simp [entry]
  | (k, d) :: es, h => by
    simp only [List.map_cons, List.nodup_cons] at h
    by_cases hk : k = n
    · subst hk
      simp only [entry, if_true, Option.some.injEq, List.mem_cons, Prod.mk.injEq, true_and]
      constructor
      · intro h'; exact .inl h'.symm
      · rintro (h' | h')
        · exact h'.symm
        · exact absurd (List.mem_map_of_mem (f := Prod.fst) h') h.1
    · simp only [entry, if_neg hk, List.mem_cons, Prod.mk.injEq, Ne.symm hk, false_and, false_or]
      exact entry_iff_mem h.2

mutual
theorem sameV_refl {pre big : Bool} {eps : FVal} (he : NonNeg eps) : ∀ v : Val, DistinctV v → SameV pre big eps v v
  | .leaf id e es, _ => ⟨rfl, leafSame_refl he id es⟩
  | .obj es, h => by
    refine ⟨?_, .inr fun _ h => h⟩
    rw [sameE_iff]
    intro p hp
    exact ⟨p.2, (entry_iff_mem h.1).2 hp, sameE_refl he es h.2 p hp⟩
  | .lst cs, h => sameL_refl he cs h
theorem sameE_refl {pre big : Bool} {eps : FVal} (he : NonNeg eps) : ∀ es : List (Str × Val), DistinctVE es →
    ∀ p ∈ es, SameV pre big eps p.2 p.2
  | [], _ => by simp
  | (k, c) :: es, h => by
    intro p hp
    rcases List.mem_cons.1 hp with hp | hp
    · rw [hp]; exact sameV_refl he c h.1
    · exact sameE_refl he es h.2 p hp
theorem sameL_refl {pre big : Bool} {eps : FVal} (he : NonNeg eps) : ∀ es : List Val, DistinctVL es → SameL pre big eps es es
  | [], _ => .inr rfl
  | c :: cs, h => ⟨sameV_refl he c h.1, sameL_refl he cs h.2⟩
end

mutual
theorem sameV_symm {big : Bool} {eps : FVal} : ∀ v w : Val, DistinctV v → DistinctV w → SameV false big eps v w → SameV false big eps w v
  | .leaf id e es, .leaf id' e' es', _, _, h => by
    obtain ⟨rfl, h⟩ := h; exact ⟨rfl, leafSame_symm h⟩
  | .leaf id e es, .obj _, _, _, h => h.elim
  | .leaf id e es, .lst _, _, _, h => h.elim
  | .obj es, .leaf _ _ _, _, _, h => h.elim
  | .obj es, .lst _, _, _, h => h.elim
  | .lst es, .leaf _ _ _, _, _, h => h.elim
  | .lst es, .obj _, _, _, h => h.elim
  | .lst cs, .lst cs', h1, h2, h => sameL_symm cs cs' h1 h2 h
  | .obj es, .obj es', h1, h2, h => by
    obtain ⟨h3, h4⟩ := h
    have h4 : ∀ n ∈ es'.map Prod.fst, n ∈ es.map Prod.fst := by
      rcases h4 with h4 | h4
      · cases h4
      · exact h4
    have h5 := sameE_symm es es' h1.2 h2 h3
    rw [sameE_iff] at h3
    refine ⟨?_, .inr ?_⟩
    · rw [sameE_iff]
      intro p hp
      obtain ⟨q, hq, hq'⟩ := List.mem_map.1 (h4 p.1 (List.mem_map_of_mem hp))
      obtain ⟨k, c⟩ := q
      simp only at hq'; subst hq'
      exact ⟨c, (entry_iff_mem h1.1).2 hq, h5 (p.1, c) hq p.2 ((entry_iff_mem h2.1).2 hp)⟩
    · intro n hn
      obtain ⟨q, hq, rfl⟩ := List.mem_map.1 hn
      obtain ⟨c', hc', -⟩ := h3 q hq
      exact List.mem_map.2 ⟨(q.1, c'), (entry_iff_mem h2.1).1 hc', rfl⟩
theorem sameE_symm {big : Bool} {eps : FVal} : ∀ (es es' : List (Str × Val)), DistinctVE es → DistinctV (.obj es') → SameE false big eps es es' →
    ∀ p ∈ es, ∀ c', entry p.1 es' = some c' → SameV false big eps c' p.2
  | [], _, _, _, _ => by simp
  | (k, c) :: es, es', h1, h2, h => by
    intro p hp c' hc'
    rcases List.mem_cons.1 hp with hp | hp
    · subst hp
      obtain ⟨c2, h3, h4⟩ := h.1
      simp only at hc'
      rw [h3] at hc'; injection hc' with hc'; subst hc'
      exact sameV_symm c c2 h1.1 (distinctVE_iff.1 h2.2 _ ((entry_iff_mem h2.1).1 h3)) h4
    · exact sameE_symm es es' h1.2 h2 h.2 p hp c' hc'
theorem sameL_symm {big : Bool} {eps : FVal} : ∀ (es es' : List Val), DistinctVL es → DistinctVL es' → SameL false big eps es es' → SameL false big eps es' es
  | [], [], _, _, _ => .inr rfl
  | [], c :: cs, _, _, h => by rcases h with h | h <;> cases h
  | c :: cs, [], _, _, h => h.elim
  | c :: cs, c' :: cs', h1, h2, h => ⟨sameV_symm c c' h1.1 h2.1 h.1, sameL_symm cs cs' h1.2 h2.2 h.2⟩
end

mutual
theorem sameV_weaken {big : Bool} {eps : FVal} : ∀ v w : Val, SameV false big eps v w → SameV true big eps v w
  | .leaf id e es, w, h => by
    cases w with
    | leaf id' e' es' => exact ⟨h.1, leafSame_weaken h.2⟩
    | obj _ => exact h.elim
    | lst _ => exact h.elim
  | .obj es, w, h => by
    cases w with
    | leaf _ _ _ => exact h.elim
    | obj es' => exact ⟨sameE_weaken es es' h.1, .inl rfl⟩
    | lst _ => exact h.elim
  | .lst es, w, h => by
    cases w with
    | leaf _ _ _ => exact h.elim
    | obj _ => exact h.elim
    | lst es' => exact sameL_weaken es es' h
theorem sameE_weaken {big : Bool} {eps : FVal} : ∀ es es' : List (Str × Val), SameE false big eps es es' → SameE true big eps es es'
  | [], _, _ => trivial
  | (k, c) :: es, es', h => by
    obtain ⟨⟨c', h1, h2⟩, h3⟩ := h
    exact ⟨⟨c', h1, sameV_weaken c c' h2⟩, sameE_weaken es es' h3⟩
theorem sameL_weaken {big : Bool} {eps : FVal} : ∀ es es' : List Val, SameL false big eps es es' → SameL true big eps es es'
  | [], _, _ => .inl rfl
  | c :: cs, [], h => h.elim
  | c :: cs, c' :: cs', h => ⟨sameV_weaken c c' h.1, sameL_weaken cs cs' h.2⟩
end

end Conduit
