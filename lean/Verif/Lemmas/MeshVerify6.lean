import Verif.Lemmas.MeshVerify5
/-
The check of one domain and that of a whole mesh.
-/
namespace Conduit.Mesh
open Log (Info)

theorem decimal_inj {i j : Nat} (e : decimal (i : Int) = decimal (j : Int)) : i = j := by
  have h : ∀ i : Nat, decimal (i : Int) = Nat.toDigits 10 i := fun i => by
    show (String.ofList (Nat.toDigits 10 i)).toList = _
    simp
  rw [h, h] at e
  rw [← Nat.ofDigitChars_ten_toDigits (n := i), e, Nat.ofDigitChars_ten_toDigits]

section
variable {F : Type} {s φ ψ : Prop}

theorem Plain.elements {n : BNode F} (hp : Plain n) :
    ∀ c, n.get (chars! "elements") = .ok c → ∀ k ∈ c.kids, k.1 ≠ vkey := fun _ hc _ hk => ((hp.get hc).kid hk).1

theorem Known.of {n : BNode F} {coll : Str} {good : BNode F → Prop} {t : Info} {ks : List (Str × BNode F)}
    (h : n.get coll = .ok (.obj ks)) (x : ∀ k ∈ ks, Says (ent t coll k.1) (good k.2)) : Known n coll good t := by
  intro k hk; rw [entries_of h] at hk; exact x k hk

/-- What is known of the entries of a domain once it has been checked. -/
structure Reported (n : BNode F) (t : Info) : Prop where
  coordsets : Known n (chars! "coordsets") (CoordsetOk n) t
  topologies : Known n (chars! "topologies") (fun c => TopologyOk n c ∧ GridOk n c) t
  matsets : Known n (chars! "matsets") (MatsetOk n) t
  specsets : Known n (chars! "specsets") (SpecsetOk n) t
  fields : Known n (chars! "fields") (FieldOk n) t
  adjsets : Known n (chars! "adjsets") (AdjsetOk n) t
  nestsets : Known n (chars! "nestsets") (NestsetOk n) t

/-- The last pass over the topologies. -/
theorem gridPhase {p : Str} {n : BNode F} (hp : Plain n) {I : Info → Prop} {L : List Str} (hD : Depends L I)
    (hL : chars! "topologies" ∉ L) (hF : ∀ t, I t → Known n (chars! "fields") (FieldOk n) t) :
    Does (if n.hasChild (chars! "topologies") = true then do
        let c ← V.lift (n.get (chars! "topologies"))
        let r ← V.all (fun (k : Str × BNode F) => do
          V.sub (chars! "topologies") (V.sub k.1 (pure ()))
          if k.2.hasChild (chars! "grid_function") = true then
            referenceField p n (chars! "topologies") k.1 k.2 (chars! "grid_function") (chars! "fields")
          else pure true) c.items
        V.sub (chars! "topologies") (V.valid r)
        pure r
      else pure true : V Bool) s
      (fun t => I t ∧ Known n (chars! "topologies") (TopologyOk n) t)
      fun b t => (AllOf n (chars! "topologies") (TopologyOk n) →
          (b = true ↔ AllOf n (chars! "topologies") fun c => TopologyOk n c ∧ GridOk n c)) ∧ I t ∧
        Known n (chars! "topologies") (fun c => TopologyOk n c ∧ GridOk n c) t := by
  have hc : chars! "topologies" ≠ vkey := by decide
  have hf : chars! "grid_function" ≠ vkey := by decide
  by_cases h : Has n (chars! "topologies")
  · rw [if_pos (has_iff.2 h)]
    obtain ⟨c, hg⟩ := h
    refine lift_then hg ?_
    by_cases ho : ∃ ks, c = .obj ks
    · obtain ⟨ks, rfl⟩ := ho
      have loop := all_entries (s := s) (l := ks) (coll := chars! "topologies") (good := fun k => GridOk n k.2)
        (check := fun (k : Str × BNode F) => (do
          V.sub (chars! "topologies") (V.sub k.1 (pure ()))
          if k.2.hasChild (chars! "grid_function") = true then
            referenceField p n (chars! "topologies") k.1 k.2 (chars! "grid_function") (chars! "fields")
          else pure true : V Bool))
        (P := fun k e => Says e (TopologyOk n k.2)) (Q := fun k e => Says e (TopologyOk n k.2 ∧ GridOk n k.2)) (I0 := I)
        (hp.get hg).nodup (fun k hk J hJ hJI => by
          have hn := ((hp.get hg).kid hk).1
          refine Does.bind (entry_does (s := s) (P := fun e => Says e (TopologyOk n k.2))
            (Q := fun _ e => Says e (TopologyOk n k.2)) hc hn hJ (Does.pure _ fun _ x => x)) fun _ => ?_
          refine Does.conseq (Does.exists (ι := { b : Bool // b = true ↔ TopologyOk n k.2 }) fun b0 =>
            Does.conseq (optReference_does (f := chars! "grid_function") (c := k.2) hc hn hf hJ
              (fun t x => hF t (hJI t x)) b0.1) (P' := fun t => J t ∧ Marked (ent t (chars! "topologies") k.1) b0.1) (fun _ x => x)
              (Q' := fun b t => (b = true ↔ GridOk n k.2) ∧ J t ∧
                Says (ent t (chars! "topologies") k.1) (TopologyOk n k.2 ∧ GridOk n k.2)) fun b t x =>
              ⟨x.1, x.2.1, _, x.2.2, by rw [Bool.and_eq_true, b0.2, x.1]; exact Iff.rfl⟩) ?_ fun _ _ x => x
          rintro t ⟨⟨b, hm, hb⟩, hj⟩
          exact ⟨⟨b, hb⟩, hj, hm⟩) I (fun k _ => hD.stable hc hL k.1) (fun _ => id)
      refine Does.bind (Does.conseq loop (fun t x => ⟨x.1, fun k hk => x.2 k (by rw [entries_of hg]; exact hk)⟩)
        (Q' := fun b t => (b = true ↔ ∀ k ∈ ks, GridOk n k.2) ∧ I t ∧
          Known n (chars! "topologies") (fun c => TopologyOk n c ∧ GridOk n c) t)
        fun b t x => ⟨x.1, x.2.1, Known.of hg x.2.2⟩) fun b => Does.pull fun hb => ?_
      refine (valid_known hp hD hc hL b).bind fun _ => Does.pure _ fun t x => ⟨?_, x⟩
      rintro ⟨ks', hk', hne, hall⟩
      have := get_inj hg hk'; injection this with this; subst this
      rw [hb]
      constructor
      · intro y; exact ⟨ks, hg, hne, fun k hk => ⟨hall k hk, y k hk⟩⟩
      · rintro ⟨ks2, hk2, -, y⟩
        have := get_inj hg hk2; injection this with this; subst this
        exact fun k hk => (y k hk).2
    · have hno : ¬ ∃ ks, n.get (chars! "topologies") = .ok (.obj ks) ∧ ks ≠ [] := fun ⟨ks, e, _⟩ => ho ⟨ks, get_inj hg e⟩
      have hnil := entries_nil hno
      refine Does.bind (Q := fun _ t => I t) ?_ fun r => ?_
      · refine Does.conseq (all_inv (s := s) (good := fun k : Str × BNode F => GridOk n k.2) (I := I) fun k hk => ?_)
          (fun t x => x.1) fun _ _ x => x.2
        have hn := ((hp.get hg).item hk).1
        refine Does.bind (Does.conseq (entry_does (s := s) (P := fun _ => True) (Q := fun _ _ => True) hc hn
          (hD.stable hc hL k.1) (Does.pure _ fun _ x => x)) (P' := I) (fun _ x => ⟨x, trivial⟩) fun _ _ x => x.2) fun _ => ?_
        show Does _ s I _
        by_cases hh : Has k.2 (chars! "grid_function")
        · rw [if_pos (has_iff.2 hh)]
          refine Does.conseq (Does.exists (ι := Bool) fun b0 => Does.conseq
            (referenceField_does (f := chars! "grid_function") (c := k.2) hc hn hf (hD.stable hc hL k.1) hF b0)
            (P' := fun t => I t ∧ W b0 (ent t (chars! "topologies") k.1)) (fun _ x => x)
            (Q' := fun b t => (b = true ↔ GridOk n k.2) ∧ I t)
            fun b t x => ⟨x.1.trans ⟨fun y _ => y, fun y => y hh⟩, x.2.1⟩) (fun t x => ⟨_, x, rfl⟩) fun _ _ x => x
        · rw [if_neg (by rw [has_iff]; exact hh)]
          exact Does.pure _ fun t x => ⟨⟨fun _ y => absurd y hh, fun _ => rfl⟩, x⟩
      · refine Does.bind (hD.sub hc hL (valid_any r)) fun _ => Does.pure _ fun t x => ⟨?_, x, ?_⟩
        · rintro ⟨ks, e, hne, -⟩; exact absurd ⟨ks, e, hne⟩ hno
        · intro k hk; rw [hnil] at hk; simp at hk
  · rw [if_neg (by rw [has_iff]; exact h)]
    have hno : ¬ ∃ ks, n.get (chars! "topologies") = .ok (.obj ks) ∧ ks ≠ [] := fun ⟨ks, e, _⟩ => h ⟨_, e⟩
    refine Does.pure _ fun t x => ⟨?_, x.1, ?_⟩
    · rintro ⟨ks, e, hne, -⟩; exact absurd ⟨ks, e, hne⟩ hno
    · intro k hk; rw [entries_nil hno] at hk; simp at hk

theorem finish_frame {b r : Bool} {t t' : Info} (x : V.finish b t = .ok (r, t')) (c : Str) (hc : c ≠ vkey) :
    t'.child? c = t.child? c := by
  unfold V.finish at x
  obtain ⟨⟨u, t1⟩, x1, x2⟩ := Res.bind_eq_ok.1 (show (V.valid b t >>= fun r => (pure b : V Bool) r.2) = .ok (r, t') from x)
  have x2' : Res.ok (b, t1) = Res.ok (r, t') := x2
  injection x2' with x2'
  obtain ⟨rfl, rfl⟩ := Prod.mk.inj x2'
  unfold V.valid at x1
  cases hv : Log.validation t b with
  | ok t2 =>
    rw [hv] at x1
    have x1' : Res.ok ((), t2) = Res.ok (u, t1) := x1
    injection x1' with x1'
    obtain ⟨-, rfl⟩ := Prod.mk.inj x1'
    exact (validation_ok hv).2 c hc
  | error => rw [hv] at x1; exact absurd x1 (by simp)
  | ub => rw [hv] at x1; exact absurd x1 (by simp)

theorem singleDomain_does {A : Arith F} {n : BNode F} (hp : Plain n) (hs : s → DomainSafe n) {P : Info → Prop} :
    Does (singleDomain A n) s P fun b t => (b = true ↔ IsDomain n) ∧ Marked t b ∧ Reported n t := by
  unfold singleDomain
  dsimp only
  refine reset_then ?_
  have D0 := depends_W true
  refine Does.bind (collection_does (good := CoordsetOk n) hp D0 (by decide) (by decide) (by decide)
    fun ks hk k hm J hJ _ => ?_) fun r1 => Does.pull fun h1 => ?_
  · exact (verified_entry (by decide) ((hp.get hk).kid hm).1 hJ coordset_verifies).conseq (fun _ => id)
      fun b t x => ⟨x.1, x.2.1, b, x.2.2, x.1⟩
  have D1 := D0.known n (chars! "coordsets") (CoordsetOk n)
  refine Does.bind (collection_does (good := TopologyOk n) hp D1 (by decide) (by decide) (by decide)
    fun ks hk k hm J hJ hI => ?_) fun r2 => Does.pull fun h2 => ?_
  · exact entry_step (by decide) ((hp.get hk).kid hm).1 (by decide) hJ (fun t x => (hI t x).2)
      (topology_verifies ((hp.get hk).kid hm).2.elements fun x => (hs x).1 _ hk k hm)
  have D2 := D1.known n (chars! "topologies") (TopologyOk n)
  refine Does.bind (optCollection_does (good := MatsetOk n) hp D2 (by decide) (by decide) (by decide)
    fun ks hk k hm J hJ hI => ?_) fun r3 => Does.pull fun h3 => ?_
  · exact entry_step (by decide) ((hp.get hk).kid hm).1 (by decide) hJ (fun t x => (hI t x).2)
      (matset_verifies ((hp.get hk).kid hm).2)
  have D3 := D2.known n (chars! "matsets") (MatsetOk n)
  refine Does.bind (optCollection_does (good := SpecsetOk n) hp D3 (by decide) (by decide) (by decide)
    fun ks hk k hm J hJ hI => ?_) fun r4 => Does.pull fun h4 => ?_
  · exact entry_step (by decide) ((hp.get hk).kid hm).1 (by decide) hJ (fun t x => (hI t x).2)
      (specset_verifies ((hp.get hk).kid hm).2 fun x => (hs x).2 _ hk k hm)
  have D4 := D3.known n (chars! "specsets") (SpecsetOk n)
  refine Does.bind (optCollection_does (good := FieldOk n) hp D4 (by decide) (by decide) (by decide)
    fun ks hk k hm J hJ hI => ?_) fun r5 => Does.pull fun h5 => ?_
  · have hn := ((hp.get hk).kid hm).1
    refine (verified_entry (by decide) hn hJ field_verifies).bind fun a => Does.pull fun ha => ?_
    refine Does.bind (optReference_does (by decide) hn (by decide) hJ (fun t x => (hI t x).1.1.2) a) fun b =>
      Does.pull fun hb => ?_
    refine Does.bind (optReference_does (by decide) hn (by decide) hJ (fun t x => (hI t x).1.2) (a && b)) fun d =>
      Does.pull fun hd => ?_
    have e : (a && b && d) = true ↔ FieldOk n k.2 := by
      rw [Bool.and_eq_true, Bool.and_eq_true, ha, hb, hd, and_assoc]; exact Iff.rfl
    exact Does.pure _ fun t x => ⟨e, x.1, _, x.2, e⟩
  have D5 := D4.known n (chars! "fields") (FieldOk n)
  refine Does.bind (optCollection_does (good := AdjsetOk n) hp D5 (by decide) (by decide) (by decide)
    fun ks hk k hm J hJ hI => ?_) fun r6 => Does.pull fun h6 => ?_
  · exact entry_step (by decide) ((hp.get hk).kid hm).1 (by decide) hJ (fun t x => (hI t x).1.1.1.2)
      (adjset_verifies ((hp.get hk).kid hm).2)
  have D6 := D5.known n (chars! "adjsets") (AdjsetOk n)
  refine Does.bind (optCollection_does (good := NestsetOk n) hp D6 (by decide) (by decide) (by decide)
    fun ks hk k hm J hJ hI => ?_) fun r7 => Does.pull fun h7 => ?_
  · exact entry_step (by decide) ((hp.get hk).kid hm).1 (by decide) hJ (fun t x => (hI t x).1.1.1.1.2)
      (nestset_verifies ((hp.get hk).kid hm).2)
  have E := (((((D1.known n (chars! "matsets") (MatsetOk n)).known n (chars! "specsets") (SpecsetOk n)).known n
    (chars! "fields") (FieldOk n)).known n (chars! "adjsets") (AdjsetOk n)).known n (chars! "nestsets") (NestsetOk n))
  refine Does.bind (Does.conseq (gridPhase (p := chars! "mesh") hp E (by decide) fun t x => x.1.1.2)
    (fun t x => ⟨⟨⟨⟨⟨⟨x.1.1.1.1.1.1, x.1.1.1.1.2⟩, x.1.1.1.2⟩, x.1.1.2⟩, x.1.2⟩, x.2⟩, x.1.1.1.1.1.2⟩) fun _ _ x => x) fun r8 =>
    Does.pull fun h8 => ?_
  have e : (r1 && r2 && r3 && r4 && r5 && r6 && r7 && r8) = true ↔ IsDomain n := by
    simp only [Bool.and_eq_true]
    rw [h1, h2, h3, h4, h5, h6, h7]
    unfold IsDomain
    constructor
    · rintro ⟨⟨⟨⟨⟨⟨⟨a1, a2⟩, a3⟩, a4⟩, a5⟩, a6⟩, a7⟩, a8⟩
      exact ⟨a1, (h8 a2).1 a8, a3, a4, a5, a6, a7⟩
    · rintro ⟨a1, a2, a3, a4, a5, a6, a7⟩
      have a2' : AllOf n (chars! "topologies") (TopologyOk n) := by
        obtain ⟨ks, x, y, z⟩ := a2; exact ⟨ks, x, y, fun k hk => (z k hk).1⟩
      exact ⟨⟨⟨⟨⟨⟨⟨a1, a2'⟩, a3⟩, a4⟩, a5⟩, a6⟩, a7⟩, (h8 a2').2 a2⟩
  generalize (r1 && r2 && r3 && r4 && r5 && r6 && r7 && r8) = b at e ⊢
  rintro t ⟨⟨⟨⟨⟨⟨⟨w, kc⟩, km⟩, ks⟩, kf⟩, ka⟩, kn⟩, kt⟩
  have fin := finish_of (s := s) e t w
  refine ⟨fun r t' x => ⟨(fin.1 r t' x).1, (fin.1 r t' x).2, ?_⟩, fin.2⟩
  have hv := finish_frame x
  exact ⟨kc.congr (hv _ (by decide)), kt.congr (hv _ (by decide)), km.congr (hv _ (by decide)),
    ks.congr (hv _ (by decide)), kf.congr (hv _ (by decide)), ka.congr (hv _ (by decide)), kn.congr (hv _ (by decide))⟩

/-- A check of every domain, each on its part of the report. -/
theorem all_parts {l : List (Str × BNode F)} {check : BNode F → V Bool} {good : BNode F → Prop}
    {R : BNode F → Info → Prop} (hnd : (l.map (·.1)).Nodup) (hv : ∀ k ∈ l, k.1 ≠ vkey)
    (h : ∀ k ∈ l, Does (check k.2) s (fun _ => True) fun b t => (b = true ↔ good k.2) ∧ R k.2 t) (v : Bool) :
    Does (V.all (fun k => V.sub k.1 (check k.2)) l) s (W v)
      fun b t => (b = true ↔ ∀ k ∈ l, good k.2) ∧ W v t ∧ ∀ k ∈ l, R k.2 ((t.child? k.1).getD .empty) := by
  suffices H : ∀ I : Info → Prop, (∀ k ∈ l, ∀ t x, I t → I (t.update k.1 fun _ => x)) →
      Does (V.all (fun k => V.sub k.1 (check k.2)) l) s I
        fun b t => (b = true ↔ ∀ k ∈ l, good k.2) ∧ I t ∧ ∀ k ∈ l, R k.2 ((t.child? k.1).getD .empty) from
    H (W v) fun k hk t x ht => by unfold W at *; rw [verdict_update (hv k hk), ht]
  induction l with
  | nil => exact fun I _ => Does.pure _ fun t x => ⟨by simp, x, by simp⟩
  | cons k l ih =>
    intro I hI
    rw [List.map_cons, List.nodup_cons] at hnd
    have ne : ∀ k' ∈ l, k'.1 ≠ k.1 := fun k' hk' e => hnd.1 (e ▸ List.mem_map_of_mem hk')
    have step : Does (V.sub k.1 (check k.2)) s I
        fun b t => (b = true ↔ good k.2) ∧ I t ∧ R k.2 ((t.child? k.1).getD .empty) := fun t ht => by
      have hs := sub_does (fun _ => hv k (by simp)) (h k (by simp)) t trivial
      refine ⟨fun b t' e => ?_, hs.2⟩
      unfold V.sub at e
      obtain ⟨⟨a1, c1⟩, e1, e2⟩ := Res.bind_eq_ok.1 e
      injection e2 with e2
      obtain ⟨rfl, rfl⟩ := Prod.mk.inj e2
      have := (h k (by simp) _ trivial).1 _ _ e1
      exact ⟨this.1, hI k (by simp) t c1 ht, by rw [child_update_self]; exact this.2⟩
    refine step.bind fun a => Does.pull fun ha => ?_
    refine Does.bind (ih hnd.2 (fun k' hk' => hv k' (List.mem_cons_of_mem _ hk'))
      (fun k' hk' => h k' (List.mem_cons_of_mem _ hk')) _ fun k' hk' t x ht =>
        ⟨hI k' (List.mem_cons_of_mem _ hk') t x ht.1, by rw [child_update_ne _ _ _ (Ne.symm (ne k' hk'))]; exact ht.2⟩)
      fun b => Does.pull fun hb => ?_
    refine Does.pure _ fun t x => ⟨by rw [Bool.and_eq_true, ha, hb]; simp, x.1.1, fun k' hk' => ?_⟩
    rcases List.mem_cons.1 hk' with rfl | hk'
    · exact x.1.2
    · exact x.2 k' hk'

theorem Plain.items_nodup {n : BNode F} (hp : Plain n) : (n.items.map (·.1)).Nodup := by
  cases n with
  | obj ks => exact hp.1
  | list ks =>
    simp only [BNode.items, List.map_map]
    rw [show (fun x : Str × BNode F => x.1) ∘ (fun k : BNode F × Nat => ((decimal (k.2 : Int), k.1) : Str × BNode F)) =
      (fun i : Nat => decimal (i : Int)) ∘ Prod.snd from rfl, ← List.map_map, List.zipIdx_map_snd]
    refine List.Pairwise.map _ (fun i j h e => h (decimal_inj e)) List.nodup_range'
  | _ => simp [BNode.items]

/-- What is known of a part of the report after the check of a domain. -/
def Part (d : BNode F) (t : Info) : Prop := Says t (IsDomain d) ∧ Reported d t

theorem multiDomain_does {A : Arith F} {n : BNode F} (hp : Plain n) (hs : s → ∀ d ∈ members n, DomainSafe d)
    {P : Info → Prop} :
    Does (multiDomain A n) s P fun b t =>
      (b = true ↔ (n = .empty ∨ (∃ ks, n = .obj ks) ∨ ∃ ks, n = .list ks) ∧ ∀ d ∈ members n, IsDomain d) ∧ Marked t b ∧
      ∀ k ∈ n.items, k.1 ≠ chars! "info" → Part k.2 ((t.child? k.1).getD .empty) := by
  unfold multiDomain
  dsimp only
  refine reset_then ?_
  by_cases hk : (n = .empty ∨ (∃ ks, n = .obj ks) ∨ ∃ ks, n = .list ks)
  · rw [if_neg (by rcases hk with rfl | ⟨ks, rfl⟩ | ⟨ks, rfl⟩ <;> simp [BNode.isObject, BNode.isList, BNode.isEmpty])]
    have loop : Does (if (n.isEmpty || n.numChildren == 0) = true then do
          V.note (chars! "mesh") (chars! "is an empty mesh")
          pure true
        else V.all (fun (k : Str × BNode F) => V.sub k.1 (singleDomain A k.2)) n.items : V Bool) s (W true)
        fun b t => (b = true ↔ ∀ k ∈ n.items, IsDomain k.2) ∧ W true t ∧
          ∀ k ∈ n.items, Part k.2 ((t.child? k.1).getD .empty) := by
      split
      · next h =>
        have hnil : n.items = [] := by
          cases n <;> simp_all [BNode.isEmpty, BNode.numChildren, BNode.items]
        rw [hnil]
        exact (note_does _ _ true).bind fun _ => Does.pure _ fun t x => ⟨by simp, x, by simp⟩
      · refine all_parts hp.items_nodup (fun k hk => (hp.item hk).1) (fun k hk => ?_) true
        exact (singleDomain_does (hp.item hk).2 fun x => hs x _ (mem_items.2 ⟨k, hk, rfl⟩)).conseq (fun _ => id)
          fun b t x => ⟨x.1, ⟨b, x.2.1, x.1⟩, x.2.2⟩
    refine Does.bind (Q := fun b t => (b = true ↔ ∀ k ∈ n.items, IsDomain k.2) ∧ W true t ∧
          ∀ k ∈ n.items, k.1 ≠ chars! "info" → Part k.2 ((t.child? k.1).getD .empty))
        (loop.bind fun b => ?_) fun b => ?_
    · refine Does.bind (Q := fun _ t => (b = true ↔ ∀ k ∈ n.items, IsDomain k.2) ∧ W true t ∧
          ∀ k ∈ n.items, k.1 ≠ chars! "info" → Part k.2 ((t.child? k.1).getD .empty)) ?_ fun _ => Does.pure _ fun _ => id
      rintro t ⟨h1, h2, h3⟩
      have hn := note_does (s := s) (chars! "mesh") (chars! "is a multi domain mesh") true t h2
      refine ⟨fun a t' e => ⟨h1, hn.1 a t' e, fun k hk hne => ?_⟩, hn.2⟩
      have e' : Res.ok ((), Log.info t (chars! "mesh") (chars! "is a multi domain mesh")) = Res.ok (a, t') := e
      injection e' with e'
      obtain ⟨-, rfl⟩ := Prod.mk.inj e'
      unfold Log.info
      rw [child_update_ne _ _ _ hne]
      exact h3 k hk
    · rintro t ⟨h1, h2, h3⟩
      have e : b = true ↔ (n = .empty ∨ (∃ ks, n = .obj ks) ∨ ∃ ks, n = .list ks) ∧ ∀ d ∈ members n, IsDomain d := by
        rw [h1]
        constructor
        · intro h; refine ⟨hk, fun d hd => ?_⟩
          obtain ⟨k, hm, rfl⟩ := mem_items.1 hd; exact h k hm
        · rintro ⟨-, h⟩ k hm; exact h _ (mem_items.2 ⟨k, hm, rfl⟩)
      have fin := finish_of (s := s) e t h2
      refine ⟨fun r t' x => ⟨(fin.1 r t' x).1, (fin.1 r t' x).2, fun k hm hne => ?_⟩, fin.2⟩
      rw [finish_frame x _ (hp.item hm).1]
      exact h3 k hm hne
  · have hi : n.items = [] := by
      cases n <;> simp_all [BNode.items]
    rw [if_pos (by cases n <;> simp_all [BNode.isObject, BNode.isList, BNode.isEmpty]), hi]
    refine Does.bind (Does.bind (err_does _ _ true) fun _ => Does.pure (Q := fun b t => b = false ∧ W true t) _ fun t x => ⟨rfl, x⟩)
      fun b => Does.pull fun hb => ?_
    subst hb
    refine (finish_of ⟨fun x => absurd x (by simp), fun x => absurd x.1 hk⟩).conseq (fun _ => id) fun b t x => ⟨x.1, x.2, by simp⟩

theorem meshVerify_does {A : Arith F} {n : BNode F} (hp : Plain n) (hs : s → MeshSafe n) {P : Info → Prop} :
    Does (meshVerify A n) s P fun b t => (b = true ↔ IsMesh n) ∧ Marked t b ∧
      (Has n (chars! "coordsets") → Reported n t) ∧
      (¬ Has n (chars! "coordsets") → ∀ k ∈ n.items, k.1 ≠ chars! "info" → Part k.2 ((t.child? k.1).getD .empty)) := by
  unfold meshVerify
  refine reset_then ?_
  by_cases h : Has n (chars! "coordsets")
  · rw [if_pos (has_iff.2 h)]
    refine (singleDomain_does hp fun x => (hs x).1 h).conseq (fun _ => id) fun b t x =>
      ⟨x.1.trans ⟨fun y => .inl ⟨h, y⟩, ?_⟩, x.2.1, fun _ => x.2.2, fun y => absurd h y⟩
    rintro (⟨-, y⟩ | ⟨y, -⟩)
    · exact y
    · exact absurd h y
  · rw [if_neg (by rw [has_iff]; exact h)]
    refine (multiDomain_does hp fun x => (hs x).2 h).conseq (fun _ => id) fun b t x =>
      ⟨x.1.trans ⟨fun y => .inr ⟨h, y⟩, ?_⟩, x.2.1, fun y => absurd y h, fun _ => x.2.2⟩
    rintro (⟨y, -⟩ | ⟨-, y⟩)
    · exact absurd y h
    · exact y

end
end Conduit.Mesh
