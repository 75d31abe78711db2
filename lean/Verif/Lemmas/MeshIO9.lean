import Verif.Lemmas.MeshIO8
/-
The domains as they are numbered, and reading all of them (C88).
-/
namespace Conduit.MeshIO
open Conduit.Mesh

section
variable {F : Type}

/-! ### Numbered domains -/

theorem isDomain_congr {a b : BNode F} (h : ∀ f, f ≠ chars! "state" → b.get f = a.get f) (ha : IsDomain a) : IsDomain b := by
  have ref : ∀ {c : BNode F} {f coll : Str} {P Q : BNode F → Prop}, coll ≠ chars! "state" → (∀ c, P c → Q c) →
      RefersTo a c f coll P → RefersTo b c f coll Q := by
    rintro c f coll P Q hc hq ⟨s, x, h1, h2, h3⟩
    exact ⟨s, x, h1, (entry_congr (h _ hc)).2 h2, hq _ h3⟩
  have all : ∀ {coll : Str} {P Q : BNode F → Prop}, coll ≠ chars! "state" → (∀ c, P c → Q c) → AllOf a coll P → AllOf b coll Q := by
    rintro coll P Q hc hq ⟨ks, h1, h2, h3⟩
    exact ⟨ks, by rw [h _ hc, h1], h2, fun k hk => hq _ (h3 k hk)⟩
  have has : ∀ {coll : Str}, coll ≠ chars! "state" → Has b coll → Has a coll := by
    rintro coll hc ⟨x, hx⟩; exact ⟨x, by rw [← h _ hc, hx]⟩
  have top : ∀ c, TopologyOk a c → TopologyOk b c := fun c q => ⟨q.1, ref (by decide) (fun _ q => q) q.2⟩
  have mat : ∀ c, MatsetOk a c → MatsetOk b c := fun c q => ⟨q.1, ref (by decide) top q.2⟩
  have fld : ∀ c, FieldOk a c → FieldOk b c := fun c q =>
    ⟨q.1, fun x => ref (by decide) top (q.2.1 x), fun x => ref (by decide) mat (q.2.2 x)⟩
  obtain ⟨h1, h2, h3, h4, h5, h6, h7⟩ := ha
  refine ⟨all (by decide) (fun _ q => q) h1, all (by decide) (fun c q => ⟨top c q.1, fun x => ref (by decide) fld (q.2 x)⟩) h2,
    fun q => all (by decide) mat (h3 (has (by decide) q)),
    fun q => all (by decide) (fun c q => ⟨q.1, ref (by decide) mat q.2⟩) (h4 (has (by decide) q)),
    fun q => all (by decide) fld (h5 (has (by decide) q)),
    fun q => all (by decide) (fun c q => ⟨q.1, ref (by decide) top q.2⟩) (h6 (has (by decide) q)),
    fun q => all (by decide) (fun c q => ⟨q.1, ref (by decide) top q.2⟩) (h7 (has (by decide) q))⟩

theorem get_setId (i : Nat) (d : BNode F) {f : Str} (h : f ≠ chars! "state") : (setId i d).get f = d.get f := by
  unfold setId; rw [get_modKid_ne (Ne.symm h)]; rfl

theorem state_setId (i : Nat) (d : BNode F) : ∃ s, (setId i d).get (chars! "state") = .ok s ∧
    s.get (chars! "domain_id") = .ok (.ints int32 [(i : Int)]) ∧
    ∀ f, f ≠ chars! "domain_id" → s.get f = (d.getOrEmpty (chars! "state")).get f := by
  refine ⟨_, get_modKid_self .., get_modKid_self .., fun f hf => ?_⟩
  rw [get_modKid_ne (Ne.symm hf)]; rfl

theorem entry_setId (i : Nat) (d : BNode F) {f : Str} (hf : f ≠ chars! "domain_id") (c : BNode F) :
    Entry (setId i d) (chars! "state") f c ↔ Entry d (chars! "state") f c := by
  obtain ⟨s, s1, -, s3⟩ := state_setId i d
  constructor
  · rintro ⟨e, h1, h2⟩
    obtain rfl := get_inj s1 h1
    rw [s3 f hf] at h2
    rcases get_cases d (chars! "state") with ⟨x, hx⟩ | hx
    · rw [getOrEmpty_ok hx] at h2; exact ⟨x, hx, h2⟩
    · rw [getOrEmpty_error hx] at h2; cases h2
  · rintro ⟨e, h1, h2⟩
    exact ⟨s, s1, by rw [s3 f hf, getOrEmpty_ok h1, h2]⟩

theorem setId_spec (i : Nat) {d : BNode F} (hp : Plain d) (hs : Savable d) :
    Plain (setId i d) ∧ Savable (setId i d) ∧ Has (setId i d) (chars! "state") := by
  have hg := fun f h => get_setId i d (f := f) h
  have hE : ∀ coll ∈ collections, ∀ n c, Entry (setId i d) coll n c ↔ Entry d coll n c := fun coll hc n c => entry_congr (hg _ (coll_ne hc))
  obtain ⟨s, s1, s2, s3⟩ := state_setId i d
  refine ⟨plain_modKid (by decide) hp fun x hx => plain_modKid (by decide) hx fun _ _ => trivial, ⟨?_, ?_, ?_, ?_⟩, ⟨s, s1⟩⟩
  · exact isDomain_congr hg hs.domain
  · obtain ⟨q1, q2, q3⟩ := hs.indexable
    exact ⟨fun n c h => q1 n c ((hE _ (by decide) n c).1 h), fun n c h => q2 n c ((hE _ (by decide) n c).1 h),
      fun n c h => q3 n c ((hE _ (by decide) n c).1 h)⟩
  · intro coll hc n c h
    exact hs.names coll hc n c ((hE coll hc n c).1 h)
  · intro f hf x hx
    by_cases e : f = chars! "domain_id"
    · subst e
      obtain ⟨e, h1, h2⟩ := hx
      obtain rfl := get_inj s1 h1
      rw [s2] at h2
      injection h2 with h2
      exact .inl ⟨_, _, _, h2.symm⟩
    · exact hs.state f hf x ((entry_setId i d e x).1 hx)

/-! ### The mesh that is given -/

theorem quickCheck_domain {d : BNode F} (h : IsDomain d) : quickCheck d = true := by
  obtain ⟨-, ⟨ks, h1, h2, -⟩, -⟩ := h
  unfold quickCheck
  rw [getOrEmpty_ok h1, Bool.and_eq_true]
  refine ⟨(has_iff ..).2 ⟨_, h1⟩, ?_⟩
  exact decide_eq_true (List.length_pos_iff.2 h2)

theorem number_int64 (A : Arith F) {c : BNode F} (h : Number c) : ∃ v, c.toInt64 A = .ok v := by
  rcases h with ⟨t, v, l, rfl⟩ | ⟨t, v, l, rfl⟩
  · exact ⟨_, rfl⟩
  · exact ⟨_, rfl⟩

theorem checkId_ok (A : Arith F) {d : BNode F} (hs : Savable d) : checkId A d = .ok () := by
  unfold checkId
  rcases get_cases d (chars! "state") with ⟨s, h⟩ | h
  · rw [getOrEmpty_ok h]
    rcases get_cases s (chars! "domain_id") with ⟨x, hx⟩ | hx
    · obtain ⟨v, hv⟩ := number_int64 A (hs.state _ (by decide) x ⟨s, h, hx⟩)
      rw [hx]
      dsimp only
      rw [hv]; rfl
    · rw [hx]
  · rw [getOrEmpty_error h]; rfl

theorem forM_checkId (A : Arith F) {l : List (BNode F)} (h : ∀ d ∈ l, Savable d) : l.forM (checkId A) = Res.ok () := by
  induction l with
  | nil => rfl
  | cons d l ih =>
    show (checkId A d).bind (fun _ => l.forM (checkId A)) = _
    rw [checkId_ok A (h d List.mem_cons_self)]
    exact ih fun x hx => h x (List.mem_cons_of_mem _ hx)

theorem cleanMesh_spec (A : Arith F) {mesh : BNode F} {doms : List (BNode F)} (h : DomainsOf mesh doms) (hs : ∀ d ∈ doms, Savable d) :
    cleanMesh A mesh = .ok (doms.mapIdx setId) ∧ doms ≠ [] := by
  unfold cleanMesh
  rw [members_items]
  rcases h with ⟨-, rfl, hne⟩ | ⟨rfl, hm⟩
  · have hf : (members mesh).filter quickCheck = members mesh := by
      rw [List.filter_eq_self]
      exact fun d hd => quickCheck_domain (hs d hd).domain
    refine ⟨?_, hne⟩
    dsimp only
    rw [hf, forM_checkId A hs, Res.bind_ok, if_neg (by simpa using hne)]
  · have hf : (members mesh).filter quickCheck = [] := by
      rw [List.filter_eq_nil_iff]
      intro m hmm
      unfold quickCheck
      rw [Bool.and_eq_true, has_iff]
      exact fun q => hm m hmm q.1
    rw [hf]
    refine ⟨?_, by simp⟩
    show Res.ok _ = _
    rw [if_pos (show ([] : List (BNode F)).isEmpty = true from rfl), if_pos (quickCheck_domain (hs mesh (by simp)).domain)]

theorem plain_doms {mesh : BNode F} {doms : List (BNode F)} (hp : Plain mesh) (h : DomainsOf mesh doms) : ∀ d ∈ doms, Plain d := by
  rcases h with ⟨-, rfl, -⟩ | ⟨rfl, -⟩
  · exact fun d hd => hp.member hd
  · intro d hd
    rw [List.mem_singleton] at hd
    rw [hd]; exact hp

/-! ### The parts of the root file -/

theorem readParts {R : BNode F} (names : List Str) (hn : names.Nodup) (hg : ∀ s ∈ names, GoodName s)
    (hp : ∀ s ∈ names, ∀ x, R.get s = .ok x → Plain x ∧ tidy x = x) (r0 : BNode F) (h0 : ∀ s ∈ names, r0.get s = .error) :
    ∃ r, names.foldlM (fun r name =>
        if hasPath R name then do
          let x ← readAt R name (r.getOrEmpty name)
          .ok (.obj (modKid name (fun _ => x) r.kids))
        else .ok r) r0 = Res.ok r ∧ (∀ s ∈ names, r.get s = R.get s) ∧ ∀ s, s ∉ names → r.get s = r0.get s := by
  induction names generalizing r0 with
  | nil => exact ⟨r0, rfl, fun _ h => absurd h List.not_mem_nil, fun _ _ => rfl⟩
  | cons a l ih =>
    rw [List.nodup_cons] at hn
    have ga := hg a List.mem_cons_self
    have hgl : ∀ s ∈ [a], GoodName s := by simpa using ga
    have ih' := ih hn.2 (fun s hs => hg s (List.mem_cons_of_mem _ hs)) (fun s hs => hp s (List.mem_cons_of_mem _ hs))
    rw [List.foldlM_cons]
    have hd : ∀ {x}, R.get a = .ok x → down R [a] = .ok x := by intro x hx; rw [down, hx]; rfl
    have hpath : hasPath R a = true ↔ Has R a := by
      have := hasPath_iff (l := [a]) (by simp) hgl R
      rw [show slash [a] = a from rfl] at this
      rw [this]
      constructor
      · rintro ⟨x, hx⟩
        rcases get_cases R a with ⟨y, hy⟩ | hy
        · exact ⟨y, hy⟩
        · rw [down, hy] at hx; cases hx
      · rintro ⟨x, hx⟩; exact ⟨x, hd hx⟩
    rcases get_cases R a with ⟨x, hx⟩ | hx
    · obtain ⟨p1, p2⟩ := hp a List.mem_cons_self x hx
      have hf := fetch_down (l := [a]) (by simp) hgl (hd hx)
      rw [show slash [a] = a from rfl] at hf
      have hh := hpath.2 ⟨x, hx⟩
      rw [if_pos hh, readAt, if_pos hh, hf, getOrEmpty_error (h0 a List.mem_cons_self)]
      simp only [Res.map', Res.bind_ok]
      rw [update_empty _ p1, p2]
      obtain ⟨r, r1, r2, r3⟩ := ih' (.obj (modKid a (fun _ => x) r0.kids)) (fun s hs => by
        rw [get_modKid_ne fun e => hn.1 (by rw [e]; exact hs)]
        exact h0 s (List.mem_cons_of_mem _ hs))
      refine ⟨r, r1, fun s hs => ?_, fun s hs => ?_⟩
      · rcases List.mem_cons.1 hs with rfl | hs
        · rw [r3 _ hn.1, get_modKid_self, hx]
        · exact r2 s hs
      · rw [List.mem_cons, not_or] at hs
        rw [r3 s hs.2, get_modKid_ne (Ne.symm hs.1)]; rfl
    · rw [if_neg (by rw [hpath]; exact not_has_of_error hx)]
      obtain ⟨r, r1, r2, r3⟩ := ih' r0 (fun s hs => h0 s (List.mem_cons_of_mem _ hs))
      refine ⟨r, r1, fun s hs => ?_, fun s hs => ?_⟩
      · rcases List.mem_cons.1 hs with rfl | hs
        · rw [r3 _ hn.1, hx]; exact h0 _ List.mem_cons_self
        · exact r2 s hs
      · rw [List.mem_cons, not_or] at hs
        exact r3 s hs.2

/-! ### All the domains are read -/

theorem foldlM_snoc {α β : Type} (f : β → α → Res β) (l : List α) (a : α) (b : β) :
    (l ++ [a]).foldlM f b = (l.foldlM f b >>= fun c => f c a) := by
  induction l generalizing b with
  | nil =>
    show (f b a >>= fun c => pure c) = f b a
    cases f b a <;> rfl
  | cons x l ih =>
    rw [List.cons_append, List.foldlM_cons, List.foldlM_cons]
    cases h : f b x with
    | ok c => exact ih c
    | error => rfl
    | ub => rfl

theorem readAll {n : Nat} (step : BNode F → Nat → Res (BNode F)) (xs : Nat → BNode F)
    (h : ∀ i < n, ∀ mesh : BNode F, mesh.get (domainName i) = .error → step mesh i = .ok (.obj (modKid (domainName i) (fun _ => xs i) mesh.kids))) :
    ∃ m, (List.range n).foldlM step .empty = .ok m ∧ m.kids = (List.range n).map fun i => (domainName i, xs i) := by
  induction n with
  | zero => exact ⟨.empty, rfl, rfl⟩
  | succ n ih =>
    obtain ⟨m, h1, h2⟩ := ih fun i hi => h i (by omega)
    have hnot : domainName n ∉ m.kids.map (·.1) := by
      rw [h2, List.map_map]
      intro hm
      obtain ⟨j, hj, e⟩ := List.mem_map.1 hm
      have := domainName_inj e
      rw [List.mem_range] at hj
      omega
    have herr : m.get (domainName n) = .error := get_error fun q => hnot ((has_obj (ks := m.kids)).1 q)
    refine ⟨.obj (modKid (domainName n) (fun _ => xs n) m.kids), ?_, ?_⟩
    · rw [List.range_succ, foldlM_snoc, h1, Res.bind_ok, h n (by omega) m herr]
    · show modKid _ _ _ = _
      rw [modKid_new hnot, h2, List.range_succ, List.map_append]; rfl

end
end Conduit.MeshIO
