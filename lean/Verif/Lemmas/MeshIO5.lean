import Verif.Lemmas.MeshIO4
/-
The index that is written guides the reading: the parts of the index together (C88).
-/
namespace Conduit.MeshIO
open Conduit.Mesh

section
variable {F : Type}

/-- The children of the state of an index. -/
structure StateKid (name : Str) (s : BNode F) : Prop where
  path : s.get (chars! "path") = .ok (.str (slash [name, chars! "state"]))
  kids : ∀ e ∈ s.kids, ¬ Has e.2 (chars! "path")

/-- An index by which all the domains can be read. -/
structure Indexed (name : Str) (ds : List (BNode F)) (idx : BNode F) : Prop where
  flat : Flat idx
  plain : Plain idx
  names : ∀ f, Has idx f → f ∈ chars! "state" :: collections
  state : ∃ s, idx.get (chars! "state") = .ok (.obj s) ∧ StateKid name (.obj s)
  lists : ∀ coll ∈ collections, ∀ n, (∃ d ∈ ds, Listed d coll n) → Listed idx coll n
  paths : ∀ coll ∈ collections, ∀ n e, Entry idx coll n e →
    GoodName n ∧ e.get (chars! "path") = .ok (.str (slash [name, coll, n]))

theorem Flat.object {n : BNode F} (h : Flat n) {coll : Str} (hc : coll ∈ collections) {x : BNode F} (hx : n.get coll = .ok x) :
    ∃ es, x = .obj es ∧ es ≠ [] := by
  have key : ∀ {P : BNode F → Prop}, AllOf n coll P → ∃ es, x = .obj es ∧ es ≠ [] := by
    rintro P ⟨ks, h1, h2, -⟩
    exact ⟨ks, get_inj hx h1, h2⟩
  simp only [collections, List.mem_cons, List.not_mem_nil, or_false] at hc
  rcases hc with rfl | rfl | rfl | rfl | rfl | rfl | rfl
  · exact key h.coordsets
  · exact key h.topologies
  · exact key (h.matsets ⟨x, hx⟩)
  · exact key (h.specsets ⟨x, hx⟩)
  · exact key (h.fields ⟨x, hx⟩)
  · exact key (h.adjsets ⟨x, hx⟩)
  · exact key (h.nestsets ⟨x, hx⟩)

theorem Indexed.guide {name : Str} {ds : List (BNode F)} {idx : BNode F} (h : Indexed name ds idx) :
    ∃ ks, idx = .obj ks ∧ Guide name ks ∧ chars! "state" ∈ ks.map (·.1) := by
  obtain ⟨s, s1, s2⟩ := h.state
  obtain ⟨ks, rfl, -⟩ := nonempty_of_get s1
  refine ⟨ks, rfl, ⟨h.plain.nodup, fun k hk => ?_⟩, has_obj.1 ⟨_, s1⟩⟩
  have hg : (BNode.obj ks).get k.1 = .ok k.2 := h.plain.get_of_mem hk
  rcases List.mem_cons.1 (h.names k.1 ⟨_, hg⟩) with e | hc
  · left
    rw [e] at hg
    rw [← get_inj s1 hg]
    exact ⟨e, s2.path, s2.kids⟩
  · right
    obtain ⟨es, he, -⟩ := Flat.object h.flat hc hg
    have hpe := h.plain.get hg
    rw [he] at hpe
    refine ⟨hc, es, he, hpe.nodup, fun e hem => ?_⟩
    have := h.paths k.1 hc e.1 e.2 ⟨k.2, hg, by rw [he]; exact hpe.get_of_mem hem⟩
    exact this

theorem flat_congr {a b : BNode F} (h : ∀ f, f ≠ chars! "state" → b.get f = a.get f) (ha : Flat a) : Flat b := by
  have all : ∀ {coll : Str} {P Q : BNode F → Prop}, coll ≠ chars! "state" → (∀ c, P c → Q c) → AllOf a coll P → AllOf b coll Q := by
    rintro coll P Q hc hq ⟨ks, h1, h2, h3⟩
    exact ⟨ks, by rw [h _ hc, h1], h2, fun k hk => hq _ (h3 k hk)⟩
  have has : ∀ {coll : Str}, coll ≠ chars! "state" → Has b coll → Has a coll := by
    rintro coll hc ⟨x, hx⟩; exact ⟨x, by rw [← h _ hc, hx]⟩
  have pts : ∀ {c : BNode F} {f coll : Str}, coll ≠ chars! "state" → Points a c f coll → Points b c f coll := by
    rintro c f coll hc ⟨s, hs, x, e, q1, q2⟩
    exact ⟨s, hs, x, e, by rw [h _ hc, q1], q2⟩
  constructor
  · exact all (by decide) (fun _ q => q) ha.coordsets
  · exact all (by decide) (fun _ q => ⟨q.1, pts (by decide) q.2⟩) ha.topologies
  · exact fun q => all (by decide) (fun _ q => ⟨q.1, pts (by decide) q.2⟩) (ha.matsets (has (by decide) q))
  · exact fun q => all (by decide) (fun _ q => ⟨q.1, pts (by decide) q.2⟩) (ha.specsets (has (by decide) q))
  · exact fun q => all (by decide) (fun _ q => ⟨q.1, fun x => pts (by decide) (q.2.1 x), fun x => pts (by decide) (q.2.2 x)⟩)
      (ha.fields (has (by decide) q))
  · exact fun q => all (by decide) (fun _ q => ⟨q.1, pts (by decide) q.2⟩) (ha.adjsets (has (by decide) q))
  · exact fun q => all (by decide) (fun _ q => ⟨q.1, pts (by decide) q.2⟩) (ha.nestsets (has (by decide) q))

theorem coll_ne {coll : Str} (h : coll ∈ collections) : coll ≠ chars! "state" := by
  rintro rfl; exact absurd h (by decide)

/-- A change of the state only. -/
theorem Indexed.changed {name : Str} {ds : List (BNode F)} {a b : BNode F} (h : Indexed name ds a) (hp : Plain b)
    (hg : ∀ f, f ≠ chars! "state" → b.get f = a.get f)
    (hs : ∃ s, b.get (chars! "state") = .ok (.obj s) ∧ StateKid name (.obj s)) : Indexed name ds b where
  flat := flat_congr hg h.flat
  plain := hp
  names f hf := by
    by_cases e : f = chars! "state"
    · rw [e]; exact List.mem_cons_self
    · obtain ⟨x, hx⟩ := hf
      exact h.names f ⟨x, by rw [← hg f e, hx]⟩
  state := hs
  lists coll hc n hn := by
    obtain ⟨c, hc'⟩ := h.lists coll hc n hn
    exact ⟨c, (entry_congr (hg _ (coll_ne hc))).2 hc'⟩
  paths coll hc n e he := h.paths coll hc n e ((entry_congr (hg _ (coll_ne hc))).1 he)

theorem Indexed.tidy {name : Str} {ds : List (BNode F)} {a : BNode F} (h : Indexed name ds a) : Indexed name ds (MeshIO.tidy a) where
  flat := flat_tidy h.flat
  plain := plain_tidy h.plain
  names f hf := h.names f ((has_tidy _ _).1 hf)
  state := by
    obtain ⟨s, s1, s2⟩ := h.state
    have hne : s ≠ [] := by rintro rfl; have := s2.path; rw [get_nil] at this; cases this
    refine ⟨_, get_obj_tidy s1 hne, ⟨?_, fun e he => ?_⟩⟩
    · rw [get_map, s2.path]; simp [Res.map']
    · obtain ⟨x, hx, rfl⟩ := List.mem_map.1 he
      intro q
      exact s2.kids x hx ((has_tidy _ _).1 q)
  lists coll hc n hn := by
    obtain ⟨c, hc'⟩ := h.lists coll hc n hn
    exact ⟨_, (entry_tidy _ _ _ _).2 ⟨c, hc', rfl⟩⟩
  paths coll hc n e he := by
    obtain ⟨b, hb, rfl⟩ := (entry_tidy _ _ _ _).1 he
    obtain ⟨h1, h2⟩ := h.paths coll hc n b hb
    exact ⟨h1, get_str_tidy h2⟩

theorem below_slash {name : Str} (h : GoodName name) (r : Str) : below name r = name ++ '/' :: r := by
  unfold below
  rw [if_neg]
  · simp
  · rintro (e | e)
    · exact h.1 e
    · exact h.2.1 (List.mem_of_getLast? e)

theorem join_state {name : Str} (h : GoodName name) : joinPath name (chars! "state") = slash [name, chars! "state"] := by
  rw [joinPath_below (by decide), below_slash h]; rfl

theorem Unites.paths {name : Str} {ds : List (BNode F)} {idx : BNode F} {coll : Str} {U L : BNode F → BNode F → Prop}
    (h : Unites name ds idx coll U L) (hn : GoodName name) (hg : ∀ d ∈ ds, ∀ n c, Entry d coll n c → GoodName n) :
    (∀ n, (∃ d ∈ ds, Listed d coll n) → Listed idx coll n) ∧
    ∀ n e, Entry idx coll n e → GoodName n ∧ e.get (chars! "path") = .ok (.str (slash [name, coll, n])) := by
  refine ⟨fun n q => (h.1 n).2 q, fun n e he => ?_⟩
  obtain ⟨d, hd, c, hc⟩ := (h.1 n).1 ⟨e, he⟩
  have g := hg d hd n c hc
  obtain ⟨pre, post, hl⟩ := List.append_of_mem hd
  obtain ⟨e', h1, -, -, h2⟩ := h.2 pre d post hl n c hc
  have : e' = e := by
    have := (down_two.2 h1).symm.trans (down_two.2 he)
    injection this
  subst this
  refine ⟨g, (h2 g.1).trans ?_⟩
  rw [below_slash hn]
  simp [slash]

/-- The index of the domains that are written. -/
theorem index_made {name : Str} {ds : List (BNode F)} {S : Str → Str} (doms : Int) (hn : GoodName name) (hne : ds ≠ [])
    (hd : ∀ d ∈ ds, Plain d ∧ Savable d ∧ Has d (chars! "state"))
    (hS : ∀ d ∈ ds, ∀ n c, Entry d (chars! "coordsets") n c → InSystem c (S n)) :
    ∃ idx, generateIndex (.list ds) name doms = .ok idx ∧ Indexed name ds idx ∧
      ∃ s, idx.get (chars! "state") = .ok (.obj s) ∧ (∀ k ∈ s, k.1 ∈ [chars! "cycle", chars! "time", chars! "path", chars! "number_of_domains"]) ∧
        (BNode.obj s).get (chars! "number_of_domains") = .ok (.ints int64 [doms]) := by
  have hpl : Plain (.list ds : BNode F) := by
    show Plain.plainL ds
    clear hne hS
    induction ds with
    | nil => trivial
    | cons d ds ih => exact ⟨(hd d List.mem_cons_self).1, ih fun x hx => hd x (List.mem_cons_of_mem _ hx)⟩
  have hno : ¬ Has (.list ds : BNode F) (chars! "coordsets") := by rintro ⟨x, hx⟩; cases hx
  obtain ⟨idx, h1, h2, h3, h4, -⟩ := generate_domains (ref := name) (S := S) (n := .list ds) doms hpl hno hne
    (fun d h => ⟨(hd d h).2.1.domain, (hd d h).2.1.indexable⟩) hS
  have h1' := h1
  unfold generateIndex at h1'
  rw [show (BNode.list ds).isEmpty = false from rfl, if_neg (by simp), if_neg (by rw [has_iff]; exact hno)] at h1'
  obtain ⟨i, e1, e2⟩ := Res.bind_eq_ok.1 h1'
  have hsh : Shape name i := domains_shape _ .empty i trivial (fun k hk => by
    have hm : k.2 ∈ members (.list ds : BNode F) := by rw [← members_items]; exact List.mem_map_of_mem hk
    obtain ⟨q1, q2, q3⟩ := hd k.2 hm
    exact ⟨q1, q2.domain, q2.indexable, q3, q2.state⟩) (.inl ⟨rfl, by
      cases ds with
      | nil => exact absurd rfl hne
      | cons => simp [BNode.items]⟩) e1
  injection e2 with e2
  obtain ⟨s, s1, s2, s3⟩ := hsh.state
  have hst : idx.get (chars! "state") = .ok (.obj (modKid (chars! "number_of_domains") (fun _ => .ints int64 [doms]) s)) := by
    rw [← e2, get_modKid_self, getOrEmpty_kids, getOrEmpty_ok s1]; rfl
  have hoth : ∀ f, f ≠ chars! "state" → idx.get f = i.get f := fun f hf => by
    rw [← e2, get_modKid_ne (Ne.symm hf)]; rfl
  obtain ⟨u1, u2, u3, u4, u5, u6, u7⟩ := h4
  have ub : ∀ coll ∈ collections, (∀ n, (∃ d ∈ ds, Listed d coll n) → Listed idx coll n) ∧
    ∀ n e, Entry idx coll n e → GoodName n ∧ e.get (chars! "path") = .ok (.str (slash [name, coll, n])) := by
    intro coll hc
    have hg := fun d h => (hd d h).2.1.names coll hc
    simp only [collections, List.mem_cons, List.not_mem_nil, or_false] at hc
    rcases hc with rfl | rfl | rfl | rfl | rfl | rfl | rfl
    · exact Unites.paths u1 hn hg
    · exact Unites.paths u2 hn hg
    · exact Unites.paths u3 hn hg
    · exact Unites.paths u4 hn hg
    · exact Unites.paths u5 hn hg
    · exact Unites.paths u6 hn hg
    · exact Unites.paths u7 hn hg
  refine ⟨idx, h1, ⟨h2, h3, fun f hf => ?_, ⟨_, hst, ?_, fun e he q => ?_⟩, fun coll hc => (ub coll hc).1,
    fun coll hc => (ub coll hc).2⟩, _, hst, fun k hk => ?_, get_modKid_self ..⟩
  · by_cases e : f = chars! "state"
    · rw [e]; exact List.mem_cons_self
    · obtain ⟨x, hx⟩ := hf
      exact hsh.names f ⟨x, by rw [← hoth f e, hx]⟩
  · rw [get_modKid_ne (by decide), s2, join_state hn]
  · have : e.2.kids = [] := by
      rcases mem_modKid he with q | ⟨-, q | ⟨x, -, q⟩⟩
      · exact (s3 e q).2
      · rw [q]; rfl
      · rw [q]; rfl
    obtain ⟨x, hx⟩ := q
    unfold BNode.get at hx
    rw [this] at hx
    cases hx
  · rcases mem_modKid hk with q | ⟨q, -⟩
    · have := (s3 k q).1
      simp only [List.mem_cons, List.not_mem_nil, or_false] at this ⊢
      rcases this with q | q | q <;> simp [q]
    · rw [q]; simp

/-- The index with the places of the domains. -/
theorem partition_made {name : Str} {ds : List (BNode F)} {idx : BNode F} (q : Patterns F) (h : Indexed name ds idx)
    (hs : ∃ s, idx.get (chars! "state") = .ok (.obj s) ∧ (∀ k ∈ s, k.1 ∈ [chars! "cycle", chars! "time", chars! "path", chars! "number_of_domains"]))
    (hq : (q.map.map (·.1)).Nodup ∧ ∀ k ∈ q.map, k.1 ∈ [chars! "file", chars! "domain"] ∧ IsInts k.2) :
    Indexed name ds (addPartition q idx) ∧ ∃ s, (addPartition q idx).get (chars! "state") = .ok s ∧
      s.get (chars! "partition_pattern") = .ok (.str q.part) ∧
      s.get (chars! "partition_map") = if q.map = [] then .error else .ok (.obj q.map) := by
  obtain ⟨s, s1, s3⟩ := hs
  obtain ⟨s', q1, s2⟩ := h.state
  obtain rfl : s = s' := by have := get_inj s1 q1; injection this
  have hst : (addPartition q idx).get (chars! "state") = .ok (.obj (
      if q.map.isEmpty then modKid (chars! "partition_pattern") (fun _ => .str q.part) s
      else modKid (chars! "partition_map") (fun _ => .obj q.map) (modKid (chars! "partition_pattern") (fun _ => .str q.part) s))) := by
    unfold addPartition
    rw [get_modKid_self, getOrEmpty_kids, getOrEmpty_ok s1]; rfl
  have hoth : ∀ f, f ≠ chars! "state" → (addPartition q idx).get f = idx.get f := fun f hf => by
    unfold addPartition
    rw [get_modKid_ne (Ne.symm hf)]; rfl
  have hps : Plain (.obj s : BNode F) := h.plain.get s1
  have hp1 : Plain (.obj (modKid (chars! "partition_pattern") (fun _ => .str q.part) s) : BNode F) :=
    plain_modKid (n := .obj s) (by decide) hps (fun _ _ => trivial)
  have hpm : Plain (.obj q.map : BNode F) := plain_obj hq.1 fun k hk => by
    obtain ⟨k1, t, l, e⟩ := hq.2 k hk
    rw [e]
    refine ⟨?_, trivial⟩
    rintro e
    rw [e] at k1
    exact absurd k1 (by decide)
  have hnm : ¬ Has (.obj s : BNode F) (chars! "partition_map") := by
    rw [has_obj]
    intro hm
    obtain ⟨k, hk, e⟩ := List.mem_map.1 hm
    have := s3 k hk
    rw [e] at this
    exact absurd this (by decide)
  have hk1 : ∀ e ∈ modKid (chars! "partition_pattern") (fun _ => (.str q.part : BNode F)) s, ¬ Has e.2 (chars! "path") := by
    intro e he
    rcases mem_modKid he with r | ⟨-, r | ⟨x, -, r⟩⟩
    · exact s2.kids e r
    · rw [r]; rintro ⟨x, hx⟩; cases hx
    · rw [r]; rintro ⟨x, hx⟩; cases hx
  refine ⟨h.changed (plain_modKid (by decide) h.plain fun x hx => ?_) hoth ⟨_, hst, ?_, fun e he => ?_⟩, _, hst, ?_, ?_⟩
  · have hx1 : Plain (.obj (modKid (chars! "partition_pattern") (fun _ => .str q.part) x.kids) : BNode F) :=
      plain_modKid (by decide) hx (fun _ _ => trivial)
    show Plain (.obj (if q.map.isEmpty then _ else _) : BNode F)
    split
    · exact hx1
    · exact plain_modKid (n := .obj (modKid (chars! "partition_pattern") (fun _ => .str q.part) x.kids)) (by decide) hx1 (fun _ _ => hpm)
  · split
    · rw [get_modKid_ne (by decide)]; exact s2.path
    · rw [get_modKid_ne (by decide), get_modKid_ne (by decide)]; exact s2.path
  · dsimp only [BNode.kids] at he
    split at he
    · exact hk1 e he
    · have hpm : ¬ Has (.obj q.map : BNode F) (chars! "path") := by
        rw [has_obj]
        intro hm
        obtain ⟨k, hk, e⟩ := List.mem_map.1 hm
        have := (hq.2 k hk).1
        rw [e] at this
        exact absurd this (by decide)
      rcases mem_modKid he with r | ⟨-, r | ⟨x, -, r⟩⟩
      · exact hk1 e r
      · rw [r]; exact hpm
      · rw [r]; exact hpm
  · split
    · exact get_modKid_self ..
    · rw [get_modKid_ne (by decide)]; exact get_modKid_self ..
  · by_cases c : q.map = []
    · rw [if_pos c, if_pos (by rw [c]; rfl), get_modKid_ne (by decide)]; exact get_error hnm
    · rw [if_neg c, if_neg (by simpa using c)]; exact get_modKid_self ..

end
end Conduit.MeshIO
