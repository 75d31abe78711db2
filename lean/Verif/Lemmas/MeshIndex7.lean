import Verif.Lemmas.MeshIndex6
/-
The index of several domains, and of a mesh.
-/
namespace Conduit.Mesh

section
variable {F : Type} {ref coll name : Str} {D : List (BNode F)}

/-- The collection has these entries; with none, it is not there. -/
def At (a : BNode F) (coll : Str) (x : List (Str × BNode F)) : Prop :=
  (a.get coll = .error ∧ x = []) ∨ (a.get coll = .ok (.obj x) ∧ x ≠ [])

theorem At.kids {a : BNode F} {x : List (Str × BNode F)} (h : At a coll x) : (a.getOrEmpty coll).kids = x := by
  rcases h with ⟨h, rfl⟩ | ⟨h, -⟩
  · rw [getOrEmpty_error h]; rfl
  · rw [getOrEmpty_ok h]; rfl

/-- What the index has for a collection, after the domains `ds`. -/
def United (ds : List (BNode F)) (a : BNode F) (coll : Str) (Good : Str → BNode F → Prop) (U L : BNode F → BNode F → Prop) : Prop :=
  ∃ x, At a coll x ∧ (∀ k ∈ x, Good k.1 k.2) ∧ (∀ name, name ∈ x.map (·.1) ↔ ∃ d ∈ ds, Listed d coll name) ∧
    ∀ pre d post, ds = pre ++ d :: post → ∀ name c, Entry d coll name c → ∃ e, (BNode.obj x).get name = .ok e ∧ U c e ∧
      ((∀ d' ∈ post, ¬ Listed d' coll name) → L c e)

theorem split_snoc {α : Type} {ds pre post : List α} {n d : α} (h : ds ++ [n] = pre ++ d :: post) :
    (post = [] ∧ d = n ∧ pre = ds) ∨ ∃ post', post = post' ++ [n] ∧ ds = pre ++ d :: post' := by
  rcases List.eq_nil_or_concat post with rfl | ⟨p, m, rfl⟩
  · obtain ⟨h1, h2⟩ := List.append_inj' h rfl
    injection h2 with h2
    exact .inl ⟨rfl, h2.symm, h1.symm⟩
  · right
    have : ds ++ [n] = (pre ++ d :: p) ++ [m] := by rw [h]; simp
    obtain ⟨h1, h2⟩ := List.append_inj' this rfl
    injection h2 with h2
    exact ⟨p, by rw [h2]; simp, h1⟩

theorem listed_kids {n : BNode F} {ks : List (Str × BNode F)} (h : n.get coll = .ok (.obj ks)) :
    Listed n coll name ↔ name ∈ ks.map (·.1) := by
  rw [← has_obj]
  constructor
  · rintro ⟨c, e, h1, h2⟩
    obtain rfl := get_inj h h1
    exact ⟨c, h2⟩
  · rintro ⟨c, h2⟩
    exact ⟨c, _, h, h2⟩

theorem united_step {n i a : BNode F} {ds : List (BNode F)} {R : BNode F → BNode F → Prop} {Is : BNode F → Prop}
    {Good : Str → BNode F → Prop} {U L : BNode F → BNode F → Prop} (hm : Collected ref n i coll R Is) (hs : Sane i)
    (hgood : ∀ name c e, Entry n coll name c → Made ref coll name c e R Is → Good name e)
    (hup : ∀ name e o, Good name e → (o = .empty ∨ Good name o) → Good name (e.update o))
    (hnew : ∀ name c e o, Entry n coll name c → Good name e → (o = .empty ∨ Good name o) → R c e →
      U c (e.update o) ∧ L c (e.update o))
    (hold : ∀ name c e o, Good name e → U c o → U c (e.update o))
    (hp : Plain n) (h : United ds a coll Good U L) : United (ds ++ [n]) (i.update a) coll Good U L := by
  obtain ⟨x, hx, hg, hn, ha⟩ := h
  obtain ⟨l, hl, hi⟩ := hm
  rcases hl with ⟨he, rfl⟩ | ⟨ks, es, hk, rfl, hnames, hne, hpe, h1, h2⟩
  · have hno : ∀ name, ¬ Listed n coll name := by
      rintro name ⟨c, e, h1, -⟩
      rw [he] at h1; exact absurd h1 (by simp)
    refine ⟨x, ?_, hg, fun name => ?_, fun pre d post hd name c hc => ?_⟩
    · unfold At; rw [hs.get_other (hi.trans (get_nil _))]; exact hx
    · rw [hn]
      simp only [List.mem_append, List.mem_singleton]
      constructor
      · rintro ⟨d, h1, h2⟩; exact ⟨d, .inl h1, h2⟩
      · rintro ⟨d, h1 | rfl, h2⟩
        · exact ⟨d, h1, h2⟩
        · exact absurd h2 (hno _)
    · rcases split_snoc hd with ⟨-, rfl, -⟩ | ⟨p, rfl, hd'⟩
      · exact absurd ⟨c, hc⟩ (hno _)
      · obtain ⟨e, q1, q2, q3⟩ := ha pre d p hd' name c hc
        exact ⟨e, q1, q2, fun y => q3 fun d' hd' => y d' (List.mem_append_left _ hd')⟩
  · have hi' : i.get coll = .ok (.obj es) := hi.trans (get_cons_self ..)
    have hnd : (es.map (·.1)).Nodup := hpe.nodup
    have hge : ∀ k ∈ es, Good k.1 k.2 := by
      intro k hk'
      obtain ⟨c, hc, hM⟩ := h1 k hk'
      exact hgood _ c _ ⟨_, hk, (hp.get hk).get_of_mem (n := .obj ks) hc⟩ hM
    have hold' : ∀ name, (BNode.obj x).getOrEmpty name = .empty ∨ Good name ((BNode.obj x).getOrEmpty name) := by
      intro name
      rcases get_cases (.obj x : BNode F) name with ⟨o, ho⟩ | ho
      · rw [getOrEmpty_ok ho]; exact .inr (hg _ (mem_of_get ho))
      · rw [getOrEmpty_error ho]; exact .inl rfl
    refine ⟨BNode.update.updO es x, .inr ⟨?_, ?_⟩, ?_, fun name => ?_, fun pre d post hd name c hc => ?_⟩
    · rw [hs.get_update hi', update_obj hne, hx.kids]
    · cases es with
      | nil => exact absurd rfl hne
      | cons k es =>
        intro q
        have := (mem_names_updO (k :: es) x k.1).2 (.inl (by simp))
        rw [q] at this
        simp at this
    · exact updO_closed _ _ hg fun k hk' d hd' => hup _ _ _ (hge k hk') hd'
    · rw [mem_names_updO, hn, hnames, ← listed_kids hk]
      simp only [List.mem_append, List.mem_singleton]
      constructor
      · rintro (h | ⟨d, h1, h2⟩)
        · exact ⟨n, .inr rfl, h⟩
        · exact ⟨d, .inl h1, h2⟩
      · rintro ⟨d, h1 | rfl, h2⟩
        · exact .inr ⟨d, h1, h2⟩
        · exact .inl h2
    · have gu := get_updO es x hnd name
      rcases split_snoc hd with ⟨rfl, rfl, -⟩ | ⟨p, rfl, hd'⟩
      · obtain ⟨e0, q1, q2⟩ := id hc
        obtain rfl := get_inj hk q1
        obtain ⟨e, r1, r2⟩ := h2 name c q2
        obtain ⟨s1, s2⟩ := hnew name c e _ hc (hgood _ _ _ hc r2) (hold' name) r2.says
        exact ⟨_, gu.1 e r1, s1, fun _ => s2⟩
      · obtain ⟨o, q1, q2, q3⟩ := ha pre d p hd' name c hc
        rcases get_cases (.obj es : BNode F) name with ⟨e, he⟩ | he
        · refine ⟨_, gu.1 e he, ?_, fun y => ?_⟩
          · rw [getOrEmpty_ok q1]
            exact hold _ _ _ _ (hge _ (mem_of_get he)) q2
          · refine absurd ((listed_kids hk).2 ?_) (y n (by simp))
            rw [← hnames, ← has_obj]; exact ⟨e, he⟩
        · exact ⟨o, (gu.2 he).trans q1, q2, fun y => q3 fun d' hd' => y d' (List.mem_append_left _ hd')⟩

theorem united_nil {Good : Str → BNode F → Prop} {U L : BNode F → BNode F → Prop} :
    United ([] : List (BNode F)) .empty coll Good U L := by
  refine ⟨[], .inl ⟨rfl, rfl⟩, by simp, by simp, fun pre d post h => absurd h (by simp)⟩

/-- The index after the domains `ds`; `D` are all the domains. -/
structure Joined (ref : Str) (S : Str → Str) (D ds : List (BNode F)) (a : BNode F) : Prop where
  coordsets : United ds a (chars! "coordsets") (GoodCoordset ref S) AlsoCoordset LastCoordset
  topologies : United ds a (chars! "topologies") (GoodTopology ref D) (fun _ _ => True) LastTopology
  matsets : United ds a (chars! "matsets") (GoodMatset ref D) AlsoMatset LastMatset
  specsets : United ds a (chars! "specsets") (GoodSpecset ref D) AlsoSpecset LastSpecset
  fields : United ds a (chars! "fields") (GoodField ref D) (fun _ _ => True) LastField
  adjsets : United ds a (chars! "adjsets") (GoodAdjacency ref (chars! "adjsets") D) (fun _ _ => True) OfAdjacency
  nestsets : United ds a (chars! "nestsets") (GoodAdjacency ref (chars! "nestsets") D) (fun _ _ => True) OfAdjacency

theorem Made.placed {c e : BNode F} {R : BNode F → BNode F → Prop} {Is : BNode F → Prop} (h : Made ref coll name c e R Is)
    (h1 : coll ≠ []) (h2 : coll.getLast? ≠ some '/') : Placed ref coll name e :=
  ⟨h.plain, _, h.path, fun q => path_below h1 h2 q⟩

theorem aims_of {n c e : BNode F} {f : Str} {good : BNode F → Prop} (hn : n ∈ D) (hr : RefersTo n c f coll good)
    (hc : Copied f c e) : Aims D e f coll := by
  obtain ⟨s, x, hs, hx, -⟩ := hr
  exact ⟨s, hc.trans hs, n, hn, x, hx⟩

theorem inSystem_unique {c : BNode F} {s t : Str} (h1 : InSystem c s) (h2 : InSystem c t) : s = t := by
  rcases h1 with ⟨a, rfl⟩ | ⟨a, b, rfl⟩ | ⟨a, b, rfl⟩ <;> rcases h2 with ⟨a', rfl⟩ | ⟨a', b', rfl⟩ | ⟨a', b', rfl⟩ <;>
    first | rfl | exact absurd a a' | exact absurd a' a | exact absurd b b' | exact absurd b' b

theorem joined_step {n i a : BNode F} {S : Str → Str} {ds : List (BNode F)} (hn : n ∈ D) (hp : Plain n) (hd : IsDomain n)
    (hx : Indexable n) (hS : ∀ name c, Entry n (chars! "coordsets") name c → InSystem c (S name)) (hs : Sane i)
    (h : Single ref n i) (hj : Joined ref S D ds a) : Joined ref S D (ds ++ [n]) (i.update a) := by
  obtain ⟨d1, d2, d3, d4, d5, d6, d7⟩ := hd
  have has : ∀ {coll name : Str} {c : BNode F}, Entry n coll name c → Has n coll := by
    rintro coll name c ⟨e, he, -⟩; exact ⟨e, he⟩
  refine ⟨?_, ?_, ?_, ?_, ?_, ?_, ?_⟩
  · refine united_step h.coordsets hs (fun name c e hc hm => ?_) (fun _ _ _ => goodCoordset_update)
      (fun name c e o _ g _ r => ⟨alsoCoordset_new o g r, lastCoordset o g r⟩) (fun _ _ _ _ => alsoCoordset_old) hp hj.coordsets
    obtain ⟨-, s, ax, sys, r1, r2, r3, r4, -⟩ := hm.says
    refine ⟨hm.placed (by decide) (by decide), hm.good, s, r1, ?_⟩
    rw [r3, inSystem_unique r4 (hS name c hc)]
  · refine united_step h.topologies hs (fun name c e hc hm => ?_) (fun _ _ _ => goodTopology_update)
      (fun name c e o _ g _ r => ⟨trivial, lastTopology o g r⟩) (fun _ _ _ _ _ _ => trivial) hp hj.topologies
    exact ⟨hm.placed (by decide) (by decide), hm.good, aims_of hn (d2.entry hc).1.2 hm.says.2.1⟩
  · refine united_step h.matsets hs (fun name c e hc hm => ?_) (fun _ _ _ => goodMatset_update)
      (fun name c e o _ g _ r => ⟨alsoMatset_new o g r, lastMatset o g r⟩) (fun _ _ _ _ => alsoMatset_old) hp hj.matsets
    exact ⟨hm.placed (by decide) (by decide), hm.good.1, aims_of hn ((d3 (has hc)).entry hc).2 hm.says.1, hm.good.2⟩
  · refine united_step h.specsets hs (fun name c e hc hm => ?_) (fun _ _ _ => goodSpecset_update)
      (fun name c e o _ g _ r => ⟨alsoSpecset_new o g r, lastSpecset o g r⟩) (fun _ _ _ _ => alsoSpecset_old) hp hj.specsets
    exact ⟨hm.placed (by decide) (by decide), hm.good.1, aims_of hn ((d4 (has hc)).entry hc).2 hm.says.1, hm.good.2⟩
  · refine united_step h.fields hs (fun name c e hc hm => ?_) (fun _ _ _ => goodField_update)
      (fun name c e o hc g ho r => ⟨trivial, lastField g ho r (hx.2.2 name c hc).2⟩) (fun _ _ _ _ _ _ => trivial) hp hj.fields
    have hf := (d5 (has hc)).entry hc
    refine ⟨hm.placed (by decide) (by decide), hm.good.1, fun q => ?_, fun q => ?_, hm.good.2⟩
    · obtain ⟨z, y⟩ := q
      exact aims_of hn (hf.2.1 ⟨z, hm.says.1.symm.trans y⟩) hm.says.1
    · obtain ⟨z, y⟩ := q
      exact aims_of hn (hf.2.2 ⟨z, hm.says.2.1.symm.trans y⟩) hm.says.2.1
  · refine united_step h.adjsets hs (fun name c e hc hm => ?_) (fun _ _ _ => goodAdjacency_update)
      (fun name c e o _ g _ r => ⟨trivial, lastAdjacency o g r⟩) (fun _ _ _ _ _ _ => trivial) hp hj.adjsets
    exact ⟨hm.placed (by decide) (by decide), hm.good, aims_of hn ((d6 (has hc)).entry hc).2 hm.says.2⟩
  · refine united_step h.nestsets hs (fun name c e hc hm => ?_) (fun _ _ _ => goodAdjacency_update)
      (fun name c e o _ g _ r => ⟨trivial, lastAdjacency o g r⟩) (fun _ _ _ _ _ _ => trivial) hp hj.nestsets
    exact ⟨hm.placed (by decide) (by decide), hm.good, aims_of hn ((d7 (has hc)).entry hc).2 hm.says.2⟩

theorem Single.sane {n i : BNode F} (h : Single ref n i) (hd : IsDomain n) (hp : Plain i) : Sane i := by
  obtain ⟨ks, hk, -⟩ := (h.flat hd).coordsets
  exact Sane.of hk hp

theorem domains_made {S : Str → Str} (l : List (Str × BNode F)) (ds : List (BNode F)) (a : BNode F)
    (hl : ∀ k ∈ l, k.2 ∈ D ∧ Plain k.2 ∧ IsDomain k.2 ∧ Indexable k.2 ∧
      ∀ name c, Entry k.2 (chars! "coordsets") name c → InSystem c (S name))
    (hp : Plain a) (hj : Joined ref S D ds a) :
    ∃ i, indexDomains ref l a = .ok i ∧ Plain i ∧ Joined ref S D (ds ++ l.map (·.2)) i := by
  induction l generalizing ds a with
  | nil => exact ⟨a, rfl, hp, by simpa using hj⟩
  | cons k l ih =>
    obtain ⟨h1, h2, h3, h4, h5⟩ := hl k (List.mem_cons_self ..)
    obtain ⟨ks, e1, e2, e3, -⟩ := single_made ref h2 h3 h4
    obtain ⟨i, q1, q2, q3⟩ := ih (ds ++ [k.2]) _ (fun x hx => hl x (List.mem_cons_of_mem _ hx)) (plain_update _ _ e2 hp)
      (joined_step h1 h2 h3 h4 h5 (e3.sane h3 e2) e3 hj)
    exact ⟨i, by rw [indexDomains, e1, Res.bind_ok, q1], q2, by simpa using q3⟩

theorem United.all {ds : List (BNode F)} {a : BNode F} {Good : Str → BNode F → Prop} {U L : BNode F → BNode F → Prop}
    {Q : BNode F → Prop} (h : United ds a coll Good U L) (hq : ∀ name e, Good name e → Q e)
    (hh : Has a coll ∨ ∃ d ∈ ds, ∃ name, Listed d coll name) : AllOf a coll Q := by
  obtain ⟨x, hx, hg, hn, -⟩ := h
  rcases hx with ⟨h1, rfl⟩ | ⟨h1, h2⟩
  · rcases hh with h | ⟨d, h2, name, h3⟩
    · exact absurd h (not_has_of_error h1)
    · exact absurd ((hn name).2 ⟨d, h2, h3⟩) (by simp)
  · exact ⟨x, h1, h2, fun k hk => hq _ _ (hg k hk)⟩

theorem United.listed {ds : List (BNode F)} {a : BNode F} {Good : Str → BNode F → Prop} {U L : BNode F → BNode F → Prop}
    (h : United ds a coll Good U L) (name : Str) : Listed a coll name ↔ ∃ d ∈ ds, Listed d coll name := by
  obtain ⟨x, hx, hg, hn, -⟩ := h
  rw [← hn]
  rcases hx with ⟨h1, rfl⟩ | ⟨h1, h2⟩
  · refine ⟨?_, by simp⟩
    rintro ⟨c, e, h2, -⟩
    rw [h1] at h2; exact absurd h2 (by simp)
  · exact listed_kids h1

theorem United.points {ds : List (BNode F)} {a e : BNode F} {f : Str} {Good : Str → BNode F → Prop}
    {U L : BNode F → BNode F → Prop} (h : United ds a coll Good U L) (ha : Aims ds e f coll) : Points a e f coll := by
  obtain ⟨s, hs, hd⟩ := ha
  exact ⟨s, hs, (h.listed s).2 hd⟩

theorem United.unites {ds : List (BNode F)} {a : BNode F} {Good : Str → BNode F → Prop} {U L : BNode F → BNode F → Prop}
    (h : United ds a coll Good U L) (hg : ∀ name e, Good name e → Placed ref coll name e) : Unites ref ds a coll U L := by
  refine ⟨h.listed, fun pre d post hd name c hc => ?_⟩
  obtain ⟨x, hx, hgx, hn, ha⟩ := h
  obtain ⟨e, h1, h2, h3⟩ := ha pre d post hd name c hc
  refine ⟨e, ?_, h2, h3, fun q => ?_⟩
  · rcases hx with ⟨-, rfl⟩ | ⟨hx, -⟩
    · exact absurd h1 (by rw [get_nil]; simp)
    · exact ⟨_, hx, h1⟩
  · obtain ⟨-, p, hp, hq⟩ := hg _ _ (hgx _ (mem_of_get h1))
    rw [hp, hq q]

theorem Joined.flat {S : Str → Str} {ds : List (BNode F)} {a : BNode F} (h : Joined ref S ds ds a)
    (hd : ∃ d ∈ ds, IsDomain d) : Flat a := by
  obtain ⟨d, hm, d1, d2, -⟩ := hd
  have lis : ∀ {coll : Str} {P : BNode F → Prop}, AllOf d coll P → ∃ d ∈ ds, ∃ name, Listed d coll name := by
    rintro coll P ⟨ks, hk, hne, -⟩
    cases ks with
    | nil => exact absurd rfl hne
    | cons k ks => exact ⟨d, hm, k.1, (listed_kids hk).2 (by simp)⟩
  refine ⟨?_, ?_, ?_, ?_, ?_, ?_, ?_⟩
  · exact h.coordsets.all (fun _ _ q => q.2.1) (.inr (lis d1))
  · exact h.topologies.all (fun _ _ q => ⟨q.2.1, h.coordsets.points q.2.2⟩) (.inr (lis d2))
  · exact fun y => h.matsets.all (fun _ _ q => ⟨q.2.1, h.topologies.points q.2.2.1⟩) (.inl y)
  · exact fun y => h.specsets.all (fun _ _ q => ⟨q.2.1, h.matsets.points q.2.2.1⟩) (.inl y)
  · exact fun y => h.fields.all (fun _ _ q => ⟨q.2.1, fun z => h.topologies.points (q.2.2.1 z),
      fun z => h.matsets.points (q.2.2.2.1 z)⟩) (.inl y)
  · exact fun y => h.adjsets.all (fun _ _ q => ⟨q.2.1, h.topologies.points q.2.2⟩) (.inl y)
  · exact fun y => h.nestsets.all (fun _ _ q => ⟨q.2.1, h.topologies.points q.2.2⟩) (.inl y)

theorem Joined.describes {S : Str → Str} {ds : List (BNode F)} {a : BNode F} (h : Joined ref S D ds a) :
    DescribesAll ref ds a :=
  ⟨h.coordsets.unites fun _ _ q => q.1, h.topologies.unites fun _ _ q => q.1, h.matsets.unites fun _ _ q => q.1,
    h.specsets.unites fun _ _ q => q.1, h.fields.unites fun _ _ q => q.1, h.adjsets.unites fun _ _ q => q.1,
    h.nestsets.unites fun _ _ q => q.1⟩

/-! ### The number of domains -/

/-- The last step of `generate_index`. -/
def counted (doms : Int) (i : BNode F) : BNode F :=
  .obj (modKid (chars! "state") (fun s => .obj (modKid (chars! "number_of_domains") (fun _ => .ints int64 [doms]) s.kids)) i.kids)

theorem plain_modKid {g : Str} {f : BNode F → BNode F} {n : BNode F} (hg : g ≠ vkey) (hp : Plain n)
    (hf : ∀ x, Plain x → Plain (f x)) : Plain (.obj (modKid g f n.kids) : BNode F) := by
  refine plain_obj (nodup_modKid _ _ _ hp.nodup) fun x hx => ?_
  rcases mem_modKid hx with q | ⟨q1, q2 | ⟨y, hy, q2⟩⟩
  · exact hp.kid q
  · rw [q1, q2]; exact ⟨hg, hf _ trivial⟩
  · rw [q1, q2]; exact ⟨hg, hf _ (hp.kid hy).2⟩

theorem plain_counted (doms : Int) {i : BNode F} (hp : Plain i) : Plain (counted doms i) :=
  plain_modKid (by decide) hp fun _ hx => plain_modKid (by decide) hx fun _ _ => trivial

theorem get_counted (doms : Int) (i : BNode F) {f : Str} (h : chars! "state" ≠ f) : (counted doms i).get f = i.get f := by
  unfold counted; rw [get_modKid_ne h]; rfl

theorem counted_state (doms : Int) (i : BNode F) : ∃ s, (counted doms i).get (chars! "state") = .ok s ∧
    s.get (chars! "number_of_domains") = .ok (.ints int64 [doms]) ∧
    ∀ f, chars! "number_of_domains" ≠ f → s.get f = (i.getOrEmpty (chars! "state")).get f := by
  refine ⟨_, get_modKid_self .., get_modKid_self .., fun f hf => ?_⟩
  rw [get_modKid_ne hf]; rfl

theorem Collected.same {n i j : BNode F} {R : BNode F → BNode F → Prop} {Is : BNode F → Prop} (h : Collected ref n i coll R Is)
    (e : j.get coll = i.get coll) : Collected ref n j coll R Is := by
  obtain ⟨l, h1, h2⟩ := h; exact ⟨l, h1, e.trans h2⟩

theorem United.same {ds : List (BNode F)} {i j : BNode F} {Good : Str → BNode F → Prop} {U L : BNode F → BNode F → Prop}
    (h : United ds i coll Good U L) (e : j.get coll = i.get coll) : United ds j coll Good U L := by
  obtain ⟨x, h1, h2⟩ := h
  refine ⟨x, ?_, h2⟩
  unfold At at *; rw [e]; exact h1

theorem Joined.counted {S : Str → Str} {ds : List (BNode F)} {a : BNode F} (h : Joined ref S D ds a) (doms : Int) :
    Joined ref S D ds (counted doms a) :=
  ⟨h.coordsets.same (get_counted _ _ (by decide)), h.topologies.same (get_counted _ _ (by decide)),
    h.matsets.same (get_counted _ _ (by decide)), h.specsets.same (get_counted _ _ (by decide)),
    h.fields.same (get_counted _ _ (by decide)), h.adjsets.same (get_counted _ _ (by decide)),
    h.nestsets.same (get_counted _ _ (by decide))⟩

theorem Single.counted {n a : BNode F} (h : Single ref n a) (doms : Int) : Single ref n (counted doms a) :=
  ⟨h.coordsets.same (get_counted _ _ (by decide)), h.topologies.same (get_counted _ _ (by decide)),
    h.matsets.same (get_counted _ _ (by decide)), h.specsets.same (get_counted _ _ (by decide)),
    h.fields.same (get_counted _ _ (by decide)), h.adjsets.same (get_counted _ _ (by decide)),
    h.nestsets.same (get_counted _ _ (by decide))⟩

theorem generate_single {n : BNode F} (doms : Int) (hp : Plain n) (hd : IsDomain n) (hx : Indexable n) :
    ∃ idx, generateIndex n ref doms = .ok idx ∧ Flat idx ∧ Plain idx ∧ Describes ref n idx ∧ OfState ref doms n idx := by
  obtain ⟨ks, h1, h2, h3, st⟩ := single_made ref hp hd hx
  have hc : n.hasChild (chars! "coordsets") = true := by
    obtain ⟨ks, hk, -⟩ := hd.1; exact has_iff.2 ⟨_, hk⟩
  have hne : n.isEmpty = false := by
    obtain ⟨ks, hk, -⟩ := hd.1
    obtain ⟨ks', rfl, -⟩ := nonempty_of_get hk
    rfl
  obtain ⟨s, n1, n2, n3⟩ := counted_state doms (.obj ks : BNode F)
  have h5 := h3.counted doms
  refine ⟨counted doms (.obj ks), ?_, ?_, plain_counted _ h2, ?_, s, n1, n2, fun x hx => ?_⟩
  · unfold generateIndex
    rw [hne, hc, if_neg (by simp), if_pos rfl, h1]
    rfl
  · exact h5.flat hd
  · exact h5.describes
  · rcases st with ⟨q, -⟩ | ⟨x', s', q1, q2, q3, q4, q5⟩
    · rw [q] at hx; exact absurd hx (by simp)
    · obtain rfl := get_inj q1 hx
      rw [getOrEmpty_ok q2] at n3
      exact ⟨(n3 _ (by decide)).trans q3, (n3 _ (by decide)).trans q4, (n3 _ (by decide)).trans q5⟩

theorem generate_domains {n : BNode F} {S : Str → Str} (doms : Int) (hp : Plain n) (hno : ¬ Has n (chars! "coordsets"))
    (hne : members n ≠ []) (hd : ∀ d ∈ members n, IsDomain d ∧ Indexable d)
    (hS : ∀ d ∈ members n, ∀ name c, Entry d (chars! "coordsets") name c → InSystem c (S name)) :
    ∃ idx, generateIndex n ref doms = .ok idx ∧ Flat idx ∧ Plain idx ∧ DescribesAll ref (members n) idx ∧
      ∃ s, idx.get (chars! "state") = .ok s ∧ s.get (chars! "number_of_domains") = .ok (.ints int64 [doms]) := by
  have hpm : ∀ d ∈ members n, Plain d := by
    exact fun d hd => hp.member hd
  have he : n.isEmpty = false := by
    cases n <;> first | rfl | exact absurd rfl hne
  obtain ⟨i, h1, h2, h3⟩ := domains_made (ref := ref) (D := members n) (S := S) n.items [] .empty (fun k hk => by
      have hm : k.2 ∈ members n := by rw [← members_items]; exact List.mem_map_of_mem hk
      exact ⟨hm, hpm _ hm, (hd _ hm).1, (hd _ hm).2, hS _ hm⟩) trivial
      ⟨united_nil, united_nil, united_nil, united_nil, united_nil, united_nil, united_nil⟩
  rw [List.nil_append, members_items] at h3
  obtain ⟨s, n1, n2, n3⟩ := counted_state doms i
  refine ⟨counted doms i, ?_, (h3.counted doms).flat ?_, plain_counted _ h2, (h3.counted doms).describes, s, n1, n2⟩
  · unfold generateIndex
    rw [he, if_neg (by simp), if_neg (by rw [has_iff]; exact hno), h1]
    rfl
  · cases hm : members n with
    | nil => exact absurd hm hne
    | cons d l => exact ⟨d, by simp, (hd d (by rw [hm]; simp)).1⟩

end
end Conduit.Mesh
