import Verif.Lemmas.Adjset5
import Verif.Props.Mesh
/-
C73: conversions of adjacency sets.  C74: the converted sets of two domains.  C75: names of groups.
-/
namespace Conduit.Mesh
variable {F : Type}

/-! ### C73 -/

/-- **C73**: the pairwise form of an adjset shares the same entities with the same domains. It has one group for each
    neighbor, named after the two domains; everything but the groups is kept. -/
theorem C73_pairwise (A : Arith F) (up : List (Option Int)) (dom : Int) (hd : DomainId up dom) (n : BNode F) (gs : List Group) (h : HasGroups n gs)
    (hn : (gs.map (·.name)).Nodup) (hf : Fits (widestInt n) gs) :
    ∃ d gs', toPairwise A up n = .ok d ∧ HasGroups d gs' ∧
      (∀ e v, Shares gs' e v ↔ Shares gs e v) ∧
      (∀ g ∈ gs', ∃ e, g.neighbors = [e]) ∧ (gs'.map (·.neighbors)).Nodup ∧
      (∀ e, (∃ g ∈ gs', g.neighbors = [e]) ↔ ∃ g ∈ gs, e ∈ g.neighbors) ∧
      (∀ g ∈ gs', NamedFor dom g) ∧
      (∀ name, name ≠ chars! "groups" → d.get name = n.get name) ∧ isPairwise d = .ok true := by
  obtain rfl := domainId_eq hd
  obtain ⟨d, e1, e2, e3⟩ := toPairwise_ok A up n gs h hn hf
  have hmem : ∀ g, g ∈ groupsOf (findDomainId up) (pairLists gs) ↔ ∃ k, (∃ g ∈ gs, k ∈ g.neighbors) ∧
      g = ⟨canonicalName (findDomainId up) [k], [k], pairList (byName gs) k⟩ := by
    intro g
    simp only [groupsOf, pairLists, List.map_map, List.mem_map]
    constructor
    · rintro ⟨⟨k, vs⟩, hm, rfl⟩
      obtain ⟨hk, rfl⟩ := (mem_pairMap gs k vs).mp hm
      exact ⟨k, hk, rfl⟩
    · rintro ⟨k, hk, rfl⟩
      exact ⟨(k, _), (mem_pairMap gs k _).mpr ⟨hk, rfl⟩, rfl⟩
  have hone : ∀ g ∈ groupsOf (findDomainId up) (pairLists gs), ∃ e, g.neighbors = [e] := by
    intro g hg
    obtain ⟨k, _, rfl⟩ := (hmem g).mp hg
    exact ⟨k, rfl⟩
  refine ⟨d, groupsOf (findDomainId up) (pairLists gs), e1, e2, ?_, hone, ?_, ?_, ?_, e3, ?_⟩
  · intro e v
    constructor
    · rintro ⟨g, hg, he, hv⟩
      obtain ⟨k, _, rfl⟩ := (hmem g).mp hg
      have : e = k := by simpa using he
      subst this
      exact (mem_pairList_byName gs e v).mp hv
    · intro hs
      obtain ⟨g, hg, he, _⟩ := id hs
      exact ⟨_, (hmem _).mpr ⟨e, ⟨g, hg, he⟩, rfl⟩, by simp, (mem_pairList_byName gs e v).mpr hs⟩
  · have := ksorted_nodup strictTot_int _ (pairMap_sorted gs)
    have he : (groupsOf (findDomainId up) (pairLists gs)).map (·.neighbors) = ((pairMap gs).map (·.1)).map fun k => [k] := by
      simp only [groupsOf, pairLists, List.map_map]; rfl
    rw [he, List.nodup_iff_pairwise_ne, List.pairwise_map]
    rw [List.nodup_iff_pairwise_ne] at this
    exact this.imp fun {a b} hab hc => hab (by simpa using hc)
  · intro e
    constructor
    · rintro ⟨g, hg, he⟩
      obtain ⟨k, hk, rfl⟩ := (hmem g).mp hg
      have : k = e := by simpa using he
      exact this ▸ hk
    · intro he
      exact ⟨_, (hmem _).mpr ⟨e, he, rfl⟩, rfl⟩
  · intro g hg
    obtain ⟨k, _, rfl⟩ := (hmem g).mp hg
    exact namedFor_canonical _ _ _
  · rw [isPairwise_eq d _ e2]
    congr 1
    rw [List.all_eq_true]
    intro g hg
    obtain ⟨e, he⟩ := hone g hg
    simp [he]

/-- **C73**: the maxshare form of an adjset shares the same entities with the same domains. Each entity is in one group,
    once, together with just the entities that are shared with the same domains; groups are named after their domains;
    everything but the groups is kept. -/
theorem C73_maxshare (A : Arith F) (up : List (Option Int)) (dom : Int) (hd : DomainId up dom) (n : BNode F) (gs : List Group) (h : HasGroups n gs)
    (hn : (gs.map (·.name)).Nodup) (hf : Fits (widestInt n) gs) :
    ∃ d gs', toMaxshare A up n = .ok d ∧ HasGroups d gs' ∧
      (gs'.flatMap (·.values)).Nodup ∧ (∀ v, (∃ g ∈ gs', v ∈ g.values) ↔ ∃ g ∈ gs, v ∈ g.values) ∧
      (∀ g ∈ gs', g.values ≠ [] ∧ ∀ v ∈ g.values, ∀ e, e ∈ g.neighbors ↔ Shares gs e v) ∧
      (∀ g ∈ gs', g.neighbors.Pairwise (· < ·)) ∧ (gs'.map (·.neighbors)).Nodup ∧
      (∀ g ∈ gs', NamedFor dom g) ∧
      (∀ name, name ≠ chars! "groups" → d.get name = n.get name) ∧ isMaxshare A d = .ok true := by
  obtain rfl := domainId_eq hd
  obtain ⟨d, e1, e2, e3⟩ := toMaxshare_ok A up n gs h hn hf
  have hmem : ∀ g, g ∈ groupsOf (findDomainId up) (shareLists gs) ↔ ∃ s, s ∈ neighborSets (entityMap gs) ∧
      g = ⟨canonicalName (findDomainId up) s, s, classValues gs s⟩ := by
    intro g
    simp only [groupsOf, shareLists, List.map_map, List.mem_map]
    exact ⟨fun ⟨s, hs, he⟩ => ⟨s, hs, he.symm⟩, fun ⟨s, hs, he⟩ => ⟨s, hs, he.symm⟩⟩
  have hvals : (groupsOf (findDomainId up) (shareLists gs)).flatMap (·.values) =
      (neighborSets (entityMap gs)).flatMap (classValues gs) := by
    simp only [groupsOf, shareLists, List.map_map, List.flatMap_map]; rfl
  have hnd : ((groupsOf (findDomainId up) (shareLists gs)).flatMap (·.values)).Nodup := by
    rw [hvals]; exact shareLists_nodup gs _ (neighborSets_nodup _)
  have hback : ∀ g ∈ groupsOf (findDomainId up) (shareLists gs), ∀ v ∈ g.values, ∃ g' ∈ gs, v ∈ g'.values := by
    intro g hg v hv
    obtain ⟨s, _, rfl⟩ := (hmem g).mp hg
    exact ((mem_classValues gs s v).mp hv).1
  refine ⟨d, groupsOf (findDomainId up) (shareLists gs), e1, e2, hnd, ?_, ?_, ?_, ?_, ?_, e3, ?_⟩
  · intro v
    constructor
    · rintro ⟨g, hg, hv⟩
      exact hback g hg v hv
    · intro hv
      exact ⟨_, (hmem _).mpr ⟨setOf (entityMap gs) v, (mem_neighborSets gs _).mpr ⟨v, hv, rfl⟩, rfl⟩,
        (mem_classValues gs _ v).mpr ⟨hv, rfl⟩⟩
  · intro g hg
    obtain ⟨s, hs, rfl⟩ := (hmem g).mp hg
    refine ⟨?_, ?_⟩
    · obtain ⟨v, hv, rfl⟩ := (mem_neighborSets gs s).mp hs
      exact List.ne_nil_of_mem ((mem_classValues gs _ v).mpr ⟨hv, rfl⟩)
    · intro v hv e
      obtain ⟨_, he⟩ := (mem_classValues gs s v).mp hv
      show e ∈ s ↔ _
      rw [← he, mem_setOf]
  · intro g hg
    obtain ⟨s, hs, rfl⟩ := (hmem g).mp hg
    obtain ⟨v, _, rfl⟩ := (mem_neighborSets gs s).mp hs
    exact setOf_sorted gs v
  · have he : (groupsOf (findDomainId up) (shareLists gs)).map (·.neighbors) = neighborSets (entityMap gs) := by
      simp only [groupsOf, shareLists, List.map_map]; exact List.map_id' _
    rw [he]; exact neighborSets_nodup _
  · intro g hg
    obtain ⟨s, _, rfl⟩ := (hmem g).mp hg
    exact namedFor_canonical _ _ _
  · rw [isMaxshare_eq A d _ e2, decide_eq_true hnd]
    intro g hg v hv
    obtain ⟨g', hg', hv'⟩ := hback g hg v hv
    exact (hf g' hg' v (by simp [hv'])).1

/-- **C73**: `is_pairwise` tells whether each group has one neighbor. -/
theorem C73_is_pairwise (n : BNode F) (gs : List Group) (h : HasGroups n gs) :
    ∃ b, isPairwise n = .ok b ∧ (b = true ↔ ∀ g ∈ gs, ∃ d, g.neighbors = [d]) := by
  refine ⟨_, isPairwise_eq n gs h, ?_⟩
  rw [List.all_eq_true]
  refine ⟨fun h g hg => List.length_eq_one_iff.mp (of_decide_eq_true (h g hg)), fun h g hg => decide_eq_true ?_⟩
  exact List.length_eq_one_iff.mpr (h g hg)

/-- **C73**: `is_maxshare` tells whether no entity is listed twice. -/
theorem C73_is_maxshare (A : Arith F) (n : BNode F) (gs : List Group) (h : HasGroups n gs) (hf : Fits int64 gs) :
    ∃ b, isMaxshare A n = .ok b ∧ (b = true ↔ (gs.flatMap (·.values)).Nodup) :=
  ⟨_, isMaxshare_eq A n gs h fun g hg v hv => (hf g hg v (by simp [hv])).1, decide_eq_true_iff⟩

/-- **C73**: converting to the maxshare form and back to the pairwise one gives the sharing of the pairwise form. -/
theorem C73_round (A : Arith F) (up : List (Option Int)) (dom : Int) (hd : DomainId up dom) (n : BNode F) (gs : List Group) (h : HasGroups n gs)
    (hn : (gs.map (·.name)).Nodup) (hf : Fits (widestInt n) gs) :
    ∃ d gs1, toMaxshare A up n = .ok d ∧ HasGroups d gs1 ∧ (Fits (widestInt d) gs1 →
      ∃ p gs', toPairwise A up d = .ok p ∧ HasGroups p gs' ∧ (∀ e v, Shares gs' e v ↔ Shares gs e v) ∧
        (∀ g ∈ gs', ∃ e, g.neighbors = [e]) ∧ (gs'.map (·.neighbors)).Nodup) := by
  obtain rfl := domainId_eq hd
  obtain ⟨d, gs1, e1, e2, e3, e4, e5, e6, e7, e8, _, _⟩ := C73_maxshare A up _ hd n gs h hn hf
  refine ⟨d, gs1, e1, e2, fun hf1 => ?_⟩
  have hn1 : (gs1.map (·.name)).Nodup := by
    rw [List.nodup_iff_pairwise_ne, List.pairwise_map]
    rw [List.nodup_iff_pairwise_ne, List.pairwise_map] at e7
    refine e7.imp_of_mem fun {a b} ha hb hab hc => hab ?_
    have h1 := (namedFor_iff _ _).mp (e8 a ha)
    have h2 := (namedFor_iff _ _).mp (e8 b hb)
    have hp := canonicalName_inj _ _ _ (h1.symm.trans (hc.trans h2))
    exact sorted_ext _ _ (e6 a ha) (e6 b hb) fun x => hp.mem_iff
  obtain ⟨p, gs', p1, p2, p3, p4, p5, _⟩ := C73_pairwise A up _ hd d gs1 e2 hn1 hf1
  refine ⟨p, gs', p1, p2, fun e v => ?_, p4, p5⟩
  rw [p3]
  constructor
  · rintro ⟨g, hg, he, hv⟩
    exact ((e5 g hg).2 v hv e).mp he
  · intro hs
    obtain ⟨g0, hg0, _, hv0⟩ := id hs
    obtain ⟨g, hg, hv⟩ := (e4 v).mpr ⟨g0, hg0, hv0⟩
    exact ⟨g, hg, ((e5 g hg).2 v hv e).mpr hs, hv⟩

/-! ### C74 -/

/-- **C74**: if two domains list the groups they share under the same names, with the entities in the same order, then
    so do their pairwise forms: the group of `a` for `b` and that of `b` for `a` have one name and one order. -/
theorem C74_pairwise (A : Arith F) (r : Int → Int → Prop) (a b : Int) (upa upb : List (Option Int)) (na nb : BNode F)
    (gs hs : List Group) (ha : HasGroups na gs) (hb : HasGroups nb hs)
    (hda : DomainId upa a) (hdb : DomainId upb b)
    (hna : (gs.map (·.name)).Nodup) (hnb : (hs.map (·.name)).Nodup)
    (hfa : Fits (widestInt na) gs) (hfb : Fits (widestInt nb) hs)
    (hga : ∀ g ∈ gs, g.neighbors.Nodup) (hgb : ∀ g ∈ hs, g.neighbors.Nodup)
    (hab : Lists r a b gs hs) (hba : Lists (fun x y => r y x) b a hs gs) :
    ∃ da db gs' hs', toPairwise A upa na = .ok da ∧ toPairwise A upb nb = .ok db ∧ HasGroups da gs' ∧ HasGroups db hs' ∧
      ∀ g ∈ gs', g.neighbors = [b] → ∃ h ∈ hs', h.neighbors = [a] ∧ h.name = g.name ∧ Matching r g.values h.values := by
  have hda := (domainId_eq hda).symm
  have hdb := (domainId_eq hdb).symm
  obtain ⟨da, e1, e2, _⟩ := toPairwise_ok A upa na gs ha hna hfa
  obtain ⟨db, k1, k2, _⟩ := toPairwise_ok A upb nb hs hb hnb hfb
  refine ⟨da, db, _, _, e1, k1, e2, k2, ?_⟩
  intro g hg hb'
  simp only [groupsOf, pairLists, List.map_map, List.mem_map] at hg
  obtain ⟨⟨k, vs⟩, hm, rfl⟩ := hg
  obtain ⟨⟨g0, hg0, hk0⟩, rfl⟩ := (mem_pairMap gs k vs).mp hm
  have : k = b := by simpa using hb'
  subst this
  obtain ⟨h0, hh0, _, ha0, _⟩ := hab g0 hg0 hk0
  refine ⟨⟨canonicalName (findDomainId upb) [a], [a], pairList (byName hs) a⟩, ?_, rfl, ?_, ?_⟩
  · simp only [groupsOf, pairLists, List.map_map, List.mem_map]
    exact ⟨(a, pairList (byName hs) a), (mem_pairMap hs a _).mpr ⟨⟨h0, hh0, ha0⟩, rfl⟩, rfl⟩
  · simp only [Function.comp]
    rw [hda, hdb]
    exact canonicalName_congr _ _ _ _ (List.Perm.swap _ _ _)
  · refine pair_matching r a k gs hs hna hnb hga hgb hab ?_
    intro h hh ha'
    obtain ⟨g, hg, he, hk, _⟩ := hba h hh ha'
    exact ⟨g, hg, he, hk⟩

/-- **C74**: if two domains have one group for each neighbor, with entities ascending by a global id, and know all
    domains that share their entities, then their maxshare forms agree: a group of `a` that lists `b` is also a group
    of `b`, of the same name, with the entities of the same global ids in the same order. -/
theorem C74_maxshare (A : Arith F) (a b : Int) (ida idb : Int → Int) (upa upb : List (Option Int)) (na nb : BNode F)
    (gs hs : List Group) (ha : HasGroups na gs) (hb : HasGroups nb hs)
    (hda : DomainId upa a) (hdb : DomainId upb b)
    (hna : (gs.map (·.name)).Nodup) (hnb : (hs.map (·.name)).Nodup)
    (hfa : Fits (widestInt na) gs) (hfb : Fits (widestInt nb) hs)
    (hga : ByNeighbor a ida gs) (hgb : ByNeighbor b idb hs)
    (hab : Complete a b ida idb gs hs) (hba : Complete b a idb ida hs gs) :
    ∃ da db gs' hs', toMaxshare A upa na = .ok da ∧ toMaxshare A upb nb = .ok db ∧ HasGroups da gs' ∧ HasGroups db hs' ∧
      ∀ g ∈ gs', b ∈ g.neighbors → ∃ h ∈ hs', (a :: g.neighbors).Perm (b :: h.neighbors) ∧ h.name = g.name ∧
        g.values.map ida = h.values.map idb := by
  have hda := (domainId_eq hda).symm
  have hdb := (domainId_eq hdb).symm
  obtain ⟨da, e1, e2, _⟩ := toMaxshare_ok A upa na gs ha hna hfa
  obtain ⟨db, k1, k2, _⟩ := toMaxshare_ok A upb nb hs hb hnb hfb
  have none : ∀ {d : Int} {gid : Int → Int} {gs : List Group}, ByNeighbor d gid gs → ∀ v, ¬ Shares gs d v := by
    rintro d gid gs h v ⟨g, hg, hd, _⟩
    obtain ⟨e, he, hn⟩ := h.pairwise g hg
    rw [hn] at hd
    have : d = e := by simpa using hd
    exact he this.symm
  refine ⟨da, db, _, _, e1, k1, e2, k2, ?_⟩
  intro g hg hb'
  simp only [groupsOf, shareLists, List.map_map, List.mem_map] at hg
  obtain ⟨s, hs1, rfl⟩ := hg
  obtain ⟨s', h1, h2, h3⟩ := share_matching a b ida idb gs hs (none hga) (none hgb)
    (fun g hg => (hga.pairwise g hg).imp fun _ h => h.2) hga.once hga.ascending
    (fun g hg => (hgb.pairwise g hg).imp fun _ h => h.2) hgb.once hgb.ascending hab
    (fun w hw => by
      obtain ⟨v, q1, q2, q3⟩ := hba w hw
      exact ⟨v, q1, q2, fun d da db => (q3 d db da).symm⟩) s hs1 hb'
  refine ⟨⟨canonicalName (findDomainId upb) s', s', classValues hs s'⟩, ?_, h2, ?_, h3⟩
  · simp only [groupsOf, shareLists, List.map_map, List.mem_map]
    exact ⟨s', h1, rfl⟩
  · simp only [Function.comp]
    rw [hda, hdb]
    exact (canonicalName_congr _ _ _ _ h2).symm

/-! ### C75 -/

/-- **C75**: `canonicalize` names each group after its domains and keeps neighbors, values and order, if no two groups
    have the same neighbors and no group already has a name that an earlier one is to get. -/
theorem C75_canonicalize (A : Arith F) (up : List (Option Int)) (dom : Int) (hd : DomainId up dom) (n : BNode F) (gs : List Group) (h : HasGroups n gs)
    (hf : Fits int64 gs)
    (hnew : ∀ (i j : Nat) g h, i < j → gs[i]? = some g → gs[j]? = some h → ¬ g.neighbors.Perm h.neighbors)
    (hold : ∀ (i j : Nat) g h, i < j → gs[i]? = some g → gs[j]? = some h →
      ¬ NamedFor dom ⟨h.name, g.neighbors, g.values⟩) :
    ∃ d gs', canonicalize A (findDomainId up) n = .ok d ∧ HasGroups d gs' ∧ (∀ g ∈ gs', NamedFor dom g) ∧
      gs'.map (·.neighbors) = gs.map (·.neighbors) ∧ gs'.map (·.values) = gs.map (·.values) ∧
      (gs'.map (·.name)).Nodup ∧
      ∀ name, name ≠ chars! "groups" → d.get name = n.get name := by
  obtain rfl := domainId_eq hd
  obtain ⟨d, e1, e2, e3⟩ := canonicalize_ok A (findDomainId up) n gs h hf hnew fun i j g h hij hg hh he =>
    hold i j g h hij hg hh ((namedFor_iff _ _).mpr he)
  refine ⟨d, _, e1, e2, ?_, by rw [List.map_map]; rfl, by rw [List.map_map]; rfl, ?_, e3⟩
  · intro g hg
    obtain ⟨g0, _, rfl⟩ := List.mem_map.mp hg
    exact namedFor_canonical _ _ _
  · rw [List.map_map, List.nodup_iff_pairwise_ne, List.pairwise_map, List.pairwise_iff_getElem]
    intro i j hi hj hij hc
    exact hnew i j _ _ hij (List.getElem?_eq_getElem hi) (List.getElem?_eq_getElem hj) (canonicalName_inj _ _ _ hc)

/-- **C75**: a group named after its domains passes `is_canonical` just if it has a neighbor and its domains, with
    the own one, are distinct. -/
theorem C75_is_canonical (dom : Int) (n : BNode F) (gs : List Group) (h : HasGroups n gs)
    (hn : ∀ g ∈ gs, NamedFor dom g) :
    ∃ b, isCanonical n = .ok b ∧ (b = true ↔ ∀ g ∈ gs, g.neighbors ≠ [] ∧ (dom :: g.neighbors).Nodup) := by
  refine ⟨_, isCanonical_eq dom n gs h hn, ?_⟩
  rw [List.all_eq_true]
  exact ⟨fun h g hg => of_decide_eq_true (h g hg), fun h g hg => decide_eq_true (h g hg)⟩

/-- **C75**: a name that passes lists the domains of the group, so two groups of one domain with the same name have the
    same neighbors. -/
theorem C75_names_inj (dom : Int) (g h : Group) (hg : NamedFor dom g) (hh : NamedFor dom h) (he : g.name = h.name) :
    g.neighbors.Perm h.neighbors := by
  rw [namedFor_iff] at hg hh
  exact canonicalName_inj dom _ _ (hg.symm.trans (he.trans hh))

/-! ### cases -/

namespace AdjEx
open MeshEx

/-- The tree of some groups. -/
def groupNode (g : Group) : Str × BNode Int :=
  (g.name, .obj [(chars! "neighbors", .ints int32 g.neighbors), (chars! "values", .ints int32 g.values)])

def adjNode (gs : List Group) : BNode Int :=
  .obj [(chars! "association", .str (chars! "vertex")), (chars! "topology", .str (chars! "topo")),
    (chars! "groups", .obj (gs.map groupNode))]

theorem adjNode_groups (gs : List Group) : HasGroups (adjNode gs) gs := by
  refine ⟨gs.map groupNode, rfl, by simp, ?_⟩
  intro i k g hk hg
  rw [List.getElem?_map, hg] at hk
  simp only [Option.map_some, Option.some.injEq] at hk
  subst hk
  exact ⟨rfl, int32, int32, rfl, rfl⟩

/-- What a result lists. -/
def listed (r : Res (BNode Int)) : List (Str × List Int × List Int) :=
  match r with
  | .ok d => (match d.get (chars! "groups") with
    | .ok g => g.kids.map fun k => (k.1,
      (match k.2.get (chars! "neighbors") with | .ok (.ints _ l) => l | _ => []),
      (match k.2.get (chars! "values") with | .ok (.ints _ l) => l | _ => []))
    | _ => [])
  | _ => []

/-- Three domains share corner 3 of the first; its groups overlap. -/
def g0 : List Group := [⟨chars! "m", [2, 1], [3, 7]⟩, ⟨chars! "b", [1], [9, 5]⟩, ⟨chars! "c", [2], [9, 4, 4]⟩]

theorem g0_fits : Fits (widestInt (adjNode g0)) g0 := by
  have h : widestInt (adjNode g0) = int32 := by decide +kernel
  rw [h]; unfold Fits; decide +kernel

example : ∃ d gs', toPairwise arith [some 0] (adjNode g0) = .ok d ∧ HasGroups d gs' ∧
    (∀ e v, Shares gs' e v ↔ Shares g0 e v) := by
  obtain ⟨d, gs', h1, h2, h3, _⟩ := C73_pairwise arith [some 0] 0 (.inl ⟨[], [], rfl, by decide, by simp⟩) _ g0 (adjNode_groups g0) (by decide) g0_fits
  exact ⟨d, gs', h1, h2, h3⟩

theorem g0_pairwise : listed (toPairwise arith [none, some 0] (adjNode g0)) =
    [(chars! "group_0_1", [1], [9, 5, 3, 7]), (chars! "group_0_2", [2], [9, 4, 4, 3, 7])] := by decide +kernel

theorem g0_maxshare : listed (toMaxshare arith [none, some 0] (adjNode g0)) =
    [(chars! "group_0_1_2", [1, 2], [9, 3, 7]), (chars! "group_0_2", [2], [4]), (chars! "group_0_1", [1], [5])] := by
  decide +kernel

/-- The groups of a second domain: it numbers the entities 3, 7, 9, 5 of the first 30, 70, 90, 50. -/
def g1 : List Group := [⟨chars! "m", [0, 2], [30, 70]⟩, ⟨chars! "b", [0], [90, 50]⟩, ⟨chars! "e", [2], [8]⟩]

theorem g01 : Lists (fun x y => y = 10 * x) 0 1 g0 g1 := by
  intro g hg hb
  simp only [g0, List.mem_cons, List.not_mem_nil, or_false] at hg
  rcases hg with rfl | rfl | rfl
  · exact ⟨_, .head _, rfl, by decide, .cons rfl (.cons rfl .nil)⟩
  · exact ⟨_, .tail _ (.head _), rfl, by decide, .cons rfl (.cons rfl .nil)⟩
  · simp at hb

theorem g10 : Lists (fun x y => x = 10 * y) 1 0 g1 g0 := by
  intro g hg hb
  simp only [g1, List.mem_cons, List.not_mem_nil, or_false] at hg
  rcases hg with rfl | rfl | rfl
  · exact ⟨_, .head _, rfl, by decide, .cons rfl (.cons rfl .nil)⟩
  · exact ⟨_, .tail _ (.head _), rfl, by decide, .cons rfl (.cons rfl .nil)⟩
  · simp at hb

theorem g1_fits : Fits (widestInt (adjNode g1)) g1 := by
  have h : widestInt (adjNode g1) = int32 := by decide +kernel
  rw [h]; unfold Fits; decide +kernel

/-- The hypotheses of `C74_pairwise` hold for the two. -/
example := C74_pairwise arith (fun x y => y = 10 * x) 0 1 [some 0] [some 1] _ _ g0 g1 (adjNode_groups _) (adjNode_groups _)
  (.inl ⟨[], [], rfl, by decide, by simp⟩) (.inl ⟨[], [], rfl, by decide, by simp⟩) (by decide) (by decide) g0_fits g1_fits (by decide) (by decide) g01 g10

theorem g1_pairwise : listed (toPairwise arith [some 1] (adjNode g1)) =
    [(chars! "group_0_1", [0], [90, 50, 30, 70]), (chars! "group_1_2", [2], [8, 30, 70])] := by decide +kernel

/-- Two domains that share entities 0, 5 of one, 2, 1 of the other; both share the first with a third domain. -/
def p0 : List Group := [⟨chars! "q", [1], [0, 5]⟩, ⟨chars! "a", [2], [0]⟩]
def p1 : List Group := [⟨chars! "q", [0], [2, 1]⟩, ⟨chars! "b", [2], [2]⟩]

/-- The global ids: entity `v` of the first domain is number `v`; entities 2, 1 of the second are 0, 5. -/
def gid1 (w : Int) : Int := 10 - 5 * w

theorem shares_p0 (d v : Int) : Shares p0 d v ↔ (d = 1 ∧ (v = 0 ∨ v = 5)) ∨ (d = 2 ∧ v = 0) := by
  simp [Shares, p0]

theorem shares_p1 (d v : Int) : Shares p1 d v ↔ (d = 0 ∧ (v = 2 ∨ v = 1)) ∨ (d = 2 ∧ v = 2) := by
  simp [Shares, p1]

theorem p_fits : Fits (widestInt (adjNode p0)) p0 ∧ Fits (widestInt (adjNode p1)) p1 := by
  have h0 : widestInt (adjNode p0) = int32 := by decide +kernel
  have h1 : widestInt (adjNode p1) = int32 := by decide +kernel
  rw [h0, h1]; unfold Fits; decide +kernel

/-- The hypotheses of `C74_maxshare` hold for the two. -/
example := C74_maxshare arith 0 1 id gid1 [some 0] [some 1] _ _ p0 p1 (adjNode_groups _) (adjNode_groups _)
  (.inl ⟨[], [], rfl, by decide, by simp⟩) (.inl ⟨[], [], rfl, by decide, by simp⟩) (by decide) (by decide) p_fits.1 p_fits.2
  ⟨by intro g hg; simp only [p0, List.mem_cons, List.not_mem_nil, or_false] at hg; rcases hg with rfl | rfl <;> simp,
    by decide, by decide⟩
  ⟨by intro g hg; simp only [p1, List.mem_cons, List.not_mem_nil, or_false] at hg; rcases hg with rfl | rfl <;> simp,
    by decide, by decide⟩
  (by
    intro v hv
    rw [shares_p0] at hv
    rcases hv with ⟨_, rfl | rfl⟩ | ⟨h, _⟩
    · exact ⟨2, by decide, by rw [shares_p1]; simp, fun d h0 h1 => by rw [shares_p0, shares_p1]; omega⟩
    · exact ⟨1, by decide, by rw [shares_p1]; simp, fun d h0 h1 => by rw [shares_p0, shares_p1]; omega⟩
    · omega)
  (by
    intro v hv
    rw [shares_p1] at hv
    rcases hv with ⟨_, rfl | rfl⟩ | ⟨h, _⟩
    · exact ⟨0, by decide, by rw [shares_p0]; simp, fun d h0 h1 => by rw [shares_p0, shares_p1]; omega⟩
    · exact ⟨5, by decide, by rw [shares_p0]; simp, fun d h0 h1 => by rw [shares_p0, shares_p1]; omega⟩
    · omega)

theorem p_maxshare : listed (toMaxshare arith [some 0] (adjNode p0)) =
      [(chars! "group_0_1_2", [1, 2], [0]), (chars! "group_0_1", [1], [5])] ∧
    listed (toMaxshare arith [some 1] (adjNode p1)) =
      [(chars! "group_0_1", [0], [1]), (chars! "group_0_1_2", [0, 2], [2])] := by decide +kernel

/-! ### where the claims fail -/

/-- Three domains; any two of them share entities 1 and 2, listed in the same order by both. -/
def t0 : List Group := [⟨chars! "g01", [1], [1, 2]⟩, ⟨chars! "g02", [2], [2, 1]⟩]
def t1 : List Group := [⟨chars! "g01", [0], [1, 2]⟩, ⟨chars! "g12", [2], [1, 2]⟩]
def t2 : List Group := [⟨chars! "g02", [0], [2, 1]⟩, ⟨chars! "g12", [1], [1, 2]⟩]

/-- **C74** fails for the maxshare form without the order by global ids, even if the domains list their groups alike: the
    group of all three is 1, 2 on domain 0 and 2, 1 on domain 2. -/
theorem C74_maxshare_order_false :
    (Lists (· = ·) 0 1 t0 t1 ∧ Lists (· = ·) 1 0 t1 t0 ∧ Lists (· = ·) 0 2 t0 t2 ∧ Lists (· = ·) 2 0 t2 t0 ∧
      Lists (· = ·) 1 2 t1 t2 ∧ Lists (· = ·) 2 1 t2 t1) ∧
    listed (toMaxshare arith [some 0] (adjNode t0)) = [(chars! "group_0_1_2", [1, 2], [1, 2])] ∧
    listed (toMaxshare arith [some 2] (adjNode t2)) = [(chars! "group_0_1_2", [0, 1], [2, 1])] := by
  have two : ∀ a b : Int, Matching (· = ·) [a, b] [a, b] := fun a b => .cons rfl (.cons rfl .nil)
  refine ⟨⟨?_, ?_, ?_, ?_, ?_, ?_⟩, by decide +kernel, by decide +kernel⟩ <;>
  · intro g hg hb
    simp only [t0, t1, t2, List.mem_cons, List.not_mem_nil, or_false] at hg
    rcases hg with rfl | rfl <;> first
      | (simp at hb; done)
      | exact ⟨_, .head _, rfl, by decide, two _ _⟩
      | exact ⟨_, .tail _ (.head _), rfl, by decide, two _ _⟩

/-- **C74** fails for a destination that is not part of a mesh: without an ancestor that has a domain id the groups are
    named for domain -1, and the two domains no longer agree on the name. -/
theorem C74_detached_false :
    listed (toPairwise arith [none] (adjNode [⟨chars! "g", [1], [5]⟩])) = [(chars! "group_-1_1", [1], [5])] ∧
    listed (toPairwise arith [none] (adjNode [⟨chars! "g", [0], [6]⟩])) = [(chars! "group_-1_0", [0], [6])] := by
  decide +kernel

/-- **C74** fails if one domain lists a neighbor twice: the entities are then listed twice on that side only. -/
theorem C74_repeated_false :
    listed (toPairwise arith [some 0] (adjNode [⟨chars! "g", [1, 1], [5]⟩])) = [(chars! "group_0_1", [1], [5, 5])] ∧
    listed (toPairwise arith [some 1] (adjNode [⟨chars! "g", [0], [6]⟩])) = [(chars! "group_0_1", [0], [6])] := by
  decide +kernel

/-- **C73** fails when the adjset's own integers are narrow: with a single int8 leaf elsewhere in it, floating point
    values beyond 127 are cut. -/
def narrow : BNode Int := .obj [(chars! "order", .ints int8 [1]),
  (chars! "groups", .obj [(chars! "g", .obj [(chars! "neighbors", .ints int8 [1]), (chars! "values", .flts true [200])])])]

theorem C73_narrow_false : listed (toPairwise arith [some 0] narrow) = [(chars! "group_0_1", [1], [-56])] := by
  decide +kernel

/-- **C75** fails when the names are swapped: each group has the name the other is to get, and the first renaming is
    rejected. -/
theorem C75_swapped_false :
    canonicalize arith 0 (adjNode [⟨chars! "group_0_2", [1], [5]⟩, ⟨chars! "group_0_1", [2], [6]⟩]) = .error := by
  have h : (match canonicalize arith 0 (adjNode [⟨chars! "group_0_2", [1], [5]⟩, ⟨chars! "group_0_1", [2], [6]⟩]) with
    | .error => true | _ => false) = true := by decide +kernel
  revert h
  cases canonicalize arith 0 (adjNode [⟨chars! "group_0_2", [1], [5]⟩, ⟨chars! "group_0_1", [2], [6]⟩]) <;> simp

/-- **C75** fails for two groups with the same neighbors (which the blueprint does not forbid). -/
theorem C75_same_neighbors_false :
    canonicalize arith 0 (adjNode [⟨chars! "a", [1], [5]⟩, ⟨chars! "b", [1], [6]⟩]) = .error := by
  have h : (match canonicalize arith 0 (adjNode [⟨chars! "a", [1], [5]⟩, ⟨chars! "b", [1], [6]⟩]) with
    | .error => true | _ => false) = true := by decide +kernel
  revert h
  cases canonicalize arith 0 (adjNode [⟨chars! "a", [1], [5]⟩, ⟨chars! "b", [1], [6]⟩]) <;> simp

/-- The hypotheses of `C75_canonicalize` hold for groups named otherwise. -/
theorem canonical_ex : listed (canonicalize arith 5 (adjNode [⟨chars! "x", [7, -2], [5]⟩, ⟨chars! "group_5_9", [9], [6]⟩])) =
    [(chars! "group_-2_5_7", [7, -2], [5]), (chars! "group_5_9", [9], [6])] := by decide +kernel

example := C75_canonicalize arith [none, some 5] 5 (.inl ⟨[none], [], rfl, by decide, by simp⟩) _ _ (adjNode_groups [⟨chars! "x", [7, -2], [5]⟩, ⟨chars! "group_5_9", [9], [6]⟩])
  (by unfold Fits; decide +kernel)
  (by
    intro i j g h hij hg hh
    have := getElem?_lt hh
    have hj : j = 1 := by simp at this; omega
    have hi : i = 0 := by omega
    subst hj; subst hi
    simp only [List.getElem?_cons_zero, List.getElem?_cons_succ, Option.some.injEq] at hg hh
    subst hg; subst hh
    intro hp; simpa using hp.length_eq)
  (by
    intro i j g h hij hg hh
    have := getElem?_lt hh
    have hj : j = 1 := by simp at this; omega
    have hi : i = 0 := by omega
    subst hj; subst hi
    simp only [List.getElem?_cons_zero, List.getElem?_cons_succ, Option.some.injEq] at hg hh
    subst hg; subst hh
    rw [namedFor_iff]; decide +kernel)

end AdjEx
end Conduit.Mesh
