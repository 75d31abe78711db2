import Verif.Lemmas.Partition8
/-
C90, C91, C92: the partitioner's selections and plan.
-/
namespace Conduit.Part
open Conduit.Mesh
variable {F : Type}

/-! ### C90: splitting a selection -/

/-- A selection of a box, of element numbers or of ranges is split into two, which have its elements: all of them, no others and
    as often.  But for boxes they come in the same order. -/
theorem C90_split_keeps (A : Arith F) {s : Sel} {mesh : BNode F} {ids : List Int} {len : Int} {ps : List Sel}
    (hf : ∀ name value ranks, s.kind ≠ .field name value ranks) (hl : selLength A s mesh = .ok len) (h0 : 0 < len)
    (hb : ∀ a b, s.kind = .logical a b → 1 < len) (hi : elementIds A s mesh = .ok ids) (hs : split A s mesh = .ok ps) :
    ∃ p0 p1 i0 i1, ps = [p0, p1] ∧ elementIds A p0 mesh = .ok i0 ∧ elementIds A p1 mesh = .ok i1 ∧ (i0 ++ i1).Perm ids ∧
      ((∀ a b, s.kind ≠ .logical a b) → i0 ++ i1 = ids) ∧
      ∀ p ∈ ps, p.domain = s.domain ∧ p.topology = s.topology ∧ getWhole A p mesh = .ok false := by
  obtain ⟨p0, p1, i0, i1, rfl, ⟨k0, k1, rfl, rfl, _⟩, e0, e1, hp, hq⟩ := split_ids A hf hl h0 hb hi hs
  refine ⟨_, _, i0, i1, rfl, e0, e1, hp, hq, ?_⟩
  intro p hp
  rcases List.mem_cons.mp hp with rfl | hp
  · exact ⟨rfl, rfl, rfl⟩
  · rw [List.mem_singleton.mp hp]
    exact ⟨rfl, rfl, rfl⟩

/-- A selection of elements that are there, more than one, is split into two of the kind, neither of them empty. -/
theorem C90_split_inside (A : Arith F) {mesh : BNode F} {s : Sel} {ids : List Int} (h : Inside A mesh s) (hi : elementIds A s mesh = .ok ids)
    (h1 : 1 < ids.length) :
    ∃ p0 p1 i0 i1, split A s mesh = .ok [p0, p1] ∧ Inside A mesh p0 ∧ Inside A mesh p1 ∧ elementIds A p0 mesh = .ok i0 ∧
      elementIds A p1 mesh = .ok i1 ∧ i0 ≠ [] ∧ i1 ≠ [] ∧ (i0 ++ i1).Perm ids := by
  obtain ⟨p0, p1, i0, i1, h2, h3, h4, h5, h6, h7, _⟩ := inside_split A h hi h1
  refine ⟨p0, p1, i0, i1, h2, h3, h4, h5, h6, ?_, ?_, h7⟩
  · obtain ⟨j, hj, _, hl⟩ := inside_ids A h3
    rw [h5] at hj
    cases hj
    rintro rfl
    simp at hl
  · obtain ⟨j, hj, _, hl⟩ := inside_ids A h4
    rw [h6] at hj
    cases hj
    rintro rfl
    simp at hl

/-- A selection by a field is split into one for each value, in ascending order.  The elements of a value are those that have it;
    together they are all elements, each once. -/
theorem C90_split_field (A : Arith F) {s : Sel} {mesh : BNode F} {name : Str} {ranks : Option (List Int)} {vals : List Int}
    (e : s.kind = .field name none ranks) (ha : fieldApplies s name mesh = .ok true) (hv : fieldValues A name mesh = .ok vals) :
    ∃ (vs : List Int) (ids : List (List Int)), split A s mesh = .ok (vs.map fun v => part s (.field name (some v) ranks)) ∧ vs.Pairwise (· < ·) ∧ (∀ v, v ∈ vs ↔ v ∈ vals) ∧
      (vs.map fun v => part s (.field name (some v) ranks)).mapM (fun p => elementIds A p mesh) = .ok ids ∧
      (∀ (n : Nat) (v : Int) (l : List Int), vs[n]? = some v → ids[n]? = some l →
        l.Nodup ∧ ∀ x : Int, x ∈ l ↔ ∃ m : Nat, x = m ∧ vals[m]? = some v) ∧
      ids.flatten.Perm ((List.range vals.length).map fun n : Nat => (n : Int)) := by
  obtain ⟨ids, h1, h2, rfl, h4⟩ := split_field A e ha hv
  refine ⟨_, _, h1, ?_, fun v => unique_mem, h2, ?_, h4⟩
  · exact ((unique_sorted vals).and (unique_nodup vals)).imp fun h => by omega
  · intro n v l hn hl
    rw [List.getElem?_map, hn] at hl
    cases hl
    exact ⟨positions_nodup v vals, fun x => positions_mem⟩

/-- A selection by a value of a field is split into two, which have its elements in the same order. -/
theorem C90_split_value (A : Arith F) {s : Sel} {mesh : BNode F} {name : Str} {v : Int} {ranks : Option (List Int)} {vals : List Int}
    {t : Str × BNode F} {n : Int}
    (e : s.kind = .field name (some v) ranks) (ha : fieldApplies s name mesh = .ok true) (hv : fieldValues A name mesh = .ok vals)
    (ht : selected s mesh = .ok t) (hn : length A mesh t.2 = .ok n) (hle : (vals.length : Int) ≤ n) :
    ∃ p0 p1 i0 i1, split A s mesh = .ok [p0, p1] ∧ elementIds A p0 mesh = .ok i0 ∧ elementIds A p1 mesh = .ok i1 ∧
      elementIds A s mesh = .ok (i0 ++ i1) := split_value A e ha hv ht hn hle

/-! ### C91: splitting towards the target -/

/-- Whatever the target: selections without a field keep their elements. -/
theorem C91_keeps (A : Arith F) {target fuel : Nat} {ss ss' : List (Sel × Dom F)}
    (h : ∀ p ∈ ss, (∀ n v q, p.1.kind ≠ .field n v q) ∧ ∃ ids, elementIds A p.1 p.2.mesh = .ok ids)
    (hs : splitAll A target fuel ss = .ok (some ss')) : (elementsOfAll A ss').Perm (elementsOfAll A ss) := (splitAll_keeps A target fuel h hs).1

/-- With at least as many elements as wanted domains the splitting comes to an end, with as many selections, all of them of
    some elements. -/
theorem C91_reaches (A : Arith F) {target fuel : Nat} {ss : List (Sel × Dom F)} (hin : ∀ p ∈ ss, Inside A p.2.mesh p.1)
    (hne : ss ≠ []) (h1 : ss.length ≤ target) (h2 : target ≤ (elementsOfAll A ss).length) (hf : target ≤ fuel) :
    ∃ ss', splitAll A target fuel ss = .ok (some ss') ∧ ss'.length = target ∧ (∀ p ∈ ss', Inside A p.2.mesh p.1) ∧
      (elementsOfAll A ss').Perm (elementsOfAll A ss) := by
  have : 1 ≤ ss.length := by
    cases ss with
    | nil => exact absurd rfl hne
    | cons _ _ => simp
  obtain ⟨ss', g1, g2, g3, g4⟩ := splitAll_reaches A (fun _ => True) (fun _ _ _ _ _ _ _ _ _ => trivial) target (target - ss.length)
    (fuel := fuel) (ss := ss) (by omega) (by omega) hne (fun p hp => ⟨hin p hp, trivial⟩) h2
  exact ⟨ss', g1, g2, fun p hp => (g3 p hp).1, g4⟩

/-- With boxes of fewer elements than wanted domains it does not: no number of turns is enough. -/
theorem C91_hangs (A : Arith F) {target : Nat} {ss : List (Sel × Dom F)} (hne : ss ≠ [])
    (hin : ∀ p ∈ ss, Inside A p.2.mesh p.1 ∧ ∃ a b, p.1.kind = .logical a b) (h : (elementsOfAll A ss).length < target) :
    ∀ fuel, splitAll A target fuel ss = .ok none := fun fuel => splitAll_hangs A target fuel hne hin h

/-! ### C92: the plan -/

/-- Without selections: the output domains are 0 to the target, or to the number of input domains if none is given; none is empty;
    every element of every domain is in one of them.
    This is of the plan; that the output meshes have the elements of the plan is missing (`extract` and `combine` are not modelled). -/
theorem C92_all_partial (A : Arith F) {mesh opts : BNode F} {doms : List (Dom F)} {t : Option Nat} {ns : Dom F → Int} {fuel : Nat}
    (hd : domsOf mesh = .ok doms) (hne : doms ≠ []) (hall : ∀ d ∈ doms, HasElements A d.mesh (ns d))
    (hs : opts.hasChild (chars! "selections") = false) (ht : optTarget A opts = .ok t) (h1 : 1 ≤ t.getD doms.length)
    (h2 : t.getD doms.length ≤ (doms.flatMap fun d => domainElements d (ns d)).length)
    (h3 : doms.length < 4294967296) (hf : t.getD doms.length ≤ fuel) :
    ∃ out, plan A fuel mesh opts = .ok (some (some out)) ∧
      Spread (t.getD doms.length) (doms.flatMap fun d => domainElements d (ns d)) out := plan_default A hd hne hall hs ht h1 h2 h3 hf

/-- The same of the elements of the selections, for selections of elements that are there.  Of the plan, as above. -/
theorem C92_selections_partial (A : Arith F) {mesh opts : BNode F} {ss : List (Sel × Dom F)} {target fuel : Nat}
    (hi : initPlan A mesh opts = .ok (some (ss, target))) (hne : ss ≠ [])
    (hin : ∀ p ∈ ss, Inside A p.2.mesh p.1 ∧ p.1.whole ≠ some true ∧ ∃ m, allLengths A p.2.mesh = .ok m ∧ 1 ≤ m)
    (h1 : 1 ≤ target) (h2 : target ≤ (elementsOfAll A ss).length) (h3 : target < 4294967296) (hf : target ≤ fuel) :
    ∃ out, plan A fuel mesh opts = .ok (some (some out)) ∧ Spread target (elementsOfAll A ss) out := plan_selections A hi hne hin h1 h2 h3 hf

/-- A selection by a field of all domains: there is an output domain for every value, numbered by it, with the elements of all domains
    that have this value.  A target of no more domains than there are values makes no difference.
    Of the plan, as above. -/
theorem C92_field_partial (A : Arith F) {mesh opts l o : BNode F} {doms : List (Dom F)} {topo name : Str} {ranks : Option (List Int)} {t : Option Nat}
    {vals : Dom F → List Int} {fuel : Nat}
    (hd : domsOf mesh = .ok doms) (hs : opts.get (chars! "selections") = .ok l) (hl : l = .list [o] ∨ ∃ k, l = .obj [(k, o)])
    (hty : o.get (chars! "type") = .ok (.str (chars! "field")))
    (hi : initSel A o (chars! "field") = .ok (some ⟨none, 0, topo, true, .field name none ranks⟩))
    (ha : ∀ d ∈ doms, fieldApplies ⟨none, 0, topo, true, .field name none ranks⟩ name d.mesh = .ok true ∧
      fieldValues A name d.mesh = .ok (vals d) ∧ (∃ x, selected ⟨none, 0, topo, true, .field name none ranks⟩ d.mesh = .ok x) ∧
      ∀ v ∈ vals d, 0 ≤ v ∧ v < 2147483648)
    (ht : optTarget A opts = .ok t) (hle : ∀ n, t = some n → n ≤ (unique (doms.flatMap vals)).length) :
    ∃ out, plan A (fuel + 1) mesh opts = .ok (some (some out)) ∧ (out.map (·.1)).Pairwise (· < ·) ∧
      (∀ v, v ∈ out.map (·.1) ↔ ∃ d ∈ doms, v ∈ vals d) ∧
      ∀ p ∈ out, ∃ per : Dom F → List Int, piecesElements p.2 = doms.flatMap (fun d => (per d).map fun e => (d.idx, e)) ∧
        ∀ d ∈ doms, (per d).Nodup ∧ ∀ x : Int, x ∈ per d ↔ ∃ n : Nat, x = n ∧ (vals d)[n]? = some p.1 := by
  obtain ⟨out, h1, h2, h3⟩ := plan_field A (fuel := fuel) hd hs hl hty hi ha ht hle
  refine ⟨out, h1, ?_, ?_, ?_⟩
  · rw [h2]
    exact ((unique_sorted _).and (unique_nodup _)).imp fun h => by omega
  · intro v
    rw [h2, unique_mem, List.mem_flatMap]
  · intro p hp
    exact ⟨fun d => positionsOf p.1 (vals d), h3 p hp, fun d _ => ⟨positions_nodup _ _, fun x => positions_mem⟩⟩

/-- The chunks that have a domain go there, and those that have none go elsewhere. -/
theorem C92_respects {target : Nat} {chunks : List (Int × Int)} {dests : List Int} (h : mapChunks target chunks = .ok dests) :
    dests.length = chunks.length ∧ ∀ (i : Nat) (size dd v : Int), chunks[i]? = some (size, dd) → dests[i]? = some v →
      (dd ≠ -1 → v = dd) ∧ (dd = -1 → ∀ c ∈ chunks, c.2 ≠ -1 → v ≠ c.2) := by
  obtain ⟨h1, h2⟩ := mapChunks_respects h
  refine ⟨by rw [h1, List.length_map], ?_⟩
  intro i size dd v hc hv
  obtain ⟨g1, g2⟩ := h2 i dd v (by rw [List.getElem?_map, hc]; rfl) hv
  refine ⟨g1, fun e c hm hn hv => g2 e ?_⟩
  rw [hv]
  exact List.mem_filter.mpr ⟨List.mem_map.mpr ⟨c, hm, rfl⟩, by simpa using hn⟩

/-- As many chunks, counted with those that have the same domain as one, as wanted: as many domains. -/
theorem C92_exact {chunks : List (Int × Int)} {dests : List Int}
    (h : mapChunks (countTargets (chunks.map (·.2))) chunks = .ok dests) :
    ∃ ds : List Int, ds.Nodup ∧ (∀ v, v ∈ ds ↔ v ∈ dests) ∧ ds.length = countTargets (chunks.map (·.2)) :=
  ⟨unique dests, unique_nodup _, fun _ => unique_mem, mapChunks_exact h⟩

/-- Chunks that have no domain, none empty and no fewer than wanted: neighbours go together, to as many domains as wanted. -/
theorem C92_groups {target : Nat} {chunks : List (Int × Int)} (hc : ∀ c ∈ chunks, c.2 = -1 ∧ 1 ≤ c.1) (h1 : 1 ≤ target)
    (h2 : target ≤ chunks.length) (h3 : target < 4294967296) :
    ∃ dests, mapChunks target chunks = .ok dests ∧ dests.length = chunks.length ∧ dests.Pairwise (· ≤ ·) ∧
      ∀ v, v ∈ dests ↔ 0 ≤ v ∧ v < target := by
  obtain ⟨dests, g1, g2, g3, g4⟩ := mapChunks_free hc h1 h2 h3
  exact ⟨dests, g1, g2, g3, fun v => by rw [g4]; omega⟩

/-- More domains wanted than there are elements in boxes: there is no plan. -/
theorem C92_hangs (A : Arith F) {mesh opts : BNode F} {ss : List (Sel × Dom F)} {target : Nat}
    (hi : initPlan A mesh opts = .ok (some (ss, target))) (hne : ss ≠ [])
    (hin : ∀ p ∈ ss, Inside A p.2.mesh p.1 ∧ ∃ a b, p.1.kind = .logical a b) (h : (elementsOfAll A ss).length < target) :
    ∀ fuel, plan A fuel mesh opts = .ok none := fun fuel => plan_hangs A hi hne hin h fuel

/-- A target of 0 gives one domain with all elements. -/
theorem C92_zero (A : Arith F) {mesh opts : BNode F} {doms : List (Dom F)} {ns : Dom F → Int} {fuel : Nat}
    (hd : domsOf mesh = .ok doms) (hne : doms ≠ []) (hall : ∀ d ∈ doms, HasElements A d.mesh (ns d))
    (hs : opts.hasChild (chars! "selections") = false) (ht : optTarget A opts = .ok (some 0)) (h3 : doms.length < 4294967296) :
    ∃ out, plan A (fuel + 1) mesh opts = .ok (some (some out)) ∧
      Spread 1 (doms.flatMap fun d => domainElements d (ns d)) out := plan_zero A hd hne hall hs ht h3

/-- The target of the options: 0 if it is negative. -/
theorem C92_target (A : Arith F) {opts : BNode F} {ty : IntTy} {v : Int} {l : List Int}
    (h : opts.get (chars! "target") = .ok (.ints ty (v :: l))) :
    optTarget A opts = .ok (some (if v ≤ 0 then 0 else (v % 4294967296).toNat)) := target_number A h

/-- A selection of numbers or ranges is of the first domain that has its id; if there is none it is left out. -/
theorem C92_place (A : Arith F) {s : Sel} (ha : s.any = false) (hk : (∃ l, s.kind = .explicit l) ∨ ∃ r, s.kind = .ranges r)
    (doms : List (Dom F)) : ∃ r, place A s doms = .ok r ∧
      (r = [] ∧ (∀ d ∈ doms, d.id ≠ s.domain) ∨
        ∃ before d after, doms = before ++ d :: after ∧ (∀ x ∈ before, x.id ≠ s.domain) ∧ d.id = s.domain ∧ r = [(s, d)]) := by
  refine ⟨_, place_one A ha hk doms, ?_⟩
  cases hf : doms.find? fun d => d.id == s.domain with
  | none =>
    refine .inl ⟨rfl, fun d hd e => ?_⟩
    have := List.find?_eq_none.mp hf d hd
    simp [e] at this
  | some d =>
    obtain ⟨h1, before, after, rfl, h2⟩ := List.find?_eq_some_iff_append.mp hf
    exact .inr ⟨before, d, after, rfl, fun x hx => by simpa using h2 x hx, by simpa using h1, rfl⟩

/-- The id of a domain is its `state/domain_id`, or else its position. -/
theorem C92_ids (mesh : BNode F) {doms : List (Dom F)} (h : domsOf mesh = .ok doms) :
    doms.length = (domains mesh).length ∧ ∀ (n : Nat) (d : Dom F), doms[n]? = some d → d.idx = n ∧ (domains mesh)[n]? = some d.mesh ∧
      ((∃ st ty v l, d.mesh.get (chars! "state") = .ok st ∧ st.get (chars! "domain_id") = .ok (.ints ty (v :: l)) ∧ d.id = int64.cast v) ∨
        d.id = n) := by
  unfold domsOf at h
  have hl := mapM_len h
  rw [List.length_zipIdx] at hl
  refine ⟨hl, ?_⟩
  intro n d hd
  obtain ⟨p, hp, he⟩ := mapM_index h hd
  rw [List.getElem?_zipIdx] at hp
  obtain ⟨m, hm, rfl⟩ := Option.map_eq_some_iff.mp hp
  obtain ⟨v, hv, he⟩ := Res.bind_eq_ok.mp he
  cases he
  simp only [Nat.zero_add] at hv ⊢
  refine ⟨trivial, hm, ?_⟩
  unfold domId at hv
  cases hst : m.get (chars! "state") with
  | ok st =>
    rw [hst] at hv
    simp only at hv
    cases hdi : st.get (chars! "domain_id") with
    | ok x =>
      rw [hdi] at hv
      cases x with
      | ints ty l =>
        cases l with
        | nil => cases hv
        | cons a l =>
          cases hv
          exact .inl ⟨st, ty, a, l, rfl, hdi, rfl⟩
      | _ => cases hv; exact .inr rfl
    | _ => rw [hdi] at hv; cases hv; exact .inr rfl
  | _ => rw [hst] at hv; cases hv; exact .inr rfl

/-! ### cases -/

namespace Case

def A : Arith Int := { zero := 0, one := 1, ofInt := id, ofInt32 := id, lin := fun o d s => o + d * s, narrow := id, trunc := id }
def s (x : List Char) : BNode Int := .str x
def i (l : List Int) : BNode Int := .ints int64 l
def o (l : List (Str × BNode Int)) : BNode Int := .obj l

/-- A grid of `a` by `b` cells. -/
def uni (a b : Int) : BNode Int := o [(chars! "coordsets", o [(chars! "c", o [(chars! "type", s (chars! "uniform")),
    (chars! "dims", o [(chars! "i", i [a + 1]), (chars! "j", i [b + 1])])])]),
  (chars! "topologies", o [(chars! "t", o [(chars! "type", s (chars! "uniform")), (chars! "coordset", s (chars! "c"))])])]

def csets (x : List Int) : Str × BNode Int :=
  (chars! "coordsets", o [(chars! "c", o [(chars! "type", s (chars! "explicit")), (chars! "values", o [(chars! "x", i x)])])])

def topos (c : List Int) : Str × BNode Int :=
  (chars! "topologies", o [(chars! "t", o [(chars! "type", s (chars! "unstructured")), (chars! "coordset", s (chars! "c")),
    (chars! "elements", o [(chars! "shape", s (chars! "line")), (chars! "connectivity", i c)])])])

def fields (v : List Int) : Str × BNode Int :=
  (chars! "fields", o [(chars! "f", o [(chars! "association", s (chars! "element")), (chars! "topology", s (chars! "t")), (chars! "values", i v)])])

/-- Three lines in a row, two of them, one, none. -/
def three : BNode Int := o [csets [0, 1, 2, 3], topos [0, 1, 1, 2, 2, 3]]
def two : BNode Int := o [csets [0, 1, 2], topos [0, 1, 1, 2]]
def none_ : BNode Int := o [csets [0, 1, 2], topos []]

/-- Three lines with a field. -/
def marked (v : List Int) : BNode Int := o [csets [0, 1, 2, 3], topos [0, 1, 1, 2, 2, 3], fields v]

def target (n : Int) : BNode Int := o [(chars! "target", i [n])]
def byField : BNode Int := o [(chars! "type", s (chars! "field")), (chars! "domain_id", s (chars! "any")), (chars! "field", s (chars! "f"))]

/-- The grid has elements as the theorems ask, and so have the lines. -/
theorem uni_has : HasElements A (uni 3 2) 6 :=
  ⟨_, _, _, _, ⟨3, 2, 1⟩, chars! "c", _, _, true, 6, rfl, rfl, rfl, rfl, rfl, by decide +kernel, by decide +kernel, by decide, by decide, by decide, by decide,
    by decide +kernel, by decide⟩

theorem three_has : HasElements A three 3 :=
  ⟨_, _, _, _, ⟨3, 1, 1⟩, chars! "c", _, _, false, 3, rfl, rfl, rfl, rfl, rfl, by decide +kernel, by decide +kernel, by decide, by decide, by decide, by decide,
    by decide +kernel, by decide⟩

/-- Both domains to five. -/
example : ∃ out, plan A 5 (.list [three, uni 3 2]) (target 5) = .ok (some (some out)) ∧
    Spread 5 (domainElements (F := Int) ⟨0, 0, three⟩ 3 ++ domainElements (F := Int) ⟨1, 1, uni 3 2⟩ 6) out := by
  have := C92_all_partial A (mesh := .list [three, uni 3 2]) (opts := target 5) (doms := [⟨0, 0, three⟩, ⟨1, 1, uni 3 2⟩]) (t := some 5)
    (ns := fun d => if d.idx = 0 then 3 else 6) (fuel := 5) rfl (by simp) (by
      intro d hd
      rcases List.mem_cons.mp hd with rfl | hd
      · exact three_has
      · rw [List.mem_singleton.mp hd]
        exact uni_has) (by decide) rfl (by decide) (by decide) (by decide) (by decide)
  simpa using this

/-- The output domains of a plan with their elements. -/
def shown (r : Res (Option (Option (List (Int × List Piece))))) : Option (List (Int × List (Nat × Int))) :=
  match r with
  | .ok (some (some out)) => some (out.map fun p => (p.1, piecesElements p.2))
  | _ => none

/-- The plan itself. -/
example : shown (plan A 5 (.list [three, uni 3 2]) (target 5)) =
    some [(0, [(0, 0), (0, 1)]), (1, [(0, 2)]), (2, [(1, 0), (1, 3)]), (3, [(1, 1), (1, 4)]), (4, [(1, 2), (1, 5)])] := by decide +kernel

/-- And to one. -/
example : shown (plan A 5 (.list [three, two]) (target 1)) = some [(0, [(0, 0), (0, 1), (0, 2), (1, 0), (1, 1)])] := by decide +kernel

/-- And to less than one. -/
example : optTarget A (target (-3)) = .ok (some 0) ∧
    shown (plan A 5 (.list [three, two]) (target (-3))) = some [(0, [(0, 0), (0, 1), (0, 2), (1, 0), (1, 1)])] := by decide +kernel

/-- A box of more than one cell meets what is asked in C90 and C91, as do numbers and a range. -/
example : Inside A (uni 3 2) ⟨none, 0, [], false, .logical ⟨1, 0, 0⟩ ⟨2, 1, 0⟩⟩ :=
  ⟨_, rfl, ⟨3, 2, 1⟩, by decide +kernel, by decide⟩
example : Inside A three ⟨none, 0, [], false, .explicit [2, 0]⟩ :=
  ⟨_, rfl, by decide, by decide, 3, by decide +kernel, by decide⟩
example : Inside A three ⟨none, 0, [], false, .ranges [(1, 2)]⟩ :=
  ⟨_, rfl, _, 3, rfl, by decide +kernel, by decide⟩

/-- Numbers in the options. -/
example : ∃ ss, initPlan A three (o [(chars! "selections", .list [o [(chars! "type", s (chars! "explicit")), (chars! "elements", i [2, 0])]]),
    (chars! "target", i [2])]) = .ok (some (ss, 2)) ∧ ss ≠ [] ∧ (∀ p ∈ ss, Inside A p.2.mesh p.1 ∧ p.1.whole ≠ some true ∧
      ∃ m, allLengths A p.2.mesh = .ok m ∧ 1 ≤ m) ∧ 2 ≤ (elementsOfAll A ss).length := by
  refine ⟨[(⟨none, 0, [], false, .explicit [2, 0]⟩, ⟨0, 0, three⟩)], rfl, by simp, ?_, by decide +kernel⟩
  intro p hp
  rw [List.mem_singleton.mp hp]
  exact ⟨⟨_, rfl, by decide, by decide, 3, by decide +kernel, by decide⟩, by decide, 3, by decide +kernel, by decide⟩

/-- A field of two domains meets what is asked in C92. -/
example : initSel A byField (chars! "field") = .ok (some ⟨none, 0, [], true, .field (chars! "f") none none⟩) ∧
    fieldApplies ⟨none, 0, [], true, .field (chars! "f") none none⟩ (chars! "f") (marked [4, 1, 4]) = .ok true ∧
    fieldValues A (chars! "f") (marked [4, 1, 4]) = .ok [4, 1, 4] := by decide +kernel
example : shown (plan A 1 (.list [marked [4, 1, 4], marked [1, 1, 0]]) (o [(chars! "selections", .list [byField])])) =
    some [(0, [(1, 2)]), (1, [(0, 1), (1, 0), (1, 1)]), (4, [(0, 0), (0, 2)])] := by decide +kernel

/-- Chunks of which some have a domain. -/
example : mapChunks 4 [(3, -1), (2, 0), (5, -1), (1, 2)] = .ok [1, 0, 3, 2] := by decide +kernel
example : mapChunks 2 [(3, -1), (2, -1), (5, -1), (1, -1)] = .ok [0, 0, 1, 1] := by decide +kernel

/-! ### what does not hold -/

/-- Two ranges of one element each are split into both and none. -/
theorem C90_halves_false : ¬ ∀ (r : List (Int × Int)) (ps : List Kind), 2 ≤ rangesLength r → splitRanges r = ps →
    ∀ k ∈ ps, k ≠ .ranges [] := by
  intro h
  exact h [(0, 0), (2, 2)] _ (by decide) rfl (.ranges []) (by decide) rfl

/-- So an output domain may be empty, though there are enough elements. -/
theorem C92_ranges_false : shown (plan A 5 three (o [(chars! "selections", .list [o [(chars! "type", s (chars! "ranges")),
    (chars! "ranges", i [0, 0, 2, 2])]]), (chars! "target", i [2])])) = some [(0, [(0, 0), (0, 2)]), (1, [])] := by decide +kernel

/-- More domains wanted than there are elements: some are empty, and not the last ones. -/
theorem C92_many_false : shown (plan A 9 two (target 4)) = some [(0, [(0, 0)]), (1, []), (2, []), (3, [(0, 1)])] := by decide +kernel

/-- On a grid the splitting goes on for ever. -/
theorem C91_grid_false : ∀ fuel, plan A fuel (uni 1 1) (target 2) = .ok none := by
  apply C92_hangs A (ss := [(⟨some true, 0, chars! "t", false, .logical ⟨0, 0, 0⟩ ⟨0, 0, 0⟩⟩, ⟨0, 0, uni 1 1⟩)]) (target := 2) (by rfl) (by simp)
  · intro p hp
    rw [List.mem_singleton.mp hp]
    exact ⟨⟨_, rfl, ⟨1, 1, 1⟩, by decide +kernel, by decide⟩, _, _, rfl⟩
  · decide +kernel

/-- No elements in the selection: `selections[-1]`. -/
theorem C91_empty_false : plan A 5 three (o [(chars! "selections", .list [o [(chars! "type", s (chars! "explicit")), (chars! "elements", i [])]]),
    (chars! "target", i [2])]) = .ub := by rfl

/-- A last domain without elements is an output domain of its own. -/
theorem C92_last_false : shown (plan A 5 (.list [three, two, none_]) (target 1)) =
    some [(0, [(0, 0), (0, 1), (0, 2), (1, 0), (1, 1)]), (1, [])] := by decide +kernel

/-- The value -1 is taken for none, and values that differ by 2^32 are one domain. -/
theorem C92_minus_false : shown (plan A 5 (marked [0, -1, 0]) (o [(chars! "selections", .list [byField])])) =
    some [(0, [(0, 0), (0, 2)]), (1, [(0, 1)])] := by decide +kernel
theorem C92_wide_false : shown (plan A 5 (marked [0, 4294967296, 1]) (o [(chars! "selections", .list [byField])])) =
    some [(0, [(0, 0), (0, 1)]), (1, [(0, 2)])] := by decide +kernel

/-- A smaller target is not heeded when the domains are named. -/
theorem C92_named_false : shown (plan A 5 (marked [4, 1, 2]) (o [(chars! "selections", .list [byField]), (chars! "target", i [1])])) =
    some [(1, [(0, 1)]), (2, [(0, 2)]), (4, [(0, 0)])] := by decide +kernel

end Case

end Conduit.Part
