import Verif.Lemmas.NodeSync8
/-
C34: `swap` exchanges two subtrees.
-/
namespace Conduit
open Spec Node Heap

namespace HT

theorem subsL_eq : ∀ cs : List HT, subsL cs = cs.flatMap subs
  | [] => rfl
  | c :: cs => by rw [subsL, subsL_eq cs]; rfl
theorem mem_subsL {F : List HT} {A : HT} : A ∈ subsL F ↔ ∃ t ∈ F, A ∈ t.subs := by rw [subsL_eq, List.mem_flatMap]
theorem self_subs : ∀ t : HT, t ∈ t.subs
  | mk n s x k cs => by simp [subs]

mutual
theorem subs_nid : ∀ t : HT, t.subs.map nid = t.nids
  | mk n s x k cs => by rw [subs, List.map_cons, subsL_nid cs, nids]; rfl
theorem subsL_nid : ∀ cs : List HT, (subsL cs).map nid = nidsL cs
  | [] => rfl
  | c :: cs => by rw [subsL, List.map_append, subs_nid c, subsL_nid cs, nidsL]
end
mutual
theorem subs_sid : ∀ t : HT, t.subs.map sid = t.sids
  | mk n s x k cs => by rw [subs, List.map_cons, subsL_sid cs, sids]; rfl
theorem subsL_sid : ∀ cs : List HT, (subsL cs).map sid = sidsL cs
  | [] => rfl
  | c :: cs => by rw [subsL, List.map_append, subs_sid c, subsL_sid cs, sidsL]
end

mutual
theorem subs_trans : ∀ (t : HT) {B A : HT}, B ∈ t.subs → A ∈ B.subs → A ∈ t.subs
  | mk n s x k cs, B, A, hB, hA => by
    rw [subs, List.mem_cons] at hB
    rcases hB with rfl | hB
    · exact hA
    · rw [subs, List.mem_cons]; exact .inr (subsL_trans cs hB hA)
theorem subsL_trans : ∀ (cs : List HT) {B A : HT}, B ∈ subsL cs → A ∈ B.subs → A ∈ subsL cs
  | [], _, _, hB, _ => by simp [subsL] at hB
  | c :: cs, B, A, hB, hA => by
    rw [subsL, List.mem_append] at hB ⊢
    rcases hB with hB | hB
    · exact .inl (subs_trans c hB hA)
    · exact .inr (subsL_trans cs hB hA)
end

theorem cs_subs : ∀ (t : HT) {c : HT}, c ∈ t.cs → c ∈ t.subs
  | mk n s x k cs, c, hc => by
    rw [subs, List.mem_cons, mem_subsL]
    exact .inr ⟨c, hc, self_subs c⟩

/-- where a subtree is -/
theorem sub_good {h : Heap} {L : Prop} : ∀ (T : HT) (pn ps : Option Nat) (own : Bool), Good h L pn ps own T → ∀ A ∈ T.subs,
    A = T ∨ ∃ Q ∈ T.subs, A ∈ Q.cs ∧ Good h L (some Q.nid) (some Q.sid) false A
  | mk n s x k cs, pn, ps, own, g, A, hA => by
    rw [subs, List.mem_cons] at hA
    rcases hA with hA | hA
    · exact .inl hA
    · right
      obtain ⟨c, hc, hAc⟩ := mem_subsL.1 hA
      have : sizeOf c < sizeOf (mk n s x k cs) := by
        have := List.sizeOf_lt_of_mem hc
        simp only [mk.sizeOf_spec]; omega
      have gc := g.child hc
      rcases sub_good c _ _ _ gc A hAc with rfl | ⟨Q, hQ, h1, h2⟩
      · exact ⟨mk n s x k cs, self_subs _, hc, gc⟩
      · exact ⟨Q, subs_trans _ (cs_subs (mk n s x k cs) hc) hQ, h1, h2⟩
termination_by T => sizeOf T

end HT

open HT
namespace Inv
variable {L : Prop} {U : List Nat} {h : Heap} {F : List HT}

theorem place (v : Inv L U h F) {A : HT} (hA : A ∈ subsL F) :
    (A ∈ F ∧ Good h L none none true A) ∨ ∃ Q ∈ subsL F, A ∈ Q.cs ∧ Good h L (some Q.nid) (some Q.sid) false A := by
  obtain ⟨T, hT, hAT⟩ := mem_subsL.1 hA
  rcases sub_good T _ _ _ (v.good hT) A hAT with rfl | ⟨Q, hQ, h1, h2⟩
  · exact .inl ⟨hT, v.good hT⟩
  · exact .inr ⟨Q, mem_subsL.2 ⟨T, hT, hQ⟩, h1, h2⟩

theorem goodAt (v : Inv L U h F) {A : HT} (hA : A ∈ subsL F) : ∃ pn ps own, Good h L pn ps own A := by
  rcases v.place hA with ⟨_, g⟩ | ⟨Q, _, _, g⟩ <;> exact ⟨_, _, _, g⟩

theorem inj_sid (v : Inv L U h F) {A B : HT} (hA : A ∈ subsL F) (hB : B ∈ subsL F) (e : A.sid = B.sid) : A = B := by
  have := v.nodupS
  rw [← subsL_sid] at this
  exact List.inj_on_of_nodup_map this hA hB e
theorem inj_nid (v : Inv L U h F) {A B : HT} (hA : A ∈ subsL F) (hB : B ∈ subsL F) (e : A.nid = B.nid) : A = B := by
  have := v.nodupN
  rw [← subsL_nid] at this
  exact List.inj_on_of_nodup_map this hA hB e

/-- inside by schema numbers is inside by node numbers -/
theorem in_sid (v : Inv L U h F) {A B : HT} (hA : A ∈ subsL F) (hB : B ∈ subsL F) (e : B.sid ∈ A.sids) : B.nid ∈ A.nids := by
  rw [← subs_sid, List.mem_map] at e
  obtain ⟨C, hC, e⟩ := e
  rw [← v.inj_sid (subsL_trans F hA hC) hB e, ← subs_nid]
  exact List.mem_map_of_mem hC

theorem schema_sub (v : Inv L U h F) {i : Nat} {o : SObj} (e : h.schemas i = some o) :
    ∃ Q ∈ subsL F, Q.sid = i ∧ ∃ ps, o = ⟨Q.kind, Q.cs.map sid, ps⟩ := by
  have hi := v.allS i (by rw [e]; rfl)
  rw [← subsL_sid, List.mem_map] at hi
  obtain ⟨Q, hQ, rfl⟩ := hi
  obtain ⟨pn, ps, own, g⟩ := v.goodAt hQ
  have := g.root.getS
  rw [this] at e
  injection e with e
  exact ⟨Q, hQ, rfl, ps, e.symm⟩

theorem kids_nodup (v : Inv L U h F) {Q : HT} (hQ : Q ∈ subsL F) : (Q.cs.map sid).Nodup ∧ (Q.cs.map nid).Nodup := by
  obtain ⟨pn, ps, own, g⟩ := v.goodAt hQ
  have g := g.root
  have h1 := g.listS.1
  have h2 := g.listN.1
  have key : ∀ (f : HT → List Nat) (e : HT → Nat) (he : ∀ t, e t ∈ f t) (l : List HT), (l.flatMap f).Nodup → (l.map e).Nodup := by
    intro f e he l hl
    induction l with
    | nil => simp
    | cons c cs ih =>
      rw [List.flatMap_cons, List.nodup_append] at hl
      rw [List.map_cons, List.nodup_cons]
      refine ⟨fun hc => ?_, ih hl.2.1⟩
      obtain ⟨d, hd, e1⟩ := List.mem_map.1 hc
      exact hl.2.2 _ (he c) _ (List.mem_flatMap.2 ⟨d, hd, he d⟩) e1.symm
  rw [sidsL_eq] at h1
  rw [nidsL_eq] at h2
  exact ⟨key sids sid sid_mem _ h1, key nids nid nid_mem _ h2⟩

/-- the place of a subtree, and who points to it -/
theorem owner (v : Inv L U h F) {A : HT} (hA : A ∈ subsL F) :
    ∃ own q ps, h.nodes A.nid = some ⟨A.sid, own, q, A.cs.map nid, A.info⟩ ∧ q.isSome = !own ∧
      h.schemas A.sid = some ⟨A.kind, A.cs.map sid, ps⟩ ∧
      ((own = true ∧ ps = none ∧ ∀ i o, h.schemas i = some o → A.sid ∉ o.children) ∨
       (own = false ∧ ∃ Q ∈ subsL F, A ∈ Q.cs ∧ ps = some Q.sid ∧ ∀ i o, h.schemas i = some o → A.sid ∈ o.children → i = Q.sid)) := by
  -- a schema with `A.sid` among its children
  have up : ∀ i o, h.schemas i = some o → A.sid ∈ o.children → ∃ Q ∈ subsL F, Q.sid = i ∧ A ∈ Q.cs := by
    intro i o e hm
    obtain ⟨Q, hQ, rfl, ps, rfl⟩ := v.schema_sub e
    obtain ⟨C, hC, e1⟩ := List.mem_map.1 hm
    have := v.inj_sid (subsL_trans F hQ (cs_subs Q hC)) hA e1
    subst this
    exact ⟨Q, hQ, rfl, hC⟩
  have childGood : ∀ Q ∈ subsL F, A ∈ Q.cs → Good h L (some Q.nid) (some Q.sid) false A := by
    intro Q hQ hc
    obtain ⟨pn, ps, own, g⟩ := v.goodAt hQ
    exact g.root.child hc
  rcases v.place hA with ⟨_, g⟩ | ⟨Q, hQ, hc, g⟩
  · obtain ⟨q, hq, hq1, _⟩ := g.root.get
    refine ⟨true, q, none, hq, hq1, g.root.getS, .inl ⟨rfl, rfl, fun i o e hm => ?_⟩⟩
    obtain ⟨Q, hQ, _, hc⟩ := up i o e hm
    obtain ⟨q', hq', _⟩ := (childGood Q hQ hc).root.get
    rw [hq] at hq'
    injection hq' with hq'
    injection hq' with _ hq'
    cases hq'
  · obtain ⟨q, hq, hq1, _⟩ := g.root.get
    refine ⟨false, q, some Q.sid, hq, hq1, g.root.getS, .inr ⟨rfl, Q, hQ, hc, rfl, fun i o e hm => ?_⟩⟩
    obtain ⟨Q', hQ', e1, hc'⟩ := up i o e hm
    have := (childGood Q' hQ' hc').root.getS
    rw [g.root.getS] at this
    injection this with this
    injection this with _ _ this
    injection this with this
    rw [← e1, this]

end Inv

/-! ### the calls -/

namespace Heap

/-- all child vectors of schemas changed by `f` -/
def mapC (f : Nat → Nat) (h : Heap) : Heap :=
  { h with schemas := fun i => (h.schemas i).map fun o => { o with children := o.children.map f } }

@[simp] theorem mapC_nodes (f : Nat → Nat) (h : Heap) : (mapC f h).nodes = h.nodes := rfl
@[simp] theorem mapC_mem (f : Nat → Nat) (h : Heap) : (mapC f h).mem = h.mem := rfl
@[simp] theorem mapC_nextN (f : Nat → Nat) (h : Heap) : (mapC f h).nextN = h.nextN := rfl
@[simp] theorem mapC_nextS (f : Nat → Nat) (h : Heap) : (mapC f h).nextS = h.nextS := rfl
theorem mapC_schemas (f : Nat → Nat) (h : Heap) (i : Nat) :
    (mapC f h).schemas i = (h.schemas i).map fun o => { o with children := o.children.map f } := rfl

end Heap

/-- `x` for `y` -/
def ren (x y : Nat) (j : Nat) : Nat := if j = x then y else j
/-- `x` and `y` exchanged -/
def sw (x y : Nat) (j : Nat) : Nat := if j = x then y else if j = y then x else j

theorem findIdx_nodup {l : List Nat} {x : Nat} (hx : x ∈ l) : ∃ i, l.findIdx? (· == x) = some i ∧ l[i]? = some x := by
  cases e : l.findIdx? (· == x) with
  | none =>
    rw [List.findIdx?_eq_none_iff] at e
    have := e x hx
    simp at this
  | some i =>
    obtain ⟨h1, h2, _⟩ := List.findIdx?_eq_some_iff_getElem.1 e
    refine ⟨i, rfl, ?_⟩
    rw [List.getElem?_eq_getElem h1]
    simpa using h2

theorem set_ren {l : List Nat} {x y i : Nat} (hn : l.Nodup) (hi : l[i]? = some x) : l.set i y = l.map (ren x y) := by
  apply List.ext_getElem?
  intro m
  rw [List.getElem?_set, List.getElem?_map]
  by_cases hm : i = m
  · subst hm
    have hl : i < l.length := (List.getElem?_eq_some_iff.1 hi).1
    rw [if_pos rfl, if_pos hl, hi]
    simp [ren]
  · rw [if_neg hm]
    cases e : l[m]? with
    | none => rfl
    | some z =>
      have : z ≠ x := by
        intro hc
        subst hc
        exact hm ((List.getElem?_inj (List.getElem?_eq_some_iff.1 hi).1 hn).1 (hi.trans e.symm))
      simp [ren, this]

theorem map_ren_out {l : List Nat} {x y : Nat} (h : x ∉ l) : l.map (ren x y) = l := by
  conv => rhs; rw [← List.map_id l]
  refine List.map_congr_left fun j hj => ?_
  have : j ≠ x := fun hc => h (hc ▸ hj)
  simp [ren, this]

/-- after `x` was renamed to `y`: the first `y` becomes `x` -/
theorem set_sw {l : List Nat} {x y j : Nat} (hn : l.Nodup) (hxy : x ≠ y) (hj : l[j]? = some y) (hi : ∀ i, l[i]? = some x → j < i) :
    (l.map (ren x y)).findIdx? (· == y) = some j ∧ (l.map (ren x y)).set j x = l.map (sw x y) := by
  have hjl := (List.getElem?_eq_some_iff.1 hj).1
  constructor
  · rw [List.findIdx?_eq_some_iff_getElem]
    refine ⟨by simpa using hjl, ?_, ?_⟩
    · have : l[j] = y := (List.getElem?_eq_some_iff.1 hj).2
      rw [List.getElem_map, this]
      simp [ren, Ne.symm hxy]
    · intro m hm
      have hml : m < l.length := by omega
      simp only [List.getElem_map, beq_iff_eq]
      have h1 : l[m] ≠ x := fun hc => by
        have := hi m (List.getElem?_eq_some_iff.2 ⟨hml, hc⟩)
        omega
      have h2 : l[m] ≠ y := fun hc => by
        have := (List.getElem?_inj hml hn).1 ((List.getElem?_eq_some_iff.2 ⟨hml, hc⟩).trans hj.symm)
        omega
      simp [ren, h1, h2]
  · apply List.ext_getElem?
    intro m
    rw [List.getElem?_set, List.getElem?_map, List.getElem?_map]
    by_cases hm : j = m
    · subst hm
      rw [if_pos rfl, if_pos (by simpa using hjl), hj]
      simp [sw, Ne.symm hxy]
    · rw [if_neg hm]
      cases e : l[m]? with
      | none => rfl
      | some z =>
        have : z ≠ y := by
          intro hc
          subst hc
          exact hm ((List.getElem?_inj hjl hn).1 (hj.trans e.symm))
        simp [ren, sw, this]

theorem map_sw_ren {l : List Nat} {x y : Nat} (h : y ∉ l) : l.map (sw x y) = l.map (ren x y) := by
  refine List.map_congr_left fun j hj => ?_
  have : j ≠ y := fun hc => h (hc ▸ hj)
  simp [ren, sw, this]

theorem map_sw_out {l : List Nat} {x y : Nat} (h1 : x ∉ l) (h2 : y ∉ l) : l.map (sw x y) = l := by
  rw [map_sw_ren h2, map_ren_out h1]

namespace Inv
variable {L : Prop} {U : List Nat} {h : Heap} {F : List HT} {A B : HT}

theorem relink1 (v : Inv L U h F) (hA : A ∈ subsL F) (y : Nat) : relink h A.nid A.sid y = .ok (mapC (ren A.sid y) h) := by
  obtain ⟨own, q, ps, e1, e2, e3, e4⟩ := v.owner hA
  rw [relink, getN_some e1]
  simp only [Res.bind_ok]
  rcases e4 with ⟨rfl, rfl, out⟩ | ⟨rfl, Q, hQ, hc, rfl, uniq⟩
  · cases q with
    | some _ => cases e2
    | none =>
      simp only
      congr 1
      refine ext' (fun _ => rfl) (fun i => ?_) rfl rfl rfl
      rw [mapC_schemas]
      cases e : h.schemas i with
      | none => rfl
      | some o => rw [Option.map_some, map_ren_out (out i o e)]
  · cases q with
    | none => cases e2
    | some _ =>
      simp only
      rw [getS_some e3]
      simp only [Res.bind_ok]
      obtain ⟨pn, psQ, ownQ, gQ⟩ := v.goodAt hQ
      have eQ := gQ.root.getS
      rw [replaceChild, getS_some eQ]
      simp only [Res.bind_ok]
      obtain ⟨i, f1, f2⟩ := findIdx_nodup (l := Q.cs.map sid) (x := A.sid) (List.mem_map_of_mem hc)
      rw [f1]
      simp only
      congr 1
      refine ext' (fun _ => rfl) (fun j => ?_) rfl rfl rfl
      rw [mapC_schemas, putS_schemas]
      split
      · rename_i hj
        rw [hj, eQ, Option.map_some, set_ren (v.kids_nodup hQ).1 f2]
      · rename_i hj
        cases e : h.schemas j with
        | none => rfl
        | some o =>
          rw [Option.map_some, map_ren_out fun hm => hj (uniq j o e hm)]

theorem relink2 (v : Inv L U h F) (hA : A ∈ subsL F) (hB : B ∈ subsL F) (hAB : A.sid ≠ B.sid)
    (hp : ∀ Q ∈ subsL F, A ∈ Q.cs → B ∈ Q.cs → ∀ i j : Nat, (Q.cs.map sid)[i]? = some A.sid → (Q.cs.map sid)[j]? = some B.sid → j < i) :
    relink (mapC (ren A.sid B.sid) h) B.nid B.sid A.sid = .ok (mapC (sw A.sid B.sid) h) := by
  obtain ⟨own, q, ps, e1, e2, e3, e4⟩ := v.owner hB
  rw [relink, getN_some (h := mapC (ren A.sid B.sid) h) e1]
  simp only [Res.bind_ok]
  rcases e4 with ⟨rfl, rfl, out⟩ | ⟨rfl, Q, hQ, hc, rfl, uniq⟩
  · cases q with
    | some _ => cases e2
    | none =>
      simp only
      congr 1
      refine ext' (fun _ => rfl) (fun i => ?_) rfl rfl rfl
      rw [mapC_schemas, mapC_schemas]
      cases e : h.schemas i with
      | none => rfl
      | some o => rw [Option.map_some, Option.map_some, map_sw_ren (out i o e)]
  · cases q with
    | none => cases e2
    | some _ =>
      simp only
      rw [getS_some (h := mapC (ren A.sid B.sid) h) (o := ⟨B.kind, (B.cs.map sid).map (ren A.sid B.sid), some Q.sid⟩)
        (by rw [mapC_schemas, e3]; rfl)]
      simp only [Res.bind_ok]
      obtain ⟨pn, psQ, ownQ, gQ⟩ := v.goodAt hQ
      have eQ := gQ.root.getS
      rw [replaceChild, getS_some (h := mapC (ren A.sid B.sid) h) (o := ⟨Q.kind, (Q.cs.map sid).map (ren A.sid B.sid), psQ⟩)
        (by rw [mapC_schemas, eQ]; rfl)]
      simp only [Res.bind_ok]
      obtain ⟨j, _, f2⟩ := findIdx_nodup (l := Q.cs.map sid) (x := B.sid) (List.mem_map_of_mem hc)
      obtain ⟨f3, f4⟩ := set_sw (v.kids_nodup hQ).1 hAB f2 fun i hi => by
        have hm := List.mem_of_getElem? hi
        obtain ⟨C, hC, e⟩ := List.mem_map.1 hm
        have := v.inj_sid (subsL_trans F hQ (cs_subs Q hC)) hA e
        subst this
        exact hp Q hQ hC hc i j hi f2
      rw [f3]
      simp only
      rw [f4]
      congr 1
      refine ext' (fun _ => rfl) (fun i => ?_) rfl rfl rfl
      rw [putS_schemas, mapC_schemas, mapC_schemas]
      split
      · rename_i hj
        rw [hj, eQ, Option.map_some]
      · rename_i hj
        cases e : h.schemas i with
        | none => rfl
        | some o =>
          rw [Option.map_some, Option.map_some, map_sw_ren fun hm => hj (uniq i o e hm)]

/-- what `swap` does to the objects -/
structure Swapped (h : Heap) (A B : HT) (h' : Heap) : Prop where
  nodes : ∀ i, i ≠ A.nid → i ≠ B.nid → h'.nodes i = h.nodes i
  nodeA : ∀ o, h.nodes A.nid = some o → h'.nodes A.nid = some { o with schema := B.sid, children := B.cs.map nid, info := B.info }
  nodeB : ∀ o, h.nodes B.nid = some o → h'.nodes B.nid = some { o with schema := A.sid, children := A.cs.map nid, info := A.info }
  schemas : ∀ i, i ≠ A.sid → i ≠ B.sid → h'.schemas i = (mapC (sw A.sid B.sid) h).schemas i
  schemaA : ∀ oa ob, h.schemas A.sid = some oa → h.schemas B.sid = some ob →
    h'.schemas A.sid = some ⟨oa.kind, oa.children.map (sw A.sid B.sid), ob.parent⟩
  schemaB : ∀ oa ob, h.schemas A.sid = some oa → h.schemas B.sid = some ob →
    h'.schemas B.sid = some ⟨ob.kind, ob.children.map (sw A.sid B.sid), oa.parent⟩
  nextN : h'.nextN = h.nextN
  nextS : h'.nextS = h.nextS
  mem : h'.mem = h.mem

theorem swapped (v : Inv L U h F) (hA : A ∈ subsL F) (hB : B ∈ subsL F) (hAB : A ≠ B)
    (hp : ∀ Q ∈ subsL F, A ∈ Q.cs → B ∈ Q.cs → ∀ i j : Nat, (Q.cs.map sid)[i]? = some A.sid → (Q.cs.map sid)[j]? = some B.sid → j < i) :
    ∃ h', swapN h A.nid B.nid = .ok h' ∧ Swapped h A B h' := by
  have hs : A.sid ≠ B.sid := fun hc => hAB (v.inj_sid hA hB hc)
  have hn : A.nid ≠ B.nid := fun hc => hAB (v.inj_nid hA hB hc)
  obtain ⟨own, q, ps, e1, e2, e3, e4⟩ := v.owner hA
  obtain ⟨own', q', ps', e1', e2', e3', e4'⟩ := v.owner hB
  refine ⟨(((((mapC (sw A.sid B.sid) h).putS A.sid (some ⟨A.kind, (A.cs.map sid).map (sw A.sid B.sid), ps'⟩)).putS B.sid
    (some ⟨B.kind, (B.cs.map sid).map (sw A.sid B.sid), ps⟩)).putN A.nid (some ⟨B.sid, own, q, B.cs.map nid, B.info⟩)).putN B.nid
    (some ⟨A.sid, own', q', A.cs.map nid, A.info⟩)), ?_, ?_⟩
  · rw [swapN, getN_some e1]
    simp only [Res.bind_ok]
    rw [getN_some e1']
    simp only [Res.bind_ok]
    rw [v.relink1 hA B.sid]
    simp only [Res.bind_ok]
    rw [v.relink2 hA hB hs hp]
    simp only [Res.bind_ok]
    rw [getS_some (h := mapC (sw A.sid B.sid) h) (o := ⟨A.kind, (A.cs.map sid).map (sw A.sid B.sid), ps⟩) (by rw [mapC_schemas, e3]; rfl)]
    simp only [Res.bind_ok]
    rw [getS_some (h := mapC (sw A.sid B.sid) h) (o := ⟨B.kind, (B.cs.map sid).map (sw A.sid B.sid), ps'⟩) (by rw [mapC_schemas, e3']; rfl)]
    rfl
  · refine ⟨fun i h1 h2 => ?_, fun o ho => ?_, fun o ho => ?_, fun i h1 h2 => ?_, fun oa ob h1 h2 => ?_, fun oa ob h1 h2 => ?_, rfl, rfl, rfl⟩
    · rw [putN_nodes, if_neg h2, putN_nodes, if_neg h1]; rfl
    · rw [e1] at ho
      injection ho with ho
      subst ho
      rw [putN_nodes, if_neg hn, putN_nodes, if_pos rfl]
    · rw [e1'] at ho
      injection ho with ho
      subst ho
      rw [putN_nodes, if_pos rfl]
    · simp only [putN_schemas, putS_schemas]
      rw [if_neg h2, if_neg h1]
    · rw [e3] at h1
      rw [e3'] at h2
      injection h1 with h1
      injection h2 with h2
      subst h1 h2
      simp only [putN_schemas, putS_schemas]
      rw [if_neg hs, if_pos trivial]
    · rw [e3] at h1
      rw [e3'] at h2
      injection h1 with h1
      injection h2 with h2
      subst h1 h2
      simp only [putN_schemas, putS_schemas]
      rw [if_pos trivial]

/-! ### the trees afterwards -/

theorem HNL_weak {h : Heap} {L : Prop} : ∀ (cs : List HT) (pn pn' : Option Nat), HNL h L pn cs → HNL h False pn' cs := by
  intro cs
  refine HT.rec_1 (motive_1 := fun t => ∀ (pn pn' : Option Nat) (own : Bool), HN h L pn own t → HN h False pn' own t)
    (motive_2 := fun cs => ∀ (pn pn' : Option Nat), HNL h L pn cs → HNL h False pn' cs) ?_ ?_ ?_ cs
  · intro n s x k cs ih pn pn' own hh
    rw [HN] at hh ⊢
    obtain ⟨⟨q, h1, h2, _⟩, h4⟩ := hh
    exact ⟨⟨q, h1, h2, False.elim⟩, ih _ _ h4⟩
  · intro _ _ _; trivial
  · intro c cs ih1 ih2 pn pn' hh
    rw [HNL] at hh ⊢
    exact ⟨ih1 _ _ _ hh.1, ih2 _ _ hh.2⟩

theorem exch_nid (A B : HT) : ∀ t : HT, (exch A B t).nid = t.nid
  | HT.mk n s x k cs => by
    rw [exch]
    split
    · rfl
    · split <;> rfl
theorem exchL_nid (A B : HT) : ∀ cs : List HT, (exchL A B cs).map nid = cs.map nid
  | [] => rfl
  | c :: cs => by rw [exchL, List.map_cons, List.map_cons, exch_nid, exchL_nid A B cs]
theorem exchL_length (A B : HT) : ∀ cs : List HT, (exchL A B cs).length = cs.length
  | [] => rfl
  | c :: cs => by rw [exchL, List.length_cons, List.length_cons, exchL_length A B cs]
theorem exchL_eq (A B : HT) : ∀ cs : List HT, exchL A B cs = cs.map (exch A B)
  | [] => rfl
  | c :: cs => by rw [exchL, List.map_cons, exchL_eq A B cs]

/-- the situation: two subtrees, none inside the other -/
structure Two (v : Inv L U h F) (A B : HT) : Prop where
  inA : A ∈ subsL F
  inB : B ∈ subsL F
  nb : B.nid ∉ A.nids
  na : A.nid ∉ B.nids

variable {h' : Heap} {v : Inv L U h F}

theorem Two.ne (w : Two v A B) : A ≠ B := fun hc => w.nb (hc ▸ nid_mem _)
theorem Two.nne (w : Two v A B) : A.nid ≠ B.nid := fun hc => w.nb (hc ▸ nid_mem _)
theorem Two.sne (w : Two v A B) : A.sid ≠ B.sid := fun hc => w.ne (v.inj_sid w.inA w.inB hc)
theorem Two.sb (w : Two v A B) : B.sid ∉ A.sids := fun hc => w.nb (v.in_sid w.inA w.inB hc)
theorem Two.sa (w : Two v A B) : A.sid ∉ B.sids := fun hc => w.na (v.in_sid w.inB w.inA hc)
theorem Two.symm (w : Two v A B) : Two v B A := ⟨w.inB, w.inA, w.na, w.nb⟩

theorem mem_nids_root (t : HT) {i : Nat} (hi : i ∈ nidsL t.cs) : i ∈ t.nids := by
  obtain ⟨n, s, x, k, cs⟩ := t
  rw [nids, List.mem_cons]
  exact .inr hi
theorem mem_sids_root (t : HT) {i : Nat} (hi : i ∈ sidsL t.cs) : i ∈ t.sids := by
  obtain ⟨n, s, x, k, cs⟩ := t
  rw [sids, List.mem_cons]
  exact .inr hi

theorem root_notin (v : Inv L U h F) (hA : A ∈ subsL F) : A.nid ∉ nidsL A.cs ∧ A.sid ∉ sidsL A.cs := by
  obtain ⟨_, _, _, g⟩ := v.goodAt hA
  exact ⟨g.root.listN.2.2, g.root.listS.2.2⟩

theorem kidsN_at (v : Inv L U h F) (hA : A ∈ subsL F) : ∃ pn, HNL h L pn A.cs := by
  obtain ⟨_, _, _, g⟩ := v.goodAt hA
  exact ⟨_, g.root.kidsN⟩
theorem kidsS_at (v : Inv L U h F) (hA : A ∈ subsL F) : HSL h (some A.sid) A.cs := by
  obtain ⟨_, _, _, g⟩ := v.goodAt hA
  exact g.root.kidsS

mutual
theorem exch_HN (w : Two v A B) (hs : Swapped h A B h') : ∀ (T : HT) (pn : Option Nat) (own : Bool), T ∈ subsL F → HN h L pn own T →
    HN h' False pn own (exch A B T)
  | HT.mk n s x k cs, pn, own, hT, hh => by
    rw [HN] at hh
    obtain ⟨⟨q, h1, h2, _⟩, h4⟩ := hh
    rw [exch]
    split
    · rename_i e
      rw [HN]
      refine ⟨⟨q, ?_, h2, False.elim⟩, ?_⟩
      · rw [e] at h1 ⊢
        exact hs.nodeA _ h1
      · obtain ⟨p, hp⟩ := v.kidsN_at w.inB
        refine HNL_congr (HNL_weak _ _ _ hp) fun i hi => hs.nodes i ?_ ?_
        · exact fun hc => w.na (hc ▸ mem_nids_root B hi)
        · exact fun hc => (v.root_notin w.inB).1 (hc ▸ hi)
    · split
      · rename_i e
        rw [HN]
        refine ⟨⟨q, ?_, h2, False.elim⟩, ?_⟩
        · rw [e] at h1 ⊢
          exact hs.nodeB _ h1
        · obtain ⟨p, hp⟩ := v.kidsN_at w.inA
          refine HNL_congr (HNL_weak _ _ _ hp) fun i hi => hs.nodes i ?_ ?_
          · exact fun hc => (v.root_notin w.inA).1 (hc ▸ hi)
          · exact fun hc => w.nb (hc ▸ mem_nids_root A hi)
      · rename_i e1 e2
        rw [HN]
        refine ⟨⟨q, by rw [hs.nodes n e1 e2, h1, exchL_nid], h2, False.elim⟩, ?_⟩
        exact exchL_HN w hs cs _ (fun c hc => subsL_trans F hT (cs_subs (HT.mk n s x k cs) hc)) h4
theorem exchL_HN (w : Two v A B) (hs : Swapped h A B h') : ∀ (cs : List HT) (pn : Option Nat), (∀ c ∈ cs, c ∈ subsL F) → HNL h L pn cs →
    HNL h' False pn (exchL A B cs)
  | [], _, _, _ => trivial
  | c :: cs, pn, hin, hh => by
    rw [HNL] at hh
    rw [exchL, HNL]
    exact ⟨exch_HN w hs c _ _ (hin c (by simp)) hh.1, exchL_HN w hs cs _ (fun d hd => hin d (by simp [hd])) hh.2⟩
end

theorem kids_sid {y : Nat} {cs : List HT} (hy : y ∉ sidsL cs) : y ∉ cs.map sid := by
  intro hc
  obtain ⟨c, hm, e⟩ := List.mem_map.1 hc
  exact hy (mem_sidsL.2 ⟨c, hm, e ▸ sid_mem c⟩)

mutual
/-- schema objects of trees without `A` and `B` -/
theorem out_HS (hs : Swapped h A B h') : ∀ (T : HT) (ps : Option Nat), A.sid ∉ T.sids → B.sid ∉ T.sids → HS h ps T → HS h' ps T
  | HT.mk n s x k cs, ps, h1, h2, hh => by
    rw [HS] at hh ⊢
    rw [sids, List.mem_cons, not_or] at h1 h2
    refine ⟨?_, outL_HS hs cs _ h1.2 h2.2 hh.2⟩
    rw [hs.schemas s (Ne.symm h1.1) (Ne.symm h2.1), mapC_schemas, hh.1, Option.map_some, map_sw_out (kids_sid h1.2) (kids_sid h2.2)]
theorem outL_HS (hs : Swapped h A B h') : ∀ (cs : List HT) (ps : Option Nat), A.sid ∉ sidsL cs → B.sid ∉ sidsL cs → HSL h ps cs → HSL h' ps cs
  | [], _, _, _, _ => trivial
  | c :: cs, ps, h1, h2, hh => by
    rw [HSL] at hh ⊢
    rw [sidsL, List.mem_append, not_or] at h1 h2
    exact ⟨out_HS hs c _ h1.1 h2.1 hh.1, outL_HS hs cs _ h1.2 h2.2 hh.2⟩
end

theorem exch_sid (w : Two v A B) : ∀ T ∈ subsL F, (exch A B T).sid = sw A.sid B.sid T.sid
  | HT.mk n s x k cs, hT => by
    rw [exch]
    split
    · rename_i e
      have := v.inj_nid hT w.inA e
      rw [← this]
      simp [sw, HT.sid]
    · split
      · rename_i e
        have := v.inj_nid hT w.inB e
        have hne := w.sne
        rw [← this] at hne ⊢
        have hne' : s ≠ A.sid := Ne.symm hne
        change A.sid = sw A.sid s s
        rw [sw, if_neg hne', if_pos rfl]
      · rename_i e1 e2
        have h1 : s ≠ A.sid := fun hc => e1 (congrArg nid (v.inj_sid hT w.inA hc))
        have h2 : s ≠ B.sid := fun hc => e2 (congrArg nid (v.inj_sid hT w.inB hc))
        change s = sw A.sid B.sid s
        rw [sw, if_neg h1, if_neg h2]

mutual
theorem exch_HS (w : Two v A B) (hs : Swapped h A B h') : ∀ (T : HT) (ps : Option Nat), T ∈ subsL F → HS h ps T → HS h' ps (exch A B T)
  | HT.mk n s x k cs, ps, hT, hh => by
    rw [HS] at hh
    obtain ⟨h1, h2⟩ := hh
    obtain ⟨_, _, psA, _, _, eA, _⟩ := v.owner w.inA
    obtain ⟨_, _, psB, _, _, eB, _⟩ := v.owner w.inB
    rw [exch]
    split
    · rename_i e
      have e' := v.inj_nid hT w.inA e
      have hsA : s = A.sid := congrArg sid e'
      rw [hsA] at h1
      have hps : psA = ps := by
        rw [eA] at h1
        injection h1 with h1
        injection h1
      rw [HS]
      refine ⟨?_, ?_⟩
      · rw [hs.schemaB _ _ eA eB]
        simp only [hps]
        rw [map_sw_out (kids_sid fun hc => w.sa (mem_sids_root B hc)) (kids_sid (v.root_notin w.inB).2)]
      · exact outL_HS hs _ _ (fun hc => w.sa (mem_sids_root B hc)) (v.root_notin w.inB).2 (v.kidsS_at w.inB)
    · split
      · rename_i e
        have e' := v.inj_nid hT w.inB e
        have hsB : s = B.sid := congrArg sid e'
        rw [hsB] at h1
        have hps : psB = ps := by
          rw [eB] at h1
          injection h1 with h1
          injection h1
        rw [HS]
        refine ⟨?_, ?_⟩
        · rw [hs.schemaA _ _ eA eB]
          simp only [hps]
          rw [map_sw_out (kids_sid (v.root_notin w.inA).2) (kids_sid fun hc => w.sb (mem_sids_root A hc))]
        · exact outL_HS hs _ _ (v.root_notin w.inA).2 (fun hc => w.sb (mem_sids_root A hc)) (v.kidsS_at w.inA)
      · rename_i e1 e2
        have n1 : s ≠ A.sid := fun hc => e1 (congrArg nid (v.inj_sid hT w.inA hc))
        have n2 : s ≠ B.sid := fun hc => e2 (congrArg nid (v.inj_sid hT w.inB hc))
        have hin : ∀ c ∈ cs, c ∈ subsL F := fun c hc => subsL_trans F hT (cs_subs (HT.mk n s x k cs) hc)
        rw [HS]
        refine ⟨?_, exchL_HS w hs cs _ hin h2⟩
        rw [hs.schemas s n1 n2, mapC_schemas, h1, Option.map_some, exchL_eq, List.map_map, List.map_map]
        congr 2
        exact List.map_congr_left fun c hc => (exch_sid w c (hin c hc)).symm
theorem exchL_HS (w : Two v A B) (hs : Swapped h A B h') : ∀ (cs : List HT) (ps : Option Nat), (∀ c ∈ cs, c ∈ subsL F) → HSL h ps cs →
    HSL h' ps (exchL A B cs)
  | [], _, _, _ => trivial
  | c :: cs, ps, hin, hh => by
    rw [HSL] at hh
    rw [exchL, HSL]
    exact ⟨exch_HS w hs c _ (hin c (by simp)) hh.1, exchL_HS w hs cs _ (fun d hd => hin d (by simp [hd])) hh.2⟩
end

theorem KindOK_len {k : Kind} {a b : List HT} (h : KindOK k a) (e : b.length = a.length) : KindOK k b := by
  cases k with
  | leaf d =>
    refine ⟨?_, h.2⟩
    rw [h.1] at e
    exact List.eq_nil_of_length_eq_zero e
  | obj names => exact ⟨by rw [e]; exact h.1, h.2⟩
  | lst => trivial

mutual
theorem exch_Shape {A B : HT} (hA : Shape A) (hB : Shape B) : ∀ T : HT, Shape T → Shape (exch A B T)
  | HT.mk n s x k cs, hh => by
    rw [Shape] at hh
    rw [exch]
    split
    · cases B; rw [Shape] at hB ⊢; exact hB
    · split
      · cases A; rw [Shape] at hA ⊢; exact hA
      · rw [Shape]
        exact ⟨KindOK_len hh.1 (exchL_length A B cs), exchL_Shape hA hB cs hh.2⟩
theorem exchL_Shape {A B : HT} (hA : Shape A) (hB : Shape B) : ∀ cs : List HT, ShapeL cs → ShapeL (exchL A B cs)
  | [], _ => trivial
  | c :: cs, hh => by
    rw [ShapeL] at hh
    rw [exchL, ShapeL]
    exact ⟨exch_Shape hA hB c hh.1, exchL_Shape hA hB cs hh.2⟩
end

mutual
theorem exch_Clean {A B : HT} (hA : HT.Clean A) (hB : HT.Clean B) : ∀ T : HT, HT.Clean T → HT.Clean (exch A B T)
  | HT.mk n s x k cs, hh => by
    rw [HT.Clean] at hh
    rw [exch]
    split
    · cases B; rw [HT.Clean] at hB ⊢; exact hB
    · split
      · cases A; rw [HT.Clean] at hA ⊢; exact hA
      · rw [HT.Clean]
        exact ⟨hh.1, exchL_Clean hA hB cs hh.2⟩
theorem exchL_Clean {A B : HT} (hA : HT.Clean A) (hB : HT.Clean B) : ∀ cs : List HT, HT.CleanL cs → HT.CleanL (exchL A B cs)
  | [], _ => trivial
  | c :: cs, hh => by
    rw [HT.CleanL] at hh
    rw [exchL, HT.CleanL]
    exact ⟨exch_Clean hA hB c hh.1, exchL_Clean hA hB cs hh.2⟩
end

/-! ### counting -/

mutual
/-- what the nodes of a tree have, together -/
def meas (g : Nat → Nat → Info → List Nat) : HT → List Nat
  | HT.mk n s x _ cs => g n s x ++ measL g cs
def measL (g : Nat → Nat → Info → List Nat) : List HT → List Nat
  | [] => []
  | c :: cs => meas g c ++ measL g cs
end

mutual
theorem meas_nids : ∀ t : HT, meas (fun n _ _ => [n]) t = t.nids
  | HT.mk n s x k cs => by rw [meas, measL_nids cs, nids]; rfl
theorem measL_nids : ∀ cs : List HT, measL (fun n _ _ => [n]) cs = nidsL cs
  | [] => rfl
  | c :: cs => by rw [measL, meas_nids c, measL_nids cs, nidsL]
end
mutual
theorem meas_sids : ∀ t : HT, meas (fun _ s _ => [s]) t = t.sids
  | HT.mk n s x k cs => by rw [meas, measL_sids cs, sids]; rfl
theorem measL_sids : ∀ cs : List HT, measL (fun _ s _ => [s]) cs = sidsL cs
  | [] => rfl
  | c :: cs => by rw [measL, meas_sids c, measL_sids cs, sidsL]
end
mutual
theorem meas_blks : ∀ t : HT, meas (fun _ _ x => ownB x) t = t.blks
  | HT.mk n s x k cs => by rw [meas, measL_blks cs, blks]
theorem measL_blks : ∀ cs : List HT, measL (fun _ _ x => ownB x) cs = blksL cs
  | [] => rfl
  | c :: cs => by rw [measL, meas_blks c, measL_blks cs, blksL]
end

mutual
theorem exch_count (g : Nat → Nat → Info → List Nat) (w : Two v A B) (i : Nat) : ∀ T ∈ subsL F,
    (meas g (exch A B T)).count i + (T.nids.count A.nid * (meas g A).count i + T.nids.count B.nid * (meas g B).count i) =
    (meas g T).count i + (T.nids.count A.nid * (meas g (HT.mk A.nid B.sid B.info B.kind B.cs)).count i +
      T.nids.count B.nid * (meas g (HT.mk B.nid A.sid A.info A.kind A.cs)).count i)
  | HT.mk n s x k cs, hT => by
    rw [exch]
    split
    · rename_i e
      have e' := v.inj_nid hT w.inA e
      rw [e', e, List.count_eq_one_of_mem _ (nid_mem A), List.count_eq_zero_of_not_mem w.nb]
      · omega
      · obtain ⟨_, _, _, gA⟩ := v.goodAt w.inA
        exact gA.nodupN
    · split
      · rename_i e
        have e' := v.inj_nid hT w.inB e
        rw [e', e, List.count_eq_one_of_mem _ (nid_mem B), List.count_eq_zero_of_not_mem w.na]
        · omega
        · obtain ⟨_, _, _, gB⟩ := v.goodAt w.inB
          exact gB.nodupN
      · rename_i e1 e2
        have ih := exchL_count g w i cs fun c hc => subsL_trans F hT (cs_subs (HT.mk n s x k cs) hc)
        rw [meas, meas, List.count_append, List.count_append, nids, List.count_cons_of_ne e1, List.count_cons_of_ne e2]
        omega
theorem exchL_count (g : Nat → Nat → Info → List Nat) (w : Two v A B) (i : Nat) : ∀ cs : List HT, (∀ c ∈ cs, c ∈ subsL F) →
    (measL g (exchL A B cs)).count i + ((nidsL cs).count A.nid * (meas g A).count i + (nidsL cs).count B.nid * (meas g B).count i) =
    (measL g cs).count i + ((nidsL cs).count A.nid * (meas g (HT.mk A.nid B.sid B.info B.kind B.cs)).count i +
      (nidsL cs).count B.nid * (meas g (HT.mk B.nid A.sid A.info A.kind A.cs)).count i)
  | [], _ => by simp [exchL, measL, nidsL]
  | c :: cs, hin => by
    have h1 := exch_count g w i c (hin c (by simp))
    have h2 := exchL_count g w i cs fun d hd => hin d (by simp [hd])
    rw [exchL, measL, measL, nidsL, List.count_append, List.count_append, List.count_append, List.count_append]
    simp only [Nat.add_mul]
    omega
end

theorem exch_total (g : Nat → Nat → Info → List Nat) (w : Two v A B) (i : Nat) :
    (measL g (exchL A B F)).count i + ((meas g A).count i + (meas g B).count i) =
    (measL g F).count i + ((meas g (HT.mk A.nid B.sid B.info B.kind B.cs)).count i +
      (meas g (HT.mk B.nid A.sid A.info A.kind A.cs)).count i) := by
  have := exchL_count g w i F fun c hc => mem_subsL.2 ⟨c, hc, self_subs c⟩
  rw [List.count_eq_one_of_mem v.nodupN, List.count_eq_one_of_mem v.nodupN] at this
  · omega
  · rw [← subsL_nid]; exact List.mem_map_of_mem w.inB
  · rw [← subsL_nid]; exact List.mem_map_of_mem w.inA

theorem meas_root (g : Nat → Nat → Info → List Nat) (t : HT) : meas g t = g t.nid t.sid t.info ++ measL g t.cs := by
  cases t; rw [meas]; rfl

/-- the same objects and blocks as before -/
theorem exch_nids (w : Two v A B) : (nidsL (exchL A B F)).Perm (nidsL F) := by
  rw [List.perm_iff_count]
  intro i
  have := exch_total (fun n _ _ => [n]) w i
  rw [meas_root _ A, meas_root _ B, meas, meas] at this
  simp only [measL_nids, List.count_append] at this
  omega
theorem exch_sids (w : Two v A B) : (sidsL (exchL A B F)).Perm (sidsL F) := by
  rw [List.perm_iff_count]
  intro i
  have := exch_total (fun _ s _ => [s]) w i
  rw [meas_root _ A, meas_root _ B, meas, meas] at this
  simp only [measL_sids, List.count_append] at this
  omega
theorem exch_blks (w : Two v A B) : (blksL (exchL A B F)).Perm (blksL F) := by
  rw [List.perm_iff_count]
  intro i
  have := exch_total (fun _ _ x => ownB x) w i
  rw [meas_root _ A, meas_root _ B, meas, meas] at this
  simp only [measL_blks, List.count_append] at this
  omega

/-- `swap`: for siblings the receiver must come after the argument -/
theorem swap (v : Inv L U h F) (hA : A ∈ subsL F) (hB : B ∈ subsL F) (nb : B.nid ∉ A.nids) (na : A.nid ∉ B.nids)
    (hp : ∀ n o (i j : Nat), h.nodes n = some o → o.children[i]? = some A.nid → o.children[j]? = some B.nid → j < i) :
    ∃ h', swapN h A.nid B.nid = .ok h' ∧ Inv False U h' (exchL A B F) := by
  have w : Two v A B := ⟨hA, hB, nb, na⟩
  obtain ⟨h', e, hs⟩ := v.swapped hA hB w.ne (by
    intro Q hQ cA cB i j hi hj
    obtain ⟨_, q, _, eQ, _⟩ := v.owner hQ
    refine hp _ _ i j eQ ?_ ?_
    · rw [List.getElem?_map, Option.map_eq_some_iff] at hi ⊢
      obtain ⟨C, hC, e⟩ := hi
      exact ⟨C, hC, by rw [v.inj_sid (subsL_trans F hQ (cs_subs Q (List.mem_of_getElem? hC))) hA e]⟩
    · rw [List.getElem?_map, Option.map_eq_some_iff] at hj ⊢
      obtain ⟨C, hC, e⟩ := hj
      exact ⟨C, hC, by rw [v.inj_sid (subsL_trans F hQ (cs_subs Q (List.mem_of_getElem? hC))) hB e]⟩)
  have inF : ∀ c ∈ F, c ∈ subsL F := fun c hc => mem_subsL.2 ⟨c, hc, self_subs c⟩
  obtain ⟨_, _, _, gA⟩ := v.goodAt hA
  obtain ⟨_, _, _, gB⟩ := v.goodAt hB
  refine ⟨h', e, fun t ht => ?_, fun t ht => ?_, fun t ht => ?_, fun t ht => ?_, (exch_nids w).nodup_iff.2 v.nodupN, (exch_sids w).nodup_iff.2 v.nodupS,
    ((exch_blks w).append_right U).nodup_iff.2 v.nodupB, ⟨fun i hi => ?_, fun i hi => ?_⟩, fun i hi => ?_, fun i hi => ?_, fun i => ?_⟩
  · rw [exchL_eq, List.mem_map] at ht
    obtain ⟨c, hc, rfl⟩ := ht
    exact exch_HN w hs c _ _ (inF c hc) (v.holdsN c hc)
  · rw [exchL_eq, List.mem_map] at ht
    obtain ⟨c, hc, rfl⟩ := ht
    exact exch_HS w hs c _ (inF c hc) (v.holdsS c hc)
  · rw [exchL_eq, List.mem_map] at ht
    obtain ⟨c, hc, rfl⟩ := ht
    exact exch_Shape gA.shape gB.shape c (v.shape c hc)
  · rw [exchL_eq, List.mem_map] at ht
    obtain ⟨c, hc, rfl⟩ := ht
    exact exch_Clean gA.clean gB.clean c (v.clean c hc)
  · rw [hs.nextN] at hi
    have l1 := gA.ltN _ (nid_mem A)
    have l2 := gB.ltN _ (nid_mem B)
    rw [hs.nodes i (by omega) (by omega)]
    exact v.bounded.nodes i hi
  · rw [hs.nextS] at hi
    have l1 := gA.ltS _ (sid_mem A)
    have l2 := gB.ltS _ (sid_mem B)
    rw [hs.schemas i (by omega) (by omega), mapC_schemas, v.bounded.schemas i hi]
    rfl
  · rw [(exch_nids w).mem_iff]
    by_cases h1 : i = A.nid
    · rw [h1, ← subsL_nid]; exact List.mem_map_of_mem hA
    · by_cases h2 : i = B.nid
      · rw [h2, ← subsL_nid]; exact List.mem_map_of_mem hB
      · rw [hs.nodes i h1 h2] at hi
        exact v.allN i hi
  · rw [(exch_sids w).mem_iff]
    by_cases h1 : i = A.sid
    · rw [h1, ← subsL_sid]; exact List.mem_map_of_mem hA
    · by_cases h2 : i = B.sid
      · rw [h2, ← subsL_sid]; exact List.mem_map_of_mem hB
      · rw [hs.schemas i h1 h2, mapC_schemas, Option.isSome_map] at hi
        exact v.allS i hi
  · rw [blk_congr hs.mem, v.allB i]
    exact ((exch_blks w).append_right U).mem_iff.symm

end Inv

end Conduit
