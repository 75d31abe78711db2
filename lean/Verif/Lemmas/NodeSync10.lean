import Verif.Lemmas.NodeSync9
import Verif.Lemmas.ResMonad
/-
C33-C35: reading a tree; `move`; calls that take a path.
-/
namespace Conduit
open Spec Node Heap HT

namespace HT

mutual
/-- the objects determine the tree -/
theorem unique {h h' : Heap} {L L' : Prop} : ∀ (t t' : HT) (pn pn' ps ps' : Option Nat) (own own' : Bool), HN h L pn own t → HS h ps t →
    HN h' L' pn' own' t' → HS h' ps' t' → (∀ i ∈ t.nids, h'.nodes i = h.nodes i) → (∀ i ∈ t.sids, h'.schemas i = h.schemas i) →
    t'.nid = t.nid → t' = t
  | mk n s x k cs, mk n' s' x' k' cs', pn, pn', ps, ps', own, own', h1, h2, h1', h2', fN, fS, e => by
    change n' = n at e
    subst e
    rw [HN] at h1 h1'
    obtain ⟨⟨q, a1, _⟩, b1⟩ := h1
    obtain ⟨⟨q', a1', _⟩, b1'⟩ := h1'
    rw [fN n' (by simp [nids]), a1] at a1'
    injection a1' with a1'
    injection a1' with e1 e2 e3 e4 e5
    subst e1 e5
    rw [HS] at h2 h2'
    have a2' := h2'.1
    rw [fS s (by simp [sids]), h2.1] at a2'
    injection a2' with a2'
    injection a2' with f1 f2 f3
    subst f1
    rw [uniqueL cs cs' _ _ _ _ b1 h2.2 b1' h2'.2 (fun i hi => fN i (by simp [nids, hi])) (fun i hi => fS i (by simp [sids, hi])) e4.symm]
theorem uniqueL {h h' : Heap} {L L' : Prop} : ∀ (cs cs' : List HT) (pn pn' ps ps' : Option Nat), HNL h L pn cs → HSL h ps cs →
    HNL h' L' pn' cs' → HSL h' ps' cs' → (∀ i ∈ nidsL cs, h'.nodes i = h.nodes i) → (∀ i ∈ sidsL cs, h'.schemas i = h.schemas i) →
    cs'.map nid = cs.map nid → cs' = cs
  | [], [], _, _, _, _, _, _, _, _, _, _, _ => rfl
  | [], c :: cs', _, _, _, _, _, _, _, _, _, _, e => by simp at e
  | c :: cs, [], _, _, _, _, _, _, _, _, _, _, e => by simp at e
  | c :: cs, c' :: cs', pn, pn', ps, ps', h1, h2, h1', h2', fN, fS, e => by
    rw [HNL] at h1 h1'
    rw [HSL] at h2 h2'
    rw [List.map_cons, List.map_cons] at e
    injection e with e1 e2
    rw [unique c c' _ _ _ _ _ _ h1.1 h2.1 h1'.1 h2'.1 (fun i hi => fN i (by simp [nidsL, hi])) (fun i hi => fS i (by simp [sidsL, hi])) e1,
      uniqueL cs cs' _ _ _ _ h1.2 h2.2 h1'.2 h2'.2 (fun i hi => fN i (by simp [nidsL, hi])) (fun i hi => fS i (by simp [sidsL, hi])) e2]
end

theorem nid_of_sub {T A : HT} (h : A ∈ T.subs) {i : Nat} (hi : i ∈ A.nids) : i ∈ T.nids := by
  rw [← subs_nid, List.mem_map] at hi ⊢
  obtain ⟨C, hC, e⟩ := hi
  exact ⟨C, subs_trans T h hC, e⟩
theorem nid_of_subL {F : List HT} {A : HT} (h : A ∈ subsL F) {i : Nat} (hi : i ∈ A.nids) : i ∈ nidsL F := by
  rw [← subs_nid] at hi
  rw [← subsL_nid]
  obtain ⟨C, hC, e⟩ := List.mem_map.1 hi
  exact List.mem_map.2 ⟨C, subsL_trans F h hC, e⟩

mutual
/-- two subtrees have nothing in common unless one is inside the other -/
theorem apart : ∀ (T A B : HT), T.nids.Nodup → A ∈ T.subs → B ∈ T.subs → (∃ i, i ∈ A.nids ∧ i ∈ B.nids) → A ∈ B.subs ∨ B ∈ A.subs
  | mk n s x k cs, A, B, hn, hA, hB, hi => by
    have hA' := hA
    have hB' := hB
    rw [subs, List.mem_cons] at hA hB
    rcases hA with rfl | hA
    · exact .inr hB'
    · rcases hB with rfl | hB
      · exact .inl hA'
      · rw [nids, List.nodup_cons] at hn
        exact apartL cs A B hn.2 hA hB hi
theorem apartL : ∀ (cs : List HT) (A B : HT), (nidsL cs).Nodup → A ∈ subsL cs → B ∈ subsL cs → (∃ i, i ∈ A.nids ∧ i ∈ B.nids) →
    A ∈ B.subs ∨ B ∈ A.subs
  | [], _, _, _, hA, _, _ => by simp [subsL] at hA
  | c :: cs, A, B, hn, hA, hB, hi => by
    rw [subsL, List.mem_append] at hA hB
    rw [nidsL] at hn
    have hd := List.nodup_append.1 hn
    rcases hA with hA | hA <;> rcases hB with hB | hB
    · exact apart c A B hd.1 hA hB hi
    · obtain ⟨i, h1, h2⟩ := hi
      exact absurd rfl (hd.2.2 i (nid_of_sub hA h1) i (nid_of_subL hB h2))
    · obtain ⟨i, h1, h2⟩ := hi
      exact absurd rfl (hd.2.2 i (nid_of_sub hB h2) i (nid_of_subL hA h1))
    · exact apartL cs A B hd.2.1 hA hB hi
end

mutual
/-- reading the objects gives the tree -/
theorem readN_spec {h : Heap} {L : Prop} : ∀ (t : HT) (f : Nat) (pn ps : Option Nat) (own : Bool), HN h L pn own t → HS h ps t → Shape t →
    t.nids.length ≤ f → readN f h t.nid = .ok t.toNode
  | mk n s x k cs, f, pn, ps, own, h1, h2, h3, hf => by
    cases f with
    | zero => simp [nids] at hf
    | succ f =>
      rw [HN] at h1
      rw [HS] at h2
      rw [Shape] at h3
      obtain ⟨⟨q, a1, _⟩, b1⟩ := h1
      rw [nids, List.length_cons] at hf
      have e := readL_spec cs f _ _ b1 h2.2 h3.2 (by omega)
      rw [readN, show (mk n s x k cs).nid = n from rfl, getN_some a1]
      simp only [Res.bind_ok]
      rw [getS_some h2.1]
      simp only [Res.bind_ok]
      rw [e]
      simp only [Res.bind_ok]
      cases k <;> rfl
theorem readL_spec {h : Heap} {L : Prop} : ∀ (cs : List HT) (f : Nat) (pn ps : Option Nat), HNL h L pn cs → HSL h ps cs → ShapeL cs →
    (nidsL cs).length ≤ f → (cs.map nid).mapM (readN f h) = .ok (toNodeL cs)
  | [], f, pn, ps, _, _, _, _ => by simp [toNodeL, Res.pure_def]
  | c :: cs, f, pn, ps, h1, h2, h3, hf => by
    rw [HNL] at h1
    rw [HSL] at h2
    rw [ShapeL] at h3
    rw [nidsL, List.length_append] at hf
    rw [List.map_cons, List.mapM_cons, readN_spec c f _ _ _ h1.1 h2.1 h3.1 (by omega)]
    simp only [Res.bind_ok]
    rw [readL_spec cs f _ _ h1.2 h2.2 h3.2 (by omega)]
    rfl
end

theorem Good.read {h : Heap} {L : Prop} {pn ps : Option Nat} {own : Bool} {t : HT} (g : Good h L pn ps own t) :
    readN h.nextN h t.nid = .ok t.toNode :=
  readN_spec t _ _ _ _ g.node g.schema g.shape g.lenN

mutual
theorem toNode_SchOK : ∀ (t : HT), Shape t → SchOK t.toNode.schema
  | mk n s x (.leaf d) cs, h => by
    rw [Shape] at h
    exact h.1.2
  | mk n s x (.obj names) cs, h => by
    rw [Shape] at h
    rw [toNode, schema, SchOK, schemaE_names]
    have hl : names.length = (toNodeL cs).length := by rw [toNodeL_eq, List.length_map]; exact h.1.1
    refine ⟨?_, toNodeE_SchOK names cs h.2⟩
    rw [List.map_fst_zip (by omega)]
    exact h.1.2
  | mk n s x .lst cs, h => by
    rw [Shape] at h
    rw [toNode, schema, SchOK]
    exact toNodeL_SchOK cs h.2
theorem toNodeE_SchOK : ∀ (names : List Str) (cs : List HT), ShapeL cs → SchOKE (schemaE (names.zip (toNodeL cs)))
  | [], _, _ => trivial
  | _ :: _, [], _ => trivial
  | a :: names, c :: cs, h => by
    rw [ShapeL] at h
    rw [toNodeL, List.zip_cons_cons, schemaE, SchOKE]
    exact ⟨toNode_SchOK c h.1, toNodeE_SchOK names cs h.2⟩
theorem toNodeL_SchOK : ∀ (cs : List HT), ShapeL cs → SchOKL (schemaL (toNodeL cs))
  | [], _ => trivial
  | c :: cs, h => by
    rw [ShapeL] at h
    rw [toNodeL, schemaL, SchOKL]
    exact ⟨toNode_SchOK c h.1, toNodeL_SchOK cs h.2⟩
end

end HT

namespace Inv
variable {L : Prop} {U : List Nat} {h : Heap} {F : List HT} {A B : HT} {v : Inv L U h F}

mutual
/-- the exchanged trees are there -/
theorem exch_in (w : Two v A B) : ∀ T ∈ subsL F, A ∈ T.subs → HT.mk A.nid B.sid B.info B.kind B.cs ∈ (exch A B T).subs
  | HT.mk n s x k cs, hT, hA => by
    rw [exch]
    split
    · rename_i e
      rw [e]
      exact self_subs _
    · rename_i e1
      have hA' := hA
      rw [subs, List.mem_cons] at hA
      have hA := hA.resolve_left fun hc => e1 (by rw [hc]; rfl)
      split
      · rename_i e2
        have := v.inj_nid hT w.inB e2
        rw [this] at hA'
        exact absurd (nid_of_sub hA' (nid_mem A)) w.na
      · rw [subs, List.mem_cons]
        exact .inr (exchL_in w cs (fun c hc => subsL_trans F hT (cs_subs (HT.mk n s x k cs) hc)) hA)
theorem exchL_in (w : Two v A B) : ∀ cs : List HT, (∀ c ∈ cs, c ∈ subsL F) → A ∈ subsL cs →
    HT.mk A.nid B.sid B.info B.kind B.cs ∈ subsL (exchL A B cs)
  | [], _, hA => by simp [subsL] at hA
  | c :: cs, hin, hA => by
    rw [subsL, List.mem_append] at hA
    rw [exchL, subsL, List.mem_append]
    rcases hA with hA | hA
    · exact .inl (exch_in w c (hin c (by simp)) hA)
    · exact .inr (exchL_in w cs (fun d hd => hin d (by simp [hd])) hA)
end

mutual
theorem exch_symm (w : Two v A B) : ∀ T : HT, exch A B T = exch B A T
  | HT.mk n s x k cs => by
    have := w.nne
    rw [exch, exch, exchL_symm w cs]
    by_cases h1 : n = A.nid
    · rw [if_pos h1, if_neg (by omega), if_pos h1]
    · rw [if_neg h1, if_neg h1]
theorem exchL_symm (w : Two v A B) : ∀ cs : List HT, exchL A B cs = exchL B A cs
  | [] => rfl
  | c :: cs => by rw [exchL, exchL, exch_symm w c, exchL_symm w cs]
end

/-- the subtree of a live node -/
theorem find (v : Inv L U h F) {n : Nat} (hn : (h.nodes n).isSome) : ∃ A ∈ subsL F, A.nid = n := by
  have := v.allN n hn
  rw [← subsL_nid, List.mem_map] at this
  exact this

theorem swap_in (v : Inv L U h F) (hA : A ∈ subsL F) (hB : B ∈ subsL F) (nb : B.nid ∉ A.nids) (na : A.nid ∉ B.nids) :
    HT.mk A.nid B.sid B.info B.kind B.cs ∈ subsL (exchL A B F) ∧ HT.mk B.nid A.sid A.info A.kind A.cs ∈ subsL (exchL A B F) := by
  have w : Two v A B := ⟨hA, hB, nb, na⟩
  have hin : ∀ c ∈ F, c ∈ subsL F := fun c hc => mem_subsL.2 ⟨c, hc, self_subs c⟩
  refine ⟨exchL_in w F hin hA, ?_⟩
  rw [exchL_symm w]
  exact exchL_in w.symm F hin hB

/-- two subtrees, none inside the other, share nothing -/
theorem two_apart (v : Inv L U h F) (hA : A ∈ subsL F) (hB : B ∈ subsL F) (nb : B.nid ∉ A.nids) (na : A.nid ∉ B.nids) :
    (∀ i ∈ B.nids, i ∉ A.nids) ∧ (∀ i ∈ B.sids, i ∉ A.sids) := by
  have key : ∀ i ∈ B.nids, i ∉ A.nids := by
    intro i h1 h2
    rcases apartL F A B v.nodupN hA hB ⟨i, h2, h1⟩ with hc | hc
    · exact na (nid_of_sub hc (nid_mem A))
    · exact nb (nid_of_sub hc (nid_mem B))
  refine ⟨key, fun i h1 h2 => ?_⟩
  rw [← subs_sid, List.mem_map] at h1 h2
  obtain ⟨C, hC, e1⟩ := h1
  obtain ⟨D, hD, e2⟩ := h2
  have := v.inj_sid (subsL_trans F hB hC) (subsL_trans F hA hD) (e1.trans e2.symm)
  subst this
  exact key C.nid (nid_of_sub hC (nid_mem C)) (nid_of_sub hD (nid_mem C))

/-- `move` -/
theorem move (v : Inv L U h F) (hA : A ∈ subsL F) (hB : B ∈ subsL F) (nb : B.nid ∉ A.nids) (na : A.nid ∉ B.nids)
    (hp : ∀ n o (i j : Nat), h.nodes n = some o → o.children[i]? = some A.nid → o.children[j]? = some B.nid → j < i) :
    ∃ h' F' x, moveN h A.nid B.nid = .ok h' ∧ Inv False U h' F' ∧ F'.map nid = F.map nid ∧ x.alloced = false ∧
      HT.mk A.nid B.sid B.info B.kind B.cs ∈ subsL F' ∧ HT.mk B.nid A.sid x (.leaf {}) [] ∈ subsL F' := by
  obtain ⟨s, x, k, cs, pn, ps, own, g, c⟩ := v.sub' (n := A.nid) (by
    obtain ⟨_, _, _, e, _⟩ := v.owner hA
    rw [e]; rfl)
  obtain ⟨h1, x1, e1, hx, g1, s1⟩ := resetN_spec g
  obtain ⟨F1, v1, r1⟩ := c h1 _ g1 s1
  obtain ⟨pA, psA, oA, gA⟩ := v.goodAt hA
  obtain ⟨pB, psB, oB, gB⟩ := v.goodAt hB
  have eA : HT.mk A.nid s x k cs = A := unique A _ _ _ _ _ _ _ gA.node gA.schema g.node g.schema (fun _ _ => rfl) (fun _ _ => rfl) rfl
  rw [eA] at s1
  obtain ⟨d1, d2⟩ := v.two_apart hA hB nb na
  have fN : ∀ i ∈ B.nids, h1.nodes i = h.nodes i := fun i hi => s1.frameN i (gB.ltN i hi) (d1 i hi)
  have fS : ∀ i ∈ B.sids, h1.schemas i = h.schemas i := fun i hi => s1.frameS i (gB.ltS i hi) (d2 i hi)
  -- the two subtrees after `reset`
  obtain ⟨q1, hq1, _⟩ := g1.get
  obtain ⟨A', hA', eA'⟩ := v1.find (n := A.nid) (by rw [hq1]; rfl)
  obtain ⟨B', hB', eB'⟩ := v1.find (n := B.nid) (by rw [fN _ (nid_mem B)]; obtain ⟨_, _, _, e, _⟩ := v.owner hB; rw [e]; rfl)
  obtain ⟨_, _, _, gA'⟩ := v1.goodAt hA'
  obtain ⟨_, _, _, gB'⟩ := v1.goodAt hB'
  have uB : B' = B := unique B B' _ _ _ _ _ _ gB.node gB.schema gB'.node gB'.schema fN fS eB'
  have uA : A' = HT.mk A.nid s x1 (.leaf {}) [] :=
    unique _ A' _ _ _ _ _ _ g1.node g1.schema gA'.node gA'.schema (fun _ _ => rfl) (fun _ _ => rfl) eA'
  subst uB uA
  have hne : B'.nid ≠ A.nid := fun hc => nb (hc ▸ nid_mem A)
  have sA : s = A.sid := by rw [← eA]; rfl
  subst sA
  have nb' : B'.nid ∉ (HT.mk A.nid A.sid x1 (.leaf {}) []).nids := by simpa [nids, nidsL] using hne
  obtain ⟨h', e2, v2⟩ := v1.swap hA' hB' nb' na (by
    intro n o i j ho hi hj
    -- the vector of children was there before, or is empty
    by_cases hn : n = A.nid
    · subst hn
      rw [hq1] at ho
      injection ho with ho
      subst ho
      simp at hi
    · have hin : n ∉ A.nids := by
        intro hc
        have := s1.deadN n (.inl hc) (by simpa [nids, nidsL] using hn)
        rw [this] at ho
        cases ho
      have hlt : n < h1.nextN := by
        by_contra hc
        rw [v1.bounded.nodes n (by omega)] at ho
        cases ho
      have hlt2 : n < h.nextN := by
        by_contra hc
        have := s1.deadN n (.inr (by omega)) (by simpa [nids, nidsL] using hn)
        rw [this] at ho
        cases ho
      rw [s1.frameN n hlt2 hin] at ho
      exact hp n o i j ho hi hj)
  refine ⟨h', _, x1, ?_, v2, ?_, hx, v1.swap_in hA' hB' nb' na⟩
  · rw [moveN, e1]
    exact e2
  · rw [exchL_nid]
    exact r1

end Inv
end Conduit
