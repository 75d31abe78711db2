import Verif.Lemmas.NodeSync11
import Verif.Lemmas.NodeSet
/-
C33-C35: histories.
-/
namespace Conduit
open Spec Node Heap HT

theorem thrown_ok {r : Res Heap} {h h' : Heap} (e : Op.thrown r h = .ok h') : (r = .error ∧ h' = h) ∨ r = .ok h' := by
  unfold Op.thrown at e
  split at e
  · injection e with e; exact .inl ⟨rfl, e.symm⟩
  · exact .inr e

theorem ofId_nonneg (t : TypeId) {k : Int} (hk : 0 ≤ k) : 0 ≤ (DataType.ofId t k).spannedBytes := by
  rw [spanned_ofId]
  exact Int.mul_nonneg (by cases t <;> decide) hk

namespace Inv
variable {L : Prop} {U : List Nat} {h : Heap} {F : List HT}

theorem readOk (v : Inv L U h F) {n : Nat} {t : Node} (e : readN h.nextN h n = .ok t) : ∃ A ∈ subsL F, A.nid = n ∧ A.toNode = t := by
  have hn : (h.nodes n).isSome := by
    cases hf : h.nextN with
    | zero => rw [hf] at e; cases e
    | succ f =>
      rw [hf, readN, Res.bind_eq_ok] at e
      obtain ⟨o, ho, _⟩ := e
      exact live_of_get ho
  obtain ⟨A, hA, rfl⟩ := v.find hn
  obtain ⟨_, _, _, g⟩ := v.goodAt hA
  rw [g.read] at e
  injection e with e
  exact ⟨A, hA, rfl, e⟩

/-- what the user of a write does not change -/
theorem setter (v : Inv L U h F) {n : Nat} {d : DataType} (hd : 0 ≤ d.spannedBytes) {write : Info → DataType → Mem → Res Mem}
    (hw : ∀ x d m m', write x d m = .ok m' → SameB m m') {h' : Heap} (e : setWith d write h n = .ok h') :
    ∃ F', Inv L U h' F' ∧ F'.map nid = F.map nid := by
  have hn : (h.nodes n).isSome := by
    rw [setWith, Res.bind_eq_ok] at e
    obtain ⟨h1, e1, _⟩ := e
    rw [initN, Res.bind_eq_ok] at e1
    obtain ⟨o, ho, _⟩ := e1
    exact live_of_get ho
  obtain ⟨s, x, k, cs, pn, ps, own, g, c⟩ := v.sub' hn
  obtain ⟨t, g', st⟩ := setWith_spec g d (fun _ => hd) write hw e
  exact c h' t g' st

/-- the roots after a call -/
def roots (h : Heap) (R : List Nat) : Op → List Nat
  | .new => R ++ [h.nextN]
  | .destroy n => R.erase n
  | _ => R

set_option maxHeartbeats 1000000 in
theorem op (v : Inv L U h F) (op : Op) (ha : op.Allowed U h) {h' : Heap} (e : op.run h = .ok h') :
    ∃ F', Inv (L ∧ op.isSwap = false) (op.user h U) h' F' ∧ F'.map nid = roots h (F.map nid) op := by
  have lift : ∀ {h' : Heap} {U' : List Nat} {R : List Nat}, (∃ F', Inv L U' h' F' ∧ F'.map nid = R) →
      ∃ F', Inv (L ∧ op.isSwap = false) U' h' F' ∧ F'.map nid = R := by
    rintro h' U' R ⟨F', v', r⟩
    exact ⟨F', v'.mono And.left, r⟩
  cases op with
  | new =>
    injection e with e
    subst e
    exact lift ⟨_, v.newNode, by simp [roots, HT.nid, Heap.newNode, newN, newS]⟩
  | destroy n =>
    obtain ⟨o, ho, hown⟩ := ha
    obtain ⟨A, hA, rfl⟩ := v.find (n := n) (by rw [ho]; rfl)
    rcases v.place hA with ⟨hF, g⟩ | ⟨Q, hQ, _, g⟩
    · obtain ⟨pre, post, rfl⟩ := List.append_of_mem hF
      obtain ⟨h1, e1, v1⟩ := v.delete
      have e1' := e1.symm.trans e
      injection e1' with e1'
      subst e1'
      refine lift ⟨_, v1, ?_⟩
      have nd : ((pre ++ A :: post).map nid).Nodup := by
        have hN := v.nodupN
        rw [← subsL_nid] at hN
        refine hN.sublist ?_
        refine List.Sublist.map _ ?_
        generalize pre ++ A :: post = l
        induction l with
        | nil => simp
        | cons c cs ih =>
          cases c
          rw [subsL, subs, List.cons_append]
          exact List.Sublist.cons_cons _ (ih.trans (List.sublist_append_right _ _))
      simp only [roots, List.map_append, List.map_cons]
      rw [List.erase_append_right, List.erase_cons_head]
      intro hc
      simp only [List.map_append, List.map_cons] at nd
      exact (List.nodup_append.1 nd).2.2 _ hc _ (by simp) rfl
    · obtain ⟨q, hq, _⟩ := g.root.get
      rw [hq] at ho
      injection ho with ho
      subst ho
      cases hown
  | reset n =>
    have hn : (h.nodes n).isSome := by
      simp only [Op.run, resetN, releaseN, Res.bind_eq_ok] at e
      obtain ⟨_, ⟨o, ho, _⟩, _⟩ := e
      exact live_of_get ho
    obtain ⟨s, x, k, cs, pn, ps, own, g, c⟩ := v.sub' hn
    obtain ⟨h1, x1, e1, _, g1, s1⟩ := resetN_spec g
    have e' := e1.symm.trans e
    injection e' with e'
    subst e'
    exact lift (c _ _ g1 s1)
  | setScalar n t bytes =>
    rw [Op.run] at e
    exact lift (v.setter (d := DataType.ofId t 1) (ofId_nonneg t (by decide)) (fun x d m m' e => SameB.store e) e)
  | setVector n t elems =>
    rw [Op.run] at e
    exact lift (v.setter (d := DataType.ofId t elems.length) (ofId_nonneg t (by omega)) (fun x d m m' e => SameB.store e) e)
  | setArray n s src =>
    rw [Op.run] at e
    refine lift (v.setter (ofId_nonneg s.id ha) (fun x d m m' e => ?_) e)
    split at e
    · cases e
    · exact SameB.stridedCopy e
  | setString n text =>
    rw [Op.run] at e
    have := v.setter (ofId_nonneg .char8Str (Int.natCast_nonneg _)) (write := _) ?_ e
    · exact lift this
    intro x d m m' e
    split at e
    · exact SameB.store e
    · split at e
      · exact SameB.storeElems _ e
      · cases e
  | addChild n name =>
    simp only [Op.run, Res.bind_eq_ok] at e
    obtain ⟨r, e1, e2⟩ := e
    injection e2 with e2
    subst e2
    have hn : (h.nodes n).isSome := by
      simp only [addChildN, Res.bind_eq_ok] at e1
      obtain ⟨o, ho, _⟩ := e1
      exact live_of_get ho
    obtain ⟨r', F', e3, v', rr, _⟩ := v.addChild hn name ha
    rw [e1] at e3
    injection e3 with e3
    subst e3
    exact lift ⟨F', v', rr⟩
  | append n =>
    simp only [Op.run, Res.bind_eq_ok] at e
    obtain ⟨r, e1, e2⟩ := e
    injection e2 with e2
    subst e2
    have hn : (h.nodes n).isSome := by
      simp only [appendN, initN, Res.bind_eq_ok] at e1
      obtain ⟨_, ⟨o, ho, _⟩, _⟩ := e1
      exact live_of_get ho
    obtain ⟨s, x, k, cs, pn, ps, own, g, c⟩ := v.sub' hn
    obtain ⟨h1, x', ds, a, b, e3, _, g1, s1⟩ := appendN_spec g
    rw [e1] at e3
    injection e3 with e3
    subst e3
    exact lift (c _ _ g1 s1)
  | fetch n path =>
    simp only [Op.run, Res.bind_eq_ok] at e
    obtain ⟨r, e1, e2⟩ := e
    injection e2 with e2
    subst e2
    have hn : (h.nodes n).isSome := by
      cases hc : h.nodes n with
      | some _ => rfl
      | none =>
        rw [fetchN, dtypeN, getN, hc] at e1
        cases e1
    rcases fetch path.length path h F n (Nat.le_refl _) v hn with ⟨r', F', e3, v', rr, _⟩ | ⟨e3, _⟩
    · rw [e1] at e3
      injection e3 with e3
      subst e3
      exact lift ⟨F', v', rr⟩
    · rw [e1] at e3; cases e3
  | remove n idx =>
    have e0 := e
    simp only [Op.run, removeN, Res.bind_eq_ok] at e
    obtain ⟨o, ho, c, hc, _⟩ := e
    have hi : idx < o.children.length := by
      unfold Res.ofIdx at hc
      split at hc
      · rename_i a ha; exact (List.getElem?_eq_some_iff.1 ha).1
      · cases hc
    have ho' : h.nodes n = some o := by
      unfold getN at ho
      split at ho
      · rename_i h1; injection ho with ho; rw [h1, ho]
      · cases ho
    obtain ⟨h1, F', e3, v', rr⟩ := v.remove ho' hi
    have e' := e3.symm.trans e0
    injection e' with e'
    subst e'
    exact lift ⟨F', v', rr⟩
  | removeChild n name =>
    rcases thrown_ok e with ⟨_, rfl⟩ | e
    · exact lift ⟨F, v, rfl⟩
    · have hn : (h.nodes n).isSome := by
        simp only [removeChildN, Res.bind_eq_ok] at e
        obtain ⟨o, ho, _⟩ := e
        exact live_of_get ho
      rcases v.removeChild hn name with e3 | ⟨h1, F', e3, v', rr⟩
      · rw [e] at e3; cases e3
      · rw [e] at e3
        injection e3 with e3
        subst e3
        exact lift ⟨F', v', rr⟩
  | removePath n path =>
    rcases thrown_ok e with ⟨_, rfl⟩ | e
    · exact lift ⟨F, v, rfl⟩
    · have hn : (h.nodes n).isSome := by
        cases hc : h.nodes n with
        | some _ => rfl
        | none =>
          rw [removePathN, removeChildN, getN, hc] at e
          split at e <;> cases e
      rcases v.removePath path.length path n (Nat.le_refl _) hn with e3 | ⟨h1, F', e3, v', rr⟩
      · rw [e] at e3; cases e3
      · rw [e] at e3
        injection e3 with e3
        subst e3
        exact lift ⟨F', v', rr⟩
  | rename n cur name =>
    rcases thrown_ok e with ⟨_, rfl⟩ | e
    · exact lift ⟨F, v, rfl⟩
    · have hn : (h.nodes n).isSome := by
        simp only [renameN, Res.bind_eq_ok] at e
        obtain ⟨o, ho, _⟩ := e
        exact live_of_get ho
      obtain ⟨s, x, k, cs, pn, ps, own, g, c⟩ := v.sub' hn
      rcases renameN_spec g cur name with e3 | ⟨names, i, h1, _, _, _, e3, g1, s1⟩
      · rw [e] at e3; cases e3
      · rw [e] at e3
        injection e3 with e3
        subst e3
        exact lift (c _ _ g1 s1)
  | setSchema n s =>
    have hn : (h.nodes n).isSome := by
      simp only [Op.run, setSchemaN, releaseN, Res.bind_eq_ok] at e
      obtain ⟨_, ⟨o, ho, _⟩, _⟩ := e
      exact live_of_get ho
    obtain ⟨_, x, k, cs, pn, ps, own, g, c⟩ := v.sub' hn
    obtain ⟨h1, t, e1, g1, s1⟩ := setSchemaN_spec g s ha.1 ha.2.1 ha.2.2
    have e' := e1.symm.trans e
    injection e' with e'
    subst e'
    exact lift (c _ _ g1 s1)
  | setSchemaData n s data =>
    have hn : (h.nodes n).isSome := by
      simp only [Op.run, setSchemaDataN, releaseN, Res.bind_eq_ok] at e
      obtain ⟨_, ⟨o, ho, _⟩, _⟩ := e
      exact live_of_get ho
    obtain ⟨_, x, k, cs, pn, ps, own, g, c⟩ := v.sub' hn
    obtain ⟨t, g1, s1⟩ := setSchemaDataN_spec g s ha.1 ha.2.1 ha.2.2 data e
    exact lift (c _ _ g1 s1)
  | setExternalSchema n s data =>
    have hn : (h.nodes n).isSome := by
      simp only [Op.run, setExternalSchemaN, resetN, releaseN, Res.bind_eq_ok] at e
      obtain ⟨_, ⟨_, ⟨o, ho, _⟩, _⟩, _⟩ := e
      exact live_of_get ho
    obtain ⟨_, x, k, cs, pn, ps, own, g, c⟩ := v.sub' hn
    obtain ⟨h1, t, e1, g1, s1⟩ := setExternalSchemaN_spec g s ha data
    have e' := e1.symm.trans e
    injection e' with e'
    subst e'
    exact lift (c _ _ g1 s1)
  | setExternalPtr n d data =>
    have hn : (h.nodes n).isSome := by
      simp only [Op.run, setExternalPtrN, releaseN, Res.bind_eq_ok] at e
      obtain ⟨_, ⟨o, ho, _⟩, _⟩ := e
      exact live_of_get ho
    obtain ⟨_, x, k, cs, pn, ps, own, g, c⟩ := v.sub' hn
    obtain ⟨h1, t, e1, g1, s1⟩ := setExternalPtrN_spec g d data
    have e' := e1.symm.trans e
    injection e' with e'
    subst e'
    exact lift (c _ _ g1 s1)
  | setExternalNode n src =>
    simp only [Op.run, Res.bind_eq_ok] at e
    obtain ⟨t, e1, e⟩ := e
    obtain ⟨A, hA, _, rfl⟩ := v.readOk e1
    obtain ⟨_, _, _, gA⟩ := v.goodAt hA
    have hn : (h.nodes n).isSome := by
      simp only [setExternalNodeN, resetN, releaseN, Res.bind_eq_ok] at e
      obtain ⟨_, ⟨_, ⟨o, ho, _⟩, _⟩, _⟩ := e
      exact live_of_get ho
    obtain ⟨_, x, k, cs, pn, ps, own, g, c⟩ := v.sub' hn
    obtain ⟨h1, t, e1, g1, s1⟩ := setExternalNodeN_spec g A.toNode (toNode_SchOK A gA.shape)
    have e' := e1.symm.trans e
    injection e' with e'
    subst e'
    exact lift (c _ _ g1 s1)
  | compactTo src n =>
    simp only [Op.run, Res.bind_eq_ok] at e
    obtain ⟨t, e1, e⟩ := e
    obtain ⟨A, hA, _, rfl⟩ := v.readOk e1
    obtain ⟨_, _, _, gA⟩ := v.goodAt hA
    have hn : (h.nodes n).isSome := by
      simp only [compactToN, resetN, releaseN, Res.bind_eq_ok] at e
      obtain ⟨_, ⟨_, ⟨o, ho, _⟩, _⟩, _⟩ := e
      exact live_of_get ho
    obtain ⟨_, x, k, cs, pn, ps, own, g, c⟩ := v.sub' hn
    obtain ⟨t, g1, s1⟩ := compactToN_spec g A.toNode (toNode_SchOK A gA.shape) e
    exact lift (c _ _ g1 s1)
  | setNode n src =>
    change setNodeN h.nextN h n src = .ok h' at e
    have hn : (h.nodes n).isSome := by
      cases hf : h.nextN with
      | zero => rw [hf] at e; cases e
      | succ f =>
        cases hc : h.nodes n with
        | some _ => rfl
        | none =>
          exfalso
          have hr : resetN h n = .ub := by rw [resetN, releaseN, getN, hc]; rfl
          rw [hf, setNodeN] at e
          simp only [Res.bind_eq_ok] at e
          obtain ⟨so, _, ss, _, e⟩ := e
          split at e
          · rw [hr] at e; cases e
          · rw [hr] at e; cases e
          · split at e
            · rw [hr] at e; cases e
            · rw [compactToN, hr] at e; cases e
    obtain ⟨_, x, k, cs, pn, ps, own, g, c⟩ := v.sub' hn
    obtain ⟨t, g1, s1⟩ := setNodeN_spec L _ h _ _ _ _ src h' g v.names e
    exact lift (c _ _ g1 s1)
  | update n src =>
    simp only [Op.run, Res.bind_eq_ok] at e
    obtain ⟨t, e1, e⟩ := e
    obtain ⟨A, hA, _, rfl⟩ := v.readOk e1
    obtain ⟨_, _, _, gA⟩ := v.goodAt hA
    by_cases hn : (h.nodes n).isSome
    · obtain ⟨_, x, k, cs, pn, ps, own, g, c⟩ := v.sub' hn
      obtain ⟨t, g1, s1⟩ := updateN_spec A.toNode h L _ _ _ _ h' g (toNode_SchOK A gA.shape) (ha.2 _ _ e1 g.read) e
      exact lift (c _ _ g1 s1)
    · -- nothing was written
      have hc : h.nodes n = none := by simpa using hn
      have hg : h.getN n = .ub := by rw [getN, hc]
      have hd : h.dtypeN n = .ub := by rw [dtypeN, hg]; rfl
      generalize A.toNode = T at e
      have : h' = h := by
        cases T with
        | leaf x d =>
          rw [updateN, updateLeafN, hg] at e
          split at e
          · injection e with e; exact e.symm
          · cases e
        | obj x es =>
          rw [updateN] at e
          cases es with
          | nil => rw [updateEN] at e; injection e with e; exact e.symm
          | cons a es => rw [updateEN, addChildN, hg] at e; cases e
        | lst x cs => rw [updateN, hd] at e; cases e
      subst this
      exact lift ⟨F, v, rfl⟩
  | swap a b =>
    change swapN h a b = .ok h' at e
    have e0 := e
    simp only [swapN, Res.bind_eq_ok] at e
    obtain ⟨oa, ha1, ob, hb1, _⟩ := e
    obtain ⟨A, hA, rfl⟩ := v.find (live_of_get ha1)
    obtain ⟨B, hB, rfl⟩ := v.find (live_of_get hb1)
    obtain ⟨h1, e1, v1⟩ := v.swap hA hB (fun hc => ha.1.1 ((v.below hA).2 hc)) (fun hc => ha.1.2 ((v.below hB).2 hc)) ha.2
    have e' := e1.symm.trans e0
    injection e' with e'
    subst e'
    exact ⟨_, v1.mono (fun hc => by cases hc.2), exchL_nid A B F⟩
  | move a b =>
    change moveN h a b = .ok h' at e
    have e0 := e
    have hn : (h.nodes a).isSome := by
      simp only [moveN, resetN, releaseN, Res.bind_eq_ok] at e
      obtain ⟨_, ⟨_, ⟨o, ho, _⟩, _⟩, _⟩ := e
      exact live_of_get ho
    have hb : (h.nodes b).isSome := by
      simp only [moveN, Res.bind_eq_ok] at e
      obtain ⟨h1, e1, e2⟩ := e
      simp only [swapN, Res.bind_eq_ok] at e2
      obtain ⟨oa, ha1, ob, hb1, _⟩ := e2
      have hb1 := live_of_get hb1
      -- `reset` makes no node
      obtain ⟨s, x, k, cs, pn, ps, own, g, c⟩ := v.sub' hn
      obtain ⟨h1', x1, e1', _, g1, s1⟩ := resetN_spec g
      rw [e1] at e1'
      injection e1' with e1'
      subst e1'
      by_contra hc
      by_cases hba : b = a
      · subst hba; exact hc hn
      · by_cases hx : b ∈ (HT.mk a s x k cs).nids ∨ h.nextN ≤ b
        · rw [s1.deadN b hx (by simpa [nids, nidsL] using hba)] at hb1
          cases hb1
        · rw [not_or] at hx
          rw [s1.frameN b (by omega) hx.1] at hb1
          exact hc hb1
    obtain ⟨A, hA, rfl⟩ := v.find hn
    obtain ⟨B, hB, rfl⟩ := v.find hb
    obtain ⟨h1, F', x, e1, v1, rr, _⟩ := v.move hA hB (fun hc => ha.1.1 ((v.below hA).2 hc)) (fun hc => ha.1.2 ((v.below hB).2 hc)) ha.2
    have e' := e1.symm.trans e0
    injection e' with e'
    subst e'
    exact ⟨_, v1.mono (fun hc => by cases hc.2), rr⟩
  | userAlloc z =>
    injection e with e
    subst e
    exact lift ⟨F, v.userAlloc z, rfl⟩
  | userFree p =>
    simp only [Op.run, Res.bind_eq_ok] at e
    obtain ⟨m, e1, e⟩ := e
    injection e with e
    subst e
    have h0 : p.off = 0 := by
      unfold Mem.free at e1
      split at e1
      · cases e1
      · rename_i hc; simpa using hc
    obtain ⟨m', e2, v2⟩ := v.userFree ha h0
    rw [e1] at e2
    injection e2 with e2
    subst e2
    exact lift ⟨F, v2, rfl⟩
  | userWrite p bytes =>
    simp only [Op.run, Res.bind_eq_ok] at e
    obtain ⟨m, e1, e⟩ := e
    injection e with e
    subst e
    exact lift ⟨F, v.write (SameB.store e1), rfl⟩

end Inv

/-- histories keep the invariant -/
theorem History.inv {U U' : List Nat} {h h' : Heap} {ops : List Op} (H : History U h ops U' h') {L : Prop} {F : List HT} (v : Inv L U h F) :
    ∃ F', Inv (L ∧ ops.all (fun o => !o.isSwap) = true) U' h' F' := by
  induction H generalizing L F with
  | nil U h => exact ⟨F, v.mono And.left⟩
  | cons U h op h1 ops U' h' ha e _ ih =>
    obtain ⟨F1, v1, _⟩ := v.op op ha e
    obtain ⟨F', v'⟩ := ih v1
    refine ⟨F', v'.mono fun hc => ?_⟩
    simp only [List.all_cons, Bool.and_eq_true, Bool.not_eq_true'] at hc
    exact ⟨⟨hc.1, hc.2.1⟩, hc.2.2⟩

theorem Inv.init : Inv True [] Heap.init [] :=
  { holdsN := by simp, holdsS := by simp, shape := by simp, clean := by simp, nodupN := by simp [nidsL], nodupS := by simp [sidsL],
    nodupB := by simp [blksL], bounded := ⟨fun _ _ => rfl, fun _ _ => rfl⟩, allN := fun i hi => (by cases hi), allS := fun i hi => (by cases hi),
    allB := fun i => by simp [blksL, blk, Heap.init] }

end Conduit
