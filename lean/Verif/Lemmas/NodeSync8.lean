import Verif.Lemmas.NodeSync7
/-
C33-C35: all trees of the heap.
-/
namespace Conduit
open Spec Node Heap

namespace HT

theorem mem_nidsL {F : List HT} {i : Nat} : i ∈ nidsL F ↔ ∃ t ∈ F, i ∈ t.nids := by
  rw [nidsL_eq, List.mem_flatMap]
theorem mem_sidsL {F : List HT} {i : Nat} : i ∈ sidsL F ↔ ∃ t ∈ F, i ∈ t.sids := by
  rw [sidsL_eq, List.mem_flatMap]
theorem mem_blksL {F : List HT} {i : Nat} : i ∈ blksL F ↔ ∃ t ∈ F, i ∈ t.blks := by
  rw [blksL_eq, List.mem_flatMap]

end HT

open HT

namespace Inv
variable {L : Prop} {U : List Nat} {h : Heap} {F : List HT}

theorem good (v : Inv L U h F) {t : HT} (ht : t ∈ F) : Good h L none none true t := by
  have sub : ∀ {f : HT → List Nat}, (F.flatMap f).Nodup → (f t).Nodup := fun {f} hn => (List.nodup_flatMap.1 hn).1 t ht
  exact ⟨v.holdsN t ht, v.holdsS t ht, v.shape t ht, v.clean t ht, sub (by rw [← nidsL_eq]; exact v.nodupN),
    sub (by rw [← sidsL_eq]; exact v.nodupS), sub (by rw [← blksL_eq]; exact (List.nodup_append.1 v.nodupB).1),
    fun b hb => (v.allB b).2 (List.mem_append_left _ (mem_blksL.2 ⟨t, ht, hb⟩)), v.bounded⟩

theorem names (v : Inv L U h F) : NamesOK h := by
  intro i o ho
  have hi := v.allS i (by rw [ho]; rfl)
  obtain ⟨t, ht, hit⟩ := mem_sidsL.1 hi
  exact names_tree t none i (v.holdsS t ht) (v.shape t ht) hit o ho

theorem ltB (v : Inv L U h F) {i : Nat} (hi : i ∈ blksL F ++ U) : i < h.mem.length := by
  by_contra hc
  have := (v.allB i).2 hi
  rw [blk_ge (by omega)] at this
  cases this

theorem weaken (v : Inv L U h F) : Inv False U h F := by
  have hw : ∀ (t : HT) (pn pn' : Option Nat) (own : Bool), HN h L pn own t → HN h False pn' own t := by
    intro t
    refine HT.rec (motive_1 := fun t => ∀ (pn pn' : Option Nat) (own : Bool), HN h L pn own t → HN h False pn' own t)
      (motive_2 := fun cs => ∀ (pn pn' : Option Nat), HNL h L pn cs → HNL h False pn' cs) ?_ ?_ ?_ t
    · intro n s x k cs ih pn pn' own hh
      rw [HN] at hh ⊢
      obtain ⟨⟨q, h1, h2, _⟩, h4⟩ := hh
      exact ⟨⟨q, h1, h2, False.elim⟩, ih _ _ h4⟩
    · intro _ _ _; trivial
    · intro c cs ih1 ih2 pn pn' hh
      rw [HNL] at hh ⊢
      exact ⟨ih1 _ _ _ hh.1, ih2 _ _ hh.2⟩
  exact ⟨fun t ht => hw t _ _ _ (v.holdsN t ht), v.holdsS, v.shape, v.clean, v.nodupN, v.nodupS, v.nodupB, v.bounded, v.allN, v.allS, v.allB⟩

/-- a step on one of the trees -/
theorem replace {pre post : List HT} {t t' : HT} {h' : Heap} (v : Inv L U h (pre ++ t :: post)) (g : Good h' L none none true t')
    (st : Step h t h' t') : Inv L U h' (pre ++ t' :: post) := by
  have eN : ∀ d : HT, nidsL (pre ++ d :: post) = nidsL pre ++ (d.nids ++ nidsL post) := fun d => by rw [nidsL_append, nidsL]
  have eS : ∀ d : HT, sidsL (pre ++ d :: post) = sidsL pre ++ (d.sids ++ sidsL post) := fun d => by rw [sidsL_append, sidsL]
  have eB : ∀ d : HT, blksL (pre ++ d :: post) ++ U = blksL pre ++ (d.blks ++ (blksL post ++ U)) := fun d => by
    rw [blksL_append, blksL]; simp
  have nN := v.nodupN
  have nS := v.nodupS
  have nB := v.nodupB
  rw [eN] at nN
  rw [eS] at nS
  rw [eB] at nB
  have hm : ∀ u ∈ pre ++ post, u ∈ pre ++ t :: post := by
    intro u hu
    simp only [List.mem_append, List.mem_cons] at hu ⊢
    tauto
  have lN : ∀ i ∈ nidsL pre ++ (t.nids ++ nidsL post), i < h.nextN := by
    intro i hi
    rw [← eN] at hi
    obtain ⟨u, hu, hiu⟩ := mem_nidsL.1 hi
    exact (v.good hu).ltN i hiu
  have lS : ∀ i ∈ sidsL pre ++ (t.sids ++ sidsL post), i < h.nextS := by
    intro i hi
    rw [← eS] at hi
    obtain ⟨u, hu, hiu⟩ := mem_sidsL.1 hi
    exact (v.good hu).ltS i hiu
  have lB : ∀ i ∈ blksL pre ++ (t.blks ++ (blksL post ++ U)), i < h.mem.length := by
    intro i hi
    rw [← eB] at hi
    exact v.ltB hi
  have outN : ∀ i ∈ nidsL (pre ++ post), i ∉ t.nids := by
    intro i hi hc
    rw [nidsL_append, List.mem_append] at hi
    rw [List.nodup_append, List.nodup_append] at nN
    rcases hi with hi | hi
    · exact nN.2.2 i hi i (List.mem_append_left _ hc) rfl
    · exact nN.2.1.2.2 i hc i hi rfl
  have outS : ∀ i ∈ sidsL (pre ++ post), i ∉ t.sids := by
    intro i hi hc
    rw [sidsL_append, List.mem_append] at hi
    rw [List.nodup_append, List.nodup_append] at nS
    rcases hi with hi | hi
    · exact nS.2.2 i hi i (List.mem_append_left _ hc) rfl
    · exact nS.2.1.2.2 i hc i hi rfl
  have cases' : ∀ {P : HT → Prop}, P t' → (∀ u ∈ pre ++ post, P u) → ∀ u ∈ pre ++ t' :: post, P u := by
    intro P h1 h2 u hu
    simp only [List.mem_append, List.mem_cons] at hu h2
    rcases hu with hu | hu | hu
    · exact h2 u (.inl hu)
    · exact hu ▸ h1
    · exact h2 u (.inr hu)
  refine ⟨cases' g.node fun u hu => ?_, cases' g.schema fun u hu => ?_, cases' g.shape fun u hu => v.shape u (hm u hu),
    cases' g.clean fun u hu => v.clean u (hm u hu), ?_, ?_, ?_, g.bounded, fun i hi => ?_, fun i hi => ?_, fun i => ?_⟩
  · refine HN_congr (v.holdsN u (hm u hu)) fun i hi => ?_
    exact st.frameN i ((v.good (hm u hu)).ltN i hi) (outN i (mem_nidsL.2 ⟨u, hu, hi⟩))
  · refine HS_congr (v.holdsS u (hm u hu)) fun i hi => ?_
    exact st.frameS i ((v.good (hm u hu)).ltS i hi) (outS i (mem_sidsL.2 ⟨u, hu, hi⟩))
  · rw [eN]
    exact nodup_replace nN lN g.nodupN st.freshN
  · rw [eS]
    exact nodup_replace nS lS g.nodupS st.freshS
  · rw [eB]
    exact nodup_replace nB lB g.nodupB st.freshB
  · by_contra hc
    rw [eN] at hc
    simp only [List.mem_append, not_or] at hc
    by_cases h2 : i ∈ t.nids ∨ h.nextN ≤ i
    · rw [st.deadN i h2 hc.2.1] at hi
      cases hi
    · rw [not_or] at h2
      rw [st.frameN i (by omega) h2.1] at hi
      have := v.allN i hi
      rw [eN] at this
      simp only [List.mem_append] at this
      tauto
  · by_contra hc
    rw [eS] at hc
    simp only [List.mem_append, not_or] at hc
    by_cases h2 : i ∈ t.sids ∨ h.nextS ≤ i
    · rw [st.deadS i h2 hc.2.1] at hi
      cases hi
    · rw [not_or] at h2
      rw [st.frameS i (by omega) h2.1] at hi
      have := v.allS i hi
      rw [eS] at this
      simp only [List.mem_append] at this
      tauto
  · have old := v.allB i
    rw [eB] at old ⊢
    by_cases h1 : i ∈ t'.blks
    · exact ⟨fun _ => by simp [h1], fun _ => g.live i h1⟩
    · by_cases h2 : i ∈ t.blks ∨ h.mem.length ≤ i
      · rw [st.deadB i h2 h1]
        refine ⟨fun hc => (by cases hc), fun hc => ?_⟩
        exfalso
        simp only [List.mem_append] at hc
        have hc' : i ∈ blksL pre ∨ i ∈ blksL post ++ U := by simp only [List.mem_append]; tauto
        rcases h2 with h2 | h2
        · rw [List.nodup_append, List.nodup_append] at nB
          rcases hc' with hc' | hc'
          · exact nB.2.2 i hc' i (List.mem_append_left _ h2) rfl
          · exact nB.2.1.2.2 i h2 i hc' rfl
        · have := lB i (by simp only [List.mem_append] at hc' ⊢; tauto)
          omega
      · rw [not_or] at h2
        rw [st.frameB i (by omega) h2.1, old]
        simp only [List.mem_append]
        tauto

/-- every live node is the root of a subtree, and a step there is a step of all -/
theorem sub (v : Inv L U h F) {n : Nat} (hn : (h.nodes n).isSome) :
    ∃ t pn ps own, t.nid = n ∧ Good h L pn ps own t ∧
      ∀ h' t', Good h' L pn ps own t' → Step h t h' t' → ∃ F', Inv L U h' F' ∧ F'.map nid = F.map nid := by
  obtain ⟨T, hT, hnT⟩ := mem_nidsL.1 (v.allN n hn)
  obtain ⟨t, pn, ps, own, e, g, c⟩ := inTree T none none true n (v.good hT) hnT
  refine ⟨t, pn, ps, own, e, g, fun h' t' g' st => ?_⟩
  obtain ⟨T', gT, sT⟩ := c h' t' g' st
  obtain ⟨pre, post, rfl⟩ := List.append_of_mem hT
  exact ⟨_, v.replace gT sT, by simp [sT.nid]⟩

theorem live_of_get {n : Nat} {o : NObj} (e : h.getN n = .ok o) : (h.nodes n).isSome := by
  unfold getN at e
  split at e
  · rename_i h1; rw [h1]; rfl
  · cases e

/-- the same with the root of the subtree taken apart -/
theorem sub' (v : Inv L U h F) {n : Nat} (hn : (h.nodes n).isSome) :
    ∃ s x k cs pn ps own, Good h L pn ps own (HT.mk n s x k cs) ∧
      ∀ h' t', Good h' L pn ps own t' → Step h (HT.mk n s x k cs) h' t' → ∃ F', Inv L U h' F' ∧ F'.map nid = F.map nid := by
  obtain ⟨⟨a, s, x, k, cs⟩, pn, ps, own, e, g, c⟩ := v.sub hn
  change a = n at e
  subst e
  exact ⟨s, x, k, cs, pn, ps, own, g, c⟩

/-- `new Node` -/
theorem newNode (v : Inv L U h F) : Inv L U h.newNode.1 (F ++ [HT.mk h.newNode.2 h.nextS {} (.leaf {}) []]) := by
  have e2 : h.newNode.2 = h.nextN := rfl
  have lN : ∀ i ∈ nidsL F, i < h.nextN := fun i hi => by
    obtain ⟨u, hu, hiu⟩ := mem_nidsL.1 hi
    exact (v.good hu).ltN i hiu
  have lS : ∀ i ∈ sidsL F, i < h.nextS := fun i hi => by
    obtain ⟨u, hu, hiu⟩ := mem_sidsL.1 hi
    exact (v.good hu).ltS i hiu
  have nN : ∀ i, h.newNode.1.nodes i = if i = h.nextN then some ⟨h.nextS, true, none, [], {}⟩ else h.nodes i := fun i => rfl
  have nS : ∀ i, h.newNode.1.schemas i = if i = h.nextS then some ⟨.leaf {}, [], none⟩ else h.schemas i := fun i => rfl
  have eN : nidsL (F ++ [HT.mk h.newNode.2 h.nextS {} (.leaf {}) []]) = nidsL F ++ [h.nextN] := by
    rw [nidsL_append, e2]; simp [nidsL, nids]
  have eS : sidsL (F ++ [HT.mk h.newNode.2 h.nextS {} (.leaf {}) []]) = sidsL F ++ [h.nextS] := by
    rw [sidsL_append]; simp [sidsL, sids]
  have eB : blksL (F ++ [HT.mk h.newNode.2 h.nextS {} (.leaf {}) []]) = blksL F := by
    rw [blksL_append]; simp [blksL, blks, ownB]
  have all : ∀ {P : HT → Prop}, (∀ u ∈ F, P u) → P (HT.mk h.newNode.2 h.nextS {} (.leaf {}) []) →
      ∀ u ∈ F ++ [HT.mk h.newNode.2 h.nextS {} (.leaf {}) []], P u := by
    intro P h1 h2 u hu
    rw [List.mem_append, List.mem_singleton] at hu
    rcases hu with hu | rfl
    · exact h1 u hu
    · exact h2
  refine ⟨all (fun u hu => HN_congr (v.holdsN u hu) fun i hi => ?_) ?_, all (fun u hu => HS_congr (v.holdsS u hu) fun i hi => ?_) ?_,
    all v.shape ?_, all v.clean ?_, ?_, ?_, ?_, ⟨fun i hi => ?_, fun i hi => ?_⟩, fun i hi => ?_, fun i hi => ?_, fun i => ?_⟩
  · have := (v.good hu).ltN i hi
    rw [nN, if_neg (by omega)]
  · rw [HN]
    exact ⟨⟨none, by rw [nN, e2, if_pos rfl]; rfl, rfl, fun _ => rfl⟩, trivial⟩
  · have := (v.good hu).ltS i hi
    rw [nS, if_neg (by omega)]
  · rw [HS]
    exact ⟨by rw [nS, if_pos rfl]; rfl, trivial⟩
  · simp [Shape, ShapeL, KindOK]
  · simp [HT.Clean, HT.CleanL, CleanAt]
  · rw [eN, List.nodup_append]
    refine ⟨v.nodupN, by simp, fun a ha b hb e => ?_⟩
    have := lN a ha
    simp at hb
    omega
  · rw [eS, List.nodup_append]
    refine ⟨v.nodupS, by simp, fun a ha b hb e => ?_⟩
    have := lS a ha
    simp at hb
    omega
  · rw [eB]; exact v.nodupB
  · change h.nextN + 1 ≤ i at hi
    rw [nN, if_neg (by omega)]
    exact v.bounded.nodes i (by omega)
  · change h.nextS + 1 ≤ i at hi
    rw [nS, if_neg (by omega)]
    exact v.bounded.schemas i (by omega)
  · rw [eN, List.mem_append, List.mem_singleton]
    rw [nN] at hi
    split at hi
    · rename_i hc; exact .inr hc
    · exact .inl (v.allN i hi)
  · rw [eS, List.mem_append, List.mem_singleton]
    rw [nS] at hi
    split at hi
    · rename_i hc; exact .inr hc
    · exact .inl (v.allS i hi)
  · rw [eB, ← v.allB i]
    rfl

/-- deleting a root deletes its tree and frees its blocks -/
theorem delete {pre post : List HT} {t : HT} (v : Inv L U h (pre ++ t :: post)) :
    ∃ h', delN h.nextN h t.nid = .ok h' ∧ Inv L U h' (pre ++ post) := by
  obtain ⟨n, s, x, k, cs⟩ := t
  have g := v.good (t := HT.mk n s x k cs) (by simp)
  obtain ⟨q, hq, hq1, hq2⟩ := g.get
  have sh := g.shape
  rw [Shape] at sh
  have cl := g.clean
  rw [HT.Clean] at cl
  obtain ⟨m, em, hf⟩ := releaseMem_spec _ h.mem g.shape g.clean g.nodupB g.live
  rw [releaseMem_mk sh.1, Res.bind_eq_ok] at em
  obtain ⟨m1, em1, em2⟩ := em
  have e : delN h.nextN h n = .ok (((((h.killN (nidsL cs)).withMem m).killS (HT.mk n s x k cs).sids).putN n none)) := by
    have hl := g.lenN
    rw [nids, List.length_cons] at hl
    obtain ⟨f, hfe⟩ : ∃ f, h.nextN = f + 1 := ⟨h.nextN - 1, by omega⟩
    rw [hfe, delN, getN_some hq]
    simp only [Res.bind_ok]
    rw [delNL_spec cs f h _ _ g.kidsN g.kidsS sh.2 g.listN.1 (by omega), em1]
    simp only [Res.bind_ok]
    rw [getS_some (h := (h.killN (nidsL cs)).withMem m1) (o := ⟨k, cs.map sid, none⟩) g.getS]
    simp only [Res.bind_ok, withMem_mem, em2, if_true]
    have := delS_spec (HT.mk n s x k cs) h.nextS ((h.killN (nidsL cs)).withMem m) none (HS_congr g.schema fun _ _ => rfl) g.nodupS g.lenS
    change (delS h.nextS ((h.killN (nidsL cs)).withMem m) s >>= fun h2 => Res.ok (h2.putN n none)) = _
    rw [show s = (HT.mk n s x k cs).sid from rfl, this]
    rfl
  refine ⟨_, e, ?_⟩
  have eN : nidsL (pre ++ HT.mk n s x k cs :: post) = nidsL pre ++ ((HT.mk n s x k cs).nids ++ nidsL post) := by rw [nidsL_append, nidsL]
  have eS : sidsL (pre ++ HT.mk n s x k cs :: post) = sidsL pre ++ ((HT.mk n s x k cs).sids ++ sidsL post) := by rw [sidsL_append, sidsL]
  have eB : blksL (pre ++ HT.mk n s x k cs :: post) ++ U = blksL pre ++ ((HT.mk n s x k cs).blks ++ (blksL post ++ U)) := by
    rw [blksL_append, blksL]; simp
  have nN := v.nodupN
  have nS := v.nodupS
  have nB := v.nodupB
  rw [eN] at nN
  rw [eS] at nS
  rw [eB] at nB
  have dropM : ∀ {a b c : List Nat}, (a ++ (b ++ c)).Nodup → (a ++ c).Nodup ∧ ∀ i ∈ a ++ c, i ∉ b := by
    intro a b c hh
    rw [List.nodup_append, List.nodup_append] at hh
    refine ⟨List.nodup_append.2 ⟨hh.1, hh.2.1.2.1, fun i hi j hj => hh.2.2 i hi j (List.mem_append_right _ hj)⟩, fun i hi hc => ?_⟩
    rcases List.mem_append.1 hi with hi | hi
    · exact hh.2.2 i hi i (List.mem_append_left _ hc) rfl
    · exact hh.2.1.2.2 i hc i hi rfl
  have hm : ∀ u ∈ pre ++ post, u ∈ pre ++ HT.mk n s x k cs :: post := by
    intro u hu
    simp only [List.mem_append, List.mem_cons] at hu ⊢
    tauto
  have kN : ∀ i, ((((h.killN (nidsL cs)).withMem m).killS (HT.mk n s x k cs).sids).putN n none).nodes i =
      if i ∈ (HT.mk n s x k cs).nids then none else h.nodes i := by
    intro i
    simp only [putN_nodes, killS_nodes, withMem_nodes, killN_nodes, nids, List.mem_cons]
    by_cases h1 : i = n
    · simp [h1]
    · simp [h1]
  have kS : ∀ i, ((((h.killN (nidsL cs)).withMem m).killS (HT.mk n s x k cs).sids).putN n none).schemas i =
      if i ∈ (HT.mk n s x k cs).sids then none else h.schemas i := fun i => rfl
  have kB : ∀ i, ((((h.killN (nidsL cs)).withMem m).killS (HT.mk n s x k cs).sids).putN n none).blk i =
      if i ∈ (HT.mk n s x k cs).blks then none else h.blk i := fun i => hf.2 i
  refine ⟨fun u hu => HN_congr (v.holdsN u (hm u hu)) fun i hi => ?_, fun u hu => HS_congr (v.holdsS u (hm u hu)) fun i hi => ?_,
    fun u hu => v.shape u (hm u hu), fun u hu => v.clean u (hm u hu), ?_, ?_, ?_, ⟨fun i hi => ?_, fun i hi => ?_⟩, fun i hi => ?_, fun i hi => ?_, fun i => ?_⟩
  · rw [kN, if_neg]
    exact (dropM nN).2 i (by rw [← nidsL_append]; exact mem_nidsL.2 ⟨u, hu, hi⟩)
  · rw [kS, if_neg]
    exact (dropM nS).2 i (by rw [← sidsL_append]; exact mem_sidsL.2 ⟨u, hu, hi⟩)
  · rw [nidsL_append]; exact (dropM nN).1
  · rw [sidsL_append]; exact (dropM nS).1
  · rw [blksL_append, List.append_assoc]; exact (dropM nB).1
  · change h.nextN ≤ i at hi
    rw [kN]; split
    · rfl
    · exact v.bounded.nodes i hi
  · change h.nextS ≤ i at hi
    rw [kS]; split
    · rfl
    · exact v.bounded.schemas i hi
  · rw [kN] at hi
    split at hi
    · cases hi
    · rename_i hc
      have := v.allN i hi
      rw [eN] at this
      rw [nidsL_append]
      simp only [List.mem_append] at this ⊢
      tauto
  · rw [kS] at hi
    split at hi
    · cases hi
    · rename_i hc
      have := v.allS i hi
      rw [eS] at this
      rw [sidsL_append]
      simp only [List.mem_append] at this ⊢
      tauto
  · rw [kB, blksL_append, List.append_assoc]
    have := v.allB i
    rw [eB] at this
    split
    · rename_i hc
      constructor
      · intro h; cases h
      · intro h; exact absurd hc ((dropM nB).2 i h)
    · rename_i hc
      rw [this]
      simp only [List.mem_append]
      tauto

/-- bytes of a block change -/
theorem write (v : Inv L U h F) {m : Mem} (hm : SameB h.mem m) : Inv L U (h.withMem m) F :=
  ⟨fun t ht => HN_congr (v.holdsN t ht) fun _ _ => rfl, fun t ht => HS_congr (v.holdsS t ht) fun _ _ => rfl, v.shape, v.clean,
    v.nodupN, v.nodupS, v.nodupB, ⟨v.bounded.nodes, v.bounded.schemas⟩, v.allN, v.allS, fun i => by
      rw [← v.allB i, blk_eq_size, blk_eq_size, withMem_mem, hm.2]⟩

/-- the user allocates a block -/
theorem userAlloc (v : Inv L U h F) (z : Nat) :
    Inv L ((h.mem.alloc z).2.blk :: U) (h.withMem (h.mem.alloc z).1) F := by
  have e : (h.mem.alloc z).2.blk = h.mem.length := rfl
  have hlt : ∀ i ∈ blksL F ++ U, i < h.mem.length := fun i hi => v.ltB hi
  refine ⟨fun t ht => HN_congr (v.holdsN t ht) fun _ _ => rfl, fun t ht => HS_congr (v.holdsS t ht) fun _ _ => rfl, v.shape, v.clean,
    v.nodupN, v.nodupS, ?_, ⟨v.bounded.nodes, v.bounded.schemas⟩, v.allN, v.allS, fun i => ?_⟩
  · rw [List.nodup_middle, List.nodup_cons]
    exact ⟨fun hc => absurd (hlt _ hc) (by rw [e]; omega), v.nodupB⟩
  · rw [blk_eq_size, withMem_mem]
    by_cases hi : i < h.mem.length
    · rw [Mem.size_alloc_old _ _ _ hi, ← blk_eq_size, v.allB i]
      simp only [List.mem_append, List.mem_cons]
      constructor
      · tauto
      · rintro (h1 | h1 | h1)
        · exact .inl h1
        · omega
        · exact .inr h1
    · by_cases hi2 : i = h.mem.length
      · subst hi2
        simp [Mem.size, Mem.alloc]
      · constructor
        · intro hh
          simp only [Mem.size, Mem.alloc] at hh
          rw [List.getElem?_eq_none (by simp; omega)] at hh
          cases hh
        · intro hh
          simp only [List.mem_append, List.mem_cons] at hh
          exfalso
          rcases hh with hh | hh | hh
          · have := hlt i (by simp [hh]); omega
          · omega
          · have := hlt i (by simp [hh]); omega

/-- the user frees one of the blocks allocated before -/
theorem userFree (v : Inv L U h F) {p : Ptr} (hp : p.blk ∈ U) (h0 : p.off = 0) :
    ∃ m, h.mem.free p = .ok m ∧ Inv L (U.erase p.blk) (h.withMem m) F := by
  have hl := (v.allB p.blk).2 (List.mem_append_right _ hp)
  obtain ⟨z, hz⟩ : ∃ z, h.mem[p.blk]? = some (some z) := by
    unfold blk at hl
    split at hl
    · rename_i z hz; exact ⟨z, hz⟩
    · cases hl
  have nB := v.nodupB
  have nU := (List.nodup_append.1 nB).2.1
  have hd := (List.nodup_append.1 nB).2.2
  refine ⟨h.mem.set p.blk none, by simp [Mem.free, h0, hz], fun t ht => HN_congr (v.holdsN t ht) fun _ _ => rfl,
    fun t ht => HS_congr (v.holdsS t ht) fun _ _ => rfl, v.shape, v.clean,
    v.nodupN, v.nodupS, ?_, ⟨v.bounded.nodes, v.bounded.schemas⟩, v.allN, v.allS, fun i => ?_⟩
  · rw [List.nodup_append]
    exact ⟨(List.nodup_append.1 nB).1, nU.erase _, fun a ha b hb => hd a ha b (List.mem_of_mem_erase hb)⟩
  · rw [blk, withMem_mem, List.getElem?_set]
    by_cases hi : p.blk = i
    · subst hi
      rw [if_pos rfl]
      constructor
      · intro hh
        split at hh
        · rename_i bs hbs
          split at hbs <;> cases hbs
        · cases hh
      · intro hh
        rw [List.mem_append] at hh
        rcases hh with hh | hh
        · exact absurd rfl (hd _ hh _ hp)
        · rw [nU.mem_erase_iff] at hh
          exact absurd rfl hh.1
    · rw [if_neg hi]
      change (h.blk i).isSome = true ↔ _
      rw [v.allB i, List.mem_append, List.mem_append, nU.mem_erase_iff]
      constructor
      · rintro (h1 | h1)
        · exact .inl h1
        · exact .inr ⟨Ne.symm hi, h1⟩
      · rintro (h1 | h1)
        · exact .inl h1
        · exact .inr h1.2

end Inv
end Conduit
