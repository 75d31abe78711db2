import Verif.Lemmas.NodeSync2
/-
Lemmas about heaps of node and schema objects: steps below a node, new children.
-/
namespace Conduit
open Spec Node Heap
namespace HT

theorem nidsL_append (a b : List HT) : nidsL (a ++ b) = nidsL a ++ nidsL b := by simp [nidsL_eq]
theorem sidsL_append (a b : List HT) : sidsL (a ++ b) = sidsL a ++ sidsL b := by simp [sidsL_eq]
theorem blksL_append (a b : List HT) : blksL (a ++ b) = blksL a ++ blksL b := by simp [blksL_eq]

/-- a part of a list without repetition is exchanged for another, whose elements are old or new -/
theorem nodup_replace {A B c c' : List Nat} {N : Nat} (h : (A ++ (c ++ B)).Nodup) (hl : ∀ i ∈ A ++ (c ++ B), i < N) (hc : c'.Nodup)
    (hf : ∀ i ∈ c', i ∈ c ∨ N ≤ i) : (A ++ (c' ++ B)).Nodup := by
  rw [List.nodup_append, List.nodup_append] at h ⊢
  obtain ⟨h1, ⟨h2, h3, h4⟩, h5⟩ := h
  refine ⟨h1, ⟨hc, h3, fun a ha b hb => ?_⟩, fun a ha b hb => ?_⟩
  · rcases hf a ha with hh | hh
    · exact h4 a hh b hb
    · have := hl b (by simp [hb]); omega
  · rw [List.mem_append] at hb
    rcases hb with hb | hb
    · rcases hf b hb with hh | hh
      · exact h5 a ha b (by simp [hh])
      · have := hl a (by simp [ha]); omega
    · exact h5 a ha b (by simp [hb])

theorem mem_replace {A B c c' : List Nat} {N : Nat} (hf : ∀ i ∈ c', i ∈ c ∨ N ≤ i) :
    ∀ i ∈ A ++ (c' ++ B), i ∈ A ++ (c ++ B) ∨ N ≤ i := by
  intro i hi
  simp only [List.mem_append] at hi ⊢
  rcases hi with hi | hi | hi
  · exact .inl (.inl hi)
  · rcases hf i hi with h | h
    · exact .inl (.inr (.inl h))
    · exact .inr h
  · exact .inl (.inr (.inr hi))

section
variable {h : Heap} {L : Prop} {pn ps : Option Nat} {own : Bool} {n s : Nat} {x : Info} {k : Kind}

/-- A child of a tree the heap holds. -/
theorem Good.child {cs : List HT} (g : Good h L pn ps own (HT.mk n s x k cs)) {c : HT} (hc : c ∈ cs) :
    Good h L (some n) (some s) false c := by
  have g3 := g.shape
  have g4 := g.clean
  rw [Shape] at g3
  rw [Clean] at g4
  have sub : ∀ {f : HT → List Nat}, (cs.flatMap f).Nodup → (f c).Nodup := fun {f} hn => (List.nodup_flatMap.1 hn).1 c hc
  refine ⟨HNL_iff.1 g.kidsN c hc, HSL_iff.1 g.kidsS c hc, ShapeL_iff.1 g3.2 c hc, CleanL_iff.1 g4.2 c hc,
    sub (by rw [← nidsL_eq]; exact g.listN.1), sub (by rw [← sidsL_eq]; exact g.listS.1), sub (by rw [← blksL_eq]; exact g.listB.1),
    fun b hb => g.live b ?_, g.bounded⟩
  rw [blks, blksL_eq]
  exact List.mem_append_right _ (List.mem_flatMap.2 ⟨c, hc, hb⟩)

/-- A step on a child is a step on the tree. -/
theorem ctx {pre post : List HT} {c c' : HT} {h' : Heap} (g : Good h L pn ps own (mk n s x k (pre ++ c :: post)))
    (gc : Good h' L (some n) (some s) false c') (st : Step h c h' c') :
    Good h' L pn ps own (mk n s x k (pre ++ c' :: post)) ∧ Step h (mk n s x k (pre ++ c :: post)) h' (mk n s x k (pre ++ c' :: post)) := by
  have eN : ∀ d : HT, (mk n s x k (pre ++ d :: post)).nids = (n :: nidsL pre) ++ (d.nids ++ nidsL post) := fun d => by
    rw [nids, nidsL_append, nidsL]; rfl
  have eS : ∀ d : HT, (mk n s x k (pre ++ d :: post)).sids = (s :: sidsL pre) ++ (d.sids ++ sidsL post) := fun d => by
    rw [sids, sidsL_append, sidsL]; rfl
  have eB : ∀ d : HT, (mk n s x k (pre ++ d :: post)).blks = (ownB x ++ blksL pre) ++ (d.blks ++ blksL post) := fun d => by
    rw [blks, blksL_append, blksL, List.append_assoc]
  have nN := g.nodupN
  have nS := g.nodupS
  have nB := g.nodupB
  have lN := g.ltN
  have lS := g.ltS
  have lB := g.ltB
  rw [eN] at nN lN
  rw [eS] at nS lS
  rw [eB] at nB lB
  -- what is outside of the child
  have oN : ∀ i ∈ (n :: nidsL pre) ++ nidsL post, h'.nodes i = h.nodes i := by
    intro i hi
    refine st.frameN i (lN i ?_) fun hc => ?_
    · simp only [List.mem_append] at hi ⊢; tauto
    · rw [List.nodup_append, List.nodup_append] at nN
      rw [List.mem_append] at hi
      rcases hi with hi | hi
      · exact nN.2.2 i hi i (by simp [hc]) rfl
      · exact nN.2.1.2.2 i hc i hi rfl
  have oS : ∀ i ∈ (s :: sidsL pre) ++ sidsL post, h'.schemas i = h.schemas i := by
    intro i hi
    refine st.frameS i (lS i ?_) fun hc => ?_
    · simp only [List.mem_append] at hi ⊢; tauto
    · rw [List.nodup_append, List.nodup_append] at nS
      rw [List.mem_append] at hi
      rcases hi with hi | hi
      · exact nS.2.2 i hi i (by simp [hc]) rfl
      · exact nS.2.1.2.2 i hc i hi rfl
  have oB : ∀ i ∈ (ownB x ++ blksL pre) ++ blksL post, h'.blk i = h.blk i := by
    intro i hi
    refine st.frameB i (lB i ?_) fun hc => ?_
    · simp only [List.mem_append] at hi ⊢; tauto
    · have n1 := List.nodup_append.1 nB
      have n2 := List.nodup_append.1 n1.2.1
      rcases List.mem_append.1 hi with hi | hi
      · exact n1.2.2 i hi i (List.mem_append_left _ hc) rfl
      · exact n2.2.2 i hc i hi rfl
  have shp := g.shape
  have cln := g.clean
  rw [Shape] at shp
  rw [Clean] at cln
  obtain ⟨q, hq, hq1, hq2⟩ := g.get
  refine ⟨⟨?_, ?_, ?_, ?_, ?_, ?_, ?_, ?_, gc.bounded⟩, ⟨rfl, rfl, st.nextN, st.nextS, st.nextB, ?_, ?_, ?_, ?_, ?_, ?_, ?_, ?_, ?_⟩⟩
  · rw [HN]
    refine ⟨⟨q, ?_, hq1, hq2⟩, HNL_iff.2 fun d hd => ?_⟩
    · rw [oN n (by simp), hq]; simp [st.nid]
    · rw [List.mem_append, List.mem_cons] at hd
      rcases hd with hd | rfl | hd
      · refine HN_congr (HNL_iff.1 g.kidsN d (by simp [hd])) fun i hi => oN i ?_
        rw [nidsL_eq]; simp; exact .inr (.inl ⟨d, hd, hi⟩)
      · exact gc.node
      · refine HN_congr (HNL_iff.1 g.kidsN d (by simp [hd])) fun i hi => oN i ?_
        rw [nidsL_eq post]; simp; exact .inr (.inr ⟨d, hd, hi⟩)
  · rw [HS]
    refine ⟨?_, HSL_iff.2 fun d hd => ?_⟩
    · rw [oS s (by simp), g.getS]; simp [st.sid]
    · rw [List.mem_append, List.mem_cons] at hd
      rcases hd with hd | rfl | hd
      · refine HS_congr (HSL_iff.1 g.kidsS d (by simp [hd])) fun i hi => oS i ?_
        rw [sidsL_eq]; simp; exact .inr (.inl ⟨d, hd, hi⟩)
      · exact gc.schema
      · refine HS_congr (HSL_iff.1 g.kidsS d (by simp [hd])) fun i hi => oS i ?_
        rw [sidsL_eq post]; simp; exact .inr (.inr ⟨d, hd, hi⟩)
  · rw [Shape]
    refine ⟨?_, ShapeL_iff.2 fun d hd => ?_⟩
    · have := shp.1
      cases k <;> simp_all [KindOK]
    · rw [List.mem_append, List.mem_cons] at hd
      rcases hd with hd | rfl | hd
      · exact ShapeL_iff.1 shp.2 d (by simp [hd])
      · exact gc.shape
      · exact ShapeL_iff.1 shp.2 d (by simp [hd])
  · rw [Clean]
    refine ⟨cln.1, CleanL_iff.2 fun d hd => ?_⟩
    · rw [List.mem_append, List.mem_cons] at hd
      rcases hd with hd | rfl | hd
      · exact CleanL_iff.1 cln.2 d (by simp [hd])
      · exact gc.clean
      · exact CleanL_iff.1 cln.2 d (by simp [hd])
  · rw [eN]; exact nodup_replace nN lN gc.nodupN st.freshN
  · rw [eS]; exact nodup_replace nS lS gc.nodupS st.freshS
  · rw [eB]; exact nodup_replace nB lB gc.nodupB st.freshB
  · intro b hb
    rw [eB] at hb
    have hlive := g.live
    rw [eB] at hlive
    rcases (List.mem_append.1 hb).imp id List.mem_append.1 with hb | hb | hb
    · rw [oB b (List.mem_append_left _ hb)]; exact hlive b (List.mem_append_left _ hb)
    · exact gc.live b hb
    · rw [oB b (List.mem_append_right _ hb)]; exact hlive b (List.mem_append_right _ (List.mem_append_right _ hb))
  · intro i hi hn
    rw [eN] at hn
    exact st.frameN i hi fun hc => hn (by simp [hc])
  · intro i hi hn
    rw [eS] at hn
    exact st.frameS i hi fun hc => hn (by simp [hc])
  · intro i hi hn
    rw [eB] at hn
    exact st.frameB i hi fun hc => hn (List.mem_append_right _ (List.mem_append_left _ hc))
  · intro i hi
    rw [eN] at hi ⊢
    exact mem_replace st.freshN i hi
  · intro i hi
    rw [eS] at hi ⊢
    exact mem_replace st.freshS i hi
  · intro i hi
    rw [eB] at hi ⊢
    exact mem_replace st.freshB i hi
  · intro i hi hn
    rw [eN] at hi hn
    refine st.deadN i ?_ fun hc => hn (by simp [hc])
    rcases hi with hi | hi
    · simp only [List.mem_append] at hi hn ⊢; tauto
    · exact .inr hi
  · intro i hi hn
    rw [eS] at hi hn
    refine st.deadS i ?_ fun hc => hn (by simp [hc])
    rcases hi with hi | hi
    · simp only [List.mem_append] at hi hn ⊢; tauto
    · exact .inr hi
  · intro i hi hn
    rw [eB] at hi hn
    refine st.deadB i ?_ fun hc => hn (List.mem_append_right _ (List.mem_append_left _ hc))
    rcases hi with hi | hi
    · simp only [List.mem_append] at hi hn ⊢; tauto
    · exact .inr hi

end

/-- Every node of a tree is the root of a subtree, and a step there is a step on the tree. -/
theorem inTree {h : Heap} {L : Prop} : ∀ (T : HT) (pn ps : Option Nat) (own : Bool) (n : Nat), Good h L pn ps own T → n ∈ T.nids →
    ∃ t pn' ps' own', t.nid = n ∧ Good h L pn' ps' own' t ∧
      ∀ h' t', Good h' L pn' ps' own' t' → Step h t h' t' → ∃ T', Good h' L pn ps own T' ∧ Step h T h' T'
  | mk m s x k cs, pn, ps, own, n, g, hn => by
    by_cases e : n = m
    · subst e
      exact ⟨_, pn, ps, own, rfl, g, fun h' t' g' st => ⟨t', g', st⟩⟩
    · rw [nids, List.mem_cons, nidsL_eq, List.mem_flatMap] at hn
      obtain ⟨c, hc, hnc⟩ := hn.resolve_left e
      have : sizeOf c < sizeOf (mk m s x k cs) := by
        have := List.sizeOf_lt_of_mem hc
        simp only [mk.sizeOf_spec]; omega
      obtain ⟨t, pn', ps', own', e1, e2, e3⟩ := inTree c _ _ _ n (g.child hc) hnc
      refine ⟨t, pn', ps', own', e1, e2, fun h' t' g' st => ?_⟩
      obtain ⟨c', gc, sc⟩ := e3 h' t' g' st
      obtain ⟨pre, post, rfl⟩ := List.append_of_mem hc
      exact ⟨_, ctx g gc sc⟩
termination_by T => sizeOf T

/-! ### a new child -/

/-- The heap `g`: the schema of the root got one more child and another kind, and a node for it was made that
    is not yet among the children of the root. -/
structure Grow (h : Heap) (n s : Nat) (ps : Option Nat) (cs : List HT) (k' : Kind) (g : Heap) : Prop where
  nodes : ∀ i, g.nodes i = if i = h.nextN then some ⟨h.nextS, false, some n, [], {}⟩ else h.nodes i
  schemas : ∀ i, g.schemas i = if i = s then some ⟨k', cs.map sid ++ [h.nextS], ps⟩ else if i = h.nextS then some ⟨.leaf {}, [], some s⟩
    else h.schemas i
  nextN : g.nextN = h.nextN + 1
  nextS : g.nextS = h.nextS + 2
  mem : g.mem = h.mem

section
variable {h g g' : Heap} {L : Prop} {pn ps : Option Nat} {own : Bool} {n s : Nat} {x : Info} {k k' : Kind} {cs : List HT} {c' : HT}

theorem Grow.child (go : Good h L pn ps own (HT.mk n s x k cs)) (w : Grow h n s ps cs k' g) :
    Good g L (some n) (some s) false (HT.mk h.nextN h.nextS {} (.leaf {}) []) := by
  have l1 := go.ltS s (by simp [sids])
  refine ⟨?_, ?_, ?_, ?_, by simp [nids, nidsL], by simp [sids, sidsL], by simp [blks, blksL, ownB], by simp [blks, blksL, ownB], ⟨?_, ?_⟩⟩
  · rw [HN]
    exact ⟨⟨some n, by rw [w.nodes, if_pos rfl]; rfl, rfl, fun _ => rfl⟩, trivial⟩
  · rw [HS]
    exact ⟨by rw [w.schemas, if_neg (by omega), if_pos rfl]; rfl, trivial⟩
  · simp [Shape, ShapeL, KindOK]
  · simp [Clean, CleanL, CleanAt]
  · intro i hi
    rw [w.nextN] at hi
    rw [w.nodes, if_neg (by omega), go.bounded.nodes i (by omega)]
  · intro i hi
    rw [w.nextS] at hi
    rw [w.schemas, if_neg (by omega), if_neg (by omega), go.bounded.schemas i (by omega)]

theorem Grow.push (go : Good h L pn ps own (HT.mk n s x k cs)) (w : Grow h n s ps cs k' g) (hk : KindOK k' (cs ++ [c']))
    (hx : CleanAt x k') (gc : Good g' L (some n) (some s) false c') (st : Step g (HT.mk h.nextN h.nextS {} (.leaf {}) []) g' c') :
    ∃ h', pushChild g' n h.nextN = .ok h' ∧ Good h' L pn ps own (HT.mk n s x k' (cs ++ [c'])) ∧
      Step h (HT.mk n s x k cs) h' (HT.mk n s x k' (cs ++ [c'])) ∧ h'.mem = g'.mem := by
  have stn : c'.nid = h.nextN := st.nid
  have sts : c'.sid = h.nextS := st.sid
  have freshN : ∀ i ∈ c'.nids, h.nextN ≤ i := fun i hi => by
    rcases st.freshN i hi with hh | hh
    · simp [nids, nidsL] at hh; omega
    · rw [w.nextN] at hh; omega
  have freshS : ∀ i ∈ c'.sids, h.nextS ≤ i := fun i hi => by
    rcases st.freshS i hi with hh | hh
    · simp [sids, sidsL] at hh; omega
    · rw [w.nextS] at hh; omega
  have freshB : ∀ i ∈ c'.blks, h.mem.length ≤ i := fun i hi => by
    rcases st.freshB i hi with hh | hh
    · simp [blks, blksL, ownB] at hh
    · rw [w.mem] at hh; omega
  have nN := st.nextN
  have nS := st.nextS
  have nB := st.nextB
  rw [w.nextN] at nN
  rw [w.nextS] at nS
  rw [w.mem] at nB
  have oN : ∀ i, i < h.nextN → g'.nodes i = h.nodes i := fun i hi => by
    rw [st.frameN i (by rw [w.nextN]; omega) (by simp [nids, nidsL]; omega), w.nodes, if_neg (by omega)]
  have oS : ∀ i, i < h.nextS → g'.schemas i = if i = s then some ⟨k', cs.map sid ++ [h.nextS], ps⟩ else h.schemas i := fun i hi => by
    rw [st.frameS i (by rw [w.nextS]; omega) (by simp [sids, sidsL]; omega), w.schemas, if_neg (c := i = h.nextS) (by omega)]
  have oB : ∀ i, i < h.mem.length → g'.blk i = h.blk i := fun i hi => by
    rw [st.frameB i (by rw [w.mem]; omega) (by simp [blks, blksL, ownB]), blk_congr w.mem]
  have ln := go.ltN n (by simp [nids])
  have ls := go.ltS s (by simp [sids])
  have lN : ∀ i ∈ nidsL cs, i < h.nextN := fun i hi => go.ltN i (by simp [nids, hi])
  have lS : ∀ i ∈ sidsL cs, i < h.nextS := fun i hi => go.ltS i (by simp [sids, hi])
  have eN : (HT.mk n s x k' (cs ++ [c'])).nids = (HT.mk n s x k cs).nids ++ c'.nids := by
    simp [nids, nidsL_append, nidsL]
  have eS : (HT.mk n s x k' (cs ++ [c'])).sids = (HT.mk n s x k cs).sids ++ c'.sids := by
    simp [sids, sidsL_append, sidsL]
  have eB : (HT.mk n s x k' (cs ++ [c'])).blks = (HT.mk n s x k cs).blks ++ c'.blks := by
    simp [blks, blksL_append, blksL]
  obtain ⟨q, hq, hq1, hq2⟩ := go.get
  have shp := go.shape
  have cln := go.clean
  rw [Shape] at shp
  rw [Clean] at cln
  refine ⟨g'.putN n (some ⟨s, own, q, cs.map nid ++ [h.nextN], x⟩), ?_, ⟨?_, ?_, ?_, ?_, ?_, ?_, ?_, ?_, ⟨?_, ?_⟩⟩,
    ⟨rfl, rfl, ?_, ?_, ?_, ?_, ?_, ?_, ?_, ?_, ?_, ?_, ?_, ?_⟩, rfl⟩
  · rw [pushChild, getN_some ((oN n ln).trans hq)]
    rfl
  · rw [HN]
    refine ⟨⟨q, by simp [stn], hq1, hq2⟩, HNL_iff.2 fun d hd => ?_⟩
    rw [List.mem_append, List.mem_singleton] at hd
    rcases hd with hd | rfl
    · refine HN_congr (HNL_iff.1 go.kidsN d hd) fun i hi => ?_
      have hi' : i ∈ nidsL cs := by rw [nidsL_eq]; exact List.mem_flatMap.2 ⟨d, hd, hi⟩
      rw [putN_nodes, if_neg (fun e => go.listN.2.2 (by rw [← e]; exact hi')), oN i (lN i hi')]
    · refine HN_congr gc.node fun i hi => ?_
      have := freshN i hi
      rw [putN_nodes, if_neg (by omega)]
  · rw [HS]
    refine ⟨?_, HSL_iff.2 fun d hd => ?_⟩
    · rw [putN_schemas, oS s ls, if_pos rfl]
      simp [sts]
    rw [List.mem_append, List.mem_singleton] at hd
    rcases hd with hd | rfl
    · refine HS_congr (HSL_iff.1 go.kidsS d hd) fun i hi => ?_
      have hi' : i ∈ sidsL cs := by rw [sidsL_eq]; exact List.mem_flatMap.2 ⟨d, hd, hi⟩
      rw [putN_schemas, oS i (lS i hi'), if_neg (fun e => go.listS.2.2 (by rw [← e]; exact hi'))]
    · exact HS_congr gc.schema fun i hi => rfl
  · rw [Shape]
    refine ⟨hk, ShapeL_iff.2 fun d hd => ?_⟩
    rw [List.mem_append, List.mem_singleton] at hd
    rcases hd with hd | rfl
    · exact ShapeL_iff.1 shp.2 d hd
    · exact gc.shape
  · rw [Clean]
    refine ⟨hx, CleanL_iff.2 fun d hd => ?_⟩
    rw [List.mem_append, List.mem_singleton] at hd
    rcases hd with hd | rfl
    · exact CleanL_iff.1 cln.2 d hd
    · exact gc.clean
  · rw [eN, List.nodup_append]
    refine ⟨go.nodupN, gc.nodupN, fun a ha b hb e => ?_⟩
    have := go.ltN a ha
    have := freshN b hb
    omega
  · rw [eS, List.nodup_append]
    refine ⟨go.nodupS, gc.nodupS, fun a ha b hb e => ?_⟩
    have := go.ltS a ha
    have := freshS b hb
    omega
  · rw [eB, List.nodup_append]
    refine ⟨go.nodupB, gc.nodupB, fun a ha b hb e => ?_⟩
    have := go.ltB a ha
    have := freshB b hb
    omega
  · intro b hb
    rw [eB, List.mem_append] at hb
    rcases hb with hb | hb
    · have := oB b (go.ltB b hb)
      have h2 := go.live b hb
      rw [← this] at h2
      exact h2
    · exact gc.live b hb
  · intro i hi
    rw [putN_nextN] at hi
    rw [putN_nodes, if_neg (by omega)]
    exact gc.bounded.nodes i hi
  · intro i hi
    exact gc.bounded.schemas i hi
  · rw [putN_nextN]; omega
  · rw [putN_nextS]; omega
  · exact nB
  · intro i hi hn
    rw [putN_nodes, if_neg fun e => hn (by simp [nids, e]), oN i hi]
  · intro i hi hn
    rw [putN_schemas, oS i hi, if_neg fun e => hn (by simp [sids, e])]
  · intro i hi hn
    exact oB i hi
  · intro i hi
    rw [eN, List.mem_append] at hi
    exact hi.imp id (freshN i)
  · intro i hi
    rw [eS, List.mem_append] at hi
    exact hi.imp id (freshS i)
  · intro i hi
    rw [eB, List.mem_append] at hi
    exact hi.imp id (freshB i)
  · intro i hi hn
    rw [eN, List.mem_append, not_or] at hn
    have hi := hi.resolve_left hn.1
    rw [putN_nodes, if_neg (by omega)]
    refine st.deadN i ?_ hn.2
    rw [w.nextN]
    simp [nids, nidsL]; omega
  · intro i hi hn
    rw [eS, List.mem_append, not_or] at hn
    have hi := hi.resolve_left hn.1
    rw [putN_schemas]
    by_cases e : i = h.nextS
    · exact absurd (e ▸ sts ▸ sid_mem c') hn.2
    · by_cases e1 : i = h.nextS + 1
      · subst e1
        rcases Nat.lt_or_ge (h.nextS + 1) g.nextS with hlt | hge
        · rw [st.frameS _ hlt (by simp [sids, sidsL]), w.schemas, if_neg (by omega), if_neg (by omega)]
          exact go.bounded.schemas _ (by omega)
        · exact st.deadS _ (.inr hge) hn.2
      · exact st.deadS i (.inr (by rw [w.nextS]; omega)) hn.2
  · intro i hi hn
    rw [eB, List.mem_append, not_or] at hn
    have hi := hi.resolve_left hn.1
    exact st.deadB i (.inr (by rw [w.mem]; exact hi)) hn.2

/-- the schema of an object, or of a node without children, gets a child -/
theorem addChildS_spec (go : Good h L pn ps own (HT.mk n s x k cs)) (name : Str) (hk : (∃ names, k = .obj names) ∨ cs = []) :
    ∃ names h1 g, addChildS h s name = .ok (h1, h.nextS) ∧ attach h1 n h.nextS = .ok (g, h.nextN) ∧ names.length = cs.length ∧
      (k = .obj names ∨ ((∀ l, k ≠ .obj l) ∧ names = [])) ∧
      Grow h n s ps cs (.obj (names ++ [name])) g ∧ h1.getS s = .ok ⟨.obj (names ++ [name]), cs.map sid ++ [h.nextS], ps⟩ := by
  have ls := go.ltS s (by simp [sids])
  have key : ∃ names, names.length = cs.length ∧ (k = .obj names ∨ ((∀ l, k ≠ .obj l) ∧ names = [])) ∧
      ∃ h0, initObjectS h s = .ok h0 ∧ h0.nodes = h.nodes ∧ h0.mem = h.mem ∧ h0.nextN = h.nextN ∧ h0.nextS = h.nextS ∧
      ∀ i, h0.schemas i = if i = s then some ⟨.obj names, cs.map sid, ps⟩ else h.schemas i := by
    rw [initObjectS, getS_some go.getS]
    simp only [Res.bind_ok]
    by_cases ho : ∃ names, k = .obj names
    · obtain ⟨names, rfl⟩ := ho
      refine ⟨names, go.kindOK.1, .inl rfl, h, rfl, rfl, rfl, rfl, rfl, fun i => ?_⟩
      split
      · rename_i e; rw [e]; exact go.getS
      · rfl
    · have hcs := hk.resolve_left ho
      subst hcs
      have e := releaseS_spec go.getS go.kidsS go.listS.1 go.listS.2.1
      refine ⟨[], rfl, .inr ⟨fun l e => ho ⟨l, e⟩, rfl⟩, h.putS s (some ⟨.obj [], [], ps⟩), ?_, rfl, rfl, rfl, rfl, fun i => rfl⟩
      have e2 : (releaseS h s >>= fun h1 => h1.setKind s (.obj []) []) = .ok (h.putS s (some ⟨.obj [], [], ps⟩)) := by
        rw [e]
        simp only [Res.bind_ok, setKind]
        rw [getS_some (o := ⟨.leaf {}, [], ps⟩) (by simp)]
        simp only [Res.bind_ok]
        congr 1
        refine ext' (fun i => rfl) (fun i => ?_) rfl rfl rfl
        simp only [putS_schemas, killS_schemas, sidsL, List.not_mem_nil, if_false]
        split <;> rfl
      cases k with
      | obj names => exact absurd ⟨names, rfl⟩ ho
      | leaf d => exact e2
      | lst => exact e2
  obtain ⟨names, hl, hkn, h0, e0, hn0, hm0, hN0, hS0, hs0⟩ := key
  have e1 : addChildS h s name = .ok ((h0.newS ⟨.leaf {}, [], some s⟩).1.putS s
      (some ⟨.obj (names ++ [name]), cs.map sid ++ [h.nextS], ps⟩), h.nextS) := by
    rw [addChildS, e0]
    simp only [Res.bind_ok]
    rw [getS_some (o := ⟨.obj names, cs.map sid, ps⟩) (by rw [hs0]; simp)]
    simp only [Res.bind_ok]
    rw [show (h0.newS ⟨.leaf {}, [], some s⟩).2 = h.nextS from hS0]
  generalize hH : (h0.newS ⟨.leaf {}, [], some s⟩).1.putS s (some ⟨.obj (names ++ [name]), cs.map sid ++ [h.nextS], ps⟩) = H at e1
  have a1 : H.nodes = h.nodes := by rw [← hH]; exact hn0
  have a2 : H.nextN = h.nextN := by rw [← hH]; exact hN0
  have a3 : H.nextS = h.nextS + 1 := by rw [← hH, ← hS0]; rfl
  have a4 : H.mem = h.mem := by rw [← hH]; exact hm0
  have a5 : ∀ i, H.schemas i = if i = s then some ⟨.obj (names ++ [name]), cs.map sid ++ [h.nextS], ps⟩ else
      if i = h.nextS then some ⟨.leaf {}, [], some s⟩ else h.schemas i := by
    intro i
    rw [← hH]
    simp only [newS, putS_schemas, hs0, hS0]
    split <;> simp_all
  have b1 : Bounded H := by
    refine ⟨fun i hi => ?_, fun i hi => ?_⟩
    · rw [a1]; exact go.bounded.nodes i (by omega)
    · rw [a5, if_neg (by omega), if_neg (by omega)]
      exact go.bounded.schemas i (by omega)
  refine ⟨names, H, { H.putN h.nextN (some ⟨h.nextS, false, some n, [], {}⟩) with nextN := h.nextN + 1, nextS := H.nextS + 1 },
    e1, ?_, hl, hkn, ?_, getS_some (by rw [a5, if_pos rfl])⟩
  · rw [attach_spec b1, a2]
  · refine ⟨fun i => ?_, a5, ?_, ?_, a4⟩
    · simp only [putN_nodes, a1]
    · rfl
    · rw [a3]

/-- the schema of a list gets a child -/
theorem appendS_spec (go : Good h L pn ps own (HT.mk n s x .lst cs)) :
    ∃ h1 g, appendS h s = .ok h1 ∧ attach h1 n h.nextS = .ok (g, h.nextN) ∧
      Grow h n s ps cs .lst g ∧ h1.getS s = .ok ⟨.lst, cs.map sid ++ [h.nextS], ps⟩ := by
  have ls := go.ltS s (by simp [sids])
  have e1 : appendS h s = .ok ((h.newS ⟨.leaf {}, [], some s⟩).1.putS s (some ⟨.lst, cs.map sid ++ [h.nextS], ps⟩)) := by
    rw [appendS, initListS, getS_some go.getS]
    simp only [Res.bind_ok]
    rw [getS_some go.getS]
    rfl
  generalize hH : (h.newS ⟨.leaf {}, [], some s⟩).1.putS s (some ⟨.lst, cs.map sid ++ [h.nextS], ps⟩) = H at e1
  have a1 : H.nodes = h.nodes := by rw [← hH]; rfl
  have a2 : H.nextN = h.nextN := by rw [← hH]; rfl
  have a3 : H.nextS = h.nextS + 1 := by rw [← hH]; rfl
  have a4 : H.mem = h.mem := by rw [← hH]; rfl
  have a5 : ∀ i, H.schemas i = if i = s then some ⟨.lst, cs.map sid ++ [h.nextS], ps⟩ else
      if i = h.nextS then some ⟨.leaf {}, [], some s⟩ else h.schemas i := by
    intro i
    rw [← hH]
    simp only [newS, putS_schemas]
  have b1 : Bounded H := by
    refine ⟨fun i hi => ?_, fun i hi => ?_⟩
    · rw [a1]; exact go.bounded.nodes i (by omega)
    · rw [a5, if_neg (by omega), if_neg (by omega)]
      exact go.bounded.schemas i (by omega)
  refine ⟨H, { H.putN h.nextN (some ⟨h.nextS, false, some n, [], {}⟩) with nextN := h.nextN + 1, nextS := H.nextS + 1 },
    e1, ?_, ?_, getS_some (by rw [a5, if_pos rfl])⟩
  · rw [attach_spec b1, a2]
  · refine ⟨fun i => ?_, a5, ?_, ?_, a4⟩
    · simp only [putN_nodes, a1]
    · rfl
    · rw [a3]

theorem posOf_none {names : List Str} {name : Str} (h : names.findIdx? (· == name) = none) : name ∉ names := by
  intro hc
  rw [List.findIdx?_eq_none_iff] at h
  simpa using h name hc

/-- `add_child` on a node that is not a list with children -/
theorem addChildN_spec (go : Good h L pn ps own (HT.mk n s x k cs)) (name : Str) (hk : k = .lst → cs = []) :
    (∃ names i c, k = .obj names ∧ names.findIdx? (· == name) = some i ∧ cs[i]? = some c ∧ addChildN h n name = .ok (h, c.nid)) ∨
    (∃ names h', names.length = cs.length ∧ name ∉ names ∧ (k = .obj names ∨ ((∀ l, k ≠ .obj l) ∧ names = [])) ∧
      addChildN h n name = .ok (h', h.nextN) ∧
      Good h' L pn ps own (HT.mk n s x (.obj (names ++ [name])) (cs ++ [HT.mk h.nextN h.nextS {} (.leaf {}) []])) ∧
      Step h (HT.mk n s x k cs) h' (HT.mk n s x (.obj (names ++ [name])) (cs ++ [HT.mk h.nextN h.nextS {} (.leaf {}) []]))) := by
  obtain ⟨q, hq, _⟩ := go.get
  rw [addChildN, getN_some hq]
  simp only [Res.bind_ok]
  rw [getS_some go.getS]
  simp only [Res.bind_ok]
  have hk' : (∃ names, k = .obj names) ∨ cs = [] := by
    cases k with
    | obj names => exact .inl ⟨names, rfl⟩
    | lst => exact .inr (hk rfl)
    | leaf d => exact .inr go.kindOK.1
  cases hp : k.posOf name with
  | some i =>
    left
    cases k with
    | leaf d => cases hp
    | lst => cases hp
    | obj names =>
      have hp' : names.findIdx? (· == name) = some i := hp
      have hi : i < cs.length := by
        rw [← go.kindOK.1]
        obtain ⟨h1, _⟩ := List.findIdx?_eq_some_iff_getElem.1 hp'
        exact h1
      refine ⟨names, i, cs[i], rfl, hp', List.getElem?_eq_getElem hi, ?_⟩
      simp only [Res.ofIdx, List.getElem?_map, List.getElem?_eq_getElem hi]
      rfl
  | none =>
    right
    obtain ⟨names, h1, g, e1, e2, hl, hkn, w, _⟩ := addChildS_spec go name hk'
    have hnm : name ∉ names := by
      rcases hkn with rfl | ⟨_, rfl⟩
      · exact posOf_none hp
      · simp
    have hko : KindOK (.obj (names ++ [name])) (cs ++ [HT.mk h.nextN h.nextS {} (.leaf {}) []]) := by
      refine ⟨by simp [hl], ?_⟩
      rw [List.nodup_append]
      refine ⟨?_, by simp, fun a ha b hb e => hnm ?_⟩
      · rcases hkn with rfl | ⟨_, rfl⟩
        · exact go.kindOK.2
        · simp
      · rw [List.mem_singleton] at hb; rw [← hb, ← e]; exact ha
    have hx : CleanAt x (.obj (names ++ [name])) := fun ha => by
      obtain ⟨p, p1, p2, _⟩ := go.cleanAt ha
      exact ⟨p, p1, p2, rfl⟩
    have gc := w.child go
    obtain ⟨h', e3, g3, s3, _⟩ := w.push go hko hx gc (Step.refl _ gc.bounded)
    refine ⟨names, h', hl, hnm, hkn, ?_, g3, s3⟩
    simp only [Res.bind_ok, e1, e2, e3]

/-- `append` -/
theorem appendN_spec (go : Good h L pn ps own (HT.mk n s x k cs)) :
    ∃ h' x' ds a b, appendN h n = .ok (h', a) ∧ (k = .lst ∧ ds = cs ∧ x' = x ∨ k ≠ .lst ∧ ds = []) ∧
      Good h' L pn ps own (HT.mk n s x' .lst (ds ++ [HT.mk a b {} (.leaf {}) []])) ∧
      Step h (HT.mk n s x k cs) h' (HT.mk n s x' .lst (ds ++ [HT.mk a b {} (.leaf {}) []])) := by
  -- after `init`
  have key : ∃ h1 x' ds, initN h n { id := .list } = .ok h1 ∧ (k = .lst ∧ ds = cs ∧ x' = x ∨ k ≠ .lst ∧ ds = []) ∧
      Good h1 L pn ps own (HT.mk n s x' .lst ds) ∧ Step h (HT.mk n s x k cs) h1 (HT.mk n s x' .lst ds) := by
    rcases initN_spec go { id := .list } (by simp) with ⟨e1, e2⟩ | ⟨e1, h1, x', e2, e3, e4⟩
    · have : k = .lst := by
        cases k with
        | lst => rfl
        | obj names => simp [Kind.dtype, DataType.compatible] at e1
        | leaf d =>
          have h2 := go.kindOK.2.2
          unfold DataType.compatible Kind.dtype at e1
          simp at e1
          exact absurd e1.1.1 h2
      subst this
      exact ⟨h, x, cs, e2, .inl ⟨rfl, rfl, rfl⟩, go, Step.refl _ go.bounded⟩
    · refine ⟨h1, x', [], e2, .inr ⟨fun hc => ?_, rfl⟩, e3, e4⟩
      subst hc
      simp [Kind.dtype, DataType.compatible] at e1
  obtain ⟨h1, x', ds, e1, hd, g1, s1⟩ := key
  obtain ⟨q, hq, _⟩ := g1.get
  obtain ⟨h2, g, e2, e3, w, e4⟩ := appendS_spec g1
  have gc := w.child g1
  have hx : CleanAt x' .lst := fun ha => by
    obtain ⟨p, p1, p2, _⟩ := g1.cleanAt ha
    exact ⟨p, p1, p2, rfl⟩
  obtain ⟨h', e5, g3, s3, _⟩ := w.push g1 (c' := HT.mk h1.nextN h1.nextS {} (.leaf {}) []) trivial hx gc (Step.refl _ gc.bounded)
  refine ⟨h', x', ds, h1.nextN, h1.nextS, ?_, hd, g3, s1.trans s3⟩
  rw [appendN, e1]
  simp only [Res.bind_ok]
  rw [getN_some hq]
  simp only [Res.bind_ok, e2, e4]
  rw [show Res.ofIdx (ds.map sid ++ [h1.nextS]) (ds.map nid).length = .ok h1.nextS by
    unfold Res.ofIdx
    rw [List.length_map, ← List.length_map (f := sid), List.getElem?_concat_length]]
  simp only [Res.bind_ok, e3, e5]

end
end HT
end Conduit
