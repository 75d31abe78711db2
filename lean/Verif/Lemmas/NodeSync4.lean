import Verif.Lemmas.NodeSync3
/-
Lemmas about heaps of node and schema objects: removing and renaming children.
-/
namespace Conduit
open Spec Node Heap
namespace HT

/-- the kind of the parent after a child was removed -/
def eraseK (k : Kind) (i : Nat) : Kind :=
  match k with
  | .leaf d => .leaf d
  | .obj names => .obj (names.eraseIdx i)
  | .lst => .lst

section
variable {h : Heap} {L : Prop} {pn ps : Option Nat} {own : Bool} {n s : Nat} {x : Info} {k : Kind}

theorem remove_good {h' : Heap} {pre post : List HT} {c : HT} {q : Option Nat} (g : Good h L pn ps own (mk n s x k (pre ++ c :: post)))
    (hq : h.nodes n = some ⟨s, own, q, (pre ++ c :: post).map nid, x⟩)
    (hN : ∀ i, h'.nodes i = if i = n then some ⟨s, own, q, (pre ++ post).map nid, x⟩ else if i ∈ c.nids then none else h.nodes i)
    (hS : ∀ i, h'.schemas i = if i = s then some ⟨eraseK k pre.length, (pre ++ post).map sid, ps⟩ else if i ∈ c.sids then none
      else h.schemas i) (h1 : h'.nextN = h.nextN) (h2 : h'.nextS = h.nextS) (hf : Freed h.mem h'.mem c.blks) :
    Good h' L pn ps own (mk n s x (eraseK k pre.length) (pre ++ post)) ∧
      Step h (mk n s x k (pre ++ c :: post)) h' (mk n s x (eraseK k pre.length) (pre ++ post)) := by
  have pN : (mk n s x k (pre ++ c :: post)).nids.Perm (c.nids ++ (mk n s x (eraseK k pre.length) (pre ++ post)).nids) := by
    simp only [nids, nidsL_append, nidsL]
    rw [← List.cons_append]
    refine (List.perm_append_comm_assoc _ _ _).trans ?_
    simp
  have pS : (mk n s x k (pre ++ c :: post)).sids.Perm (c.sids ++ (mk n s x (eraseK k pre.length) (pre ++ post)).sids) := by
    simp only [sids, sidsL_append, sidsL]
    rw [← List.cons_append]
    refine (List.perm_append_comm_assoc _ _ _).trans ?_
    simp
  have pB : (mk n s x k (pre ++ c :: post)).blks.Perm (c.blks ++ (mk n s x (eraseK k pre.length) (pre ++ post)).blks) := by
    simp only [blks, blksL_append, blksL]
    rw [← List.append_assoc]
    refine (List.perm_append_comm_assoc _ _ _).trans ?_
    simp
  have nN := List.nodup_append.1 (pN.nodup_iff.1 g.nodupN)
  have nS := List.nodup_append.1 (pS.nodup_iff.1 g.nodupS)
  have nB := List.nodup_append.1 (pB.nodup_iff.1 g.nodupB)
  have nn : n ∉ nidsL (pre ++ post) := by
    have := nN.2.1
    rw [nids, List.nodup_cons] at this
    exact this.1
  have ns : s ∉ sidsL (pre ++ post) := by
    have := nS.2.1
    rw [sids, List.nodup_cons] at this
    exact this.1
  have ln := g.ltN n (by simp [nids])
  have ls := g.ltS s (by simp [sids])
  have dN : ∀ i ∈ (mk n s x (eraseK k pre.length) (pre ++ post)).nids, i ∉ c.nids := fun i hi hc => nN.2.2 i hc i hi rfl
  have dS : ∀ i ∈ (mk n s x (eraseK k pre.length) (pre ++ post)).sids, i ∉ c.sids := fun i hi hc => nS.2.2 i hc i hi rfl
  have dB : ∀ i ∈ (mk n s x (eraseK k pre.length) (pre ++ post)).blks, i ∉ c.blks := fun i hi hc => nB.2.2 i hc i hi rfl
  have mN := fun i => (pN.mem_iff (a := i)).trans List.mem_append
  have mS := fun i => (pS.mem_iff (a := i)).trans List.mem_append
  have mB := fun i => (pB.mem_iff (a := i)).trans List.mem_append
  have sub : ∀ d, d ∈ pre ++ post → d ∈ pre ++ c :: post := fun d hd => by
    simp only [List.mem_append, List.mem_cons] at hd ⊢; tauto
  obtain ⟨q', e, hq1, hq2⟩ := g.get
  rw [hq] at e
  injection e with e
  injection e with _ _ e
  subst e
  have shp := g.shape
  have cln := g.clean
  rw [Shape] at shp
  rw [Clean] at cln
  have hbk : ∀ i, h'.blk i = if i ∈ c.blks then none else h.blk i := hf.2
  refine ⟨⟨?_, ?_, ?_, ?_, nN.2.1, nS.2.1, nB.2.1, ?_, ⟨?_, ?_⟩⟩,
    ⟨rfl, rfl, by rw [h1], by rw [h2], by rw [hf.1], ?_, ?_, ?_, ?_, ?_, ?_, ?_, ?_, ?_⟩⟩
  · rw [HN]
    refine ⟨⟨q, by rw [hN, if_pos rfl], hq1, hq2⟩, HNL_iff.2 fun d hd => ?_⟩
    refine HN_congr (HNL_iff.1 g.kidsN d (sub d hd)) fun i hi => ?_
    have hi' : i ∈ nidsL (pre ++ post) := by rw [nidsL_eq]; exact List.mem_flatMap.2 ⟨d, hd, hi⟩
    rw [hN, if_neg (fun e => nn (by rw [← e]; exact hi')), if_neg (dN i (by simp [nids, hi']))]
  · rw [HS]
    refine ⟨by rw [hS, if_pos rfl], HSL_iff.2 fun d hd => ?_⟩
    refine HS_congr (HSL_iff.1 g.kidsS d (sub d hd)) fun i hi => ?_
    have hi' : i ∈ sidsL (pre ++ post) := by rw [sidsL_eq]; exact List.mem_flatMap.2 ⟨d, hd, hi⟩
    rw [hS, if_neg (fun e => ns (by rw [← e]; exact hi')), if_neg (dS i (by simp [sids, hi']))]
  · rw [Shape]
    refine ⟨?_, ShapeL_iff.2 fun d hd => ShapeL_iff.1 shp.2 d (sub d hd)⟩
    have := shp.1
    cases k with
    | leaf d => exact absurd this.1 (by simp)
    | lst => trivial
    | obj names =>
      refine ⟨?_, this.2.sublist (List.eraseIdx_sublist ..)⟩
      have hl := this.1
      simp only [List.length_append, List.length_cons] at hl
      rw [List.length_eraseIdx_of_lt (by omega)]
      simp only [List.length_append]
      omega
  · rw [Clean]
    refine ⟨fun ha => ?_, CleanL_iff.2 fun d hd => CleanL_iff.1 cln.2 d (sub d hd)⟩
    obtain ⟨p, p1, p2, p3⟩ := cln.1 ha
    refine ⟨p, p1, p2, ?_⟩
    cases k with
    | leaf d => exact p3
    | obj _ => rfl
    | lst => rfl
  · intro b hb
    rw [hbk, if_neg (dB b hb)]
    exact g.live b ((mB b).2 (.inr hb))
  · intro i hi
    rw [hN, if_neg (by omega)]
    split
    · rfl
    · exact g.bounded.nodes i (by omega)
  · intro i hi
    rw [hS, if_neg (by omega)]
    split
    · rfl
    · exact g.bounded.schemas i (by omega)
  · intro i _ hi
    rw [mN, not_or] at hi
    rw [hN, if_neg (fun e => hi.2 (by simp [nids, e])), if_neg hi.1]
  · intro i _ hi
    rw [mS, not_or] at hi
    rw [hS, if_neg (fun e => hi.2 (by simp [sids, e])), if_neg hi.1]
  · intro i _ hi
    rw [mB, not_or] at hi
    rw [hbk, if_neg hi.1]
  · intro i hi; exact .inl ((mN i).2 (.inr hi))
  · intro i hi; exact .inl ((mS i).2 (.inr hi))
  · intro i hi; exact .inl ((mB i).2 (.inr hi))
  · intro i hi hn
    rw [mN] at hi
    rw [hN, if_neg (fun e => hn (by simp [nids, e]))]
    split
    · rfl
    · rename_i hc
      rcases hi with (hi | hi) | hi
      · exact absurd hi hc
      · exact absurd hi hn
      · exact g.bounded.nodes i hi
  · intro i hi hn
    rw [mS] at hi
    rw [hS, if_neg (fun e => hn (by simp [sids, e]))]
    split
    · rfl
    · rename_i hc
      rcases hi with (hi | hi) | hi
      · exact absurd hi hc
      · exact absurd hi hn
      · exact g.bounded.schemas i hi
  · intro i hi hn
    rw [mB] at hi
    rw [hbk]
    split
    · rfl
    · rename_i hc
      rcases hi with (hi | hi) | hi
      · exact absurd hi hc
      · exact absurd hi hn
      · exact blk_ge hi

/-- `remove(idx)` for an index in range -/
theorem removeN_spec {pre post : List HT} {c : HT} (g : Good h L pn ps own (mk n s x k (pre ++ c :: post))) :
    ∃ h', removeN h n pre.length = .ok h' ∧ Good h' L pn ps own (mk n s x (eraseK k pre.length) (pre ++ post)) ∧
      Step h (mk n s x k (pre ++ c :: post)) h' (mk n s x (eraseK k pre.length) (pre ++ post)) := by
  obtain ⟨q, hq, _⟩ := g.get
  have gc := g.child (c := c) (by simp)
  obtain ⟨m, em, hf⟩ := releaseMem_spec c h.mem gc.shape gc.clean gc.nodupB gc.live
  have lc := gc.lenN
  have lcs := gc.lenS
  have hns : s ∉ c.sids := fun hc => g.listS.2.2 (by rw [sidsL_eq]; exact List.mem_flatMap.2 ⟨c, by simp, hc⟩)
  have e1 : delN h.nextN h c.nid = .ok ((h.killN c.nids).withMem m) := by
    rw [delN_spec c h.nextN h _ _ gc.node gc.schema gc.shape gc.nodupN lc, em]; rfl
  have e2 : delS ((h.killN c.nids).withMem m).nextS ((h.killN c.nids).withMem m) c.sid = .ok (((h.killN c.nids).withMem m).killS c.sids) :=
    delS_spec c _ _ _ (HS_congr gc.schema fun _ _ => rfl) gc.nodupS lcs
  have el : ∀ f : HT → Nat, ((pre ++ c :: post).map f)[pre.length]? = some (f c) := fun f => by simp
  have er : ∀ f : HT → Nat, ((pre ++ c :: post).map f).eraseIdx pre.length = (pre ++ post).map f := fun f => by
    rw [List.map_append, List.map_cons, List.eraseIdx_append_of_length_le (by simp)]
    simp
  have e3 : removeS ((h.killN c.nids).withMem m) s pre.length = .ok ((((h.killN c.nids).withMem m).killS c.sids).putS s
      (some ⟨eraseK k pre.length, (pre ++ post).map sid, ps⟩)) := by
    rw [removeS, getS_some (h := (h.killN c.nids).withMem m) (o := ⟨k, (pre ++ c :: post).map sid, ps⟩) g.getS]
    simp only [Res.bind_ok, el, e2]
    have := g.kindOK
    cases k with
    | leaf d => exact absurd this.1 (by simp)
    | obj names => simp only [er]; rfl
    | lst => simp only [er]; rfl
  refine ⟨_, ?_, remove_good (h' := ((((h.killN c.nids).withMem m).killS c.sids).putS s
      (some ⟨eraseK k pre.length, (pre ++ post).map sid, ps⟩)).putN n (some ⟨s, own, q, (pre ++ post).map nid, x⟩)) g hq
      (fun i => rfl) (fun i => rfl) rfl rfl hf⟩
  rw [removeN, getN_some hq]
  simp only [Res.bind_ok, Res.ofIdx, el, e1, e3, er]

/-- a step that changes only the kind of the root -/
theorem kind_good {k' : Kind} {cs : List HT} (g : Good h L pn ps own (mk n s x k cs)) (hk : KindOK k' cs) (hx : CleanAt x k') :
    Good (h.putS s (some ⟨k', cs.map sid, ps⟩)) L pn ps own (mk n s x k' cs) ∧
      Step h (mk n s x k cs) (h.putS s (some ⟨k', cs.map sid, ps⟩)) (mk n s x k' cs) := by
  have ls := g.ltS s (by simp [sids])
  have shp := g.shape
  have cln := g.clean
  rw [Shape] at shp
  rw [Clean] at cln
  have nN := g.nodupN
  have nS := g.nodupS
  have nB := g.nodupB
  have lv := g.live
  refine ⟨⟨?_, ?_, by rw [Shape]; exact ⟨hk, shp.2⟩, by rw [Clean]; exact ⟨hx, cln.2⟩, nN, nS, nB, lv, ⟨g.bounded.nodes, ?_⟩⟩,
    ⟨rfl, rfl, Nat.le_refl _, Nat.le_refl _, Nat.le_refl _, fun _ _ _ => rfl, ?_, fun _ _ _ => rfl, fun _ hi => .inl hi,
      fun _ hi => .inl hi, fun _ hi => .inl hi, ?_, ?_, ?_⟩⟩
  · rw [HN]; exact ⟨g.get, HNL_congr g.kidsN fun _ _ => rfl⟩
  · rw [HS]
    refine ⟨by simp, HSL_congr g.kidsS fun i hi => ?_⟩
    rw [putS_schemas, if_neg (fun e => g.listS.2.2 (by rw [← e]; exact hi))]
  · intro i hi
    rw [putS_nextS] at hi
    rw [putS_schemas, if_neg (by omega)]
    exact g.bounded.schemas i hi
  · intro i _ hi
    rw [putS_schemas, if_neg (fun e => hi (by simp [sids, e]))]
  · rintro i (hi | hi) hn
    · exact absurd hi hn
    · exact g.bounded.nodes i hi
  · rintro i (hi | hi) hn
    · exact absurd hi hn
    · rw [putS_schemas, if_neg (by omega)]
      exact g.bounded.schemas i hi
  · rintro i (hi | hi) hn
    · exact absurd hi hn
    · exact blk_ge hi

/-- `rename_child` -/
theorem renameN_spec {cs : List HT} (g : Good h L pn ps own (mk n s x k cs)) (cur new : Str) :
    renameN h n cur new = .error ∨
    ∃ names i h', k = .obj names ∧ names.findIdx? (· == cur) = some i ∧ new ∉ names ∧ renameN h n cur new = .ok h' ∧
      Good h' L pn ps own (mk n s x (.obj (names.set i new)) cs) ∧ Step h (mk n s x k cs) h' (mk n s x (.obj (names.set i new)) cs) := by
  obtain ⟨q, hq, _⟩ := g.get
  rw [renameN, getN_some hq]
  simp only [Res.bind_ok]
  rw [renameS, getS_some g.getS]
  simp only [Res.bind_ok]
  cases k with
  | leaf d => exact .inl rfl
  | lst => exact .inl rfl
  | obj names =>
    simp only
    cases hp : names.findIdx? (· == cur) with
    | none => exact .inl rfl
    | some i =>
      simp only
      split
      · exact .inl rfl
      · rename_i hn
        refine .inr ⟨names, i, _, rfl, hp, hn, rfl, kind_good g ⟨by simpa using g.kindOK.1, ?_⟩ ?_⟩
        · have nd := g.kindOK.2
          exact nd.set hn
        · intro ha
          obtain ⟨p, p1, p2, _⟩ := g.cleanAt ha
          exact ⟨p, p1, p2, rfl⟩

end
end HT
end Conduit
