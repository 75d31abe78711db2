import Verif.Lemmas.NodeSync12
/-
C33-C35: what the invariant says about single objects; calls that cannot fail; the end of all trees.
-/
namespace Conduit
open Spec Node Heap HT

namespace HT
theorem ownB_mem {x : Info} {b : Nat} : b ∈ ownB x ↔ ∃ p, x.alloced = true ∧ x.data = some p ∧ p.blk = b := by
  unfold ownB
  split
  · rename_i p h1 h2
    simp [h1, h2]
    exact eq_comm
  · rename_i hx
    constructor
    · intro h; cases h
    · rintro ⟨p, h1, h2, _⟩
      exact absurd h2 (hx p h1)

theorem flat_disj {f : HT → List Nat} {A B : HT} {b : Nat} (hAB : A ≠ B) (h1 : b ∈ f A) (h2 : b ∈ f B) : ∀ {l : List HT},
    (l.flatMap f).Nodup → A ∈ l → B ∈ l → False
  | [], _, hA, _ => by cases hA
  | c :: l, nd, hA, hB => by
    rw [List.flatMap_cons, List.nodup_append] at nd
    rw [List.mem_cons] at hA hB
    rcases hA with rfl | hA <;> rcases hB with rfl | hB
    · exact hAB rfl
    · exact nd.2.2 b h1 b (List.mem_flatMap.2 ⟨B, hB, h2⟩) rfl
    · exact nd.2.2 b h2 b (List.mem_flatMap.2 ⟨A, hA, h1⟩) rfl
    · exact flat_disj hAB h1 h2 nd.2.1 hA hB

/-- the blocks are those of the subtrees, in order -/
theorem subsL_blks (F : List HT) : blksL F = (subsL F).flatMap (fun t => ownB t.info) := by
  refine HT.rec_1 (motive_1 := fun t => t.blks = t.subs.flatMap (fun t => ownB t.info))
    (motive_2 := fun F => blksL F = (subsL F).flatMap (fun t => ownB t.info)) ?_ ?_ ?_ F
  · intro n s x k cs ih
    rw [blks, subs, List.flatMap_cons, ih]
    rfl
  · rfl
  · intro c cs ih1 ih2
    rw [blksL, subsL, List.flatMap_append, ih1, ih2]
end HT

namespace Inv
variable {L : Prop} {U : List Nat} {h : Heap} {F : List HT}

theorem lockstep (v : Inv L U h F) : Lockstep h := by
  intro n o ho
  obtain ⟨A, hA, rfl⟩ := v.find (n := n) (by rw [ho]; rfl)
  obtain ⟨pn, ps, own, g⟩ := v.goodAt hA
  have g := g.root
  obtain ⟨q, hq, _⟩ := g.get
  rw [ho] at hq
  injection hq with hq
  subst hq
  refine ⟨_, g.getS, by simp, fun i c hc => ?_, fun d hd => ?_, fun names hk => ?_⟩
  · simp only [List.getElem?_map, Option.map_eq_some_iff] at hc
    obtain ⟨C, hC, rfl⟩ := hc
    have gc := (g.child (List.mem_of_getElem? hC)).root
    obtain ⟨q, hq, _⟩ := gc.get
    exact ⟨_, _, hq, by simp [hC], gc.getS, rfl⟩
  · have := g.kindOK
    change A.kind = _ at hd
    rw [hd] at this
    simp [this.1]
  · have := g.kindOK
    change A.kind = _ at hk
    rw [hk] at this
    change _ = (A.cs.map nid).length ∧ _
    rw [List.length_map]
    exact this

theorem disjoint (v : Inv L U h F) : Heap.Disjoint h := by
  refine ⟨fun n m o p c i j ho hp hi hj => ?_, fun n m o p ho hp e => ?_⟩
  · obtain ⟨A, hA, rfl⟩ := v.find (n := n) (by rw [ho]; rfl)
    obtain ⟨B, hB, rfl⟩ := v.find (n := m) (by rw [hp]; rfl)
    obtain ⟨_, _, _, gA⟩ := v.goodAt hA
    obtain ⟨_, _, _, gB⟩ := v.goodAt hB
    obtain ⟨q, hq, _⟩ := gA.root.get
    obtain ⟨q', hq', _⟩ := gB.root.get
    rw [ho] at hq
    injection hq with hq
    subst hq
    rw [hp] at hq'
    injection hq' with hq'
    subst hq'
    simp only [List.getElem?_map, Option.map_eq_some_iff] at hi hj
    obtain ⟨C, hC, e1⟩ := hi
    obtain ⟨D, hD, e2⟩ := hj
    have mC := List.mem_of_getElem? hC
    have mD := List.mem_of_getElem? hD
    have e3 := v.inj_nid (subsL_trans F hA (cs_subs A mC)) (subsL_trans F hB (cs_subs B mD)) (e1.trans e2.symm)
    subst e3
    have sC := (gA.root.child mC).root.getS
    have sD := (gB.root.child mD).root.getS
    rw [sC] at sD
    injection sD with sD
    injection sD with _ _ sD
    injection sD with sD
    have e4 := v.inj_sid hA hB sD
    subst e4
    refine ⟨rfl, ?_⟩
    have nd := (v.kids_nodup hA).2
    refine (List.getElem?_inj (l := A.cs.map nid) ?_ nd).1 ?_
    · rw [List.length_map]; exact (List.getElem?_eq_some_iff.1 hC).1
    · simp [hC, hD]
  · obtain ⟨A, hA, rfl⟩ := v.find (n := n) (by rw [ho]; rfl)
    obtain ⟨B, hB, rfl⟩ := v.find (n := m) (by rw [hp]; rfl)
    obtain ⟨_, _, _, e1, _⟩ := v.owner hA
    obtain ⟨_, _, _, e2, _⟩ := v.owner hB
    rw [ho] at e1
    rw [hp] at e2
    injection e1 with e1
    injection e2 with e2
    subst e1 e2
    rw [v.inj_sid hA hB e]

theorem linked (v : Inv L U h F) (l : L) : Linked h := by
  constructor
  · intro n o c oc ho hc hoc
    obtain ⟨A, hA, rfl⟩ := v.find (n := n) (by rw [ho]; rfl)
    obtain ⟨_, _, _, g⟩ := v.goodAt hA
    obtain ⟨q, hq, _⟩ := g.root.get
    rw [ho] at hq
    injection hq with hq
    subst hq
    obtain ⟨C, hC, rfl⟩ := List.mem_map.1 hc
    obtain ⟨q, hq, _, hl⟩ := (g.root.child hC).root.get
    rw [hoc] at hq
    injection hq with hq
    subst hq
    exact hl l
  · intro n o p ho hp
    obtain ⟨A, hA, rfl⟩ := v.find (n := n) (by rw [ho]; rfl)
    rcases v.place hA with ⟨_, g⟩ | ⟨Q, hQ, hc, g⟩
    · obtain ⟨q, hq, _, hl⟩ := g.root.get
      rw [ho] at hq
      injection hq with hq
      subst hq
      have := hl l
      change q = none at this
      change q = some p at hp
      rw [this] at hp
      cases hp
    · obtain ⟨q, hq, _, hl⟩ := g.root.get
      rw [ho] at hq
      injection hq with hq
      subst hq
      have := hl l
      change q = some p at hp
      rw [hp] at this
      injection this with this
      subst this
      obtain ⟨_, _, _, e, _⟩ := v.owner hQ
      exact ⟨_, e, List.mem_map_of_mem hc⟩

theorem owns_iff (v : Inv L U h F) {n b : Nat} : h.Owns n b ↔ ∃ A ∈ subsL F, A.nid = n ∧ b ∈ ownB A.info := by
  constructor
  · rintro ⟨o, p, ho, h1, h2, h3⟩
    obtain ⟨A, hA, rfl⟩ := v.find (n := n) (by rw [ho]; rfl)
    obtain ⟨_, _, _, e, _⟩ := v.owner hA
    rw [ho] at e
    injection e with e
    subst e
    exact ⟨A, hA, rfl, ownB_mem.2 ⟨p, h1, h2, h3⟩⟩
  · rintro ⟨A, hA, rfl, hb⟩
    obtain ⟨p, h1, h2, h3⟩ := ownB_mem.1 hb
    obtain ⟨_, _, _, e, _⟩ := v.owner hA
    exact ⟨_, p, e, h1, h2, h3⟩

theorem blocks (v : Inv L U h F) : Blocks h U := by
  have nB := v.nodupB
  rw [List.nodup_append] at nB
  refine ⟨fun n b hb => ?_, fun n m b h1 h2 => ?_, fun n o ho ha => ?_, fun b hb => (v.allB b).2 (List.mem_append_right _ hb), fun b hb => ?_⟩
  · obtain ⟨A, hA, _, hb⟩ := v.owns_iff.1 hb
    have : b ∈ blksL F := by rw [subsL_blks, List.mem_flatMap]; exact ⟨A, hA, hb⟩
    exact ⟨(v.allB b).2 (List.mem_append_left _ this), fun hc => nB.2.2 b this b hc rfl⟩
  · obtain ⟨A, hA, rfl, h1'⟩ := v.owns_iff.1 h1
    obtain ⟨B, hB, rfl, h2'⟩ := v.owns_iff.1 h2
    by_contra hne
    have hAB : A ≠ B := fun hc => hne (by rw [hc])
    have nb := nB.1
    rw [subsL_blks] at nb
    exact flat_disj hAB h1' h2' nb hA hB
  · obtain ⟨A, hA, rfl⟩ := v.find (n := n) (by rw [ho]; rfl)
    obtain ⟨_, _, _, g⟩ := v.goodAt hA
    obtain ⟨q, hq, _⟩ := g.root.get
    rw [ho] at hq
    injection hq with hq
    subst hq
    obtain ⟨p, h1, h2, _⟩ := g.root.cleanAt ha
    exact ⟨p, h1, h2⟩
  · rcases List.mem_append.1 ((v.allB b).1 hb) with hb | hb
    · rw [subsL_blks, List.mem_flatMap] at hb
      obtain ⟨A, hA, hb⟩ := hb
      exact .inr ⟨A.nid, v.owns_iff.2 ⟨A, hA, rfl, hb⟩⟩
    · exact .inl hb

/-- the roots are the nodes that own their schema -/
theorem roots_iff (v : Inv L U h F) {n : Nat} : n ∈ F.map nid ↔ ∃ o, h.nodes n = some o ∧ o.owns = true := by
  constructor
  · intro hn
    obtain ⟨A, hA, rfl⟩ := List.mem_map.1 hn
    obtain ⟨q, hq, _⟩ := (v.good hA).root.get
    exact ⟨_, hq, rfl⟩
  · rintro ⟨o, ho, hw⟩
    obtain ⟨A, hA, rfl⟩ := v.find (n := n) (by rw [ho]; rfl)
    rcases v.place hA with ⟨hF, _⟩ | ⟨Q, hQ, _, g⟩
    · exact List.mem_map_of_mem hF
    · obtain ⟨q, hq, _⟩ := g.root.get
      rw [ho] at hq
      injection hq with hq
      subst hq
      cases hw

theorem roots_nodup (v : Inv L U h F) : (F.map nid).Nodup := by
  have hN := v.nodupN
  rw [← subsL_nid] at hN
  refine hN.sublist (List.Sublist.map _ ?_)
  have : ∀ l : List HT, l.Sublist (subsL l) := by
    intro l
    induction l with
    | nil => simp
    | cons c cs ih =>
      cases c
      rw [subsL, subs, List.cons_append]
      exact List.Sublist.cons_cons _ (ih.trans (List.sublist_append_right _ _))
  exact this F

/-- all roots deleted, in any order -/
theorem deleteAll {L : Prop} {U : List Nat} : ∀ (R : List Nat) (h : Heap) (F : List HT), Inv L U h F → R.Nodup → (∀ n, n ∈ R ↔ n ∈ F.map nid) →
    ∃ h', R.foldlM (fun g n => Op.run g (.destroy n)) h = .ok h' ∧ Inv L U h' []
  | [], h, F, v, _, hR => by
    have : F = [] := by
      cases F with
      | nil => rfl
      | cons c cs => exact absurd ((hR c.nid).2 (by simp)) (by simp)
    subst this
    exact ⟨h, rfl, v⟩
  | n :: R, h, F, v, nd, hR => by
    obtain ⟨A, hA, rfl⟩ := List.mem_map.1 ((hR n).1 (by simp))
    obtain ⟨pre, post, rfl⟩ := List.append_of_mem hA
    obtain ⟨h1, e1, v1⟩ := v.delete
    rw [List.nodup_cons] at nd
    have nd' := v.roots_nodup
    obtain ⟨h', e', v'⟩ := deleteAll R h1 _ v1 nd.2 (by
      intro m
      have hm := hR m
      simp only [List.map_append, List.map_cons, List.mem_append, List.mem_cons] at hm ⊢
      simp only [List.map_append, List.map_cons] at nd'
      rw [List.nodup_middle, List.nodup_cons, List.mem_append] at nd'
      constructor
      · intro h1
        have := hm.1 (.inr h1)
        rcases this with h2 | h2 | h2
        · exact .inl h2
        · subst h2; exact absurd h1 nd.1
        · exact .inr h2
      · intro h1
        have := hm.2 (by tauto)
        rcases this with h2 | h2
        · subst h2; exact absurd h1 nd'.1
        · exact h2)
    refine ⟨h', ?_, v'⟩
    rw [List.foldlM_cons]
    change (delN h.nextN h A.nid >>= fun g => _) = _
    rw [e1]
    exact e'

/-- the calls that touch no elements do not fail -/
theorem progress (v : Inv L U h F) (op : Op) (ha : op.Allowed U h) (hp : op.Plain h) : ∃ h', op.run h = .ok h' := by
  cases op with
  | new => exact ⟨_, rfl⟩
  | destroy n =>
    obtain ⟨o, ho, hown⟩ := ha
    obtain ⟨A, hA, rfl⟩ := List.mem_map.1 (v.roots_iff.2 ⟨o, ho, hown⟩)
    obtain ⟨pre, post, rfl⟩ := List.append_of_mem hA
    obtain ⟨h1, e1, _⟩ := v.delete
    exact ⟨h1, e1⟩
  | reset n =>
    obtain ⟨s, x, k, cs, pn, ps, own, g, c⟩ := v.sub' hp
    obtain ⟨h1, x1, e1, _⟩ := resetN_spec g
    exact ⟨h1, e1⟩
  | addChild n name =>
    obtain ⟨r, _, e, _⟩ := v.addChild hp name ha
    exact ⟨r.1, by rw [Op.run, e]; rfl⟩
  | append n =>
    obtain ⟨s, x, k, cs, pn, ps, own, g, c⟩ := v.sub' hp
    obtain ⟨h1, x', ds, a, b, e, _⟩ := appendN_spec g
    exact ⟨h1, by rw [Op.run, e]; rfl⟩
  | remove n idx =>
    obtain ⟨o, ho, hi⟩ := hp
    obtain ⟨h1, _, e, _⟩ := v.remove ho hi
    exact ⟨h1, e⟩
  | removeChild n name =>
    rcases v.removeChild hp name with e | ⟨h1, _, e, _⟩
    · exact ⟨h, by rw [Op.run, e]; rfl⟩
    · exact ⟨h1, by rw [Op.run, e]; rfl⟩
  | removePath n path =>
    rcases v.removePath path.length path n (Nat.le_refl _) hp with e | ⟨h1, _, e, _⟩
    · exact ⟨h, by rw [Op.run, e]; rfl⟩
    · exact ⟨h1, by rw [Op.run, e]; rfl⟩
  | rename n cur name =>
    obtain ⟨s, x, k, cs, pn, ps, own, g, c⟩ := v.sub' hp
    rcases renameN_spec g cur name with e | ⟨_, _, h1, _, _, _, e, _⟩
    · exact ⟨h, by rw [Op.run, e]; rfl⟩
    · exact ⟨h1, by rw [Op.run, e]; rfl⟩
  | setSchema n s =>
    obtain ⟨_, x, k, cs, pn, ps, own, g, c⟩ := v.sub' hp
    obtain ⟨h1, t, e1, _⟩ := setSchemaN_spec g s ha.1 ha.2.1 ha.2.2
    exact ⟨h1, e1⟩
  | setExternalSchema n s data =>
    obtain ⟨_, x, k, cs, pn, ps, own, g, c⟩ := v.sub' hp
    obtain ⟨h1, t, e1, _⟩ := setExternalSchemaN_spec g s ha data
    exact ⟨h1, e1⟩
  | setExternalPtr n d data =>
    obtain ⟨_, x, k, cs, pn, ps, own, g, c⟩ := v.sub' hp
    obtain ⟨h1, t, e1, _⟩ := setExternalPtrN_spec g d data
    exact ⟨h1, e1⟩
  | setExternalNode n src =>
    obtain ⟨A, hA, rfl⟩ := v.find hp.2
    obtain ⟨_, _, _, gA⟩ := v.goodAt hA
    obtain ⟨_, x, k, cs, pn, ps, own, g, c⟩ := v.sub' hp.1
    obtain ⟨h1, t, e1, _⟩ := setExternalNodeN_spec g A.toNode (toNode_SchOK A gA.shape)
    exact ⟨h1, by rw [Op.run, gA.read]; exact e1⟩
  | swap a b =>
    obtain ⟨A, hA, rfl⟩ := v.find hp.1
    obtain ⟨B, hB, rfl⟩ := v.find hp.2
    obtain ⟨h1, e1, _⟩ := v.swap hA hB (fun hc => ha.1.1 ((v.below hA).2 hc)) (fun hc => ha.1.2 ((v.below hB).2 hc)) ha.2
    exact ⟨h1, e1⟩
  | move a b =>
    obtain ⟨A, hA, rfl⟩ := v.find hp.1
    obtain ⟨B, hB, rfl⟩ := v.find hp.2
    obtain ⟨h1, _, _, e1, _⟩ := v.move hA hB (fun hc => ha.1.1 ((v.below hA).2 hc)) (fun hc => ha.1.2 ((v.below hB).2 hc)) ha.2
    exact ⟨h1, e1⟩
  | userAlloc z => exact ⟨_, rfl⟩
  | userFree p =>
    obtain ⟨m, e, _⟩ := v.userFree ha hp
    exact ⟨_, by rw [Op.run, e]; rfl⟩
  | _ => exact hp.elim

/-- setters: everything but the write of the elements succeeds -/
theorem setter_init (v : Inv L U h F) {n : Nat} (hn : (h.nodes n).isSome) {d : DataType} (hd : 0 ≤ d.spannedBytes) :
    ∃ h1 o d1, initN h n d = .ok h1 ∧ h1.nodes n = some o ∧ dtypeN h1 n = .ok d1 ∧
      ∀ write : Info → DataType → Mem → Res Mem,
        setWith d write h n = (write o.info d1 h1.mem >>= fun m => .ok { h1 with mem := m }) := by
  obtain ⟨s, x, k, cs, pn, ps, own, g, c⟩ := v.sub' hn
  obtain ⟨h1, x1, k1, cs1, e1, g1⟩ : ∃ h1 x1 k1 cs1, initN h n d = .ok h1 ∧ Good h1 L pn ps own (HT.mk n s x1 k1 cs1) := by
    rcases initN_spec g d (fun _ => hd) with ⟨_, e⟩ | ⟨_, h1, x1, e1, g1, _⟩
    · exact ⟨h, x, k, cs, e, g⟩
    · exact ⟨h1, x1, _, _, e1, g1⟩
  obtain ⟨q, hq, _⟩ := g1.get
  refine ⟨h1, _, _, e1, hq, dtypeN_spec g1, fun write => ?_⟩
  rw [setWith, e1]
  simp only [Res.bind_ok]
  rw [getN_some hq]
  simp only [Res.bind_ok]
  rw [dtypeN_spec g1]
  rfl

/-- `swap` on live nodes, by what the nodes hold -/
theorem swap_read (v : Inv L U h F) {a b : Nat} (ha : (h.nodes a).isSome) (hb : (h.nodes b).isSome) (hap : Apart h a b) (hnb : NotBefore h a b) :
    ∃ h', swapN h a b = .ok h' ∧ (∃ F', Inv False U h' F') ∧ readN h'.nextN h' a = readN h.nextN h b ∧ readN h'.nextN h' b = readN h.nextN h a ∧
      (∀ i, i ≠ a → i ≠ b → h'.nodes i = h.nodes i) ∧
      (∀ i o, h.nodes i = some o → ∃ o', h'.nodes i = some o' ∧ o'.parent = o.parent ∧ o'.owns = o.owns) ∧
      (∀ s, (h'.schemas s).map (·.kind) = (h.schemas s).map (·.kind)) ∧ h'.mem = h.mem := by
  obtain ⟨A, hA, rfl⟩ := v.find ha
  obtain ⟨B, hB, rfl⟩ := v.find hb
  have nb : B.nid ∉ A.nids := fun hc => hap.1 ((v.below hA).2 hc)
  have na : A.nid ∉ B.nids := fun hc => hap.2 ((v.below hB).2 hc)
  obtain ⟨h', e, v'⟩ := v.swap hA hB nb na hnb
  have w : Two v A B := ⟨hA, hB, nb, na⟩
  obtain ⟨h'', e', sw⟩ := v.swapped hA hB w.ne (by
    intro Q hQ cA cB i j hi hj
    obtain ⟨_, q, _, eQ, _⟩ := v.owner hQ
    refine hnb _ _ i j eQ ?_ ?_
    · rw [List.getElem?_map, Option.map_eq_some_iff] at hi ⊢
      obtain ⟨C, hC, e⟩ := hi
      exact ⟨C, hC, by rw [v.inj_sid (subsL_trans F hQ (cs_subs Q (List.mem_of_getElem? hC))) hA e]⟩
    · rw [List.getElem?_map, Option.map_eq_some_iff] at hj ⊢
      obtain ⟨C, hC, e⟩ := hj
      exact ⟨C, hC, by rw [v.inj_sid (subsL_trans F hQ (cs_subs Q (List.mem_of_getElem? hC))) hB e]⟩)
  rw [e] at e'
  injection e' with e'
  subst e'
  obtain ⟨_, _, _, gA⟩ := v.goodAt hA
  obtain ⟨_, _, _, gB⟩ := v.goodAt hB
  obtain ⟨iA, iB⟩ := v.swap_in hA hB nb na
  obtain ⟨_, _, _, gA'⟩ := v'.goodAt iA
  obtain ⟨_, _, _, gB'⟩ := v'.goodAt iB
  have rA := gA'.read
  have rB := gB'.read
  have tn : ∀ (T : HT) (i : Nat), (HT.mk i T.sid T.info T.kind T.cs).toNode = T.toNode := by
    intro T i
    obtain ⟨n, s, x, k, cs⟩ := T
    cases k <;> rfl
  rw [tn] at rA rB
  change readN h'.nextN h' A.nid = _ at rA
  change readN h'.nextN h' B.nid = _ at rB
  refine ⟨h', e, ⟨_, v'⟩, by rw [rA, gB.read], by rw [rB, gA.read], sw.nodes, fun i o ho => ?_, fun s => ?_, sw.mem⟩
  · by_cases h1 : i = A.nid
    · subst h1; exact ⟨_, sw.nodeA o ho, rfl, rfl⟩
    · by_cases h2 : i = B.nid
      · subst h2; exact ⟨_, sw.nodeB o ho, rfl, rfl⟩
      · exact ⟨o, by rw [sw.nodes i h1 h2, ho], rfl, rfl⟩
  · have sA := gA.root.getS
    have sB := gB.root.getS
    by_cases h1 : s = A.sid
    · subst h1
      rw [sw.schemaA _ _ sA sB, sA]; rfl
    · by_cases h2 : s = B.sid
      · subst h2
        rw [sw.schemaB _ _ sA sB, sB]; rfl
      · rw [sw.schemas s h1 h2, mapC_schemas]
        cases h.schemas s <;> rfl

/-- `move` on live nodes, by what the nodes hold -/
theorem move_read (v : Inv L U h F) {a b : Nat} (ha : (h.nodes a).isSome) (hb : (h.nodes b).isSome) (hap : Apart h a b) (hnb : NotBefore h a b) :
    ∃ h' x, moveN h a b = .ok h' ∧ (∃ F', Inv False U h' F') ∧ readN h'.nextN h' a = readN h.nextN h b ∧
      readN h'.nextN h' b = .ok (.leaf x {}) ∧ x.alloced = false := by
  obtain ⟨A, hA, rfl⟩ := v.find ha
  obtain ⟨B, hB, rfl⟩ := v.find hb
  have nb : B.nid ∉ A.nids := fun hc => hap.1 ((v.below hA).2 hc)
  have na : A.nid ∉ B.nids := fun hc => hap.2 ((v.below hB).2 hc)
  obtain ⟨h', F', x, e, v', _, hx, iA, iB⟩ := v.move hA hB nb na hnb
  obtain ⟨_, _, _, gB⟩ := v.goodAt hB
  obtain ⟨_, _, _, gA'⟩ := v'.goodAt iA
  obtain ⟨_, _, _, gB'⟩ := v'.goodAt iB
  refine ⟨h', x, e, ⟨_, v'⟩, ?_, gB'.read, hx⟩
  rw [gB.read, show A.nid = (HT.mk A.nid B.sid B.info B.kind B.cs).nid from rfl, gA'.read]
  obtain ⟨n, s, y, k, cs⟩ := B
  cases k <;> rfl

end Inv
end Conduit
