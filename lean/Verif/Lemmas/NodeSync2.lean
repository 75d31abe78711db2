import Verif.Lemmas.NodeSync
/-
Lemmas about heaps of node and schema objects: steps that change one tree and nothing else.
-/
namespace Conduit
open Spec Node Heap

namespace Heap
theorem blk_ge {h : Heap} {i : Nat} (hi : h.mem.length ≤ i) : h.blk i = none := by
  unfold blk
  rw [List.getElem?_eq_none hi]
theorem blk_eq_size (h : Heap) (i : Nat) : h.blk i = h.mem.size i := rfl
theorem blk_congr {h g : Heap} (e : h.mem = g.mem) (i : Nat) : h.blk i = g.blk i := by
  unfold blk; rw [e]
end Heap

namespace HT

/-- A tree the heap holds; `pn`, `ps`: the parents of its root, `own`: it owns its schema. -/
structure Good (h : Heap) (L : Prop) (pn ps : Option Nat) (own : Bool) (t : HT) : Prop where
  node : t.HN h L pn own
  schema : t.HS h ps
  shape : t.Shape
  clean : t.Clean
  nodupN : t.nids.Nodup
  nodupS : t.sids.Nodup
  nodupB : t.blks.Nodup
  live : ∀ b ∈ t.blks, (h.blk b).isSome
  bounded : h.Bounded

/-- From heap `h` with tree `t` to `h'` with `t'`: the objects and blocks of the other trees are untouched,
    what is no longer in the tree is deleted. -/
structure Step (h : Heap) (t : HT) (h' : Heap) (t' : HT) : Prop where
  nid : t'.nid = t.nid
  sid : t'.sid = t.sid
  nextN : h.nextN ≤ h'.nextN
  nextS : h.nextS ≤ h'.nextS
  nextB : h.mem.length ≤ h'.mem.length
  frameN : ∀ i, i < h.nextN → i ∉ t.nids → h'.nodes i = h.nodes i
  frameS : ∀ i, i < h.nextS → i ∉ t.sids → h'.schemas i = h.schemas i
  frameB : ∀ i, i < h.mem.length → i ∉ t.blks → h'.blk i = h.blk i
  freshN : ∀ i ∈ t'.nids, i ∈ t.nids ∨ h.nextN ≤ i
  freshS : ∀ i ∈ t'.sids, i ∈ t.sids ∨ h.nextS ≤ i
  freshB : ∀ i ∈ t'.blks, i ∈ t.blks ∨ h.mem.length ≤ i
  deadN : ∀ i, i ∈ t.nids ∨ h.nextN ≤ i → i ∉ t'.nids → h'.nodes i = none
  deadS : ∀ i, i ∈ t.sids ∨ h.nextS ≤ i → i ∉ t'.sids → h'.schemas i = none
  deadB : ∀ i, i ∈ t.blks ∨ h.mem.length ≤ i → i ∉ t'.blks → h'.blk i = none

/-- memory in which the same blocks live -/
def SameB (m m' : Mem) : Prop := m'.length = m.length ∧ ∀ i, m'.size i = m.size i

theorem SameB.refl (m : Mem) : SameB m m := ⟨rfl, fun _ => rfl⟩
theorem SameB.trans {a b c : Mem} (x : SameB a b) (y : SameB b c) : SameB a c :=
  ⟨y.1.trans x.1, fun i => (y.2 i).trans (x.2 i)⟩

theorem Step.mem {h : Heap} {t : HT} {m : Mem} (hb : h.Bounded) (e : SameB h.mem m) : Step h t (h.withMem m) t := by
  have key : ∀ {i : Nat}, (h.withMem m).blk i = h.blk i := fun {i} => e.2 i
  refine ⟨rfl, rfl, Nat.le_refl _, Nat.le_refl _, Nat.le_of_eq e.1.symm, fun _ _ _ => rfl, fun _ _ _ => rfl, fun _ _ _ => key,
    fun i hi => .inl hi, fun i hi => .inl hi, fun i hi => .inl hi, ?_, ?_, ?_⟩
  · rintro i (h1 | h1) h2
    · exact absurd h1 h2
    · exact hb.nodes i h1
  · rintro i (h1 | h1) h2
    · exact absurd h1 h2
    · exact hb.schemas i h1
  · rintro i (h1 | h1) h2
    · exact absurd h1 h2
    · rw [key, blk_ge h1]

theorem Step.refl {h : Heap} (t : HT) (hb : h.Bounded) : Step h t h t := Step.mem hb (SameB.refl _)

theorem Good.mem {h : Heap} {L : Prop} {pn ps : Option Nat} {own : Bool} {t : HT} (g : Good h L pn ps own t) {m : Mem}
    (e : SameB h.mem m) : Good (h.withMem m) L pn ps own t :=
  ⟨HN_congr g.node fun _ _ => rfl, HS_congr g.schema fun _ _ => rfl, g.shape, g.clean, g.nodupN, g.nodupS, g.nodupB,
    fun b hb => by
      have : (h.withMem m).blk b = h.blk b := e.2 b
      rw [this]; exact g.live b hb, ⟨g.bounded.nodes, g.bounded.schemas⟩⟩

theorem Step.trans {h g1 g2 : Heap} {t t1 t2 : HT} (a : Step h t g1 t1) (b : Step g1 t1 g2 t2) : Step h t g2 t2 := by
  refine ⟨b.nid.trans a.nid, b.sid.trans a.sid, a.nextN.trans b.nextN, a.nextS.trans b.nextS, a.nextB.trans b.nextB, ?_, ?_, ?_, ?_, ?_, ?_, ?_, ?_, ?_⟩
  · intro i hi hn
    rw [b.frameN i (Nat.lt_of_lt_of_le hi a.nextN) (fun hc => (a.freshN i hc).elim hn (fun hc => absurd hi (by omega))), a.frameN i hi hn]
  · intro i hi hn
    rw [b.frameS i (Nat.lt_of_lt_of_le hi a.nextS) (fun hc => (a.freshS i hc).elim hn (fun hc => absurd hi (by omega))), a.frameS i hi hn]
  · intro i hi hn
    rw [b.frameB i (Nat.lt_of_lt_of_le hi a.nextB) (fun hc => (a.freshB i hc).elim hn (fun hc => absurd hi (by omega))), a.frameB i hi hn]
  · intro i hi
    rcases b.freshN i hi with h | h
    · exact a.freshN i h
    · exact .inr (a.nextN.trans h)
  · intro i hi
    rcases b.freshS i hi with h | h
    · exact a.freshS i h
    · exact .inr (a.nextS.trans h)
  · intro i hi
    rcases b.freshB i hi with h | h
    · exact a.freshB i h
    · exact .inr (a.nextB.trans h)
  · intro i hi hn
    by_cases h1 : i ∈ t1.nids
    · exact b.deadN i (.inl h1) hn
    · by_cases h3 : g1.nextN ≤ i
      · exact b.deadN i (.inr h3) hn
      · rw [b.frameN i (by omega) h1, a.deadN i hi h1]
  · intro i hi hn
    by_cases h1 : i ∈ t1.sids
    · exact b.deadS i (.inl h1) hn
    · by_cases h3 : g1.nextS ≤ i
      · exact b.deadS i (.inr h3) hn
      · rw [b.frameS i (by omega) h1, a.deadS i hi h1]
  · intro i hi hn
    by_cases h1 : i ∈ t1.blks
    · exact b.deadB i (.inl h1) hn
    · by_cases h3 : g1.mem.length ≤ i
      · exact b.deadB i (.inr h3) hn
      · rw [b.frameB i (by omega) h1, a.deadB i hi h1]

section
variable {h : Heap} {L : Prop} {pn ps : Option Nat} {own : Bool} {t : HT}

theorem Good.ltS (g : Good h L pn ps own t) : ∀ i ∈ t.sids, i < h.nextS := fun i hi => by
  rcases Nat.lt_or_ge i h.nextS with h1 | h1
  · exact h1
  · have := HS_live g.schema i hi
    rw [g.bounded.schemas i h1] at this
    simp at this
theorem Good.ltN (g : Good h L pn ps own t) : ∀ i ∈ t.nids, i < h.nextN := fun i hi => by
  rcases Nat.lt_or_ge i h.nextN with h1 | h1
  · exact h1
  · have := HN_live g.node i hi
    rw [g.bounded.nodes i h1] at this
    simp at this
theorem Good.ltB (g : Good h L pn ps own t) : ∀ i ∈ t.blks, i < h.mem.length := fun i hi => by
  rcases Nat.lt_or_ge i h.mem.length with h1 | h1
  · exact h1
  · have := g.live i hi
    rw [blk_ge h1] at this
    simp at this
theorem Good.lenS (g : Good h L pn ps own t) : t.sids.length ≤ h.nextS := length_le_of_nodup g.nodupS g.ltS
theorem Good.lenN (g : Good h L pn ps own t) : t.nids.length ≤ h.nextN := length_le_of_nodup g.nodupN g.ltN
end

theorem blksL_eq : ∀ cs : List HT, blksL cs = cs.flatMap blks
  | [] => rfl
  | c :: cs => by rw [blksL, blksL_eq cs]; rfl
theorem CleanL_iff : ∀ {cs : List HT}, CleanL cs ↔ ∀ c ∈ cs, Clean c
  | [] => by simp [CleanL]
  | c :: cs => by rw [CleanL, CleanL_iff]; simp

theorem ofDtype_toNode (n s : Nat) (x : Info) (d : DataType) : (mk n s x (Kind.ofDtype d) []).toNode = ofDtype x d := by
  unfold Kind.ofDtype ofDtype
  cases d.id <;> rfl
theorem ofDtype_ok (d : DataType) : KindOK (Kind.ofDtype d) [] := by
  have h : ∀ i : TypeId, d.id = i → KindOK (Kind.ofDtype d) [] := by
    intro i hi
    cases i <;> simp [KindOK, Kind.ofDtype, hi]
  exact h _ rfl

/-! ### releasing memory -/

/-- memory after the blocks of a list were freed -/
def Freed (m m' : Mem) (l : List Nat) : Prop := m'.length = m.length ∧ ∀ i, m'.size i = if i ∈ l then none else m.size i

theorem Freed.nil (m : Mem) : Freed m m [] := ⟨rfl, fun _ => by simp⟩
theorem Freed.trans {a b c : Mem} {l k : List Nat} (x : Freed a b l) (y : Freed b c k) : Freed a c (l ++ k) := by
  refine ⟨y.1.trans x.1, fun i => ?_⟩
  rw [y.2, x.2]
  by_cases h1 : i ∈ l <;> by_cases h2 : i ∈ k <;> simp [h1, h2]

theorem freeOwn_spec {x : Info} {k : Kind} {m : Mem} (hc : CleanAt x k) (hl : ∀ b ∈ ownB x, (m.size b).isSome) :
    ∃ m', freeOwn x k.isEmpty m = .ok m' ∧ Freed m m' (ownB x) := by
  obtain ⟨data, al⟩ := x
  cases al with
  | false => exact ⟨m, rfl, by simpa [ownB] using Freed.nil m⟩
  | true =>
    obtain ⟨p, rfl, hp, hk⟩ := hc rfl
    have hb := hl p.blk (by simp [ownB])
    refine ⟨m.set p.blk none, ?_, ?_⟩
    · unfold freeOwn Mem.free
      simp only [hk, Bool.not_false, Bool.and_self, if_true, ne_eq, hp, not_true, if_false]
      unfold Mem.size at hb
      split at hb
      · rename_i e; rw [e]
      · simp at hb
    · refine ⟨by simp, fun i => ?_⟩
      have : p.blk < m.length := by
        rcases Nat.lt_or_ge p.blk m.length with h1 | h1
        · exact h1
        · unfold Mem.size at hb
          rw [List.getElem?_eq_none h1] at hb
          simp at hb
      unfold Mem.size
      rw [List.getElem?_set]
      by_cases hi : p.blk = i
      · subst hi
        simp [ownB, this]
      · simp [hi, ownB, Ne.symm hi]

theorem relInfo_clean {x : Info} {k : Kind} (hc : CleanAt x k) : (relInfo x k.isEmpty).alloced = false := by
  unfold relInfo
  cases h : x.alloced with
  | false => simp [h]
  | true =>
    obtain ⟨p, h1, h2, h3⟩ := hc h
    simp [h1, h3]

mutual
theorem releaseMem_spec : ∀ (t : HT) (m : Mem), Shape t → Clean t → t.blks.Nodup → (∀ b ∈ t.blks, (m.size b).isSome) →
    ∃ m', releaseMem t.toNode m = .ok m' ∧ Freed m m' t.blks
  | mk n s x k cs, m, hp, hc, hn, hl => by
    rw [Shape] at hp
    rw [Clean] at hc
    rw [blks, List.nodup_append] at hn
    rw [blks] at hl
    obtain ⟨m1, e1, f1⟩ := relL_spec cs m hp.2 hc.2 hn.2.1 (fun b hb => hl b (by simp [hb]))
    obtain ⟨m2, e2, f2⟩ := freeOwn_spec (m := m1) hc.1 (fun b hb => by
      rw [f1.2, if_neg fun h => hn.2.2 b hb b h rfl]
      exact hl b (by simp [hb]))
    refine ⟨m2, by rw [releaseMem_mk hp.1, e1]; exact e2, ?_⟩
    have := f1.trans f2
    refine ⟨this.1, fun i => ?_⟩
    rw [this.2, blks]
    simp only [List.mem_append, or_comm]
theorem relL_spec : ∀ (cs : List HT) (m : Mem), ShapeL cs → CleanL cs → (blksL cs).Nodup → (∀ b ∈ blksL cs, (m.size b).isSome) →
    ∃ m', relL cs m = .ok m' ∧ Freed m m' (blksL cs)
  | [], m, _, _, _, _ => ⟨m, rfl, Freed.nil m⟩
  | c :: cs, m, hp, hc, hn, hl => by
    rw [ShapeL] at hp
    rw [CleanL] at hc
    rw [blksL, List.nodup_append] at hn
    rw [blksL] at hl
    obtain ⟨m1, e1, f1⟩ := releaseMem_spec c m hp.1 hc.1 hn.1 (fun b hb => hl b (by simp [hb]))
    obtain ⟨m2, e2, f2⟩ := relL_spec cs m1 hp.2 hc.2 hn.2.1 (fun b hb => by
      rw [f1.2, if_neg fun h => hn.2.2 b h b hb rfl]
      exact hl b (by simp [hb]))
    exact ⟨m2, by rw [relL, e1]; exact e2, f1.trans f2⟩
end

/-! ### clearing a node -/

/-- All children of the root are gone, and the blocks; the root has another buffer, new or not its own, and another kind. -/
theorem clear_good {h h' : Heap} {L : Prop} {pn ps : Option Nat} {own : Bool} {n s : Nat} {x x' : Info} {k k' : Kind} {cs : List HT}
    {q : Option Nat} (g : Good h L pn ps own (mk n s x k cs)) (hq : h.nodes n = some ⟨s, own, q, cs.map nid, x⟩)
    (hk : KindOK k' []) (hx : CleanAt x' k')
    (hN : ∀ i, h'.nodes i = if i = n then some ⟨s, own, q, [], x'⟩ else if i ∈ nidsL cs then none else h.nodes i)
    (hS : ∀ i, h'.schemas i = if i = s then some ⟨k', [], ps⟩ else if i ∈ sidsL cs then none else h.schemas i)
    (h1 : h'.nextN = h.nextN) (h2 : h'.nextS = h.nextS) (h3 : h.mem.length ≤ h'.mem.length)
    (hf : ∀ i, i < h.mem.length → h'.blk i = if i ∈ (mk n s x k cs).blks then none else h.blk i)
    (hw : ∀ i, h.mem.length ≤ i → ((h'.blk i).isSome ↔ i ∈ ownB x')) (hy : ∀ i ∈ ownB x', h.mem.length ≤ i) :
    Good h' L pn ps own (mk n s x' k' []) ∧ Step h (mk n s x k cs) h' (mk n s x' k' []) := by
  have gn := g.node
  rw [HN] at gn
  obtain ⟨⟨q', e, hq1, hq2⟩, _⟩ := gn
  rw [hq] at e
  injection e with e
  injection e with _ _ e
  subst e
  have ln := g.ltN n (by simp [nids])
  have ls := g.ltS s (by simp [sids])
  refine ⟨⟨?_, ?_, ?_, ?_, by simp [nids, nidsL], by simp [sids, sidsL], ?_, ?_, ⟨?_, ?_⟩⟩,
    ⟨rfl, rfl, by rw [h1], by rw [h2], h3, ?_, ?_, ?_, ?_, ?_, ?_, ?_, ?_, ?_⟩⟩
  · rw [HN]
    exact ⟨⟨q, by rw [hN, if_pos rfl]; rfl, hq1, hq2⟩, trivial⟩
  · rw [HS]
    exact ⟨by rw [hS, if_pos rfl]; rfl, trivial⟩
  · rw [Shape]
    exact ⟨hk, trivial⟩
  · rw [Clean]
    exact ⟨hx, trivial⟩
  · rw [blks, blksL, List.append_nil, ownB]
    split <;> simp
  · intro b hb
    rw [blks, blksL, List.append_nil] at hb
    exact (hw b (hy b hb)).2 hb
  · intro i hi
    rw [hN, if_neg (by omega)]
    split
    · rfl
    · exact g.bounded.nodes i (by omega)
  · intro i hi
    rw [hS, if_neg (by omega)]
    split
    · rfl
    · exact g.bounded.schemas i (by omega)
  · intro i _ hi
    rw [nids, List.mem_cons, not_or] at hi
    rw [hN, if_neg hi.1, if_neg hi.2]
  · intro i _ hi
    rw [sids, List.mem_cons, not_or] at hi
    rw [hS, if_neg hi.1, if_neg hi.2]
  · intro i hl hi
    rw [hf i hl, if_neg hi]
  · intro i hi
    simp [nids, nidsL] at hi
    exact .inl (by simp [nids, hi])
  · intro i hi
    simp [sids, sidsL] at hi
    exact .inl (by simp [sids, hi])
  · intro i hi
    rw [blks, blksL, List.append_nil] at hi
    exact .inr (hy i hi)
  · intro i hi hn
    simp [nids, nidsL] at hn
    rw [hN, if_neg hn]
    split
    · rfl
    · rename_i hc
      rcases hi with hi | hi
      · rw [nids, List.mem_cons] at hi
        exact absurd hi (by simp [hn, hc])
      · exact g.bounded.nodes i hi
  · intro i hi hn
    simp [sids, sidsL] at hn
    rw [hS, if_neg hn]
    split
    · rfl
    · rename_i hc
      rcases hi with hi | hi
      · rw [sids, List.mem_cons] at hi
        exact absurd hi (by simp [hn, hc])
      · exact g.bounded.schemas i hi
  · intro i hi hn
    rw [blks, blksL, List.append_nil] at hn
    rcases Nat.lt_or_ge i h.mem.length with hl | hl
    · rw [hf i hl]
      rcases hi with hi | hi
      · rw [if_pos hi]
      · exact absurd hl (by omega)
    · rcases e : h'.blk i with _ | w
      · rfl
      · exact absurd ((hw i hl).1 (by simp [e])) hn

theorem releaseN_spec {h : Heap} {L : Prop} {pn ps : Option Nat} {own : Bool} {n s : Nat} {x : Info} {k : Kind} {cs : List HT}
    {q : Option Nat} (g : Good h L pn ps own (mk n s x k cs)) (hq : h.nodes n = some ⟨s, own, q, cs.map nid, x⟩) :
    ∃ m, Freed h.mem m (mk n s x k cs).blks ∧
    releaseN h n = .ok (((h.killN (nidsL cs)).withMem m).putN n (some ⟨s, own, q, [], relInfo x k.isEmpty⟩)) := by
  obtain ⟨m, hm, hf⟩ := releaseMem_spec _ h.mem g.shape g.clean g.nodupB g.live
  refine ⟨m, hf, ?_⟩
  have gn := g.node
  have gs := g.schema
  have gp := g.shape
  have hl := g.lenN
  have nd := g.nodupN
  rw [HN] at gn
  rw [HS] at gs
  rw [Shape] at gp
  rw [nids, List.nodup_cons] at nd
  rw [nids, List.length_cons] at hl
  rw [releaseMem_mk gp.1] at hm
  rw [releaseN, getN_some hq]
  simp only [Res.bind_ok]
  rw [delNL_spec cs h.nextN h (some n) (some s) gn.2 gs.2 gp.2 nd.2 (by omega)]
  cases hr : relL cs h.mem with
  | error => rw [hr] at hm; cases hm
  | ub => rw [hr] at hm; cases hm
  | ok m1 =>
    rw [hr] at hm
    simp only [Res.bind_ok] at hm ⊢
    rw [getS_some (h := (h.killN (nidsL cs)).withMem m1) (o := ⟨k, cs.map sid, ps⟩) gs.1]
    simp only [Res.bind_ok, withMem_mem]
    rw [hm]
    rfl

theorem releaseS_spec {h : Heap} {s : Nat} {k : Kind} {cs : List HT} {ps : Option Nat} (e : h.schemas s = some ⟨k, cs.map sid, ps⟩)
    (hs : HSL h (some s) cs) (hn : (sidsL cs).Nodup) (hl : (sidsL cs).length ≤ h.nextS) :
    releaseS h s = .ok ((h.killS (sidsL cs)).putS s (some ⟨.leaf {}, [], ps⟩)) := by
  rw [releaseS, getS_some e]
  simp only [Res.bind_ok]
  rw [delSL_spec cs h.nextS h (some s) hs hn hl]
  rfl

theorem setDtypeS_spec {h : Heap} {s : Nat} {k : Kind} {cs : List HT} {ps : Option Nat} (d : DataType)
    (e : h.schemas s = some ⟨k, cs.map sid, ps⟩)
    (hs : HSL h (some s) cs) (hn : (sidsL cs).Nodup) (hl : (sidsL cs).length ≤ h.nextS) :
    setDtypeS h s d = .ok ((h.killS (sidsL cs)).putS s (some ⟨.ofDtype d, [], ps⟩)) := by
  rw [setDtypeS, releaseS_spec e hs hn hl]
  simp only [Res.bind_ok]
  rw [setKind, getS_some (o := ⟨.leaf {}, [], ps⟩) (by simp)]
  simp only [Res.bind_ok]
  congr 1
  refine ext' (fun i => rfl) (fun i => ?_) rfl rfl rfl
  simp only [putS_schemas]
  split <;> rfl

section
variable {h : Heap} {L : Prop} {pn ps : Option Nat} {own : Bool} {n s : Nat} {x : Info} {k : Kind} {cs : List HT}
theorem Good.listS (g : Good h L pn ps own (HT.mk n s x k cs)) : (sidsL cs).Nodup ∧ (sidsL cs).length ≤ h.nextS ∧ s ∉ sidsL cs := by
  have hl := g.lenS
  have nd := g.nodupS
  rw [sids, List.nodup_cons] at nd
  rw [sids, List.length_cons] at hl
  exact ⟨nd.2, by omega, nd.1⟩
theorem Good.listN (g : Good h L pn ps own (HT.mk n s x k cs)) : (nidsL cs).Nodup ∧ (nidsL cs).length ≤ h.nextN ∧ n ∉ nidsL cs := by
  have hl := g.lenN
  have nd := g.nodupN
  rw [nids, List.nodup_cons] at nd
  rw [nids, List.length_cons] at hl
  exact ⟨nd.2, by omega, nd.1⟩
theorem Good.listB (g : Good h L pn ps own (HT.mk n s x k cs)) : (blksL cs).Nodup ∧ ∀ b ∈ ownB x, b ∉ blksL cs := by
  have nd := g.nodupB
  rw [blks, List.nodup_append] at nd
  exact ⟨nd.2.1, fun b hb hc => nd.2.2 b hb b hc rfl⟩
theorem Good.get (g : Good h L pn ps own (HT.mk n s x k cs)) :
    ∃ q, h.nodes n = some ⟨s, own, q, cs.map nid, x⟩ ∧ q.isSome = !own ∧ (L → q = pn) := by
  have gn := g.node
  rw [HN] at gn
  exact gn.1
theorem Good.getS (g : Good h L pn ps own (HT.mk n s x k cs)) : h.schemas s = some ⟨k, cs.map sid, ps⟩ := by
  have gn := g.schema
  rw [HS] at gn
  exact gn.1
theorem Good.kidsS (g : Good h L pn ps own (HT.mk n s x k cs)) : HSL h (some s) cs := by
  have gn := g.schema
  rw [HS] at gn
  exact gn.2
theorem Good.kidsN (g : Good h L pn ps own (HT.mk n s x k cs)) : HNL h L (some n) cs := by
  have gn := g.node
  rw [HN] at gn
  exact gn.2
theorem Good.cleanAt (g : Good h L pn ps own (HT.mk n s x k cs)) : CleanAt x k := by
  have gn := g.clean
  rw [Clean] at gn
  exact gn.1
theorem Good.kindOK (g : Good h L pn ps own (HT.mk n s x k cs)) : KindOK k cs := by
  have gn := g.shape
  rw [Shape] at gn
  exact gn.1
end

theorem ownB_false {x : Info} (h : x.alloced = false) : ownB x = [] := by
  unfold ownB; rw [h]

theorem cleanAt_false {x : Info} {k : Kind} (h : x.alloced = false) : CleanAt x k := by
  intro h1; rw [h] at h1; cases h1

/-- `allocate` after the blocks of the tree were freed -/
theorem clear_then {h : Heap} {L : Prop} {pn ps : Option Nat} {own : Bool} {n s : Nat} {x x' : Info} {k k' : Kind} {cs : List HT} {m m' : Mem}
    (g : Good h L pn ps own (mk n s x k cs)) (hf : Freed h.mem m (mk n s x k cs).blks) {q : Option Nat}
    (hq : h.nodes n = some ⟨s, own, q, cs.map nid, x⟩) (hk : KindOK k' [])
    (hx : (x'.alloced = false ∧ m' = m) ∨ (∃ z, x' = ⟨some (m.alloc z).2, true⟩ ∧ m' = (m.alloc z).1 ∧ k'.isEmpty = false)) {h' : Heap}
    (hN : ∀ i, h'.nodes i = if i = n then some ⟨s, own, q, [], x'⟩ else if i ∈ nidsL cs then none else h.nodes i)
    (hS : ∀ i, h'.schemas i = if i = s then some ⟨k', [], ps⟩ else if i ∈ sidsL cs then none else h.schemas i)
    (h1 : h'.nextN = h.nextN) (h2 : h'.nextS = h.nextS) (hm : h'.mem = m') :
    Good h' L pn ps own (mk n s x' k' []) ∧ Step h (mk n s x k cs) h' (mk n s x' k' []) := by
  rcases hx with ⟨hx, rfl⟩ | ⟨z, rfl, rfl, hz⟩
  · refine clear_good g hq hk (cleanAt_false hx) hN hS h1 h2 (by rw [hm, hf.1]) (fun i _ => ?_) (fun i hi => ?_) (fun i hi => ?_)
    · rw [blk_eq_size, hm]; exact hf.2 i
    · rw [ownB_false hx, blk_ge (by rw [hm, hf.1]; exact hi)]; simp
    · rw [ownB_false hx] at hi; cases hi
  · have hl : (m.alloc z).1.length = h.mem.length + 1 := by simp [Mem.alloc, hf.1]
    refine clear_good g hq hk (fun _ => ⟨_, rfl, rfl, hz⟩) hN hS h1 h2 (by rw [hm, hl]; omega) (fun i hi => ?_) (fun i hi => ?_) (fun i hi => ?_)
    · rw [blk_eq_size, hm, Mem.size_alloc_old _ _ _ (by rw [hf.1]; exact hi)]; exact hf.2 i
    · rw [blk_eq_size, hm]
      rcases Nat.eq_or_lt_of_le hi with e | e
      · subst e
        simp [ownB, Mem.alloc, Mem.size, hf.1, List.getElem?_append_right]
      · have : (m.alloc z).1.size i = none := by
          unfold Mem.size
          rw [List.getElem?_eq_none (by rw [hl]; omega)]
        rw [this]
        simp [ownB, Mem.alloc, hf.1]; omega
    · simp [ownB, Mem.alloc, hf.1] at hi; omega

/-- `reset` -/
theorem resetN_spec {h : Heap} {L : Prop} {pn ps : Option Nat} {own : Bool} {n s : Nat} {x : Info} {k : Kind} {cs : List HT}
    (g : Good h L pn ps own (mk n s x k cs)) :
    ∃ h' x', resetN h n = .ok h' ∧ x'.alloced = false ∧ Good h' L pn ps own (mk n s x' (.leaf {}) []) ∧
      Step h (mk n s x k cs) h' (mk n s x' (.leaf {}) []) := by
  obtain ⟨q, hq, _⟩ := g.get
  obtain ⟨m, hf, e⟩ := releaseN_spec g hq
  have e2 := setDtypeS_spec (h := ((h.killN (nidsL cs)).withMem m).putN n (some ⟨s, own, q, [], relInfo x k.isEmpty⟩)) {} g.getS
    (HSL_congr g.kidsS fun i _ => rfl) g.listS.1 g.listS.2.1
  refine ⟨_, relInfo x k.isEmpty, ?_, relInfo_clean g.cleanAt,
    clear_then (m' := m) g hf hq (ofDtype_ok {}) (.inl ⟨relInfo_clean g.cleanAt, rfl⟩)
      (h' := ((((h.killN (nidsL cs)).withMem m).putN n (some ⟨s, own, q, [], relInfo x k.isEmpty⟩)).killS (sidsL cs)).putS s
        (some ⟨.ofDtype {}, [], ps⟩)) ?_ ?_ rfl rfl rfl⟩
  · rw [resetN, e]
    simp only [Res.bind_ok]
    rw [getN_some (o := ⟨s, own, q, [], relInfo x k.isEmpty⟩) (by simp)]
    exact e2
  · intro i; rfl
  · intro i; rfl

theorem dtypeN_spec {h : Heap} {L : Prop} {pn ps : Option Nat} {own : Bool} {n s : Nat} {x : Info} {k : Kind} {cs : List HT}
    (g : Good h L pn ps own (mk n s x k cs)) : dtypeN h n = .ok k.dtype := by
  obtain ⟨q, hq, _⟩ := g.get
  rw [dtypeN, getN_some hq]
  simp only [Res.bind_ok]
  rw [getS_some g.getS]
  rfl

theorem allocate_nonneg {m : Mem} {z : Int} (hz : 0 ≤ z) : allocate m z = ((m.alloc z.toNat).1, ⟨some (m.alloc z.toNat).2, true⟩) := by
  unfold allocate
  rw [if_neg (by omega)]

theorem ofDtype_leaf {d : DataType} (h : (d.id != .object && d.id != .list && d.id != .empty) = true) :
    (Kind.ofDtype d).isEmpty = false := by
  have h : ∀ i : TypeId, d.id = i → (Kind.ofDtype d).isEmpty = false := by
    intro i hi
    rw [hi] at h
    cases i <;> simp_all [Kind.isEmpty, Kind.ofDtype, Kind.dtype]
  exact h _ rfl

/-- `init` -/
theorem initN_spec {h : Heap} {L : Prop} {pn ps : Option Nat} {own : Bool} {n s : Nat} {x : Info} {k : Kind} {cs : List HT}
    (g : Good h L pn ps own (mk n s x k cs)) (d : DataType)
    (hd : (d.id != .object && d.id != .list && d.id != .empty) = true → 0 ≤ d.spannedBytes) :
    (k.dtype.compatible d = true ∧ initN h n d = .ok h) ∨
    (k.dtype.compatible d = false ∧ ∃ h' x', initN h n d = .ok h' ∧ Good h' L pn ps own (mk n s x' (.ofDtype d) []) ∧
      Step h (mk n s x k cs) h' (mk n s x' (.ofDtype d) [])) := by
  obtain ⟨q, hq, _⟩ := g.get
  rw [initN, getN_some hq, dtypeN_spec g]
  simp only [Res.bind_ok]
  cases hc : k.dtype.compatible d with
  | true => exact .inl ⟨rfl, rfl⟩
  | false =>
    refine .inr ⟨rfl, ?_⟩
    simp only [Bool.false_eq_true, if_false]
    -- the part that frees
    have key : ∃ m x1, Freed h.mem m (mk n s x k cs).blks ∧ x1.alloced = false ∧
        (if (x.data.isSome || (k.dtype.id == .object || k.dtype.id == .list)) = true then h.releaseN n else .ok h : Res Heap) =
        .ok (((h.killN (nidsL cs)).withMem m).putN n (some ⟨s, own, q, [], x1⟩)) := by
      split
      · obtain ⟨m, hf, e⟩ := releaseN_spec g hq
        exact ⟨m, _, hf, relInfo_clean g.cleanAt, e⟩
      · rename_i hno
        simp only [Bool.or_eq_true, not_or] at hno
        obtain ⟨data, al⟩ := x
        have hdn : data = none := by cases data <;> simp_all
        subst hdn
        have hal : al = false := by
          cases al with
          | false => rfl
          | true => obtain ⟨p, h1, _⟩ := g.cleanAt rfl; cases h1
        subst hal
        have hcs : cs = [] := by
          have := g.kindOK
          cases k with
          | leaf d => exact this.1
          | obj _ => simp [Kind.dtype] at hno
          | lst => simp [Kind.dtype] at hno
        subst hcs
        refine ⟨h.mem, ⟨none, false⟩, ?_, rfl, ?_⟩
        · simp [blks, blksL, ownB, Freed]
        · congr 1
          refine ext' (fun i => ?_) (fun i => rfl) rfl rfl rfl
          simp only [putN_nodes, withMem_nodes, killN_nodes, nidsL, List.not_mem_nil, if_false]
          split
          · rename_i e; rw [e]; exact hq
          · rfl
    obtain ⟨m, x1, hf, hx1, e⟩ := key
    rw [e]
    simp only [Res.bind_ok]
    split
    · rename_i hleaf
      rw [allocN, getN_some (o := ⟨s, own, q, [], x1⟩) (by simp)]
      simp only [Res.bind_ok, putN_mem, withMem_mem]
      rw [allocate_nonneg (hd hleaf)]
      simp only
      refine ⟨_, ⟨some (m.alloc d.spannedBytes.toNat).2, true⟩,
        setDtypeS_spec d (k := k) (cs := cs) (ps := ps) ?_ (HSL_congr g.kidsS fun i _ => rfl) g.listS.1 g.listS.2.1,
        clear_then (m' := (m.alloc d.spannedBytes.toNat).1) g hf hq (ofDtype_ok d) (.inr ⟨_, rfl, rfl, ofDtype_leaf hleaf⟩) ?_ ?_ rfl rfl rfl⟩
      · exact g.getS
      · intro i
        simp only [putS_nodes, killS_nodes, putN_nodes, withMem_nodes, killN_nodes]
        split <;> rfl
      · intro i; rfl
    · refine ⟨_, x1, setDtypeS_spec d (k := k) (cs := cs) (ps := ps) ?_ (HSL_congr g.kidsS fun i _ => rfl) g.listS.1 g.listS.2.1,
        clear_then (m' := m) g hf hq (ofDtype_ok d) (.inl ⟨hx1, rfl⟩) ?_ ?_ rfl rfl rfl⟩
      · exact g.getS
      · intro i; rfl
      · intro i; rfl

/-- making a child node: one more number for nodes and for schemas is used, the schema is deleted again -/
theorem attach_spec {h : Heap} (hb : h.Bounded) (n s : Nat) :
    attach h n s = .ok ({ h.putN h.nextN (some ⟨s, false, some n, [], {}⟩) with nextN := h.nextN + 1, nextS := h.nextS + 1 }, h.nextN) := by
  rw [attach]
  simp only [newNode, newN, newS, setSchemaPtr]
  rw [getN_some (o := ⟨h.nextS, true, none, [], {}⟩) (by simp)]
  simp only [Res.bind_ok, if_true]
  dsimp only [putN_nextS]
  rw [delS, getS_some (o := ⟨.leaf {}, [], none⟩) (by simp)]
  simp only [Res.bind_ok, List.foldlM_nil, Res.pure_def]
  rw [getN_some (o := ⟨s, false, none, [], {}⟩) (by simp)]
  simp only [Res.bind_ok]
  congr 1
  refine Prod.ext (ext' (fun i => ?_) (fun i => ?_) rfl rfl rfl) rfl
  · simp only [putN_nodes, putS_nodes]
    split <;> simp_all
  · simp only [putN_schemas, putS_schemas]
    by_cases e : i = h.nextS
    · subst e
      simp [hb.schemas h.nextS (Nat.le_refl _)]
    · simp [e]

end HT
end Conduit
