import Verif.Lemmas.NodeSync5
/-
Lemmas about heaps of node and schema objects: setters that take a schema, and external data.
-/
namespace Conduit
open Spec Node Heap
namespace HT

/-! ### writing keeps the blocks -/

theorem SameB.set {m : Mem} {b : Nat} {bs cs : List UInt8} (h : m[b]? = some (some bs)) (hl : cs.length = bs.length) :
    SameB m (m.set b (some cs)) := by
  have hb : b < m.length := by
    rcases Nat.lt_or_ge b m.length with h1 | h1
    · exact h1
    · rw [List.getElem?_eq_none h1] at h; cases h
  refine ⟨by simp, fun i => ?_⟩
  unfold Mem.size
  rw [List.getElem?_set]
  by_cases e : b = i
  · subst e
    rw [if_pos rfl, if_pos hb, h]
    simp only [hl]
  · rw [if_neg e]

theorem SameB.store {m m' : Mem} {p : Option Ptr} {off : Int} {xs : List UInt8} (h : m.store p off xs = .ok m') : SameB m m' := by
  unfold Mem.store at h
  split at h
  · injection h with h; subst h; exact .refl _
  · cases p with
    | none => cases h
    | some q =>
      simp only at h
      split at h
      · rename_i e
        split at h
        · rename_i hr
          injection h with h
          subst h
          refine SameB.set e ?_
          simp only [List.length_append, List.length_take, List.length_drop]
          omega
        · cases h
      · cases h

theorem SameB.memcpy {m m' : Mem} {p q : Option Ptr} {a b : Int} {len : Nat} (h : m.memcpy p a q b len = .ok m') : SameB m m' := by
  unfold Mem.memcpy at h
  split at h
  · split at h
    · cases h
    · exact .store h
  · cases h
  · cases h

theorem SameB.copyLoop {p q : Option Ptr} {eb : Nat} {ds ss : Int} : ∀ (k : Nat) {m m' : Mem} {a b : Int},
    Mem.copyLoop p eb ds q ss k m a b = .ok m' → SameB m m'
  | 0, m, m', a, b, h => by
    rw [Mem.copyLoop] at h
    injection h with h; subst h; exact .refl _
  | k + 1, m, m', a, b, h => by
    rw [Mem.copyLoop] at h
    split at h
    · rename_i e
      exact (SameB.memcpy e).trans (SameB.copyLoop k h)
    · cases h
    · cases h

theorem SameB.stridedCopy {m m' : Mem} {p q : Option Ptr} {a b : Int} {n eb : Nat} {ds ss : Int}
    (h : m.stridedCopy p a n eb ds q b ss = .ok m') : SameB m m' := by
  unfold Mem.stridedCopy at h
  split at h
  · exact .memcpy h
  · exact .copyLoop n h

theorem SameB.storeElems {p : Option Ptr} {stride : Int} : ∀ (es : List (List UInt8)) {off : Int} {m m' : Mem},
    Node.storeElems p stride es off m = .ok m' → SameB m m'
  | [], off, m, m', h => by
    rw [Node.storeElems] at h
    injection h with h; subst h; exact .refl _
  | e :: es, off, m, m', h => by
    rw [Node.storeElems, Res.bind_eq_ok] at h
    obtain ⟨m1, h1, h2⟩ := h
    exact (SameB.store h1).trans (SameB.storeElems es h2)

theorem SameB.compactElements {x : Info} {d : DataType} {p : Option Ptr} {off : Int} {m m' : Mem}
    (h : Node.compactElements x d p off m = .ok m') : SameB m m' := by
  unfold Node.compactElements at h
  split at h
  · injection h with h; subst h; exact .refl _
  · split at h
    · cases h
    · exact .stridedCopy h

mutual
theorem SameB.compactWrite {p : Option Ptr} : ∀ (t : Node) {off : Int} {m m' : Mem}, Node.compactWrite p t off m = .ok m' → SameB m m'
  | .leaf x d, off, m, m', h => by
    rw [Node.compactWrite] at h
    exact .compactElements h
  | .obj _ es, off, m, m', h => by
    rw [Node.compactWrite] at h
    exact SameB.compactWriteE es h
  | .lst _ cs, off, m, m', h => by
    rw [Node.compactWrite] at h
    exact SameB.compactWriteL cs h
theorem SameB.compactWriteE {p : Option Ptr} : ∀ (es : List (Str × Node)) {off : Int} {m m' : Mem},
    Node.compactWriteE p es off m = .ok m' → SameB m m'
  | [], off, m, m', h => by
    rw [Node.compactWriteE] at h
    injection h with h; subst h; exact .refl _
  | (n, c) :: es, off, m, m', h => by
    rw [Node.compactWriteE, Res.bind_eq_ok] at h
    obtain ⟨m1, h1, h2⟩ := h
    exact (SameB.compactWrite c h1).trans (SameB.compactWriteE es h2)
theorem SameB.compactWriteL {p : Option Ptr} : ∀ (cs : List Node) {off : Int} {m m' : Mem},
    Node.compactWriteL p cs off m = .ok m' → SameB m m'
  | [], off, m, m', h => by
    rw [Node.compactWriteL] at h
    injection h with h; subst h; exact .refl _
  | c :: cs, off, m, m', h => by
    rw [Node.compactWriteL, Res.bind_eq_ok] at h
    obtain ⟨m1, h1, h2⟩ := h
    exact (SameB.compactWrite c h1).trans (SameB.compactWriteL cs h2)
end

/-! ### a node without children gets a schema -/

section
variable {h g h0 g0 h' : Heap} {L : Prop} {pn ps : Option Nat} {own : Bool} {n s : Nat} {x x' : Info} {k0 : Kind} {T t : HT}

theorem built_good (go : Good h L pn ps own (mk n s x k0 [])) (hx : x.alloced = false)
    (gN : ∀ i, i ≠ n → g.nodes i = h.nodes i) (gn : g.nextN = h.nextN)
    (F : Filled h0 s ps g0 T) (f1 : h0.schemas = h.schemas) (f2 : h0.nextS = h.nextS) (f3 : g.schemas = g0.schemas) (f4 : g.nextS = g0.nextS)
    (B : Built g L pn own n x' T h' t)
    (M : (x'.alloced = false ∧ SameB h.mem g.mem) ∨
      (∃ z, x' = ⟨some (h.mem.alloc z).2, true⟩ ∧ SameB (h.mem.alloc z).1 g.mem ∧ T.kind.isEmpty = false)) :
    Good h' L pn ps own t ∧ Step h (mk n s x k0 []) h' t := by
  have ln := go.ltN n (by simp [nids])
  have ls := go.ltS s (by simp [sids])
  have b1 := B.nextN
  have b2 := B.nextS
  have f5 := F.nextS
  have bl : (mk n s x k0 []).blks = [] := by rw [blks, ownB_false hx]; rfl
  have ninN : (mk n s x k0 []).nids = [n] := by simp [nids, nidsL]
  have ninS : (mk n s x k0 []).sids = [s] := by simp [sids, sidsL]
  have lm : h.mem.length ≤ h'.mem.length := by
    rw [B.mem]
    rcases M with ⟨_, m1⟩ | ⟨z, _, m1, _⟩
    · rw [m1.1]
    · rw [m1.1]; simp [Mem.alloc]
  have old : ∀ i, i < h.mem.length → h'.blk i = h.blk i := fun i hi => by
    rw [blk_eq_size, B.mem]
    rcases M with ⟨_, m1⟩ | ⟨z, _, m1, _⟩
    · exact m1.2 i
    · rw [m1.2, Mem.size_alloc_old _ _ _ hi]; rfl
  have new : ∀ i, h.mem.length ≤ i → ((h'.blk i).isSome ↔ i ∈ ownB x') := fun i hi => by
    rw [blk_eq_size, B.mem]
    rcases M with ⟨hal, m1⟩ | ⟨z, rfl, m1, _⟩
    · rw [m1.2, ownB_false hal, ← blk_eq_size, blk_ge hi]; simp
    · rw [m1.2]
      rcases Nat.eq_or_lt_of_le hi with e | e
      · subst e
        simp [ownB, Mem.alloc, Mem.size]
      · have : (h.mem.alloc z).1.size i = none := by
          unfold Mem.size
          rw [List.getElem?_eq_none (by simp [Mem.alloc]; omega)]
        rw [this]
        simp [ownB, Mem.alloc]; omega
  have fb : ∀ i ∈ ownB x', h.mem.length ≤ i := fun i hi => by
    rcases M with ⟨hal, _⟩ | ⟨z, rfl, _, _⟩
    · rw [ownB_false hal] at hi; cases hi
    · simp [ownB, Mem.alloc] at hi; omega
  refine ⟨⟨B.holds, ?_, B.shape F.shape, ?_, B.nodup, ?_, ?_, ?_, B.bounded⟩,
    ⟨B.nid, B.sid.trans F.sid, by omega, by omega, lm, ?_, ?_, ?_, ?_, ?_, ?_, ?_, ?_, ?_⟩⟩
  · refine B.schema h' ps (HS_congr F.holds fun i _ => ?_)
    rw [B.schemas, f3]
  · have hi := B.info
    have hc := B.clean
    have hk := B.kind
    obtain ⟨a, b, z, k, ds⟩ := t
    rw [Clean]
    simp only [HT.info, HT.cs, HT.kind] at hi hc hk
    refine ⟨?_, hc⟩
    subst hi
    subst hk
    rcases M with ⟨hal, _⟩ | ⟨z, hz, _, he⟩
    · exact cleanAt_false hal
    · intro _
      exact ⟨_, congrArg Info.data hz, rfl, he⟩
  · rw [B.sids]; exact F.nodup
  · rw [B.blks]; unfold ownB; split <;> simp
  · intro b hb
    rw [B.blks] at hb
    exact (new b (fb b hb)).2 hb
  · intro i hi hn
    rw [ninN, List.mem_singleton] at hn
    rw [B.frame i (by omega) hn, gN i hn]
  · intro i hi hn
    rw [ninS, List.mem_singleton] at hn
    rw [B.schemas, f3, F.frame i (by omega) hn, f1]
  · intro i hi _
    exact old i hi
  · intro i hi
    rw [ninN, List.mem_singleton]
    rcases (B.ids i).1 hi with h1 | h1
    · exact .inl h1
    · exact .inr (by omega)
  · intro i hi
    rw [B.sids] at hi
    rw [ninS, List.mem_singleton]
    rcases (F.ids i).1 hi with h1 | h1
    · exact .inl h1
    · exact .inr (by omega)
  · intro i hi
    rw [B.blks] at hi
    exact .inr (fb i hi)
  · intro i hi hn
    rw [ninN, List.mem_singleton] at hi
    rw [B.ids, not_or] at hn
    have hi := hi.resolve_left hn.1
    exact B.bounded.nodes i (by omega)
  · intro i hi hn
    rw [ninS, List.mem_singleton] at hi
    rw [B.sids, F.ids, not_or] at hn
    have hi := hi.resolve_left hn.1
    rw [B.schemas, f3]
    exact F.bounded.schemas i (by omega)
  · intro i hi hn
    rw [bl] at hi
    have hi := hi.resolve_left (by simp)
    rw [B.blks] at hn
    rcases e : h'.blk i with _ | w
    · rfl
    · exact absurd ((new i hi).1 (by simp [e])) hn
end

section
variable {h : Heap} {L : Prop} {pn ps : Option Nat} {own : Bool} {n s : Nat} {x : Info} {k : Kind} {cs : List HT}

/-- `release` and then `Schema::release` -/
theorem release_clear (g : Good h L pn ps own (mk n s x k cs)) :
    ∃ h1 h2 x1 q, releaseN h n = .ok h1 ∧ h1.getN n = .ok ⟨s, own, q, [], x1⟩ ∧ releaseS h1 s = .ok h2 ∧ x1.alloced = false ∧
      h2.nodes n = some ⟨s, own, q, [], x1⟩ ∧ q.isSome = !own ∧ (L → q = pn) ∧
      Good h2 L pn ps own (mk n s x1 (.leaf {}) []) ∧ Step h (mk n s x k cs) h2 (mk n s x1 (.leaf {}) []) := by
  obtain ⟨q, hq, hq1, hq2⟩ := g.get
  obtain ⟨m, hf, e⟩ := releaseN_spec g hq
  have e2 := releaseS_spec (h := ((h.killN (nidsL cs)).withMem m).putN n (some ⟨s, own, q, [], relInfo x k.isEmpty⟩)) g.getS
    (HSL_congr g.kidsS fun i _ => rfl) g.listS.1 g.listS.2.1
  exact ⟨_, _, relInfo x k.isEmpty, q, e, getN_some (by simp), e2, relInfo_clean g.cleanAt, by simp, hq1, hq2,
    clear_then (m' := m) g hf hq (ofDtype_ok {}) (.inl ⟨relInfo_clean g.cleanAt, rfl⟩)
      (h' := ((((h.killN (nidsL cs)).withMem m).putN n (some ⟨s, own, q, [], relInfo x k.isEmpty⟩)).killS (sidsL cs)).putS s
        (some ⟨.leaf {}, [], ps⟩)) (fun i => rfl) (fun i => rfl) rfl rfl rfl⟩

theorem releaseS_empty (g : Good h L pn ps own (mk n s x (.leaf {}) [])) : releaseS h s = .ok h := by
  rw [releaseS_spec g.getS g.kidsS g.listS.1 g.listS.2.1]
  congr 1
  refine ext' (fun i => rfl) (fun i => ?_) rfl rfl rfl
  simp only [putS_schemas, killS_schemas, sidsL, List.not_mem_nil, if_false]
  split
  · rename_i e; rw [e]; exact g.getS.symm
  · rfl

theorem Filled.len {h0 h1 : Heap} {T : HT} (F : Filled h0 s ps h1 T) (hs : s < h0.nextS) : T.sids.length ≤ h1.nextS :=
  length_le_of_nodup F.nodup fun i hi => by
    have := F.nextS
    rcases (F.ids i).1 hi with h | h <;> omega

/-- an empty node gets a schema with external data -/
theorem fill_external {q : Option Nat} (g : Good h L pn ps own (mk n s x (.leaf {}) [])) (hx : x.alloced = false)
    (hq : h.nodes n = some ⟨s, own, q, [], x⟩) (hq1 : q.isSome = !own) (hq2 : L → q = pn) (sch : Schema) (ok : SchOK sch)
    (p : Option Ptr) :
    ∃ h1 h' t, fillS sch h s = .ok h1 ∧ walkN p h1.nextS h1 n s = .ok h' ∧ Good h' L pn ps own t ∧
      Step h (mk n s x (.leaf {}) []) h' t ∧ t.toNode = walk p false sch ∧ h'.mem = h.mem := by
  have ls := g.ltS s (by simp [sids])
  have ln := g.ltN n (by simp [nids])
  obtain ⟨h1, T, e1, F, hsk⟩ := fillS_spec sch ok h s ps _ _ g.getS ls g.bounded
  have e0 : h1.nodes n = some ⟨T.sid, own, q, [], x⟩ := by rw [F.nodes, hq, F.sid]
  obtain ⟨h', t, e2, B, hw⟩ := walkN_spec (L := L) p T h1.nextS h1 n pn ps q own x F.holds F.shape (F.len ls) (by rw [F.nextN]; exact ln)
    e0 hq1 hq2 F.bounded
  rw [F.sid] at e2
  obtain ⟨gd, st⟩ := built_good g hx (g := h1) (fun i _ => by rw [F.nodes]) F.nextN F rfl rfl rfl rfl B
    (.inl ⟨hx, by rw [F.mem]; exact .refl _⟩)
  exact ⟨h1, h', t, e1, e2, gd, st, by rw [hw, hsk, hx], by rw [B.mem, F.mem]⟩

/-- an empty node gets a schema and its own data -/
theorem fill_own {q : Option Nat} (g : Good h L pn ps own (mk n s x (.leaf {}) [])) (hx : x.alloced = false)
    (hq : h.nodes n = some ⟨s, own, q, [], x⟩) (hq1 : q.isSome = !own) (hq2 : L → q = pn) (sch : Schema) (ok : SchOK sch)
    (hne : ∀ d, sch = .leaf d → d.id ≠ .empty) (z : Nat) (m : Mem) (hm : SameB (h.mem.alloc z).1 m) :
    ∃ h1, fillS sch h s = .ok h1 ∧ h1.mem = h.mem ∧ h1.nodes = h.nodes ∧
      ∃ h' t, walkN (some (h.mem.alloc z).2) h1.nextS ((h1.withMem m).putN n (some ⟨s, own, q, [], ⟨some (h.mem.alloc z).2, true⟩⟩)) n s = .ok h' ∧
      Good h' L pn ps own t ∧ Step h (mk n s x (.leaf {}) []) h' t ∧ t.toNode = walk (some (h.mem.alloc z).2) true sch ∧ h'.mem = m := by
  have ls := g.ltS s (by simp [sids])
  have ln := g.ltN n (by simp [nids])
  obtain ⟨h1, T, e1, F, hsk⟩ := fillS_spec sch ok h s ps _ _ g.getS ls g.bounded
  have hb : Bounded ((h1.withMem m).putN n (some ⟨s, own, q, [], ⟨some (h.mem.alloc z).2, true⟩⟩)) :=
    putN_bounded (h := h1.withMem m) ⟨F.bounded.nodes, F.bounded.schemas⟩ (by rw [withMem_nextN, F.nextN]; exact ln) _
  have e0 : ((h1.withMem m).putN n (some ⟨s, own, q, [], ⟨some (h.mem.alloc z).2, true⟩⟩)).nodes n =
      some ⟨T.sid, own, q, [], ⟨some (h.mem.alloc z).2, true⟩⟩ := by rw [F.sid]; simp
  obtain ⟨h', t, e2, B, hw⟩ := walkN_spec (L := L) (some (h.mem.alloc z).2) T h1.nextS
    ((h1.withMem m).putN n (some ⟨s, own, q, [], ⟨some (h.mem.alloc z).2, true⟩⟩)) n pn ps q own _
    (HS_congr F.holds fun _ _ => rfl) F.shape (F.len ls) (by rw [putN_nextN, withMem_nextN, F.nextN]; exact ln) e0 hq1 hq2 hb
  rw [F.sid] at e2
  have hte : T.kind.isEmpty = false := by
    have hsp := F.shape
    obtain ⟨a, b, y, k, Ts⟩ := T
    cases k with
    | obj _ => rfl
    | lst => rfl
    | leaf d =>
      have := hne d (by rw [← hsk]; rfl)
      simpa [HT.kind, Kind.isEmpty, Kind.dtype] using this
  obtain ⟨gd, st⟩ := built_good g hx (g := (h1.withMem m).putN n (some ⟨s, own, q, [], ⟨some (h.mem.alloc z).2, true⟩⟩))
    (fun i hi => by rw [putN_nodes, if_neg hi, withMem_nodes, F.nodes]) F.nextN F rfl rfl rfl rfl B
    (.inr ⟨z, rfl, hm, hte⟩)
  exact ⟨h1, e1, F.mem, F.nodes, h', t, e2, gd, st, by rw [hw, hsk], B.mem⟩

/-- `set_schema` -/
theorem setSchemaN_spec (g : Good h L pn ps own (mk n s x k cs)) (sch : Schema) (ok : SchOK sch) (hne : ∀ d, sch = .leaf d → d.id ≠ .empty)
    (hz : 0 ≤ sch.spannedBytes) :
    ∃ h' t, setSchemaN h n sch = .ok h' ∧ Good h' L pn ps own t ∧ Step h (mk n s x k cs) h' t := by
  obtain ⟨h1, h2, x1, q, e1, e2, e3, hx, hq, hq1, hq2, g2, s2⟩ := release_clear g
  obtain ⟨h3, e4, em, en, h', t, e5, g5, s5, _⟩ := fill_own g2 hx hq hq1 hq2 sch ok hne sch.spannedBytes.toNat _ (.refl _)
  refine ⟨h', t, ?_, g5, s2.trans s5⟩
  rw [setSchemaN, e1]
  simp only [Res.bind_ok, e2]
  rw [setS, e3]
  simp only [Res.bind_ok, e4]
  rw [allocN, getN_some ((congrFun en n).trans hq)]
  simp only [Res.bind_ok]
  rw [allocate_nonneg hz, em]
  simp only
  rw [getN_some (o := ⟨s, own, q, [], ⟨some (h2.mem.alloc sch.spannedBytes.toNat).2, true⟩⟩) (by simp)]
  exact e5

/-- `set_data_using_schema` -/
theorem setSchemaDataN_spec (g : Good h L pn ps own (mk n s x k cs)) (sch : Schema) (ok : SchOK sch) (hne : ∀ d, sch = .leaf d → d.id ≠ .empty)
    (hz : 0 ≤ sch.spannedBytes) (data : Option Ptr) {h' : Heap} (e : setSchemaDataN h n sch data = .ok h') :
    ∃ t, Good h' L pn ps own t ∧ Step h (mk n s x k cs) h' t := by
  obtain ⟨h1, h2, x1, q, e1, e2, e3, hx, hq, hq1, hq2, g2, s2⟩ := release_clear g
  rw [setSchemaDataN, e1] at e
  simp only [Res.bind_ok, e2] at e
  rw [setS, e3] at e
  simp only [Res.bind_ok] at e
  obtain ⟨h3, e4, em, en, _⟩ := fill_own g2 hx hq hq1 hq2 sch ok hne sch.spannedBytes.toNat _ (.refl _)
  rw [e4] at e
  simp only [Res.bind_ok] at e
  rw [allocN, getN_some ((congrFun en n).trans hq)] at e
  simp only [Res.bind_ok] at e
  rw [allocate_nonneg hz, em] at e
  simp only at e
  rw [getN_some (o := ⟨s, own, q, [], ⟨some (h2.mem.alloc sch.spannedBytes.toNat).2, true⟩⟩) (by simp)] at e
  simp only [Res.bind_ok, if_neg (Int.not_lt.2 hz)] at e
  rw [Res.bind_eq_ok] at e
  obtain ⟨m, hm, e⟩ := e
  obtain ⟨h4, e4', _, _, h5, t, e5, g5, s5, _⟩ := fill_own g2 hx hq hq1 hq2 sch ok hne sch.spannedBytes.toNat m (.memcpy hm)
  rw [e4] at e4'
  injection e4' with e4'
  subst e4'
  have : h5 = h' := by
    have e' := e5.symm.trans e
    injection e'
  subst this
  exact ⟨t, g5, s2.trans s5⟩

/-- `set_external(schema, data)` -/
theorem setExternalSchemaN_spec (g : Good h L pn ps own (mk n s x k cs)) (sch : Schema) (ok : SchOK sch) (data : Option Ptr) :
    ∃ h' t, setExternalSchemaN h n sch data = .ok h' ∧ Good h' L pn ps own t ∧ Step h (mk n s x k cs) h' t := by
  obtain ⟨h1, x1, e1, hx, g1, s1⟩ := resetN_spec g
  obtain ⟨q, hq, hq1, hq2⟩ := g1.get
  obtain ⟨h2, h', t, e4, e5, g5, s5, _⟩ := fill_external g1 hx hq hq1 hq2 sch ok data
  refine ⟨h', t, ?_, g5, s1.trans s5⟩
  rw [setExternalSchemaN, e1]
  simp only [Res.bind_ok]
  rw [getN_some hq]
  simp only [Res.bind_ok]
  rw [setS, releaseS_empty g1]
  simp only [Res.bind_ok, e4, e5]

/-- `set_external(ptr)` -/
theorem setExternalPtrN_spec (g : Good h L pn ps own (mk n s x k cs)) (d : DataType) (data : Option Ptr) :
    ∃ h' t, setExternalPtrN h n d data = .ok h' ∧ Good h' L pn ps own t ∧ Step h (mk n s x k cs) h' t := by
  obtain ⟨q, hq, hq1, hq2⟩ := g.get
  obtain ⟨m, hf, e⟩ := releaseN_spec g hq
  have hx := relInfo_clean g.cleanAt
  have e2 := setDtypeS_spec (h := ((h.killN (nidsL cs)).withMem m).putN n (some ⟨s, own, q, [], relInfo x k.isEmpty⟩)) d g.getS
    (HSL_congr g.kidsS fun i _ => rfl) g.listS.1 g.listS.2.1
  refine ⟨_, mk n s ⟨data, false⟩ (.ofDtype d) [], ?_,
    clear_then (m' := m) g hf hq (ofDtype_ok d) (.inl ⟨rfl, rfl⟩)
      (h' := (((((h.killN (nidsL cs)).withMem m).putN n (some ⟨s, own, q, [], relInfo x k.isEmpty⟩)).killS (sidsL cs)).putS s
        (some ⟨.ofDtype d, [], ps⟩)).putN n (some ⟨s, own, q, [], ⟨data, false⟩⟩)) (fun i => ?_) (fun i => rfl) rfl rfl rfl⟩
  · rw [setExternalPtrN, e]
    simp only [Res.bind_ok]
    rw [getN_some (o := ⟨s, own, q, [], relInfo x k.isEmpty⟩) (by simp)]
    simp only [Res.bind_ok, e2]
    rw [setData_spec (s := s) (own := own) (q := q) (l := []) (x := relInfo x k.isEmpty) data (by simp), hx]
  · simp only [putN_nodes, putS_nodes, killS_nodes, withMem_nodes, killN_nodes]
    split <;> rfl

/-- `set_external(node)` -/
theorem setExternalNodeN_spec (g : Good h L pn ps own (mk n s x k cs)) (src : Node) (ok : SchOK src.schema) :
    ∃ h' t, setExternalNodeN src h n = .ok h' ∧ Good h' L pn ps own t ∧ Step h (mk n s x k cs) h' t := by
  obtain ⟨h1, x1, e1, hx, g1, s1⟩ := resetN_spec g
  obtain ⟨q, hq, hq1, hq2⟩ := g1.get
  have ls := g1.ltS s (by simp [sids])
  have ln := g1.ltN n (by simp [nids])
  obtain ⟨h2, T, e2, F, hsk⟩ := fillS_spec src.schema ok h1 s ps _ _ g1.getS ls g1.bounded
  have e0 : h2.nodes n = some ⟨T.sid, own, q, [], x1⟩ := by rw [F.nodes, hq, F.sid]; rfl
  obtain ⟨h', t, e3, B, _⟩ := mirrorN_spec (L := L) src T h2 n pn ps q own x1 hsk F.holds F.shape (by rw [F.nextN]; exact ln)
    e0 hq1 hq2 F.bounded
  rw [F.sid] at e3
  obtain ⟨gd, st⟩ := built_good g1 hx (g := h2) (fun i _ => by rw [F.nodes]) F.nextN F rfl rfl rfl rfl B
    (.inl ⟨hx, by rw [F.mem]; exact .refl _⟩)
  refine ⟨h', t, ?_, gd, s1.trans st⟩
  rw [setExternalNodeN, e1]
  simp only [Res.bind_ok]
  rw [getN_some hq]
  simp only [Res.bind_ok]
  rw [setS, releaseS_empty g1]
  simp only [Res.bind_ok, e2, e3]

mutual
theorem compactAt_ok : ∀ (sch : Schema) (o : Int), SchOK sch → SchOK (sch.compactAt o)
  | .leaf d, o, ok => by
    rw [Schema.compactAt]
    split
    · exact ⟨by simp, by simp⟩
    · rw [SchOK] at ok ⊢
      exact ok
  | .obj es, o, ok => by
    rw [Schema.compactAt, SchOK]
    rw [SchOK] at ok
    exact ⟨by rw [compactAtE_names]; exact ok.1, compactAtE_ok es o ok.2⟩
  | .lst cs, o, ok => by
    rw [Schema.compactAt, SchOK]
    rw [SchOK] at ok
    exact compactAtL_ok cs o ok
theorem compactAtE_ok : ∀ (es : List (Str × Schema)) (o : Int), SchOKE es → SchOKE (Schema.compactAtE es o)
  | [], _, _ => trivial
  | (n, c) :: es, o, ok => by
    rw [Schema.compactAtE, SchOKE]
    rw [SchOKE] at ok
    exact ⟨compactAt_ok c o ok.1, compactAtE_ok es _ ok.2⟩
theorem compactAtL_ok : ∀ (cs : List Schema) (o : Int), SchOKL cs → SchOKL (Schema.compactAtL cs o)
  | [], _, _ => trivial
  | c :: cs, o, ok => by
    rw [Schema.compactAtL, SchOKL]
    rw [SchOKL] at ok
    exact ⟨compactAt_ok c o ok.1, compactAtL_ok cs _ ok.2⟩
theorem compactAtE_names : ∀ (es : List (Str × Schema)) (o : Int), (Schema.compactAtE es o).map (·.1) = es.map (·.1)
  | [], _ => rfl
  | (n, c) :: es, o => by rw [Schema.compactAtE, List.map_cons, List.map_cons, compactAtE_names es]
end

/-- `compact_to` -/
theorem compactToN_spec (g : Good h L pn ps own (mk n s x k cs)) (src : Node) (ok : SchOK src.schema) {h' : Heap}
    (e : compactToN src h n = .ok h') : ∃ t, Good h' L pn ps own t ∧ Step h (mk n s x k cs) h' t := by
  obtain ⟨h1, x1, e1, hx, g1, s1⟩ := resetN_spec g
  obtain ⟨q, hq, hq1, hq2⟩ := g1.get
  have ok' : SchOK src.schema.compactTo := compactAt_ok _ _ ok
  rw [compactToN, e1] at e
  simp only [Res.bind_ok] at e
  split at e
  · rename_i hz
    rw [allocN, getN_some hq] at e
    simp only [Res.bind_ok] at e
    rw [allocate_nonneg (Int.le_of_lt hz)] at e
    simp only at e
    rw [getN_some (o := ⟨s, own, q, [], ⟨some (h1.mem.alloc src.schema.totalBytesCompact.toNat).2, true⟩⟩) (by simp)] at e
    simp only [Res.bind_ok] at e
    have hne : ∀ d, src.schema.compactTo = .leaf d → d.id ≠ .empty := by
      intro d hd hc
      have : src.schema.totalBytesCompact = 0 := by
        cases hs : src.schema with
        | obj es => rw [hs] at hd; simp [Schema.compactTo, Schema.compactAt] at hd
        | lst es => rw [hs] at hd; simp [Schema.compactTo, Schema.compactAt] at hd
        | leaf d' =>
          rw [hs, Schema.compactTo, Schema.compactAt] at hd
          rw [Schema.totalBytesCompact]
          split
          · rfl
          · rename_i hne
            rw [if_neg hne] at hd
            injection hd with hd
            rw [← hd] at hc
            exact absurd hc hne
      omega
    -- the schema object is filled after the allocation
    have ls := g1.ltS s (by simp [sids])
    have ln := g1.ltN n (by simp [nids])
    rw [Res.bind_eq_ok] at e
    obtain ⟨h3, e3, e⟩ := e
    rw [Res.bind_eq_ok] at e
    obtain ⟨m, em, e⟩ := e
    obtain ⟨g0, hg⟩ : ∃ g0, ((h1.withMem (h1.mem.alloc src.schema.totalBytesCompact.toNat).1).putN n
      (some ⟨s, own, q, [], ⟨some (h1.mem.alloc src.schema.totalBytesCompact.toNat).2, true⟩⟩) : Heap) = g0 := ⟨_, rfl⟩
    replace e3 : fillS src.schema.compactTo g0 s = .ok h3 := by rw [← hg]; exact e3
    have g0b : g0.Bounded := by
      rw [← hg]
      exact putN_bounded (h := h1.withMem (h1.mem.alloc src.schema.totalBytesCompact.toNat).1) ⟨g1.bounded.nodes, g1.bounded.schemas⟩ ln _
    have g0s : g0.schemas = h1.schemas := by rw [← hg]; rfl
    have g0n : g0.nextS = h1.nextS := by rw [← hg]; rfl
    have g0N : g0.nextN = h1.nextN := by rw [← hg]; rfl
    have g0m : g0.mem = (h1.mem.alloc src.schema.totalBytesCompact.toNat).1 := by rw [← hg]; rfl
    have g0o : g0.nodes n = some ⟨s, own, q, [], ⟨some (h1.mem.alloc src.schema.totalBytesCompact.toNat).2, true⟩⟩ := by
      rw [← hg]; simp
    have g0p : ∀ i, i ≠ n → g0.nodes i = h1.nodes i := fun i hi => by rw [← hg, putN_nodes, if_neg hi, withMem_nodes]
    obtain ⟨h3', T, e3', F, hsk⟩ := fillS_spec src.schema.compactTo ok' g0 s ps (.leaf {}) [] (by rw [g0s]; exact g1.getS) (by rw [g0n]; exact ls) g0b
    rw [e3] at e3'
    injection e3' with e3'
    subst e3'
    have ep : (h3.withMem m).nodes n = some ⟨T.sid, own, q, [], ⟨some (h1.mem.alloc src.schema.totalBytesCompact.toNat).2, true⟩⟩ := by
      rw [withMem_nodes, F.nodes, g0o, F.sid]
    obtain ⟨h5, t, e5, B, hw⟩ := walkN_spec (L := L) (some (h1.mem.alloc src.schema.totalBytesCompact.toNat).2) T h3.nextS (h3.withMem m) n pn ps q own _
      (HS_congr F.holds fun _ _ => rfl) F.shape (F.len (by rw [g0n]; exact ls)) (by rw [withMem_nextN, F.nextN, g0N]; exact ln) ep hq1 hq2
      ⟨F.bounded.nodes, F.bounded.schemas⟩
    rw [F.sid] at e5
    have hte : T.kind.isEmpty = false := by
      obtain ⟨a, b, y, k, Ts⟩ := T
      cases k with
      | obj _ => rfl
      | lst => rfl
      | leaf d =>
        have := hne d (by rw [← hsk]; rfl)
        simpa [HT.kind, Kind.isEmpty, Kind.dtype] using this
    obtain ⟨gd, st⟩ := built_good g1 hx (g := h3.withMem m)
      (fun i hi => by rw [withMem_nodes, F.nodes, g0p i hi]) (by rw [withMem_nextN, F.nextN, g0N]) F g0s g0n rfl rfl B
      (.inr ⟨_, rfl, by rw [← g0m, ← F.mem]; exact .compactWrite _ em, hte⟩)
    have : h5 = h' := by
      have e' := e5.symm.trans e
      injection e'
    subst this
    exact ⟨t, gd, s1.trans st⟩
  · simp only [Res.bind_ok] at e
    rw [getN_some hq] at e
    simp only [Res.bind_ok] at e
    obtain ⟨h3, h5, t, e3, e5, gd, st, _⟩ := fill_external g1 hx hq hq1 hq2 src.schema.compactTo ok' x1.data
    rw [e3] at e
    simp only [Res.bind_ok] at e
    rw [Res.bind_eq_ok] at e
    obtain ⟨m, em, e⟩ := e
    -- the walk does not look at memory: redo it with the new one
    have ls := g1.ltS s (by simp [sids])
    have ln := g1.ltN n (by simp [nids])
    obtain ⟨h3', T, e3', F, hsk⟩ := fillS_spec src.schema.compactTo ok' h1 s ps _ _ g1.getS ls g1.bounded
    rw [e3] at e3'
    injection e3' with e3'
    subst e3'
    have ep : (h3.withMem m).nodes n = some ⟨T.sid, own, q, [], x1⟩ := by
      rw [withMem_nodes, F.nodes, hq, F.sid]; rfl
    obtain ⟨h6, t, e6, B, hw⟩ := walkN_spec (L := L) x1.data T h3.nextS (h3.withMem m) n pn ps q own _
      (HS_congr F.holds fun _ _ => rfl) F.shape (F.len ls) (by rw [withMem_nextN, F.nextN]; exact ln) ep hq1 hq2
      ⟨F.bounded.nodes, F.bounded.schemas⟩
    rw [F.sid] at e6
    obtain ⟨gd, st⟩ := built_good g1 hx (g := h3.withMem m)
      (fun i hi => by rw [withMem_nodes, F.nodes]) (by rw [withMem_nextN, F.nextN]) F rfl rfl rfl rfl B
      (.inl ⟨hx, by rw [← F.mem]; exact .compactWrite _ em⟩)
    have : h6 = h' := by
      have e' := e6.symm.trans e
      injection e'
    subst this
    exact ⟨t, gd, s1.trans st⟩

end

end HT
end Conduit
