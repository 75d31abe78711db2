import Verif.Lemmas.NodeSync4
/-
Lemmas about heaps of node and schema objects: building a schema from a description and the nodes
for it.
-/
namespace Conduit
open Spec Node Heap
namespace HT

mutual
/-- what the schemas of the tree say -/
def skel : HT → Schema
  | mk _ _ _ (.leaf d) _ => .leaf d
  | mk _ _ _ (.obj names) cs => .obj (names.zip (skelL cs))
  | mk _ _ _ .lst cs => .lst (skelL cs)
def skelL : List HT → List Schema
  | [] => []
  | c :: cs => skel c :: skelL cs
end

theorem skelL_length : ∀ cs : List HT, (skelL cs).length = cs.length
  | [] => rfl
  | c :: cs => by simp [skelL, skelL_length cs]
theorem toNodeL_length : ∀ cs : List HT, (toNodeL cs).length = cs.length
  | [] => rfl
  | c :: cs => by simp [toNodeL, toNodeL_length cs]

/-- Schemas were built below the schema `s`. -/
structure FilledL (h : Heap) (s : Nat) (h' : Heap) (Ts : List HT) : Prop where
  holds : HSL h' (some s) Ts
  shape : ShapeL Ts
  nodup : (sidsL Ts).Nodup
  nodes : h'.nodes = h.nodes
  mem : h'.mem = h.mem
  nextN : h'.nextN = h.nextN
  nextS : h.nextS ≤ h'.nextS
  frame : ∀ i, i < h.nextS → h'.schemas i = h.schemas i
  ids : ∀ i, i ∈ sidsL Ts ↔ h.nextS ≤ i ∧ i < h'.nextS
  bounded : h'.Bounded

/-- The schema `s` was filled. -/
structure Filled (h : Heap) (s : Nat) (ps : Option Nat) (h' : Heap) (T : HT) : Prop where
  sid : T.sid = s
  holds : HS h' ps T
  shape : Shape T
  nodup : T.sids.Nodup
  nodes : h'.nodes = h.nodes
  mem : h'.mem = h.mem
  nextN : h'.nextN = h.nextN
  nextS : h.nextS ≤ h'.nextS
  frame : ∀ i, i < h.nextS → i ≠ s → h'.schemas i = h.schemas i
  ids : ∀ i, i ∈ T.sids ↔ i = s ∨ (h.nextS ≤ i ∧ i < h'.nextS)
  bounded : h'.Bounded

/-- the root of a filled schema, when its children are there -/
theorem FilledL.root {h h1 : Heap} {s : Nat} {ps : Option Nat} {k0 k : Kind} {l : List Nat} {Ts : List HT} (w : FilledL h s h1 Ts)
    (hs : h.schemas s = some ⟨k0, l, ps⟩) (hl : s < h.nextS) (hk : KindOK k Ts) :
    setKind h1 s k (Ts.map HT.sid) = .ok (h1.putS s (some ⟨k, Ts.map HT.sid, ps⟩)) ∧
    Filled h s ps (h1.putS s (some ⟨k, Ts.map HT.sid, ps⟩)) (HT.mk 0 s {} k Ts) := by
  have hn : s ∉ sidsL Ts := fun hc => by have := (w.ids s).1 hc; omega
  refine ⟨?_, ⟨rfl, ?_, ?_, ?_, w.nodes, w.mem, w.nextN, w.nextS, ?_, ?_, ⟨w.bounded.nodes, ?_⟩⟩⟩
  · rw [setKind, getS_some ((w.frame s hl).trans hs)]
    rfl
  · rw [HS]
    refine ⟨by simp, HSL_congr w.holds fun i hi => ?_⟩
    rw [putS_schemas, if_neg (fun e => hn (by rw [← e]; exact hi))]
  · rw [Shape]
    exact ⟨hk, w.shape⟩
  · rw [sids, List.nodup_cons]
    exact ⟨hn, w.nodup⟩
  · intro i hi hne
    rw [putS_schemas, if_neg hne]
    exact w.frame i hi
  · intro i
    rw [sids, List.mem_cons, w.ids]
    rfl
  · intro i hi
    have := w.nextS
    rw [putS_nextS] at hi
    rw [putS_schemas, if_neg (by omega)]
    exact w.bounded.schemas i hi

theorem FilledL.nil {h : Heap} (s : Nat) (hb : h.Bounded) : FilledL h s h [] :=
  ⟨trivial, trivial, by simp [sidsL], rfl, rfl, rfl, Nat.le_refl _, fun _ _ => rfl, fun i => by simp [sidsL], hb⟩

theorem FilledL.cons {h h1 h2 : Heap} {s : Nat} {T : HT} {Ts : List HT}
    (w : Filled (h.newS ⟨.leaf {}, [], some s⟩).1 h.nextS (some s) h1 T) (u : FilledL h1 s h2 Ts) :
    FilledL h s h2 (T :: Ts) := by
  have n1 := w.nextS
  have n2 := u.nextS
  have e1 : (h.newS ⟨.leaf {}, [], some s⟩).1.nextS = h.nextS + 1 := rfl
  rw [e1] at n1
  have idT : ∀ i, i ∈ T.sids ↔ h.nextS ≤ i ∧ i < h1.nextS := fun i => by
    rw [w.ids, e1]; omega
  refine ⟨?_, ?_, ?_, ?_, ?_, ?_, by omega, ?_, ?_, u.bounded⟩
  · rw [HSL]
    exact ⟨HS_congr w.holds fun i hi => u.frame i ((idT i).1 hi).2, u.holds⟩
  · rw [ShapeL]
    exact ⟨w.shape, u.shape⟩
  · rw [sidsL, List.nodup_append]
    refine ⟨w.nodup, u.nodup, fun a ha b hb e => ?_⟩
    have := (idT a).1 ha
    have := (u.ids b).1 hb
    omega
  · rw [u.nodes, w.nodes]; rfl
  · rw [u.mem, w.mem]; rfl
  · rw [u.nextN, w.nextN]; rfl
  · intro i hi
    rw [u.frame i (by omega), w.frame i (by rw [e1]; omega) (by omega)]
    simp only [newS, putS_schemas]
    rw [if_neg (by omega)]
  · intro i
    rw [sidsL, List.mem_append, idT, u.ids]
    omega

theorem newS_bounded {h : Heap} (hb : h.Bounded) (o : SObj) : Bounded (h.newS o).1 := by
  refine ⟨hb.nodes, fun i hi => ?_⟩
  simp only [newS] at hi ⊢
  rw [putS_schemas, if_neg (by omega)]
  exact hb.schemas i (by omega)

theorem zip_map_fst_snd {α β : Type} : ∀ es : List (α × β), (es.map (·.1)).zip (es.map (·.2)) = es
  | [] => rfl
  | e :: es => by simp [zip_map_fst_snd es]

mutual
/-- `Schema::set(schema)` on an empty schema object -/
theorem fillS_spec : ∀ (sch : Schema), SchOK sch → ∀ (h : Heap) (s : Nat) (ps : Option Nat) (k0 : Kind) (l : List Nat),
    h.schemas s = some ⟨k0, l, ps⟩ → s < h.nextS → h.Bounded →
    ∃ h' T, fillS sch h s = .ok h' ∧ Filled h s ps h' T ∧ T.skel = sch
  | .leaf d, ok, h, s, ps, k0, l, hs, hl, hb => by
    obtain ⟨e, w⟩ := (FilledL.nil s hb).root hs hl (k := .leaf d) ⟨rfl, ok⟩
    exact ⟨_, _, by rw [fillS]; exact e, w, rfl⟩
  | .obj es, ok, h, s, ps, k0, l, hs, hl, hb => by
    rw [SchOK] at ok
    obtain ⟨h1, Ts, e1, w1, hsk, hlen⟩ := buildE_spec es ok.2 h s hl hb
    obtain ⟨e, w⟩ := w1.root hs hl (k := .obj (es.map (·.1))) ⟨by simp [hlen], ok.1⟩
    refine ⟨_, _, ?_, w, ?_⟩
    · rw [fillS, e1]
      exact e
    · rw [skel, hsk]
      congr 1
      exact zip_map_fst_snd es
  | .lst cs, ok, h, s, ps, k0, l, hs, hl, hb => by
    rw [SchOK] at ok
    obtain ⟨h1, Ts, e1, w1, hsk⟩ := buildL_spec cs ok h s hl hb
    obtain ⟨e, w⟩ := w1.root hs hl (k := .lst) trivial
    refine ⟨_, _, ?_, w, ?_⟩
    · rw [fillS, e1]
      exact e
    · rw [skel, hsk]
theorem buildE_spec : ∀ (es : List (Str × Schema)), SchOKE es → ∀ (h : Heap) (s : Nat), s < h.nextS → h.Bounded →
    ∃ h' Ts, buildE es h s = .ok (h', Ts.map sid) ∧ FilledL h s h' Ts ∧ skelL Ts = es.map (·.2) ∧ Ts.length = es.length
  | [], _, h, s, hl, hb => ⟨h, [], rfl, FilledL.nil s hb, rfl, rfl⟩
  | (nm, c) :: es, ok, h, s, hl, hb => by
    rw [SchOKE] at ok
    obtain ⟨h1, T, e1, w1, k1⟩ := fillS_spec c ok.1 (h.newS ⟨.leaf {}, [], some s⟩).1 h.nextS (some s) (.leaf {}) [] (by simp [newS])
      (by simp [newS]) (newS_bounded hb _)
    have n1 := w1.nextS
    have e0 : (h.newS ⟨.leaf {}, [], some s⟩).1.nextS = h.nextS + 1 := rfl
    obtain ⟨h2, Ts, e2, w2, k2, l2⟩ := buildE_spec es ok.2 h1 s (by omega) w1.bounded
    refine ⟨h2, T :: Ts, ?_, FilledL.cons w1 w2, by simp [skelL, k1, k2], by simp [l2]⟩
    rw [buildE]
    simp only [show (h.newS ⟨.leaf {}, [], some s⟩).2 = h.nextS from rfl, e1, Res.bind_ok, e2, List.map_cons, w1.sid]
theorem buildL_spec : ∀ (cs : List Schema), SchOKL cs → ∀ (h : Heap) (s : Nat), s < h.nextS → h.Bounded →
    ∃ h' Ts, buildL cs h s = .ok (h', Ts.map sid) ∧ FilledL h s h' Ts ∧ skelL Ts = cs
  | [], _, h, s, hl, hb => ⟨h, [], rfl, FilledL.nil s hb, rfl⟩
  | c :: cs, ok, h, s, hl, hb => by
    rw [SchOKL] at ok
    obtain ⟨h1, T, e1, w1, k1⟩ := fillS_spec c ok.1 (h.newS ⟨.leaf {}, [], some s⟩).1 h.nextS (some s) (.leaf {}) [] (by simp [newS])
      (by simp [newS]) (newS_bounded hb _)
    have n1 := w1.nextS
    have e0 : (h.newS ⟨.leaf {}, [], some s⟩).1.nextS = h.nextS + 1 := rfl
    obtain ⟨h2, Ts, e2, w2, k2⟩ := buildL_spec cs ok.2 h1 s (by omega) w1.bounded
    refine ⟨h2, T :: Ts, ?_, FilledL.cons w1 w2, by simp [skelL, k1, k2]⟩
    rw [buildL]
    simp only [show (h.newS ⟨.leaf {}, [], some s⟩).2 = h.nextS from rfl, e1, Res.bind_ok, e2, List.map_cons, w1.sid]
end

/-! ### nodes for a schema -/

/-- Nodes were made for the children `Ts` of the schema of the node `n` and became its children. -/
structure BuiltL (h : Heap) (L : Prop) (n : Nat) (Ts : List HT) (h' : Heap) (cs : List HT) : Prop where
  holds : HNL h' L (some n) cs
  sids : sidsL cs = sidsL Ts
  sidm : cs.map sid = Ts.map sid
  schema : ∀ g ps, HSL g ps Ts → HSL g ps cs
  shape : ShapeL Ts → ShapeL cs
  clean : CleanL cs
  blks : blksL cs = []
  nodup : (nidsL cs).Nodup
  schemas : h'.schemas = h.schemas
  mem : h'.mem = h.mem
  nextN : h.nextN ≤ h'.nextN
  nextS : h.nextS ≤ h'.nextS
  frame : ∀ i, i < h.nextN → i ≠ n → h'.nodes i = h.nodes i
  ids : ∀ i, i ∈ nidsL cs ↔ h.nextN ≤ i ∧ i < h'.nextN
  bounded : h'.Bounded

/-- Nodes were made for the schema tree `T`, with the existing node `n` at the root. -/
structure Built (h : Heap) (L : Prop) (pn : Option Nat) (own : Bool) (n : Nat) (x : Info) (T : HT) (h' : Heap) (t : HT) : Prop where
  nid : t.nid = n
  sid : t.sid = T.sid
  info : t.info = x
  kind : t.kind = T.kind
  holds : HN h' L pn own t
  sids : t.sids = T.sids
  schema : ∀ g ps, HS g ps T → HS g ps t
  shape : Shape T → Shape t
  clean : CleanL t.cs
  blks : t.blks = ownB x
  nodup : t.nids.Nodup
  schemas : h'.schemas = h.schemas
  mem : h'.mem = h.mem
  nextN : h.nextN ≤ h'.nextN
  nextS : h.nextS ≤ h'.nextS
  frame : ∀ i, i < h.nextN → i ≠ n → h'.nodes i = h.nodes i
  ids : ∀ i, i ∈ t.nids ↔ i = n ∨ (h.nextN ≤ i ∧ i < h'.nextN)
  bounded : h'.Bounded

theorem BuiltL.nil {h : Heap} (L : Prop) (n : Nat) (hb : h.Bounded) : BuiltL h L n [] h [] :=
  ⟨trivial, rfl, rfl, fun _ _ h => h, fun h => h, trivial, rfl, by simp [nidsL], rfl, rfl, Nat.le_refl _, Nat.le_refl _, fun _ _ _ => rfl,
    fun i => by simp [nidsL], hb⟩

theorem setData_spec {h : Heap} {n s : Nat} {own : Bool} {q : Option Nat} {l : List Nat} {x : Info} (p : Option Ptr)
    (e : h.nodes n = some ⟨s, own, q, l, x⟩) : setData h n p = .ok (h.putN n (some ⟨s, own, q, l, ⟨p, x.alloced⟩⟩)) := by
  rw [setData, getN_some e]
  rfl

theorem putN_bounded {h : Heap} {n : Nat} (hb : h.Bounded) (hn : n < h.nextN) (o : Option NObj) : Bounded (h.putN n o) := by
  refine ⟨fun i hi => ?_, hb.schemas⟩
  rw [putN_nextN] at hi
  rw [putN_nodes, if_neg (by omega)]
  exact hb.nodes i hi

/-- the root, when the children are built -/
theorem BuiltL.root {h h' : Heap} {L : Prop} {pn q : Option Nat} {own : Bool} {n s : Nat} {x : Info} {k : Kind} {a : Nat} {y : Info}
    {Ts cs : List HT} (w : BuiltL (h.putN n (some ⟨s, own, q, [], x⟩)) L n Ts h' cs) (hn : n < h.nextN)
    (e : h'.nodes n = some ⟨s, own, q, cs.map HT.nid, x⟩) (hq : q.isSome = !own) (hL : L → q = pn) :
    Built h L pn own n x (HT.mk a s y k Ts) h' (HT.mk n s x k cs) := by
  have hnn : n ∉ nidsL cs := fun hc => by have := (w.ids n).1 hc; rw [putN_nextN] at this; omega
  refine ⟨rfl, rfl, rfl, rfl, ?_, ?_, ?_, ?_, w.clean, ?_, ?_, w.schemas, w.mem, w.nextN, w.nextS, ?_, ?_, w.bounded⟩
  · rw [HN]
    exact ⟨⟨q, e, hq, hL⟩, w.holds⟩
  · rw [HT.sids, HT.sids, w.sids]
  · intro g ps hs
    rw [HS] at hs ⊢
    rw [w.sidm]
    exact ⟨hs.1, w.schema g _ hs.2⟩
  · intro hp
    rw [Shape] at hp ⊢
    refine ⟨?_, w.shape hp.2⟩
    have hl : cs.length = Ts.length := by simpa using congrArg List.length w.sidm
    have h1 := hp.1
    cases k with
    | leaf d =>
      obtain ⟨h2, h3⟩ := h1
      subst h2
      exact ⟨List.length_eq_zero_iff.1 hl, h3⟩
    | obj names => exact ⟨h1.1.trans hl.symm, h1.2⟩
    | lst => trivial
  · rw [HT.blks, w.blks, List.append_nil]
  · rw [nids, List.nodup_cons]
    exact ⟨hnn, w.nodup⟩
  · intro i hi hne
    rw [w.frame i hi hne, putN_nodes, if_neg hne]
  · intro i
    rw [nids, List.mem_cons, w.ids]
    rfl

/-- one child: made, filled, appended -/
theorem BuiltL.cons {h h1 h2 h3 : Heap} {L : Prop} {n s : Nat} {own : Bool} {q : Option Nat} {x y : Info} {l : List Nat} {T t : HT} {Ts cs : List HT}
    (hn : n < h.nextN) (e : h.nodes n = some ⟨s, own, q, l, x⟩)
    (w : Built { h.putN h.nextN (some ⟨T.sid, false, some n, [], {}⟩) with nextN := h.nextN + 1, nextS := h.nextS + 1 }
      L (some n) false h.nextN y T h1 t) (hy : y.alloced = false)
    (h2e : h2 = h1.putN n (some ⟨s, own, q, l ++ [h.nextN], x⟩))
    (u : BuiltL h2 L n Ts h3 cs) : BuiltL h L n (T :: Ts) h3 (t :: cs) := by
  have nN := w.nextN
  have nS := w.nextS
  have uN := u.nextN
  have uS := u.nextS
  have e2 : h2.nextN = h1.nextN := by rw [h2e]; rfl
  have e3 : h2.nextS = h1.nextS := by rw [h2e]; rfl
  simp only at nN nS
  have idt : ∀ i, i ∈ t.nids ↔ h.nextN ≤ i ∧ i < h1.nextN := fun i => by
    rw [w.ids]; simp only; omega
  refine ⟨?_, ?_, ?_, ?_, ?_, ?_, ?_, ?_, ?_, ?_, by omega, by omega, ?_, ?_, u.bounded⟩
  · rw [HNL]
    refine ⟨HN_congr w.holds fun i hi => ?_, u.holds⟩
    have := (idt i).1 hi
    rw [u.frame i (by omega) (by omega), h2e, putN_nodes, if_neg (by omega)]
  · rw [sidsL, sidsL, w.sids, u.sids]
  · rw [List.map_cons, List.map_cons, w.sid, u.sidm]
  · intro g ps hh
    rw [HSL] at hh ⊢
    exact ⟨w.schema g ps hh.1, u.schema g ps hh.2⟩
  · intro hh
    rw [ShapeL] at hh ⊢
    exact ⟨w.shape hh.1, u.shape hh.2⟩
  · rw [CleanL]
    refine ⟨?_, u.clean⟩
    have hi := w.info
    have hc := w.clean
    obtain ⟨a, b, z, k, ds⟩ := t
    rw [Clean]
    simp only [HT.info, HT.cs] at hi hc
    exact ⟨cleanAt_false (hi ▸ hy), hc⟩
  · rw [blksL, w.blks, u.blks, ownB_false hy]
    rfl
  · rw [nidsL, List.nodup_append]
    refine ⟨w.nodup, u.nodup, fun a ha b hb hab => ?_⟩
    have := (idt a).1 ha
    have := (u.ids b).1 hb
    omega
  · rw [u.schemas, h2e, putN_schemas, w.schemas]
    rfl
  · rw [u.mem, h2e, putN_mem, w.mem]
    rfl
  · intro i hi hne
    rw [u.frame i (by omega) hne, h2e, putN_nodes, if_neg hne, w.frame i (by simp only; omega) (by omega)]
    simp only [putN_nodes]
    rw [if_neg (by omega)]
  · intro i
    rw [nidsL, List.mem_append, idt, u.ids]
    omega

theorem attach_bounded {h : Heap} (hb : h.Bounded) (o : NObj) :
    Bounded { h.putN h.nextN (some o) with nextN := h.nextN + 1, nextS := h.nextS + 1 } := by
  refine ⟨fun i hi => ?_, fun i hi => ?_⟩
  · simp only [putN_nodes] at hi ⊢
    rw [if_neg (by omega)]
    exact hb.nodes i (by omega)
  · simp only [putN_schemas] at hi ⊢
    exact hb.schemas i (by omega)

mutual
/-- `walk_schema` -/
theorem walkN_spec {L : Prop} (p : Option Ptr) : ∀ (T : HT) (f : Nat) (h : Heap) (n : Nat) (pn ps q : Option Nat) (own : Bool) (x : Info),
    HS h ps T → Shape T → T.sids.length ≤ f → n < h.nextN → h.nodes n = some ⟨T.sid, own, q, [], x⟩ → q.isSome = !own → (L → q = pn) →
    h.Bounded →
    ∃ h' t, walkN p f h n T.sid = .ok h' ∧ Built h L pn own n ⟨p, x.alloced⟩ T h' t ∧ t.toNode = walk p x.alloced T.skel
  | mk a s y k Ts, f, h, n, pn, ps, q, own, x, hs, hp, hf, hn, e, hq, hL, hb => by
    cases f with
    | zero => simp [HT.sids] at hf
    | succ f =>
      rw [HS] at hs
      rw [Shape] at hp
      rw [HT.sids, List.length_cons] at hf
      have hb1 := putN_bounded hb hn (some ⟨s, own, q, [], ⟨p, x.alloced⟩⟩)
      obtain ⟨h', cs, e1, e2, w, hw⟩ := walkL_spec (L := L) p Ts f (h.putN n (some ⟨s, own, q, [], ⟨p, x.alloced⟩⟩)) n s (some s) q own ⟨p, x.alloced⟩ []
        (HSL_congr hs.2 fun _ _ => rfl) hp.2 (by omega) hn (by simp) hb1
      refine ⟨h', mk n s ⟨p, x.alloced⟩ k cs, ?_, w.root hn e2 hq hL, ?_⟩
      · have e : h.nodes n = some ⟨s, own, q, [], x⟩ := e
        rw [HT.sid, walkN, setData_spec p e]
        simp only [Res.bind_ok]
        rw [getS_some (h := h.putN n (some ⟨s, own, q, [], ⟨p, x.alloced⟩⟩)) hs.1]
        exact e1
      · cases k with
        | leaf d => rfl
        | obj names =>
          rw [toNode, skel, walk]
          congr 1
          rw [hw]
          exact walkE_zip p names Ts
        | lst => rw [toNode, skel, walk, hw]
theorem walkL_spec {L : Prop} (p : Option Ptr) : ∀ (Ts : List HT) (f : Nat) (h : Heap) (n s : Nat) (ps q : Option Nat) (own : Bool) (x : Info)
    (l : List Nat), HSL h ps Ts → ShapeL Ts → (sidsL Ts).length ≤ f → n < h.nextN → h.nodes n = some ⟨s, own, q, l, x⟩ → h.Bounded →
    ∃ h' cs, (Ts.map sid).foldlM (fun g c => do
      let q ← g.attach n c
      let g1 ← walkN p f q.1 q.2 c
      g1.pushChild n q.2) h = .ok h' ∧ h'.nodes n = some ⟨s, own, q, l ++ cs.map nid, x⟩ ∧ BuiltL h L n Ts h' cs ∧
      toNodeL cs = walkL p (skelL Ts)
  | [], f, h, n, s, ps, q, own, x, l, _, _, _, hn, e, hb => by
    exact ⟨h, [], rfl, by simp [e], BuiltL.nil L n hb, rfl⟩
  | T :: Ts, f, h, n, s, ps, q, own, x, l, hs, hp, hf, hn, e, hb => by
    rw [HSL] at hs
    rw [ShapeL] at hp
    rw [sidsL, List.length_append] at hf
    obtain ⟨h1, t, e1, w1, k1⟩ := walkN_spec (L := L) p T f
      { h.putN h.nextN (some ⟨T.sid, false, some n, [], {}⟩) with nextN := h.nextN + 1, nextS := h.nextS + 1 } h.nextN (some n) ps (some n) false {}
      (HS_congr hs.1 fun _ _ => rfl) hp.1 (by omega) (Nat.lt_succ_self _) (by simp) rfl (fun _ => rfl) (attach_bounded hb _)
    have nN := w1.nextN
    simp only at nN
    have e2 : h1.nodes n = some ⟨s, own, q, l, x⟩ := by
      rw [w1.frame n (by simp only; omega) (by omega)]
      simp only [putN_nodes]
      rw [if_neg (Nat.ne_of_lt hn)]
      exact e
    obtain ⟨h3, cs, e3, e4, w3, k3⟩ := walkL_spec (L := L) p Ts f (h1.putN n (some ⟨s, own, q, l ++ [h.nextN], x⟩)) n s ps q own x (l ++ [h.nextN])
      (HSL_congr hs.2 fun i _ => by rw [putN_schemas, w1.schemas]; rfl) hp.2 (by omega) (by rw [putN_nextN]; omega) (by simp)
      (putN_bounded w1.bounded (by omega) _)
    refine ⟨h3, t :: cs, ?_, ?_, BuiltL.cons hn e w1 rfl rfl w3, ?_⟩
    · rw [List.map_cons, List.foldlM_cons, attach_spec hb]
      simp only [Res.bind_ok, e1]
      rw [pushChild, getN_some e2]
      simp only [Res.bind_ok]
      exact e3
    · rw [e4, List.map_cons, w1.nid, List.append_assoc]
      rfl
    · rw [toNodeL, skelL, walkL, k1, k3]
theorem walkE_zip (p : Option Ptr) : ∀ (names : List Str) (Ts : List HT), names.zip (walkL p (skelL Ts)) = walkE p (names.zip (skelL Ts))
  | [], _ => rfl
  | _ :: _, [] => rfl
  | n :: names, T :: Ts => by
    rw [skelL, walkL, List.zip_cons_cons, List.zip_cons_cons, walkE, walkE_zip p names Ts]
end

theorem schemaE_eq : ∀ es : List (Str × Node), schemaE es = (es.map (·.1)).zip (schemaL (es.map (·.2)))
  | [] => rfl
  | (n, c) :: es => by rw [schemaE, schemaE_eq es]; rfl
theorem schemaL_length : ∀ cs : List Node, (schemaL cs).length = cs.length
  | [] => rfl
  | c :: cs => by simp [schemaL, schemaL_length cs]

theorem zip_inj {α β : Type} {a a' : List α} {b b' : List β} (h : a.zip b = a'.zip b') (h1 : a.length = b.length) (h2 : a'.length = b'.length) :
    a = a' ∧ b = b' := by
  have e1 := congrArg (List.map Prod.fst) h
  have e2 := congrArg (List.map Prod.snd) h
  rw [List.map_fst_zip (by omega), List.map_fst_zip (by omega)] at e1
  rw [List.map_snd_zip (by omega), List.map_snd_zip (by omega)] at e2
  exact ⟨e1, e2⟩

theorem mirrorEN_eq : ∀ (es : List (Str × Node)) (ss : List Nat) (h : Heap) (n : Nat), mirrorEN es ss h n = mirrorLN (es.map (·.2)) ss h n
  | [], [], _, _ => rfl
  | [], _ :: _, _, _ => rfl
  | _ :: _, [], _, _ => by rw [mirrorEN, List.map_cons, mirrorLN]
  | (nm, c) :: es, s :: ss, h, n => by
    rw [mirrorEN, List.map_cons, mirrorLN]
    simp only [mirrorEN_eq es ss]

theorem mirrorE_eq : ∀ es : List (Str × Node), mirrorE es = (es.map (·.1)).zip (mirrorL (es.map (·.2)))
  | [] => rfl
  | (n, c) :: es => by rw [mirrorE, mirrorE_eq es]; rfl

theorem sizeOf_map_snd : ∀ es : List (Str × Node), sizeOf (es.map (·.2)) ≤ sizeOf es
  | [] => by simp
  | (n, c) :: es => by
    have := sizeOf_map_snd es
    simp only [List.map_cons, List.cons.sizeOf_spec, Prod.mk.sizeOf_spec]
    omega

mutual
/-- `mirror_node` -/
theorem mirrorN_spec {L : Prop} : ∀ (src : Node) (T : HT) (h : Heap) (n : Nat) (pn ps q : Option Nat) (own : Bool) (x : Info),
    T.skel = src.schema → HS h ps T → Shape T → n < h.nextN → h.nodes n = some ⟨T.sid, own, q, [], x⟩ → q.isSome = !own → (L → q = pn) →
    h.Bounded →
    ∃ h' t, mirrorN src h n T.sid = .ok h' ∧ Built h L pn own n ⟨src.info.data, x.alloced⟩ T h' t ∧ t.toNode = mirror x.alloced src
  | .leaf y d, mk a s z k Ts, h, n, pn, ps, q, own, x, hk, hs, hp, hn, e, hq, hL, hb => by
    rw [HS] at hs
    rw [Shape] at hp
    have hb1 := putN_bounded hb hn (some ⟨s, own, q, [], ⟨y.data, x.alloced⟩⟩)
    rw [schema] at hk
    cases k with
    | obj names => simp [skel] at hk
    | lst => simp [skel] at hk
    | leaf d' =>
      simp [skel] at hk
      subst hk
      obtain rfl := hp.1.1
      refine ⟨_, mk n s ⟨y.data, x.alloced⟩ (.leaf d') [], by rw [mirrorN]; exact setData_spec y.data e,
        (BuiltL.nil L n hb1).root hn (by simp [HT.sid]) hq hL, rfl⟩
  | .obj y es, mk a s z k Ts, h, n, pn, ps, q, own, x, hk, hs, hp, hn, e, hq, hL, hb => by
    rw [HS] at hs
    rw [Shape] at hp
    have hb1 := putN_bounded hb hn (some ⟨s, own, q, [], ⟨y.data, x.alloced⟩⟩)
    rw [schema, schemaE_eq] at hk
    cases k with
    | leaf d => simp [skel] at hk
    | lst => simp [skel] at hk
    | obj names =>
      rw [skel] at hk
      injection hk with hk
      obtain ⟨hk1, hk2⟩ := zip_inj hk (by rw [skelL_length]; exact hp.1.1) (by rw [schemaL_length]; simp)
      obtain ⟨h', cs, e1, e2, w, hw⟩ := mirrorLN_spec (L := L) (es.map (·.2)) Ts (h.putN n (some ⟨s, own, q, [], ⟨y.data, x.alloced⟩⟩)) n s
        (some s) q own ⟨y.data, x.alloced⟩ [] hk2 (HSL_congr hs.2 fun _ _ => rfl) hp.2 hn (by simp) hb1
      refine ⟨h', mk n s ⟨y.data, x.alloced⟩ (.obj names) cs, ?_, w.root hn e2 hq hL, ?_⟩
      · have e : h.nodes n = some ⟨s, own, q, [], x⟩ := e
        rw [HT.sid, mirrorN, setData_spec y.data e]
        simp only [Res.bind_ok]
        rw [getS_some (h := h.putN n (some ⟨s, own, q, [], ⟨y.data, x.alloced⟩⟩)) hs.1]
        simp only [Res.bind_ok]
        rw [mirrorEN_eq]
        exact e1
      · rw [toNode, mirror, hw, mirrorE_eq, hk1]
  | .lst y ns, mk a s z k Ts, h, n, pn, ps, q, own, x, hk, hs, hp, hn, e, hq, hL, hb => by
    rw [HS] at hs
    rw [Shape] at hp
    have hb1 := putN_bounded hb hn (some ⟨s, own, q, [], ⟨y.data, x.alloced⟩⟩)
    rw [schema] at hk
    cases k with
    | leaf d => simp [skel] at hk
    | obj names => simp [skel] at hk
    | lst =>
      rw [skel] at hk
      injection hk with hk
      obtain ⟨h', cs, e1, e2, w, hw⟩ := mirrorLN_spec (L := L) ns Ts (h.putN n (some ⟨s, own, q, [], ⟨y.data, x.alloced⟩⟩)) n s
        (some s) q own ⟨y.data, x.alloced⟩ [] hk (HSL_congr hs.2 fun _ _ => rfl) hp.2 hn (by simp) hb1
      refine ⟨h', mk n s ⟨y.data, x.alloced⟩ .lst cs, ?_, w.root hn e2 hq hL, ?_⟩
      · have e : h.nodes n = some ⟨s, own, q, [], x⟩ := e
        rw [HT.sid, mirrorN, setData_spec y.data e]
        simp only [Res.bind_ok]
        rw [getS_some (h := h.putN n (some ⟨s, own, q, [], ⟨y.data, x.alloced⟩⟩)) hs.1]
        exact e1
      · rw [toNode, mirror, hw]
termination_by src => sizeOf src
decreasing_by
  · simp only [Node.obj.sizeOf_spec]
    have := sizeOf_map_snd es
    omega
  · simp only [Node.lst.sizeOf_spec]; omega
theorem mirrorLN_spec {L : Prop} : ∀ (ns : List Node) (Ts : List HT) (h : Heap) (n s : Nat) (ps q : Option Nat) (own : Bool) (x : Info)
    (l : List Nat), skelL Ts = schemaL ns → HSL h ps Ts → ShapeL Ts → n < h.nextN → h.nodes n = some ⟨s, own, q, l, x⟩ → h.Bounded →
    ∃ h' cs, mirrorLN ns (Ts.map sid) h n = .ok h' ∧ h'.nodes n = some ⟨s, own, q, l ++ cs.map nid, x⟩ ∧ BuiltL h L n Ts h' cs ∧
      toNodeL cs = mirrorL ns
  | [], [], h, n, s, ps, q, own, x, l, _, _, _, hn, e, hb => by
    exact ⟨h, [], by rw [List.map_nil, mirrorLN], by simp [e], BuiltL.nil L n hb, rfl⟩
  | [], _ :: _, _, _, _, _, _, _, _, _, hk, _, _, _, _, _ => by simp [skelL, schemaL] at hk
  | _ :: _, [], _, _, _, _, _, _, _, _, hk, _, _, _, _, _ => by simp [skelL, schemaL] at hk
  | c :: ns, T :: Ts, h, n, s, ps, q, own, x, l, hk, hs, hp, hn, e, hb => by
    rw [HSL] at hs
    rw [ShapeL] at hp
    rw [skelL, schemaL] at hk
    injection hk with hk1 hk2
    obtain ⟨h1, t, e1, w1, k1⟩ := mirrorN_spec (L := L) c T
      { h.putN h.nextN (some ⟨T.sid, false, some n, [], {}⟩) with nextN := h.nextN + 1, nextS := h.nextS + 1 } h.nextN (some n) ps (some n) false {}
      hk1 (HS_congr hs.1 fun _ _ => rfl) hp.1 (Nat.lt_succ_self _) (by simp) rfl (fun _ => rfl) (attach_bounded hb _)
    have nN := w1.nextN
    simp only at nN
    have e2 : h1.nodes n = some ⟨s, own, q, l, x⟩ := by
      rw [w1.frame n (by simp only; omega) (by omega)]
      simp only [putN_nodes]
      rw [if_neg (Nat.ne_of_lt hn)]
      exact e
    obtain ⟨h3, cs, e3, e4, w3, k3⟩ := mirrorLN_spec (L := L) ns Ts (h1.putN n (some ⟨s, own, q, l ++ [h.nextN], x⟩)) n s ps q own x (l ++ [h.nextN])
      hk2 (HSL_congr hs.2 fun i _ => by rw [putN_schemas, w1.schemas]; rfl) hp.2 (by rw [putN_nextN]; omega) (by simp)
      (putN_bounded w1.bounded (by omega) _)
    refine ⟨h3, t :: cs, ?_, ?_, BuiltL.cons hn e w1 rfl rfl w3, ?_⟩
    · rw [List.map_cons, mirrorLN, attach_spec hb]
      simp only [Res.bind_ok, e1]
      rw [pushChild, getN_some e2]
      simp only [Res.bind_ok]
      exact e3
    · rw [e4, List.map_cons, w1.nid, List.append_assoc]
      rfl
    · rw [toNodeL, mirrorL, k1, k3]
termination_by ns => sizeOf ns
end

end HT
end Conduit
