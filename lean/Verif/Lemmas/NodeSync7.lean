import Verif.Lemmas.NodeSync6
/-
C33-C35: `set(node)`, `update`, and the setters of values.
-/
namespace Conduit
open Spec Node Heap

namespace HT

/-- leaves are leaves, no object has a name twice -/
def KindN : Kind → Prop
  | .leaf d => d.id ≠ .object ∧ d.id ≠ .list
  | .obj names => names.Nodup
  | .lst => True

/-- so for all schema objects -/
def NamesOK (h : Heap) : Prop := ∀ i o, h.schemas i = some o → KindN o.kind

theorem Good.root {h : Heap} {L : Prop} {pn ps : Option Nat} {own : Bool} {t : HT} (g : Good h L pn ps own t) :
    Good h L pn ps own (HT.mk t.nid t.sid t.info t.kind t.cs) := by
  cases t
  exact g

theorem KindOK.kindN {k : Kind} {cs : List HT} (h : KindOK k cs) : KindN k := by
  cases k with
  | leaf d => exact h.2
  | obj names => exact h.2
  | lst => trivial

mutual
theorem names_tree {h : Heap} : ∀ (t : HT) (ps : Option Nat) (i : Nat), HS h ps t → Shape t → i ∈ t.sids →
    ∀ o, h.schemas i = some o → KindN o.kind
  | mk n s x k cs, ps, i, hs, sh, hi, o, ho => by
    rw [HS] at hs
    rw [Shape] at sh
    rw [sids, List.mem_cons] at hi
    rcases hi with rfl | hi
    · rw [hs.1] at ho
      injection ho with ho
      subst ho
      exact sh.1.kindN
    · exact names_list cs _ i hs.2 sh.2 hi o ho
theorem names_list {h : Heap} : ∀ (cs : List HT) (ps : Option Nat) (i : Nat), HSL h ps cs → ShapeL cs → i ∈ sidsL cs →
    ∀ o, h.schemas i = some o → KindN o.kind
  | [], _, _, _, _, hi, _, _ => by simp [sidsL] at hi
  | c :: cs, ps, i, hs, sh, hi, o, ho => by
    rw [HSL] at hs
    rw [ShapeL] at sh
    rw [sidsL, List.mem_append] at hi
    rcases hi with hi | hi
    · exact names_tree c ps i hs.1 sh.1 hi o ho
    · exact names_list cs ps i hs.2 sh.2 hi o ho
end

theorem Step.names {h h' : Heap} {L : Prop} {pn ps : Option Nat} {own : Bool} {t t' : HT} (hn : NamesOK h) (g : Good h' L pn ps own t')
    (st : Step h t h' t') : NamesOK h' := by
  intro i o ho
  by_cases h1 : i ∈ t'.sids
  · exact names_tree t' ps i g.schema g.shape h1 o ho
  · by_cases h2 : i ∈ t.sids ∨ h.nextS ≤ i
    · rw [st.deadS i h2 h1] at ho
      cases ho
    · rw [not_or] at h2
      rw [st.frameS i (by omega) h2.1] at ho
      exact hn i o ho

theorem Grow.names {h g : Heap} {n s : Nat} {ps : Option Nat} {cs : List HT} {k' : Kind} (hn : NamesOK h) (w : Grow h n s ps cs k' g)
    (hk : KindN k') : NamesOK g := by
  intro i o ho
  rw [w.schemas] at ho
  split at ho
  · injection ho with ho
    subst ho
    exact hk
  · split at ho
    · injection ho with ho
      subst ho
      exact ⟨by simp, by simp⟩
    · exact hn i o ho

theorem NamesOK.get {h : Heap} (hn : NamesOK h) {i : Nat} {o : SObj} (e : h.getS i = .ok o) : KindN o.kind := by
  unfold getS at e
  split at e
  · rename_i o' ho
    injection e with e
    subst e
    exact hn _ _ ho
  · cases e

section
variable {h : Heap} {L : Prop} {pn ps : Option Nat} {own : Bool} {n s : Nat} {x : Info} {k : Kind} {cs : List HT}

/-- `init(object)` on an empty node -/
theorem initObj_empty (g : Good h L pn ps own (mk n s x (.leaf {}) [])) :
    ∃ h' x', initN h n { id := .object } = .ok h' ∧ Good h' L pn ps own (mk n s x' (.obj []) []) ∧
      Step h (mk n s x (.leaf {}) []) h' (mk n s x' (.obj []) []) := by
  rcases initN_spec g { id := .object } (by simp) with ⟨e, _⟩ | ⟨_, h', x', e⟩
  · simp [Kind.dtype, DataType.compatible] at e
  · exact ⟨h', x', e⟩

theorem initLst_empty (g : Good h L pn ps own (mk n s x (.leaf {}) [])) :
    ∃ h' x', initN h n { id := .list } = .ok h' ∧ Good h' L pn ps own (mk n s x' .lst []) ∧
      Step h (mk n s x (.leaf {}) []) h' (mk n s x' .lst []) := by
  rcases initN_spec g { id := .list } (by simp) with ⟨e, _⟩ | ⟨_, h', x', e⟩
  · simp [Kind.dtype, DataType.compatible] at e
  · exact ⟨h', x', e⟩

theorem cleanAt_obj {names : List Str} (hc : CleanAt x k) : CleanAt x (.obj names) := fun ha => by
  obtain ⟨p, p1, p2, _⟩ := hc ha
  exact ⟨p, p1, p2, rfl⟩
theorem cleanAt_lst (hc : CleanAt x k) : CleanAt x .lst := fun ha => by
  obtain ⟨p, p1, p2, _⟩ := hc ha
  exact ⟨p, p1, p2, rfl⟩

end

/-- `set_node` with fuel `f` turns trees into trees -/
def SetOK (L : Prop) (f : Nat) : Prop :=
  ∀ (h : Heap) (pn ps : Option Nat) (own : Bool) (t : HT) (src : Nat) (h' : Heap), Good h L pn ps own t → NamesOK h →
    setNodeN f h t.nid src = .ok h' → ∃ t', Good h' L pn ps own t' ∧ Step h t h' t'

theorem setObj_loop {L : Prop} {f : Nat} (ih : SetOK L f) {n s : Nat} {x : Info} {pn ps : Option Nat} {own : Bool} (src : Nat) (h' : Heap) :
    ∀ (rest done : List Str) (cs : List HT) (g : Heap), Good g L pn ps own (mk n s x (.obj done) cs) → NamesOK g → (done ++ rest).Nodup →
      rest.foldlM (fun g name => do
          let o ← g.getN n
          let r ← g.addChildS o.schema name
          let ks ← r.1.getS o.schema
          let q ← r.1.attach n r.2
          let sn ← q.1.getN src
          match ks.kind.posOf name with
          | none => .ub
          | some i => do
            let sc ← Res.ofIdx sn.children i
            let g1 ← setNodeN f q.1 q.2 sc
            g1.pushChild n q.2) g = .ok h' →
      ∃ t', Good h' L pn ps own t' ∧ Step g (mk n s x (.obj done) cs) h' t'
  | [], done, cs, g, go, _, _, e => by
    simp only [List.foldlM_nil, Res.pure_def] at e
    injection e with e
    subst e
    exact ⟨_, go, Step.refl _ go.bounded⟩
  | name :: rest, done, cs, g, go, hn, hnd, e => by
    rw [List.foldlM_cons, Res.bind_eq_ok] at e
    obtain ⟨g3, e, e'⟩ := e
    obtain ⟨q, hq, _⟩ := go.get
    rw [getN_some hq] at e
    simp only [Res.bind_ok] at e
    obtain ⟨names, h1, g1, e1, e2, hl, hkn, w, eg⟩ := addChildS_spec go name (.inl ⟨done, rfl⟩)
    have : names = done := by
      rcases hkn with hkn | ⟨hkn, _⟩
      · injection hkn with hkn; exact hkn.symm
      · exact absurd rfl (hkn done)
    subst this
    have hnd1 : (names ++ [name]).Nodup := by
      have : names ++ name :: rest = (names ++ [name]) ++ rest := by simp
      rw [this] at hnd
      exact (List.nodup_append.1 hnd).1
    simp only [e1, Res.bind_ok, eg, e2] at e
    rw [Res.bind_eq_ok] at e
    obtain ⟨sn, _, e⟩ := e
    split at e
    · cases e
    · rw [Res.bind_eq_ok] at e
      obtain ⟨sc, _, e⟩ := e
      rw [Res.bind_eq_ok] at e
      obtain ⟨g2, e3, e4⟩ := e
      have gc := w.child go
      obtain ⟨c', gc', sc'⟩ := ih g1 _ _ _ _ sc g2 gc (w.names hn hnd1) e3
      have hko : KindOK (.obj (names ++ [name])) (cs ++ [c']) := ⟨by simp [hl], hnd1⟩
      obtain ⟨g4, e5, go4, st4, _⟩ := w.push go hko (cleanAt_obj go.cleanAt) gc' sc'
      have : g4 = g3 := by
        have := e5.symm.trans e4
        injection this
      subst this
      obtain ⟨t', gt, stt⟩ := setObj_loop ih src h' rest (names ++ [name]) (cs ++ [c']) g4 go4 (st4.names hn go4) (by simpa using hnd) e'
      exact ⟨t', gt, st4.trans stt⟩

theorem setLst_loop {L : Prop} {f : Nat} (ih : SetOK L f) {n s : Nat} {x : Info} {pn ps : Option Nat} {own : Bool} (src : Nat) (h' : Heap) :
    ∀ (m : Nat) (cs : List HT) (g : Heap), Good g L pn ps own (mk n s x .lst cs) → NamesOK g →
      (List.range' cs.length m).foldlM (fun g i => do
          let o ← g.getN n
          let g0 ← g.appendS o.schema
          let ks ← g0.getS o.schema
          let s ← Res.ofIdx ks.children i
          let q ← g0.attach n s
          let sn ← q.1.getN src
          let sc ← Res.ofIdx sn.children i
          let g1 ← setNodeN f q.1 q.2 sc
          g1.pushChild n q.2) g = .ok h' →
      ∃ t', Good h' L pn ps own t' ∧ Step g (mk n s x .lst cs) h' t'
  | 0, cs, g, go, _, e => by
    simp only [List.range'_zero, List.foldlM_nil, Res.pure_def] at e
    injection e with e
    subst e
    exact ⟨_, go, Step.refl _ go.bounded⟩
  | m + 1, cs, g, go, hn, e => by
    rw [List.range'_succ, List.foldlM_cons, Res.bind_eq_ok] at e
    obtain ⟨g3, e, e'⟩ := e
    obtain ⟨q, hq, _⟩ := go.get
    rw [getN_some hq] at e
    simp only [Res.bind_ok] at e
    obtain ⟨h1, g1, e1, e2, w, eg⟩ := appendS_spec go
    have hidx : Res.ofIdx (cs.map sid ++ [g.nextS]) cs.length = .ok g.nextS := by
      unfold Res.ofIdx
      rw [← List.length_map (f := sid), List.getElem?_concat_length]
    simp only [e1, Res.bind_ok, eg, hidx, e2] at e
    rw [Res.bind_eq_ok] at e
    obtain ⟨sn, _, e⟩ := e
    rw [Res.bind_eq_ok] at e
    obtain ⟨sc, _, e⟩ := e
    rw [Res.bind_eq_ok] at e
    obtain ⟨g2, e3, e4⟩ := e
    have gc := w.child go
    obtain ⟨c', gc', sc'⟩ := ih g1 _ _ _ _ sc g2 gc (w.names hn trivial) e3
    obtain ⟨g4, e5, go4, st4, _⟩ := w.push go (c' := c') trivial (cleanAt_lst go.cleanAt) gc' sc'
    have : g4 = g3 := by
      have := e5.symm.trans e4
      injection this
    subst this
    obtain ⟨t', gt, stt⟩ := setLst_loop ih src h' m (cs ++ [c']) g4 go4 (st4.names hn go4) (by simpa using e')
    exact ⟨t', gt, st4.trans stt⟩

/-- `set(node)`; the source may be anything that is not deleted on the way -/
theorem setNodeN_spec (L : Prop) : ∀ f, SetOK L f
  | 0 => fun h pn ps own t src h' _ _ e => by cases e
  | f + 1 => fun h pn ps own t src h' g hn e => by
    have ih := setNodeN_spec L f
    have g := g.root
    obtain ⟨n, s, x, k, cs⟩ := t
    change setNodeN (f + 1) h n src = .ok h' at e
    change Good h L pn ps own (mk n s x k cs) at g
    rw [setNodeN, Res.bind_eq_ok] at e
    obtain ⟨so, eso, e⟩ := e
    rw [Res.bind_eq_ok] at e
    obtain ⟨ss, ess, e⟩ := e
    obtain ⟨h1, x1, e1, hx1, g1, s1⟩ := resetN_spec g
    split at e
    · rw [e1] at e
      simp only [Res.bind_ok] at e
      obtain ⟨h2, x2, e2, g2, s2⟩ := initObj_empty g1
      rw [e2] at e
      simp only [Res.bind_ok] at e
      rw [Res.bind_eq_ok] at e
      obtain ⟨so2, eso2, e⟩ := e
      rw [Res.bind_eq_ok] at e
      obtain ⟨ss2, ess2, e⟩ := e
      have hn2 : NamesOK h2 := s2.names (s1.names hn g1) g2
      split at e
      · rename_i names hk
        have hnd : KindN ss2.kind := hn2.get ess2
        rw [hk] at hnd
        obtain ⟨t', gt, st⟩ := setObj_loop ih src h' names [] [] h2 g2 hn2 (by rw [List.nil_append]; exact hnd) e
        exact ⟨t', gt, (s1.trans s2).trans st⟩
      · injection e with e
        subst e
        exact ⟨_, g2, s1.trans s2⟩
    · rw [e1] at e
      simp only [Res.bind_ok] at e
      obtain ⟨h2, x2, e2, g2, s2⟩ := initLst_empty g1
      rw [e2] at e
      simp only [Res.bind_ok] at e
      rw [Res.bind_eq_ok] at e
      obtain ⟨so2, eso2, e⟩ := e
      have hn2 : NamesOK h2 := s2.names (s1.names hn g1) g2
      rw [List.range_eq_range'] at e
      obtain ⟨t', gt, st⟩ := setLst_loop ih src h' _ [] h2 g2 hn2 e
      exact ⟨t', gt, (s1.trans s2).trans st⟩
    · rename_i d hk
      split at e
      · rw [e1] at e
        injection e with e
        subst e
        exact ⟨_, g1, s1⟩
      · have hd : KindN ss.kind := hn.get ess
        rw [hk] at hd
        exact compactToN_spec g (.leaf so.info d) hd e

section
variable {h : Heap} {L : Prop} {pn ps : Option Nat} {own : Bool} {n s : Nat} {x : Info} {k : Kind} {cs : List HT}

/-- the setters of values; `write` changes bytes, not blocks -/
theorem setWith_spec (g : Good h L pn ps own (mk n s x k cs)) (d : DataType)
    (hd : (d.id != .object && d.id != .list && d.id != .empty) = true → 0 ≤ d.spannedBytes)
    (write : Info → DataType → Mem → Res Mem) (hw : ∀ x d m m', write x d m = .ok m' → SameB m m') {h' : Heap}
    (e : setWith d write h n = .ok h') : ∃ t, Good h' L pn ps own t ∧ Step h (mk n s x k cs) h' t := by
  have key : ∃ h1 x1 k1 cs1, initN h n d = .ok h1 ∧ Good h1 L pn ps own (mk n s x1 k1 cs1) ∧
      Step h (mk n s x k cs) h1 (mk n s x1 k1 cs1) := by
    rcases initN_spec g d hd with ⟨_, e⟩ | ⟨_, h1, x1, e1, g1, s1⟩
    · exact ⟨h, x, k, cs, e, g, Step.refl _ g.bounded⟩
    · exact ⟨h1, x1, _, [], e1, g1, s1⟩
  obtain ⟨h1, x1, k1, cs1, e1, g1, s1⟩ := key
  rw [setWith, e1] at e
  simp only [Res.bind_ok] at e
  rw [Res.bind_eq_ok] at e
  obtain ⟨o, _, e⟩ := e
  rw [Res.bind_eq_ok] at e
  obtain ⟨d1, _, e⟩ := e
  rw [Res.bind_eq_ok] at e
  obtain ⟨m, em, e⟩ := e
  injection e with e
  subst e
  have sb := hw _ _ _ _ em
  exact ⟨_, g1.mem sb, s1.trans (Step.mem g1.bounded sb)⟩

/-- the leaf part of `update` -/
theorem updateLeafN_spec (g : Good h L pn ps own (mk n s x k cs)) (sx : Info) (d : DataType) (hd : d.id ≠ .object ∧ d.id ≠ .list)
    {h' : Heap} (e : updateLeafN sx d h n = .ok h') : ∃ t, Good h' L pn ps own t ∧ Step h (mk n s x k cs) h' t := by
  unfold updateLeafN at e
  split at e
  · injection e with e
    subst e
    exact ⟨_, g, Step.refl _ g.bounded⟩
  · rw [Res.bind_eq_ok] at e
    obtain ⟨o, _, e⟩ := e
    rw [Res.bind_eq_ok] at e
    obtain ⟨d1, _, e⟩ := e
    split at e
    · split at e
      · cases e
      · rw [Res.bind_eq_ok] at e
        obtain ⟨m, em, e⟩ := e
        injection e with e
        subst e
        have sb : SameB h.mem m := .stridedCopy em
        exact ⟨_, g.mem sb, Step.mem g.bounded sb⟩
    · exact compactToN_spec g (.leaf sx d) hd e

end

theorem schemaE_names : ∀ es : List (Str × Node), (schemaE es).map (·.1) = es.map (·.1)
  | [] => rfl
  | (n, c) :: es => by rw [schemaE, List.map_cons, List.map_cons, schemaE_names es]

theorem NoClashE_iff : ∀ {es : List (Str × Node)} {d : Node}, NoClashE es d ↔
    ∀ name c, (name, c) ∈ es → ∀ x fs e, d = .obj x fs → (name, e) ∈ fs → NoClash c e
  | [], d => by simp [NoClashE]
  | (a, b) :: es, d => by
    rw [NoClashE, NoClashE_iff (es := es)]
    constructor
    · intro ⟨h1, h2⟩ name c hm
      rw [List.mem_cons] at hm
      rcases hm with hm | hm
      · injection hm with e1 e2
        subst e1 e2
        exact h1
      · exact h2 name c hm
    · intro hh
      exact ⟨hh a b (by simp), fun name c hm => hh name c (by simp [hm])⟩

theorem toNodeL_get : ∀ (cs : List HT) (i : Nat) (c : HT), cs[i]? = some c → (toNodeL cs)[i]? = some c.toNode
  | [], _, _, h => by simp at h
  | d :: cs, 0, c, h => by
    simp at h; subst h; simp [toNodeL]
  | d :: cs, i + 1, c, h => by
    rw [toNodeL, List.getElem?_cons_succ]
    exact toNodeL_get cs i c (by simpa using h)

theorem mem_toNode {names : List Str} {cs : List HT} {name : Str} {i : Nat} {c : HT} (h1 : names.findIdx? (· == name) = some i)
    (h2 : cs[i]? = some c) : (name, c.toNode) ∈ names.zip (toNodeL cs) := by
  obtain ⟨hi, hp, _⟩ := List.findIdx?_eq_some_iff_getElem.1 h1
  have hn : names[i] = name := by simpa using hp
  refine List.mem_of_getElem? (i := i) ?_
  rw [List.getElem?_zip_eq_some]
  exact ⟨by rw [List.getElem?_eq_getElem hi, hn], toNodeL_get cs i c h2⟩

theorem findIdx_append_ne {names : List Str} {a b : Str} (h : a ≠ b) :
    (names ++ [a]).findIdx? (· == b) = names.findIdx? (· == b) := by
  rw [List.findIdx?_append]
  simp [h]

/-- what the entries to come ask of the destination -/
def Todo (es : List (Str × Node)) (t : HT) : Prop :=
  ∀ name c, (name, c) ∈ es → ∀ i d, t.kind.posOf name = some i → t.cs[i]? = some d → NoClash c d.toNode

theorem toNode_list_cons {t : HT} (hs : Shape t) (h : t.kind = .lst) (hc : t.cs ≠ []) : ∃ x c cs, t.toNode = .lst x (c :: cs) := by
  obtain ⟨n, s, x, k, cs⟩ := t
  change k = .lst at h
  subst h
  change cs ≠ [] at hc
  cases cs with
  | nil => exact absurd rfl hc
  | cons c cs => exact ⟨x, c.toNode, toNodeL cs, rfl⟩

mutual
/-- `update` on a tree where no named child is added to a list with children -/
theorem updateN_spec : ∀ (src : Node) (h : Heap) (L : Prop) (pn ps : Option Nat) (own : Bool) (t : HT) (h' : Heap), Good h L pn ps own t →
    SchOK src.schema → NoClash src t.toNode → updateN src h t.nid = .ok h' → ∃ t', Good h' L pn ps own t' ∧ Step h t h' t'
  | .leaf x d, h, L, pn, ps, own, mk n s y k cs, h', g, ok, _, e => updateLeafN_spec g x d ok e
  | .obj x es, h, L, pn, ps, own, t, h', g, ok, nc, e => by
    rw [updateN] at e
    rw [NoClash] at nc
    rw [schema, SchOK] at ok
    refine updateEN_spec es h L pn ps own t h' g (by rw [schemaE_names] at ok; exact ok.1) ok.2 ?_ ?_ e
    · intro hne hk
      by_contra hc
      obtain ⟨x, c, cs, e⟩ := toNode_list_cons g.shape hk hc
      exact nc.1 hne x c cs e
    · intro name c hm i d hp hi
      obtain ⟨n, s, y, k, cs⟩ := t
      change k.posOf name = some i at hp
      change cs[i]? = some d at hi
      cases k with
      | leaf _ => cases hp
      | lst => cases hp
      | obj names =>
        have := NoClashE_iff.1 nc.2 name c hm y _ d.toNode rfl (mem_toNode hp hi)
        exact this
  | .lst x srcs, h, L, pn, ps, own, mk n s y k cs, h', g, ok, nc, e => by
    rw [updateN, show (mk n s y k cs).nid = n from rfl, dtypeN_spec g] at e
    simp only [Res.bind_ok] at e
    rw [schema, SchOK] at ok
    split at e
    · rename_i hk
      have hkl : k = .lst := by
        cases k with
        | lst => rfl
        | obj _ => simp [Kind.dtype] at hk
        | leaf d => exact absurd hk g.kindOK.2.2
      subst hkl
      obtain ⟨q, hq, _⟩ := g.get
      rw [getN_some hq] at e
      simp only [Res.bind_ok] at e
      rw [toNode, NoClash] at nc
      exact updateLN_spec srcs [] cs h L pn ps own n s y .lst h' g ok nc e
    · have := updateLN_spec srcs cs [] h L pn ps own n s y k h' (by rw [List.append_nil]; exact g) ok (by cases srcs <;> simp [toNodeL, NoClashL]) e
      rw [List.append_nil] at this
      exact this
theorem updateEN_spec : ∀ (es : List (Str × Node)) (h : Heap) (L : Prop) (pn ps : Option Nat) (own : Bool) (t : HT) (h' : Heap),
    Good h L pn ps own t → (es.map (·.1)).Nodup → SchOKE (schemaE es) → (es ≠ [] → t.kind = .lst → t.cs = []) → Todo es t →
    updateEN es h t.nid = .ok h' → ∃ t', Good h' L pn ps own t' ∧ Step h t h' t'
  | [], h, L, pn, ps, own, t, h', g, _, _, _, _, e => by
    rw [updateEN] at e
    injection e with e
    subst e
    exact ⟨t, g, Step.refl _ g.bounded⟩
  | (name, c) :: es, h, L, pn, ps, own, mk n s x k cs, h', g, hnd, ok, hl, todo, e => by
    rw [updateEN, show (mk n s x k cs).nid = n from rfl, Res.bind_eq_ok] at e
    obtain ⟨r, e1, e⟩ := e
    rw [Res.bind_eq_ok] at e
    obtain ⟨h1, e2, e⟩ := e
    rw [schemaE, SchOKE] at ok
    rw [List.map_cons, List.nodup_cons] at hnd
    have hne : ∀ a b, (a, b) ∈ es → a ≠ name := fun a b hm hc => hnd.1 (List.mem_map.2 ⟨(a, b), hm, hc⟩)
    rcases addChildN_spec g name (hl (by simp)) with ⟨names, i, d, rfl, hp, hi, ea⟩ | ⟨names, g1, hlen, hnm, hkn, ea, gg, st⟩
    · rw [ea] at e1
      injection e1 with e1
      subst e1
      have hd : d ∈ cs := List.mem_of_getElem? hi
      obtain ⟨d', gd, sd⟩ := updateN_spec c h L _ _ _ d h1 (g.child hd) ok.1 (todo name c (by simp) i d hp hi) e2
      obtain ⟨hil, hid⟩ := List.getElem?_eq_some_iff.1 hi
      have hcs : cs = cs.take i ++ d :: cs.drop (i + 1) := by
        rw [← hid, List.getElem_cons_drop, List.take_append_drop]
      rw [hcs] at g
      obtain ⟨gg, st⟩ := ctx g gd sd
      rw [← hcs] at st
      obtain ⟨t', g', s'⟩ := updateEN_spec es h1 L pn ps own _ h' gg hnd.2 ok.2 (fun _ hc => by cases hc) (by
        intro a b hm j f hj hf
        refine todo a b (by simp [hm]) j f hj ?_
        change (cs.take i ++ d' :: cs.drop (i + 1))[j]? = some f at hf
        change cs[j]? = some f
        have hij : j ≠ i := by
          intro hc
          subst hc
          have hj' : names.findIdx? (· == a) = some j := hj
          obtain ⟨h1, h2, _⟩ := List.findIdx?_eq_some_iff_getElem.1 hp
          obtain ⟨h3, h4, _⟩ := List.findIdx?_eq_some_iff_getElem.1 hj'
          simp only [beq_iff_eq] at h2 h4
          exact hne a b hm (h4.symm.trans h2)
        rw [← hf]
        have hs : cs.take i ++ d' :: cs.drop (i + 1) = cs.set i d' := by
          rw [List.set_eq_take_append_cons_drop, if_pos hil]
        rw [hs, List.getElem?_set_ne (Ne.symm hij)]) e
      exact ⟨t', g', st.trans s'⟩
    · rw [ea] at e1
      injection e1 with e1
      subst e1
      have gc := gg.child (c := mk h.nextN h.nextS {} (.leaf {}) []) (by simp)
      have ncl : NoClash c (mk h.nextN h.nextS {} (.leaf {}) []).toNode := by
        rw [toNode]
        cases c with
        | leaf _ _ => rw [NoClash]; trivial
        | lst _ _ => rw [NoClash]; · trivial
                     intro x ds hc; cases hc
        | obj _ fs =>
          rw [NoClash]
          refine ⟨(fun _ _ _ _ hc => by cases hc), NoClashE_iff.2 (fun _ _ _ _ _ _ hc => by cases hc)⟩
      obtain ⟨d', gd, sd⟩ := updateN_spec c g1 L _ _ _ _ h1 gc ok.1 ncl e2
      obtain ⟨gg2, st2⟩ := ctx gg gd sd
      obtain ⟨t', g', s'⟩ := updateEN_spec es h1 L pn ps own _ h' gg2 hnd.2 ok.2 (fun _ hc => by cases hc) (by
        intro a b hm j f hj hf
        have hj' : (names ++ [name]).findIdx? (· == a) = some j := hj
        rw [findIdx_append_ne (hne a b hm).symm] at hj'
        obtain ⟨h1, h2, _⟩ := List.findIdx?_eq_some_iff_getElem.1 hj'
        have hjl : j < cs.length := by rw [← hlen]; exact h1
        change (cs ++ [d'])[j]? = some f at hf
        rw [List.getElem?_append_left hjl] at hf
        rcases hkn with rfl | ⟨_, rfl⟩
        · exact todo a b (by simp [hm]) j f hj' hf
        · simp at h1) e
      exact ⟨t', g', (st.trans st2).trans s'⟩
theorem updateLN_spec : ∀ (srcs : List Node) (pre post : List HT) (h : Heap) (L : Prop) (pn ps : Option Nat) (own : Bool) (n s : Nat) (x : Info)
    (k : Kind) (h' : Heap), Good h L pn ps own (mk n s x k (pre ++ post)) → SchOKL (schemaL srcs) → NoClashL srcs (toNodeL post) →
    updateLN srcs (post.map nid) h n = .ok h' → ∃ t', Good h' L pn ps own t' ∧ Step h (mk n s x k (pre ++ post)) h' t'
  | [], pre, post, h, L, pn, ps, own, n, s, x, k, h', g, _, _, e => by
    rw [updateLN] at e
    injection e with e
    subst e
    exact ⟨_, g, Step.refl _ g.bounded⟩
  | c :: srcs, pre, [], h, L, pn, ps, own, n, s, x, k, h', g, ok, nc, e => by
    rw [schemaL, SchOKL] at ok
    rw [List.map_nil, updateLN, Res.bind_eq_ok] at e
    obtain ⟨r, e1, e⟩ := e
    rw [Res.bind_eq_ok] at e
    obtain ⟨h1, e2, e⟩ := e
    obtain ⟨g1, x', ds, a, b, ea, _, gg, st⟩ := appendN_spec g
    rw [ea] at e1
    injection e1 with e1
    subst e1
    have gc := gg.child (c := mk a b {} (.leaf {}) []) (by simp)
    have ncl : NoClash c (mk a b {} (.leaf {}) []).toNode := by
      rw [toNode]
      cases c with
      | leaf _ _ => rw [NoClash]; trivial
      | lst _ _ => rw [NoClash]; · trivial
                   intro x ds hc; cases hc
      | obj _ fs =>
        rw [NoClash]
        refine ⟨(fun _ _ _ _ hc => by cases hc), NoClashE_iff.2 (fun _ _ _ _ _ _ hc => by cases hc)⟩
    obtain ⟨d', gd, sd⟩ := updateN_spec c g1 L _ _ _ _ h1 gc ok.1 ncl e2
    obtain ⟨gg2, st2⟩ := ctx gg gd sd
    obtain ⟨t', g', s'⟩ := updateLN_spec srcs (ds ++ [d']) [] h1 L pn ps own n s x' .lst h' (by rw [List.append_nil]; exact gg2) ok.2
      (by cases srcs <;> simp [toNodeL, NoClashL]) e
    rw [List.append_nil] at s'
    exact ⟨t', g', (st.trans st2).trans s'⟩
  | c :: srcs, pre, d :: post, h, L, pn, ps, own, n, s, x, k, h', g, ok, nc, e => by
    rw [schemaL, SchOKL] at ok
    rw [toNodeL, NoClashL] at nc
    rw [List.map_cons, updateLN, Res.bind_eq_ok] at e
    obtain ⟨h1, e2, e⟩ := e
    obtain ⟨d', gd, sd⟩ := updateN_spec c h L _ _ _ d h1 (g.child (by simp)) ok.1 nc.1 e2
    obtain ⟨gg, st⟩ := ctx g gd sd
    have ea : pre ++ d' :: post = (pre ++ [d']) ++ post := by simp
    rw [ea] at gg st
    obtain ⟨t', g', s'⟩ := updateLN_spec srcs (pre ++ [d']) post h1 L pn ps own n s x k h' gg ok.2 nc.2 e
    exact ⟨t', g', st.trans s'⟩
end

end HT
end Conduit
