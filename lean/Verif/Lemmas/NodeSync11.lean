import Verif.Lemmas.NodeSync10
import Verif.Spec.NodeHistory
/-
C33-C35: every call keeps the invariant.
-/
namespace Conduit
open Spec Node Heap HT

namespace Inv
variable {L : Prop} {U : List Nat} {h : Heap} {F : List HT}

theorem mono {L' : Prop} (v : Inv L U h F) (hl : L' → L) : Inv L' U h F := by
  have hw : ∀ (t : HT) (pn : Option Nat) (own : Bool), HN h L pn own t → HN h L' pn own t := by
    intro t
    refine HT.rec (motive_1 := fun t => ∀ (pn : Option Nat) (own : Bool), HN h L pn own t → HN h L' pn own t)
      (motive_2 := fun cs => ∀ (pn : Option Nat), HNL h L pn cs → HNL h L' pn cs) ?_ ?_ ?_ t
    · intro n s x k cs ih pn own hh
      rw [HN] at hh ⊢
      obtain ⟨⟨q, h1, h2, h3⟩, h4⟩ := hh
      exact ⟨⟨q, h1, h2, fun l => h3 (hl l)⟩, ih _ h4⟩
    · intro _ _; trivial
    · intro c cs ih1 ih2 pn hh
      rw [HNL] at hh ⊢
      exact ⟨ih1 _ _ hh.1, ih2 _ hh.2⟩
  exact ⟨fun t ht => hw t _ _ (v.holdsN t ht), v.holdsS, v.shape, v.clean, v.nodupN, v.nodupS, v.nodupB, v.bounded, v.allN, v.allS, v.allB⟩

/-- below in the heap is below in the tree -/
theorem below (v : Inv L U h F) {A : HT} (hA : A ∈ subsL F) {m : Nat} : Below h A.nid m ↔ m ∈ A.nids := by
  constructor
  · intro b
    generalize e : A.nid = n at b
    induction b generalizing A with
    | self n => rw [← e]; exact nid_mem A
    | child n m c o ho hc _ ih =>
      subst e
      obtain ⟨own, q, ps, e1, _⟩ := v.owner hA
      rw [e1] at ho
      injection ho with ho
      subst ho
      obtain ⟨C, hC, e2⟩ := List.mem_map.1 hc
      exact nid_of_sub (cs_subs A hC) (ih (subsL_trans F hA (cs_subs A hC)) e2)
  · have key : ∀ t : HT, t ∈ subsL F → m ∈ t.nids → Below h t.nid m := by
      intro t
      refine HT.rec (motive_1 := fun t => t ∈ subsL F → m ∈ t.nids → Below h t.nid m)
        (motive_2 := fun cs => (∀ c ∈ cs, c ∈ subsL F) → m ∈ nidsL cs → ∃ c ∈ cs, Below h c.nid m) ?_ ?_ ?_ t
      · intro n s x k cs ih hT hm
        rw [nids, List.mem_cons] at hm
        rcases hm with rfl | hm
        · exact .self _
        · obtain ⟨c, hc, b⟩ := ih (fun c hc => subsL_trans F hT (cs_subs (HT.mk n s x k cs) hc)) hm
          obtain ⟨own, q, ps, e1, _⟩ := v.owner hT
          exact .child _ _ c.nid _ e1 (List.mem_map_of_mem hc) b
      · intro _ hm; simp [nidsL] at hm
      · intro c cs ih1 ih2 hin hm
        rw [nidsL, List.mem_append] at hm
        rcases hm with hm | hm
        · exact ⟨c, by simp, ih1 (hin c (by simp)) hm⟩
        · obtain ⟨d, hd, b⟩ := ih2 (fun d hd => hin d (by simp [hd])) hm
          exact ⟨d, by simp [hd], b⟩
    exact key A hA

/-- `add_child(name)` on a live node -/
theorem addChild (v : Inv L U h F) {n : Nat} (hn : (h.nodes n).isSome) (name : Str) (hl : ¬ ListKids h n) :
    ∃ r F', addChildN h n name = .ok r ∧ Inv L U r.1 F' ∧ F'.map nid = F.map nid ∧ (r.1.nodes r.2).isSome := by
  obtain ⟨s, x, k, cs, pn, ps, own, g, c⟩ := v.sub' hn
  rcases addChildN_spec g name (by
    intro hk
    by_contra hc
    obtain ⟨q, hq, _⟩ := g.get
    exact hl ⟨_, _, hq, g.getS, hk, by simpa using hc⟩) with ⟨names, i, d, _, _, hi, e⟩ | ⟨names, h', _, _, _, e, gg, st⟩
  · refine ⟨_, F, e, v, rfl, ?_⟩
    obtain ⟨q, hq, _⟩ := (g.child (List.mem_of_getElem? hi)).root.get
    rw [hq]; rfl
  · obtain ⟨F', v', r⟩ := c h' _ gg st
    refine ⟨_, F', e, v', r, ?_⟩
    obtain ⟨q, hq, _⟩ := (gg.child (c := HT.mk h.nextN h.nextS {} (.leaf {}) []) (by simp)).root.get
    change (h'.nodes h.nextN).isSome = true
    rw [show h'.nodes h.nextN = _ from hq]; rfl

theorem dtype (v : Inv L U h F) {n : Nat} (hn : (h.nodes n).isSome) : ∃ d, dtypeN h n = .ok d ∧ (d.id = .object → ¬ ListKids h n) := by
  obtain ⟨s, x, k, cs, pn, ps, own, g, c⟩ := v.sub' hn
  refine ⟨_, dtypeN_spec g, fun hd => ?_⟩
  rintro ⟨o, so, h1, h2, h3, _⟩
  obtain ⟨q, hq, _⟩ := g.get
  rw [hq] at h1
  injection h1 with h1
  subst h1
  rw [show h.schemas s = _ from g.getS] at h2
  injection h2 with h2
  subst h2
  change k = .lst at h3
  subst h3
  cases hd

/-- `init(object)` -/
theorem initObj (v : Inv L U h F) {n : Nat} (hn : (h.nodes n).isSome) :
    ∃ h' F', initN h n { id := .object } = .ok h' ∧ Inv L U h' F' ∧ F'.map nid = F.map nid ∧ (h'.nodes n).isSome ∧ ¬ ListKids h' n := by
  obtain ⟨s, x, k, cs, pn, ps, own, g, c⟩ := v.sub' hn
  have fin : ∀ {h1 x1 k1 cs1}, Good h1 L pn ps own (HT.mk n s x1 k1 cs1) → k1 ≠ .lst → (h1.nodes n).isSome ∧ ¬ ListKids h1 n := by
    intro h1 x1 k1 cs1 g1 hk
    obtain ⟨q, hq, _⟩ := g1.get
    refine ⟨by rw [hq]; rfl, ?_⟩
    rintro ⟨o, so, e1, e2, e3, _⟩
    rw [hq] at e1
    injection e1 with e1
    subst e1
    rw [show h1.schemas s = _ from g1.getS] at e2
    injection e2 with e2
    subst e2
    exact hk e3
  rcases initN_spec g { id := .object } (by simp) with ⟨e1, e2⟩ | ⟨_, h1, x', e2, e3, e4⟩
  · refine ⟨h, F, e2, v, rfl, fin g ?_⟩
    rintro rfl
    exact absurd e1 (by decide)
  · obtain ⟨F', v', r⟩ := c h1 _ e3 e4
    exact ⟨h1, F', e2, v', r, fin e3 (by decide)⟩

/-- `fetch(path)` on a live node; `ub` only when a parent pointer is wrong -/
theorem fetch {L : Prop} {U : List Nat} : ∀ (k : Nat) (path : Str) (h : Heap) (F : List HT) (n : Nat), path.length ≤ k → Inv L U h F →
    (h.nodes n).isSome →
    (∃ r F', fetchN h n path = .ok r ∧ Inv L U r.1 F' ∧ F'.map nid = F.map nid ∧ (∀ c, r.2 = some c → (r.1.nodes c).isSome)) ∨
    (fetchN h n path = .ub ∧ ¬ L) := by
  intro k
  induction k with
  | zero =>
    intro path h F n hk v hn
    obtain ⟨d, ed, hd⟩ := v.dtype hn
    obtain ⟨h1, F1, e1, v1, r1, _, _⟩ := v.initObj hn
    have hp : path = [] := List.length_eq_zero_iff.1 (by omega)
    left
    rw [fetchN, ed]
    by_cases hc : d.id = .object
    · exact ⟨(h, none), F, by simp [hc, hp], v, rfl, by simp⟩
    · exact ⟨(h1, none), F1, by simp [hc, hp, e1], v1, r1, by simp⟩
  | succ k ih =>
    intro path h F n hk v hn
    obtain ⟨d, ed, hd⟩ := v.dtype hn
    obtain ⟨h1, F1, e1, v1, r1, n1, l1⟩ : ∃ h1 F1, (if d.id = .object then Res.ok h else h.initN n { id := .object }) = .ok h1 ∧ Inv L U h1 F1 ∧
        F1.map nid = F.map nid ∧ (h1.nodes n).isSome ∧ ¬ ListKids h1 n := by
      by_cases hc : d.id = .object
      · exact ⟨h, F, by simp [hc], v, rfl, hn, hd hc⟩
      · rw [if_neg hc]
        exact v.initObj hn
    rw [fetchN, ed]
    simp only [e1]
    by_cases hp : path = []
    · exact .inl ⟨_, F1, by rw [if_pos hp], v1, r1, by simp⟩
    rw [if_neg hp]
    by_cases he : (splitPath path).1 = []
    · rw [dif_pos he]
      have hlt : (splitPath path).2.length < path.length := by
        by_cases hn : (splitPath path).2 = []
        · rw [hn]; cases path with
          | nil => exact absurd rfl hp
          | cons => simp
        · exact RSchema.split_next_lt hn
      rcases ih (splitPath path).2 h1 F1 n (by omega) v1 n1 with ⟨r, F2, e2, v2, r2, c2⟩ | hc
      · exact .inl ⟨r, F2, e2, v2, r2.trans r1, c2⟩
      · exact .inr hc
    rw [dif_neg he]
    by_cases hdd : (splitPath path).1 = ['.', '.']
    · rw [dif_pos hdd]
      obtain ⟨A, hA, rfl⟩ := v1.find n1
      have hlt := RSchema.split_dotdot_lt hdd
      rcases v1.place hA with ⟨_, g⟩ | ⟨Q, hQ, _, g⟩
      · obtain ⟨q, hq, hq1, _⟩ := g.root.get
        rw [getN_some hq]
        cases q with
        | some _ => cases hq1
        | none => exact .inl ⟨_, F1, rfl, v1, r1, by simp⟩
      · obtain ⟨q, hq, hq1, hL⟩ := g.root.get
        rw [getN_some hq]
        cases q with
        | none => cases hq1
        | some p =>
          simp only
          by_cases hpl : (h1.nodes p).isSome
          · rcases ih (splitPath path).2 h1 F1 p (by omega) v1 hpl with ⟨r, F2, e2, v2, r2, c2⟩ | hc
            · exact .inl ⟨r, F2, e2, v2, r2.trans r1, c2⟩
            · exact .inr hc
          · refine .inr ⟨?_, fun l => hpl ?_⟩
            · have : h1.nodes p = none := by simpa using hpl
              rw [fetchN, dtypeN, getN, this]
              rfl
            · have := hL l
              injection this with this
              obtain ⟨_, _, _, e, _⟩ := v1.owner hQ
              rw [this, e]; rfl
    rw [dif_neg hdd]
    obtain ⟨r, F2, e2, v2, r2, n2⟩ := v1.addChild n1 (splitPath path).1 l1
    rw [e2]
    simp only
    by_cases hn : (splitPath path).2 = []
    · rw [dif_pos hn]
      exact .inl ⟨_, F2, rfl, v2, r2.trans r1, fun c hc => by injection hc with hc; rw [← hc]; exact n2⟩
    · rw [dif_neg hn]
      have := RSchema.split_next_lt hn
      rcases ih (splitPath path).2 r.1 F2 r.2 (by omega) v2 n2 with ⟨r', F3, e3, v3, r3, c3⟩ | hc
      · exact .inl ⟨r', F3, e3, v3, (r3.trans r2).trans r1, c3⟩
      · exact .inr hc

/-- the number of children of a node -/
theorem remove (v : Inv L U h F) {n : Nat} {o : NObj} (ho : h.nodes n = some o) {i : Nat} (hi : i < o.children.length) :
    ∃ h' F', removeN h n i = .ok h' ∧ Inv L U h' F' ∧ F'.map nid = F.map nid := by
  obtain ⟨s, x, k, cs, pn, ps, own, g, c⟩ := v.sub' (n := n) (by rw [ho]; rfl)
  obtain ⟨q, hq, _⟩ := g.get
  rw [ho] at hq
  injection hq with hq
  rw [hq] at hi
  change i < (cs.map nid).length at hi
  rw [List.length_map] at hi
  have hcs : cs = cs.take i ++ cs[i] :: cs.drop (i + 1) := by rw [← List.drop_eq_getElem_cons hi, List.take_append_drop]
  have hlen : (cs.take i).length = i := by rw [List.length_take]; omega
  rw [hcs] at g c
  obtain ⟨h', e, g', st⟩ := removeN_spec g
  rw [hlen] at e
  obtain ⟨F', v', r⟩ := c h' _ g' st
  exact ⟨h', F', e, v', r⟩

theorem pos_lt (v : Inv L U h F) {n : Nat} {o : NObj} {so : SObj} (ho : h.nodes n = some o) (hs : h.schemas o.schema = some so) {name : Str} {i : Nat}
    (hp : so.kind.posOf name = some i) : ∃ c, o.children[i]? = some c ∧ (h.nodes c).isSome := by
  obtain ⟨s, x, k, cs, pn, ps, own, g, c⟩ := v.sub' (n := n) (by rw [ho]; rfl)
  obtain ⟨q, hq, _⟩ := g.get
  rw [ho] at hq
  injection hq with hq
  subst hq
  rw [show h.schemas s = _ from g.getS] at hs
  injection hs with hs
  subst hs
  have kk := g.kindOK
  change k.posOf name = some i at hp
  cases k with
  | leaf _ => cases hp
  | lst => cases hp
  | obj names =>
    have hlt : i < cs.length := by
      rw [← kk.1]
      exact (List.findIdx?_eq_some_iff_findIdx_eq.1 hp).1
    refine ⟨cs[i].nid, by simp [hlt], ?_⟩
    obtain ⟨q, hq, _⟩ := (g.child (List.getElem_mem hlt)).root.get
    rw [hq]; rfl

theorem get (v : Inv L U h F) {n : Nat} (hn : (h.nodes n).isSome) : ∃ o so, h.nodes n = some o ∧ h.schemas o.schema = some so := by
  obtain ⟨s, x, k, cs, pn, ps, own, g, c⟩ := v.sub' hn
  obtain ⟨q, hq, _⟩ := g.get
  exact ⟨_, _, hq, g.getS⟩

theorem removeChild (v : Inv L U h F) {n : Nat} (hn : (h.nodes n).isSome) (name : Str) :
    removeChildN h n name = .error ∨ ∃ h' F', removeChildN h n name = .ok h' ∧ Inv L U h' F' ∧ F'.map nid = F.map nid := by
  obtain ⟨o, so, ho, hs⟩ := v.get hn
  rw [removeChildN, getN_some ho]
  simp only [Res.bind_ok]
  rw [getS_some hs]
  simp only [Res.bind_ok]
  cases hp : so.kind.posOf name with
  | none => exact .inl rfl
  | some i =>
    obtain ⟨c, hc, _⟩ := v.pos_lt ho hs hp
    exact .inr (v.remove ho (List.getElem?_eq_some_iff.1 hc).1)

theorem removePath (v : Inv L U h F) : ∀ (k : Nat) (path : Str) (n : Nat), path.length ≤ k → (h.nodes n).isSome →
    removePathN h n path = .error ∨ ∃ h' F', removePathN h n path = .ok h' ∧ Inv L U h' F' ∧ F'.map nid = F.map nid := by
  intro k
  induction k with
  | zero =>
    intro path n hk hn
    have hp : path = [] := List.length_eq_zero_iff.1 (by omega)
    subst hp
    rw [removePathN, dif_pos (by decide)]
    exact v.removeChild hn _
  | succ k ih =>
    intro path n hk hn
    rw [removePathN]
    split
    · exact v.removeChild hn _
    · rename_i hne
      obtain ⟨o, so, ho, hs⟩ := v.get hn
      rw [getN_some ho]
      simp only
      rw [getS_some hs]
      simp only
      cases hp : so.kind.posOf (splitPath path).1 with
      | none => exact .inl rfl
      | some i =>
        obtain ⟨c, hc, hl⟩ := v.pos_lt ho hs hp
        simp only [hc]
        have := RSchema.split_next_lt hne
        exact ih _ c (by omega) hl

end Inv
end Conduit
