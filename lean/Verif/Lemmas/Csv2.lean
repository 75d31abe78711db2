import Verif.Lemmas.NodeSync3
import Verif.Lemmas.Csv
/-
Lemmas about paths in trees of node objects (C47).
-/
namespace Conduit
open Spec Node Heap

namespace Heap

theorem foldlM_frame {f : Heap → Nat → Res Heap} (hf : ∀ h i h', f h i = .ok h' → h'.mem = h.mem ∧ h'.nodes = h.nodes) :
    ∀ (l : List Nat) (h h' : Heap), l.foldlM f h = .ok h' → h'.mem = h.mem ∧ h'.nodes = h.nodes
  | [], h, h', e => by cases e; exact ⟨rfl, rfl⟩
  | i :: l, h, h', e => by
    rw [List.foldlM_cons, Res.bind_eq_ok] at e
    obtain ⟨g, e1, e2⟩ := e
    obtain ⟨a, b⟩ := hf _ _ _ e1
    obtain ⟨c, d⟩ := foldlM_frame hf l g h' e2
    exact ⟨c.trans a, d.trans b⟩

theorem delS_frame : ∀ (f : Nat) (h : Heap) (s : Nat) (h' : Heap), delS f h s = .ok h' → h'.mem = h.mem ∧ h'.nodes = h.nodes
  | 0, _, _, _, e => by cases e
  | f + 1, h, s, h', e => by
    rw [delS, Res.bind_eq_ok] at e
    obtain ⟨o, _, e⟩ := e
    rw [Res.bind_eq_ok] at e
    obtain ⟨h1, e1, e⟩ := e
    injection e with e
    subst e
    have := foldlM_frame (fun a b c d => delS_frame f a b c d) _ _ _ e1
    exact this

theorem releaseS_frame {h : Heap} {s : Nat} {h' : Heap} (e : releaseS h s = .ok h') : h'.mem = h.mem ∧ h'.nodes = h.nodes := by
  rw [releaseS, Res.bind_eq_ok] at e
  obtain ⟨o, _, e⟩ := e
  rw [Res.bind_eq_ok] at e
  obtain ⟨h1, e1, e⟩ := e
  injection e with e
  subst e
  have := foldlM_frame (fun a b c d => delS_frame h.nextS a b c d) _ _ _ e1
  exact this

theorem setKind_frame {h : Heap} {s : Nat} {k : Kind} {cs : List Nat} {h' : Heap} (e : setKind h s k cs = .ok h') :
    h'.mem = h.mem ∧ h'.nodes = h.nodes := by
  rw [setKind, Res.bind_eq_ok] at e
  obtain ⟨o, _, e⟩ := e
  injection e with e
  subst e
  exact ⟨rfl, rfl⟩

theorem setDtypeS_frame {h : Heap} {s : Nat} {d : DataType} {h' : Heap} (e : setDtypeS h s d = .ok h') :
    h'.mem = h.mem ∧ h'.nodes = h.nodes := by
  rw [setDtypeS, Res.bind_eq_ok] at e
  obtain ⟨h1, e1, e2⟩ := e
  obtain ⟨a, b⟩ := releaseS_frame e1
  obtain ⟨c, d⟩ := setKind_frame e2
  exact ⟨c.trans a, d.trans b⟩

theorem initObjectS_frame {h : Heap} {s : Nat} {h' : Heap} (e : initObjectS h s = .ok h') : h'.mem = h.mem ∧ h'.nodes = h.nodes := by
  rw [initObjectS, Res.bind_eq_ok] at e
  obtain ⟨o, _, e⟩ := e
  split at e
  · injection e with e; subst e; exact ⟨rfl, rfl⟩
  · rw [Res.bind_eq_ok] at e
    obtain ⟨h1, e1, e2⟩ := e
    obtain ⟨a, b⟩ := releaseS_frame e1
    obtain ⟨c, d⟩ := setKind_frame e2
    exact ⟨c.trans a, d.trans b⟩

theorem addChildS_mem {h : Heap} {s : Nat} {name : Str} {r : Heap × Nat} (e : addChildS h s name = .ok r) : r.1.mem = h.mem := by
  rw [addChildS, Res.bind_eq_ok] at e
  obtain ⟨h1, e1, e⟩ := e
  rw [Res.bind_eq_ok] at e
  obtain ⟨o, _, e⟩ := e
  split at e
  · injection e with e; subst e; exact (initObjectS_frame e1).1
  · cases e

theorem attach_mem {h : Heap} {n s : Nat} {r : Heap × Nat} (e : attach h n s = .ok r) : r.1.mem = h.mem := by
  rw [attach, Res.bind_eq_ok] at e
  obtain ⟨h1, e1, e⟩ := e
  rw [Res.bind_eq_ok] at e
  obtain ⟨o, _, e⟩ := e
  injection e with e
  subst e
  rw [setSchemaPtr, Res.bind_eq_ok] at e1
  obtain ⟨o', _, e1⟩ := e1
  rw [Res.bind_eq_ok] at e1
  obtain ⟨h2, e2, e1⟩ := e1
  injection e1 with e1
  subst e1
  show h2.mem = h.mem
  split at e2
  · exact (delS_frame _ _ _ _ e2).1
  · injection e2 with e2; subst e2; rfl

theorem addChildN_mem {h : Heap} {n : Nat} {name : Str} {r : Heap × Nat} (e : addChildN h n name = .ok r) : r.1.mem = h.mem := by
  rw [addChildN, Res.bind_eq_ok] at e
  obtain ⟨o, _, e⟩ := e
  rw [Res.bind_eq_ok] at e
  obtain ⟨so, _, e⟩ := e
  split at e
  · rw [Res.bind_eq_ok] at e
    obtain ⟨c, _, e⟩ := e
    injection e with e; subst e; rfl
  · rw [Res.bind_eq_ok] at e
    obtain ⟨r1, e1, e⟩ := e
    rw [Res.bind_eq_ok] at e
    obtain ⟨q, e2, e⟩ := e
    rw [Res.bind_eq_ok] at e
    obtain ⟨h2, e3, e⟩ := e
    injection e with e; subst e
    rw [pushChild, Res.bind_eq_ok] at e3
    obtain ⟨o3, _, e3⟩ := e3
    injection e3 with e3; subst e3
    exact (attach_mem e2).trans (addChildS_mem e1)

end Heap

namespace HT

/-- the subtree at the end of a path of names -/
def find : List Str → HT → Option HT
  | [], t => some t
  | a :: p, mk _ _ _ k cs => match k with
    | .obj names => match names.findIdx? (· == a) with
      | some i => match cs[i]? with
        | some c => find p c
        | none => none
      | none => none
    | _ => none

def IsObj (t : HT) : Prop := ∃ names, t.kind = .obj names
/-- a node that was just made -/
def Fresh (t : HT) : Prop := ∃ n s, t = mk n s {} (.leaf {}) []

theorem find_cons {n s : Nat} {x : Info} {names : List Str} {cs : List HT} {a : Str} {p : List Str} {i : Nat} {c : HT}
    (h1 : names.findIdx? (· == a) = some i) (h2 : cs[i]? = some c) : find (a :: p) (mk n s x (.obj names) cs) = find p c := by
  simp only [find, h1, h2]

theorem find_inv {t : HT} {a : Str} {p : List Str} {D : HT} (h : find (a :: p) t = some D) :
    ∃ names i c, t.kind = .obj names ∧ names.findIdx? (· == a) = some i ∧ t.cs[i]? = some c ∧ find p c = some D := by
  obtain ⟨n, s, x, k, cs⟩ := t
  simp only [find] at h
  split at h
  · rename_i names
    split at h
    · rename_i i hi
      split at h
      · rename_i c hc
        exact ⟨names, i, c, rfl, hi, hc, h⟩
      · cases h
    · cases h
  · cases h

theorem find_append (p q : List Str) (t : HT) : find (p ++ q) t = (find p t).bind (find q) := by
  induction p generalizing t with
  | nil => rfl
  | cons a p ih =>
    obtain ⟨n, s, x, k, cs⟩ := t
    simp only [List.cons_append, find]
    split
    · split
      · split
        · exact ih _
        · rfl
      · rfl
    · rfl

theorem find_isObj {p : List Str} {a : Str} {q : List Str} {t D : HT} (h : find (p ++ a :: q) t = some D) :
    ∃ C, find p t = some C ∧ IsObj C := by
  rw [find_append, Option.bind_eq_some_iff] at h
  obtain ⟨C, h1, h2⟩ := h
  obtain ⟨names, _, _, hk, _⟩ := find_inv h2
  exact ⟨C, h1, names, hk⟩

theorem find_fresh {t : HT} (h : Fresh t) {q : List Str} {D : HT} (hf : find q t = some D) : q = [] ∧ D = t := by
  obtain ⟨n, s, rfl⟩ := h
  cases q with
  | nil => injection hf with hf; exact ⟨rfl, hf.symm⟩
  | cons a q => cases hf

section
variable {h : Heap} {L : Prop} {pn ps : Option Nat} {own : Bool}

/-- A step at the end of a path is a step on the tree. -/
theorem graft : ∀ (q : List Str) (T : HT) (pn ps : Option Nat) (own : Bool) (C : HT), Good h L pn ps own T → find q T = some C →
    ∃ pn' ps' own', Good h L pn' ps' own' C ∧ ∀ h' C', Good h' L pn' ps' own' C' → Step h C h' C' →
      ∃ T', Good h' L pn ps own T' ∧ Step h T h' T' ∧ (q ≠ [] → T'.kind = T.kind) ∧ (q = [] → T' = C') ∧ (∀ r, find (q ++ r) T' = find r C') ∧
        ∀ p, ¬ q <+: p → (find p T' = find p T ∨ ((∃ D, find p T' = some D ∧ IsObj D) ∧ (∃ D, find p T = some D ∧ IsObj D) ∧ p <+: q))
  | [], T, pn, ps, own, C, g, hf => by
    injection hf with hf
    subst hf
    exact ⟨pn, ps, own, g, fun h' C' g' st => ⟨C', g', st, fun hc => absurd rfl hc, fun _ => rfl, fun _ => rfl,
      fun p hp => absurd (List.nil_prefix) hp⟩⟩
  | a :: q, mk n s x k cs, pn, ps, own, C, g, hf => by
    obtain ⟨names, i, c, hk, hi, hc, hf'⟩ := find_inv hf
    have hk' : k = .obj names := hk
    have hc' : cs[i]? = some c := hc
    subst hk'
    obtain ⟨pn', ps', own', gC, H⟩ := graft q c _ _ _ C (g.child (List.mem_of_getElem? hc')) hf'
    refine ⟨pn', ps', own', gC, fun h' C' g' st => ?_⟩
    obtain ⟨c', gc', st', hkc, hqc, hr, hp⟩ := H h' C' g' st
    have hlt : i < cs.length := (List.getElem?_eq_some_iff.1 hc').1
    have hcs : cs = cs.take i ++ c :: cs.drop (i + 1) := by
      rw [← (List.getElem?_eq_some_iff.1 hc').2, ← List.drop_eq_getElem_cons hlt, List.take_append_drop]
    have hlen : (cs.take i).length = i := by rw [List.length_take]; omega
    have hset : cs.set i c' = cs.take i ++ c' :: cs.drop (i + 1) := List.set_eq_take_append_cons_drop.trans (if_pos hlt)
    rw [hcs] at g
    obtain ⟨gT, sT⟩ := ctx g gc' st'
    rw [← hcs] at sT
    rw [← hset] at gT sT
    have hi' : (cs.set i c')[i]? = some c' := by rw [List.getElem?_set_self hlt]
    refine ⟨_, gT, sT, fun _ => rfl, fun hx => absurd hx (by simp), fun r => ?_, fun p hnp => ?_⟩
    · rw [List.cons_append, find_cons hi hi', hr]
    · cases p with
      | nil => exact .inr ⟨⟨_, rfl, names, rfl⟩, ⟨_, rfl, names, rfl⟩, List.nil_prefix⟩
      | cons b p =>
        by_cases hb : b = a
        · subst hb
          rw [find_cons hi hi', find_cons hi hc']
          have hnp' : ¬ q <+: p := fun hh => hnp (by rw [List.cons_prefix_cons]; exact ⟨rfl, hh⟩)
          rcases hp p hnp' with hh | ⟨h1, h2, h3⟩
          · exact .inl hh
          · exact .inr ⟨h1, h2, by rw [List.cons_prefix_cons]; exact ⟨rfl, h3⟩⟩
        · left
          simp only [find]
          cases hj : names.findIdx? (· == b) with
          | none => rfl
          | some j =>
            have hij : i ≠ j := by
              rintro rfl
              obtain ⟨_, e1, _⟩ := List.findIdx?_eq_some_iff_getElem.1 hi
              obtain ⟨_, e2, _⟩ := List.findIdx?_eq_some_iff_getElem.1 hj
              simp at e1 e2
              exact hb (e2.symm.trans e1)
            simp only [List.getElem?_set_ne hij]

/-- what a path leads to is a tree of the heap -/
theorem Good.find {T : HT} (g : Good h L pn ps own T) {q : List Str} {C : HT} (hf : HT.find q T = some C) :
    ∃ pn' ps' own', Good h L pn' ps' own' C := by
  obtain ⟨a, b, c, gC, _⟩ := graft q T pn ps own C g hf
  exact ⟨a, b, c, gC⟩

theorem Good.kindOf {T : HT} (g : Good h L pn ps own T) : h.kindOf T.nid = some T.kind := by
  obtain ⟨n, s, x, k, cs⟩ := T
  obtain ⟨q, hq, _⟩ := g.get
  unfold Heap.kindOf
  simp only [nid, kind]
  rw [hq]
  simp only
  rw [show h.schemas s = _ from g.getS]
  rfl

theorem Good.follow : ∀ {q : List Str} {T : HT} {pn ps : Option Nat} {own : Bool}, Good h L pn ps own T →
    h.follow T.nid q = (HT.find q T).map nid
  | [], _, _, _, _, _ => rfl
  | a :: q, HT.mk n s x k cs, pn, ps, own, g => by
    obtain ⟨r, hq, _⟩ := g.get
    have hk := g.kindOf
    simp only [nid, kind] at hk
    simp only [Heap.follow, nid, HT.find, Heap.kid]
    rw [hq, hk]
    cases k with
    | leaf d => rfl
    | lst => rfl
    | obj names =>
      simp only
      cases hi : names.findIdx? (· == a) with
      | none => rfl
      | some i =>
        simp only [List.getElem?_map]
        cases hc : cs[i]? with
        | none => rfl
        | some c => exact Good.follow (g.child (List.mem_of_getElem? hc))

end
end HT
end Conduit
