import Verif.Spec.NodeSync
import Verif.Lemmas.Node
import Mathlib.Data.Finset.Card
import Mathlib.Data.Finset.Range
import Mathlib.Data.Finset.Dedup
/-
Lemmas about heaps of node and schema objects: deleting.
-/
namespace Conduit
open Spec Node

theorem length_le_of_nodup {l : List Nat} {N : Nat} (hl : l.Nodup) (h : ∀ i ∈ l, i < N) : l.length ≤ N := by
  have h1 : l.toFinset ⊆ Finset.range N := by
    intro i hi
    rw [List.mem_toFinset] at hi
    exact Finset.mem_range.2 (h i hi)
  have h2 := Finset.card_le_card h1
  rw [List.toFinset_card_of_nodup hl, Finset.card_range] at h2
  exact h2

namespace Heap

@[simp] theorem putN_nodes (h : Heap) (i : Nat) (o : Option NObj) (j : Nat) :
    (h.putN i o).nodes j = if j = i then o else h.nodes j := rfl
@[simp] theorem putN_schemas (h : Heap) (i : Nat) (o : Option NObj) : (h.putN i o).schemas = h.schemas := rfl
@[simp] theorem putN_mem (h : Heap) (i : Nat) (o : Option NObj) : (h.putN i o).mem = h.mem := rfl
@[simp] theorem putN_nextN (h : Heap) (i : Nat) (o : Option NObj) : (h.putN i o).nextN = h.nextN := rfl
@[simp] theorem putN_nextS (h : Heap) (i : Nat) (o : Option NObj) : (h.putN i o).nextS = h.nextS := rfl
@[simp] theorem putS_schemas (h : Heap) (i : Nat) (o : Option SObj) (j : Nat) :
    (h.putS i o).schemas j = if j = i then o else h.schemas j := rfl
@[simp] theorem putS_nodes (h : Heap) (i : Nat) (o : Option SObj) : (h.putS i o).nodes = h.nodes := rfl
@[simp] theorem putS_mem (h : Heap) (i : Nat) (o : Option SObj) : (h.putS i o).mem = h.mem := rfl
@[simp] theorem putS_nextN (h : Heap) (i : Nat) (o : Option SObj) : (h.putS i o).nextN = h.nextN := rfl
@[simp] theorem putS_nextS (h : Heap) (i : Nat) (o : Option SObj) : (h.putS i o).nextS = h.nextS := rfl

/-- the heap after the nodes / schemas of a list were deleted -/
def killN (h : Heap) (l : List Nat) : Heap := { h with nodes := fun i => if i ∈ l then none else h.nodes i }
def killS (h : Heap) (l : List Nat) : Heap := { h with schemas := fun i => if i ∈ l then none else h.schemas i }
def withMem (h : Heap) (m : Mem) : Heap := { h with mem := m }

@[simp] theorem killN_nodes (h : Heap) (l : List Nat) (i : Nat) : (h.killN l).nodes i = if i ∈ l then none else h.nodes i := rfl
@[simp] theorem killN_schemas (h : Heap) (l : List Nat) : (h.killN l).schemas = h.schemas := rfl
@[simp] theorem killN_mem (h : Heap) (l : List Nat) : (h.killN l).mem = h.mem := rfl
@[simp] theorem killN_nextN (h : Heap) (l : List Nat) : (h.killN l).nextN = h.nextN := rfl
@[simp] theorem killN_nextS (h : Heap) (l : List Nat) : (h.killN l).nextS = h.nextS := rfl
@[simp] theorem killS_schemas (h : Heap) (l : List Nat) (i : Nat) : (h.killS l).schemas i = if i ∈ l then none else h.schemas i := rfl
@[simp] theorem killS_nodes (h : Heap) (l : List Nat) : (h.killS l).nodes = h.nodes := rfl
@[simp] theorem killS_mem (h : Heap) (l : List Nat) : (h.killS l).mem = h.mem := rfl
@[simp] theorem killS_nextN (h : Heap) (l : List Nat) : (h.killS l).nextN = h.nextN := rfl
@[simp] theorem killS_nextS (h : Heap) (l : List Nat) : (h.killS l).nextS = h.nextS := rfl
@[simp] theorem withMem_nodes (h : Heap) (m : Mem) : (h.withMem m).nodes = h.nodes := rfl
@[simp] theorem withMem_schemas (h : Heap) (m : Mem) : (h.withMem m).schemas = h.schemas := rfl
@[simp] theorem withMem_mem (h : Heap) (m : Mem) : (h.withMem m).mem = m := rfl
@[simp] theorem withMem_nextN (h : Heap) (m : Mem) : (h.withMem m).nextN = h.nextN := rfl
@[simp] theorem withMem_nextS (h : Heap) (m : Mem) : (h.withMem m).nextS = h.nextS := rfl

theorem ext' {h g : Heap} (h1 : ∀ i, h.nodes i = g.nodes i) (h2 : ∀ i, h.schemas i = g.schemas i) (h3 : h.nextN = g.nextN)
    (h4 : h.nextS = g.nextS) (h5 : h.mem = g.mem) : h = g := by
  cases h; cases g
  simp only [mk.injEq] at *
  exact ⟨funext h1, funext h2, h3, h4, h5⟩

theorem getS_some {h : Heap} {i : Nat} {o : SObj} (e : h.schemas i = some o) : h.getS i = .ok o := by
  unfold getS; rw [e]
theorem getN_some {h : Heap} {i : Nat} {o : NObj} (e : h.nodes i = some o) : h.getN i = .ok o := by
  unfold getN; rw [e]

end Heap

namespace HT
open Heap

theorem nidsL_eq : ∀ cs : List HT, nidsL cs = cs.flatMap nids
  | [] => rfl
  | c :: cs => by rw [nidsL, nidsL_eq cs]; rfl
theorem sidsL_eq : ∀ cs : List HT, sidsL cs = cs.flatMap sids
  | [] => rfl
  | c :: cs => by rw [sidsL, sidsL_eq cs]; rfl
theorem toNodeL_eq : ∀ cs : List HT, toNodeL cs = cs.map toNode
  | [] => rfl
  | c :: cs => by rw [toNodeL, toNodeL_eq cs]; rfl
theorem ShapeL_iff : ∀ {cs : List HT}, ShapeL cs ↔ ∀ c ∈ cs, Shape c
  | [] => by simp [ShapeL]
  | c :: cs => by rw [ShapeL, ShapeL_iff]; simp
theorem HSL_iff {h : Heap} {ps : Option Nat} : ∀ {cs : List HT}, HSL h ps cs ↔ ∀ c ∈ cs, HS h ps c
  | [] => by simp [HSL]
  | c :: cs => by rw [HSL, HSL_iff]; simp
theorem HNL_iff {h : Heap} {L : Prop} {pn : Option Nat} : ∀ {cs : List HT}, HNL h L pn cs ↔ ∀ c ∈ cs, HN h L pn false c
  | [] => by simp [HNL]
  | c :: cs => by rw [HNL, HNL_iff]; simp

theorem nid_mem : ∀ t : HT, t.nid ∈ t.nids
  | mk n s x k cs => by simp [nid, nids]
theorem sid_mem : ∀ t : HT, t.sid ∈ t.sids
  | mk n s x k cs => by simp [sid, sids]

mutual
/-- only the schemas of the tree matter -/
theorem HS_congr {h g : Heap} : ∀ {t : HT} {ps : Option Nat}, HS h ps t → (∀ i ∈ t.sids, g.schemas i = h.schemas i) → HS g ps t
  | mk n s x k cs, ps, hh, e => by
    rw [HS] at hh ⊢
    refine ⟨by rw [e s (by simp [sids])]; exact hh.1, HSL_congr hh.2 fun i hi => e i (by simp [sids, hi])⟩
theorem HSL_congr {h g : Heap} : ∀ {cs : List HT} {ps : Option Nat}, HSL h ps cs → (∀ i ∈ sidsL cs, g.schemas i = h.schemas i) → HSL g ps cs
  | [], _, _, _ => trivial
  | c :: cs, ps, hh, e => by
    rw [HSL] at hh ⊢
    exact ⟨HS_congr hh.1 fun i hi => e i (by simp [sidsL, hi]), HSL_congr hh.2 fun i hi => e i (by simp [sidsL, hi])⟩
end

mutual
theorem HN_congr {h g : Heap} {L : Prop} : ∀ {t : HT} {pn : Option Nat} {own : Bool}, HN h L pn own t →
    (∀ i ∈ t.nids, g.nodes i = h.nodes i) → HN g L pn own t
  | mk n s x k cs, pn, own, hh, e => by
    rw [HN] at hh ⊢
    refine ⟨by rw [e n (by simp [nids])]; exact hh.1, HNL_congr hh.2 fun i hi => e i (by simp [nids, hi])⟩
theorem HNL_congr {h g : Heap} {L : Prop} : ∀ {cs : List HT} {pn : Option Nat}, HNL h L pn cs →
    (∀ i ∈ nidsL cs, g.nodes i = h.nodes i) → HNL g L pn cs
  | [], _, _, _ => trivial
  | c :: cs, pn, hh, e => by
    rw [HNL] at hh ⊢
    exact ⟨HN_congr hh.1 fun i hi => e i (by simp [nidsL, hi]), HNL_congr hh.2 fun i hi => e i (by simp [nidsL, hi])⟩
end

mutual
theorem HS_live {h : Heap} : ∀ {t : HT} {ps : Option Nat}, HS h ps t → ∀ i ∈ t.sids, (h.schemas i).isSome
  | mk n s x k cs, ps, hh, i, hi => by
    rw [HS] at hh
    rw [sids, List.mem_cons] at hi
    rcases hi with rfl | hi
    · rw [hh.1]; rfl
    · exact HSL_live hh.2 i hi
theorem HSL_live {h : Heap} : ∀ {cs : List HT} {ps : Option Nat}, HSL h ps cs → ∀ i ∈ sidsL cs, (h.schemas i).isSome
  | [], _, _, i, hi => by simp [sidsL] at hi
  | c :: cs, ps, hh, i, hi => by
    rw [HSL] at hh
    rw [sidsL, List.mem_append] at hi
    rcases hi with hi | hi
    · exact HS_live hh.1 i hi
    · exact HSL_live hh.2 i hi
end

mutual
theorem HN_live {h : Heap} {L : Prop} : ∀ {t : HT} {pn : Option Nat} {own : Bool}, HN h L pn own t → ∀ i ∈ t.nids, (h.nodes i).isSome
  | mk n s x k cs, pn, own, hh, i, hi => by
    rw [HN] at hh
    rw [nids, List.mem_cons] at hi
    rcases hi with rfl | hi
    · obtain ⟨⟨q, e, _⟩, _⟩ := hh; rw [e]; rfl
    · exact HNL_live hh.2 i hi
theorem HNL_live {h : Heap} {L : Prop} : ∀ {cs : List HT} {pn : Option Nat}, HNL h L pn cs → ∀ i ∈ nidsL cs, (h.nodes i).isSome
  | [], _, _, i, hi => by simp [nidsL] at hi
  | c :: cs, pn, hh, i, hi => by
    rw [HNL] at hh
    rw [nidsL, List.mem_append] at hi
    rcases hi with hi | hi
    · exact HN_live hh.1 i hi
    · exact HNL_live hh.2 i hi
end

mutual
/-- deleting a schema deletes the schemas of its tree -/
theorem delS_spec : ∀ (t : HT) (f : Nat) (h : Heap) (ps : Option Nat), HS h ps t → t.sids.Nodup → t.sids.length ≤ f →
    delS f h t.sid = .ok (h.killS t.sids)
  | mk n s x k cs, f, h, ps, hh, hn, hf => by
    cases f with
    | zero => simp [sids] at hf
    | succ f =>
      rw [HS] at hh
      rw [sids, List.nodup_cons] at hn
      rw [sids, List.length_cons] at hf
      rw [sid, delS, getS_some hh.1]
      simp only [Res.bind_ok]
      rw [delSL_spec cs f h (some s) hh.2 hn.2 (by omega)]
      simp only [Res.bind_ok]
      congr 1
      refine ext' (fun i => rfl) (fun i => ?_) rfl rfl rfl
      simp only [putS_schemas, killS_schemas, sids, List.mem_cons]
      by_cases e : i = s <;> simp [e]
theorem delSL_spec : ∀ (cs : List HT) (f : Nat) (h : Heap) (ps : Option Nat), HSL h ps cs → (sidsL cs).Nodup →
    (sidsL cs).length ≤ f → (cs.map sid).foldlM (delS f) h = .ok (h.killS (sidsL cs))
  | [], f, h, ps, _, _, _ => by simp [sidsL, killS]
  | c :: cs, f, h, ps, hh, hn, hf => by
    rw [HSL] at hh
    rw [sidsL] at hn hf
    rw [List.nodup_append] at hn
    rw [List.length_append] at hf
    rw [List.map_cons, List.foldlM_cons, delS_spec c f h ps hh.1 hn.1 (by omega)]
    simp only [Res.bind_ok]
    rw [delSL_spec cs f _ ps (HSL_congr hh.2 fun i hi => ?_) hn.2.1 (by omega)]
    · congr 1
      refine ext' (fun i => rfl) (fun i => ?_) rfl rfl rfl
      simp only [killS_schemas, sidsL, List.mem_append]
      by_cases e1 : i ∈ sidsL cs <;> by_cases e2 : i ∈ sids c <;> simp [e1, e2]
    · rw [killS_schemas, if_neg fun hc => hn.2.2 i hc i hi rfl]
end

/-- `releaseMem` over the children of a tree -/
def relL : List HT → Mem → Res Mem
  | [], m => .ok m
  | c :: cs, m => do
    let m1 ← releaseMem c.toNode m
    relL cs m1

theorem releaseE_zip : ∀ (names : List Str) (cs : List HT) (m : Mem), names.length = cs.length →
    releaseE (names.zip (toNodeL cs)) m = relL cs m
  | [], [], m, _ => rfl
  | [], c :: cs, m, h => by simp at h
  | n :: names, [], m, h => by simp at h
  | n :: names, c :: cs, m, h => by
    rw [toNodeL, List.zip_cons_cons, releaseE, relL]
    congr 1
    funext m1
    exact releaseE_zip names cs m1 (by simpa using h)
theorem releaseL_map : ∀ (cs : List HT) (m : Mem), releaseL (toNodeL cs) m = relL cs m
  | [], m => rfl
  | c :: cs, m => by
    rw [toNodeL, releaseL, relL]
    congr 1
    funext m1
    exact releaseL_map cs m1

theorem releaseMem_mk {n s : Nat} {x : Info} {k : Kind} {cs : List HT} (hk : KindOK k cs) (m : Mem) :
    releaseMem (mk n s x k cs).toNode m = (relL cs m >>= fun m1 => freeOwn x k.isEmpty m1) := by
  cases k with
  | leaf d =>
    obtain ⟨rfl, _⟩ := hk
    rw [toNode, releaseMem, relL]
    rfl
  | obj names =>
    rw [toNode, releaseMem, releaseE_zip _ _ _ hk.1]
    rfl
  | lst =>
    rw [toNode, releaseMem, releaseL_map]
    rfl

theorem dtype_toNode {n s : Nat} {x : Info} {k : Kind} {cs : List HT} :
    (mk n s x k cs).toNode.dtype = k.dtype := by
  cases k <;> rfl
theorem info_toNode : ∀ {t : HT}, t.toNode.info = t.info
  | mk n s x k cs => by cases k <;> rfl

mutual
/-- deleting a child node deletes the node objects of its tree and frees their buffers -/
theorem delN_spec {L : Prop} : ∀ (t : HT) (f : Nat) (h : Heap) (pn ps : Option Nat), HN h L pn false t → HS h ps t → Shape t →
    t.nids.Nodup → t.nids.length ≤ f →
    delN f h t.nid = (releaseMem t.toNode h.mem >>= fun m => .ok ((h.killN t.nids).withMem m))
  | mk n s x k cs, f, h, pn, ps, hh, hs, hp, hn, hf => by
    cases f with
    | zero => simp [nids] at hf
    | succ f =>
      rw [HN] at hh
      rw [HS] at hs
      rw [Shape] at hp
      rw [nids, List.nodup_cons] at hn
      rw [nids, List.length_cons] at hf
      obtain ⟨⟨q, e, _⟩, hc⟩ := hh
      rw [nid, delN, getN_some e, releaseMem_mk hp.1]
      simp only [Res.bind_ok]
      rw [delNL_spec cs f h (some n) (some s) hc hs.2 hp.2 hn.2 (by omega)]
      cases relL cs h.mem with
      | error => rfl
      | ub => rfl
      | ok m1 =>
        simp only [Res.bind_ok]
        rw [getS_some (h := (h.killN (nidsL cs)).withMem m1) (o := ⟨k, cs.map sid, ps⟩) hs.1]
        simp only [Res.bind_ok, withMem_mem]
        cases freeOwn x k.isEmpty m1 with
        | error => rfl
        | ub => rfl
        | ok m2 =>
          simp only [Res.bind_ok, Bool.false_eq_true, if_false]
          congr 1
          refine ext' (fun i => ?_) (fun i => rfl) rfl rfl rfl
          simp only [putN_nodes, withMem_nodes, killN_nodes, nids, List.mem_cons]
          by_cases e : i = n <;> simp [e]
theorem delNL_spec {L : Prop} : ∀ (cs : List HT) (f : Nat) (h : Heap) (pn ps : Option Nat), HNL h L pn cs → HSL h ps cs → ShapeL cs →
    (nidsL cs).Nodup → (nidsL cs).length ≤ f →
    (cs.map nid).foldlM (delN f) h = (relL cs h.mem >>= fun m => .ok ((h.killN (nidsL cs)).withMem m))
  | [], f, h, pn, ps, _, _, _, _, _ => by
    simp [nidsL, relL, killN, withMem]
  | c :: cs, f, h, pn, ps, hh, hs, hp, hn, hf => by
    rw [HNL] at hh
    rw [HSL] at hs
    rw [ShapeL] at hp
    rw [nidsL] at hn hf
    rw [List.nodup_append] at hn
    rw [List.length_append] at hf
    rw [List.map_cons, List.foldlM_cons, delN_spec c f h pn ps hh.1 hs.1 hp.1 hn.1 (by omega), relL]
    cases releaseMem c.toNode h.mem with
    | error => rfl
    | ub => rfl
    | ok m1 =>
      simp only [Res.bind_ok]
      rw [delNL_spec cs f ((h.killN c.nids).withMem m1) pn ps (HNL_congr hh.2 fun i hi => ?_) (HSL_congr hs.2 fun i hi => rfl) hp.2 hn.2.1 (by omega)]
      · simp only [withMem_mem]
        cases relL cs m1 with
        | error => rfl
        | ub => rfl
        | ok m2 =>
          simp only [Res.bind_ok]
          congr 1
          refine ext' (fun i => ?_) (fun i => rfl) rfl rfl rfl
          simp only [withMem_nodes, killN_nodes, nidsL, List.mem_append]
          by_cases e1 : i ∈ nidsL cs <;> by_cases e2 : i ∈ nids c <;> simp [e1, e2]
      · rw [withMem_nodes, killN_nodes, if_neg fun hc => hn.2.2 i hc i hi rfl]
end

end HT
end Conduit
