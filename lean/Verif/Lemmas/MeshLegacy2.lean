import Verif.Lemmas.MeshIO11
import Verif.Lemmas.MeshMain
/-
Reading a mesh by the patterns of old (C89).
-/
namespace Conduit.MeshIO
open Conduit.Mesh

section
variable {F : Type}

theorem tidy_fix {ks : List (Str × BNode F)} (hne : ks ≠ []) (h : ∀ k ∈ ks, tidy k.2 = k.2) : tidy (.obj ks) = .obj ks := by
  rw [tidy_obj hne]
  congr 1
  conv => rhs; rw [← List.map_id ks]
  apply List.map_congr_left
  intro k hk
  rw [h k hk]; rfl

theorem tidy_kid {n : BNode F} (h : tidy n = n) {k : Str × BNode F} (hk : k ∈ n.kids) : tidy k.2 = k.2 := by
  cases n with
  | obj ks =>
    by_cases e : ks = []
    · subst e; cases hk
    · have hk' : k ∈ (tidy (.obj ks)).kids := by rw [h]; exact hk
      rw [tidy_obj e] at hk'
      obtain ⟨x, -, rfl⟩ := List.mem_map.1 hk'
      exact tidy_tidy _
  | _ => cases hk

theorem get_filter (p : Str → Bool) (ks : List (Str × BNode F)) (f : Str) :
    (BNode.obj (ks.filter fun k => p k.1)).get f = if p f then (BNode.obj ks).get f else .error := by
  induction ks with
  | nil =>
    rw [List.filter_nil, get_nil]
    split <;> rfl
  | cons k ks ih =>
    obtain ⟨t, x⟩ := k
    rw [List.filter_cons]
    dsimp only
    by_cases e : t = f
    · subst e
      split
      · rw [get_cons_self, get_cons_self]
      · rename_i q
        rw [ih, if_neg q]
    · rw [get_cons_ne e, ← ih]
      split
      · rw [get_cons_ne e]
      · rfl

/-- The state without the partition. -/
def strip (s : BNode F) : BNode F := .obj (s.kids.filter fun k => k.1 ∉ [chars! "partition_pattern", chars! "partition_map"])

theorem get_strip (s : BNode F) (f : Str) :
    (strip s).get f = if f ∉ [chars! "partition_pattern", chars! "partition_map"] then s.get f else .error := by
  have := get_filter (fun f => decide (f ∉ [chars! "partition_pattern", chars! "partition_map"])) s.kids f
  unfold strip
  rw [this]
  simp only [decide_eq_true_eq]
  rfl

theorem plain_strip {s : BNode F} (h : Plain s) : Plain (strip s) := by
  refine plain_obj ?_ fun k hk => ?_
  · exact h.nodup.sublist ((List.filter_sublist).map _)
  · have hm := (List.mem_filter.1 hk).1
    cases s with
    | obj ks => exact h.item (k := k) hm
    | _ => cases hm

/-- The index without the partition. -/
def stripIndex (I : BNode F) : BNode F := .obj (modKid (chars! "state") strip I.kids)

theorem stripIndex_spec {name : Str} {ds : List (BNode F)} {I : BNode F} (h : Indexed name ds I) (ht : tidy I = I) :
    Indexed name ds (stripIndex I) ∧ tidy (stripIndex I) = stripIndex I ∧
      ∃ s, (stripIndex I).get (chars! "state") = .ok s ∧ s.get (chars! "partition_pattern") = .error := by
  obtain ⟨s, s1, s2⟩ := h.state
  have hst : (stripIndex I).get (chars! "state") = .ok (strip (.obj s)) := by
    unfold stripIndex
    rw [get_modKid_self, getOrEmpty_kids, getOrEmpty_ok s1]
  have hpath : (strip (.obj s)).get (chars! "path") = .ok (.str (slash [name, chars! "state"])) := by
    rw [get_strip, if_pos (by decide), s2.path]
  have hsub : ∀ e ∈ (strip (.obj s)).kids, e ∈ s := fun e he => (List.mem_filter.1 he).1
  refine ⟨h.changed (plain_modKid (by decide) h.plain fun _ => plain_strip) (fun f hf => ?_) ⟨_, hst, hpath, fun e he => s2.kids e (hsub e he)⟩, ?_,
    _, hst, ?_⟩
  · unfold stripIndex
    rw [get_modKid_ne (Ne.symm hf)]
    rfl
  · refine tidy_fix (by intro e; unfold stripIndex at hst; rw [e, get_nil] at hst; cases hst) fun k hk => ?_
    have hts : tidy (.obj s) = .obj s := by
      have h1 := get_tidy_ok s1
      rw [ht] at h1
      exact (get_inj s1 h1).symm
    have hgood : tidy (strip (.obj s)) = strip (.obj s) := by
      refine tidy_fix (by intro e; unfold strip at hpath; rw [e, get_nil] at hpath; cases hpath) fun e he => tidy_kid hts (hsub e he)
    by_cases e : k.1 = chars! "state"
    · have hpl : Plain (stripIndex I) := plain_modKid (by decide) h.plain fun _ => plain_strip
      have hg := hpl.get_of_mem (k := k) hk
      rw [e] at hg
      rw [get_inj hg hst]
      exact hgood
    · rcases mem_modKid hk with q | ⟨q, -⟩
      · exact tidy_kid ht q
      · exact absurd q e
  · rw [get_strip, if_neg (by decide)]

theorem withoutPartition_get {name : Str} {R I : BNode F} (h : R.get (chars! "blueprint_index") = .ok (.obj [(name, I)])) :
    (withoutPartition name R).get (chars! "blueprint_index") = .ok (.obj [(name, stripIndex I)]) ∧
    ∀ s, s ≠ chars! "blueprint_index" → (withoutPartition name R).get s = R.get s := by
  unfold withoutPartition
  dsimp only
  constructor
  · rw [get_modKid_self, getOrEmpty_kids, getOrEmpty_ok h]
    dsimp only [BNode.kids, modKid]
    rw [if_pos rfl]
    rfl
  · intro s hs
    rw [get_modKid_ne (Ne.symm hs)]
    rfl

theorem locate_old (A : Arith F) {root idx : BNode F} {fp tp : Str} {n f : Nat} (hn : n < 2147483648) (hf : f < 2147483648)
    (hs : ∃ s, idx.get (chars! "state") = .ok s ∧ s.get (chars! "partition_pattern") = .error)
    (h1 : root.get (chars! "file_pattern") = .ok (.str fp)) (h2 : root.get (chars! "tree_pattern") = .ok (.str tp))
    (h3 : root.get (chars! "number_of_trees") = .ok (.ints int32 [(n : Int)])) (h4 : root.get (chars! "number_of_files") = .ok (.ints int32 [(f : Int)])) :
    locate A root idx = .ok (n, legacyPaths fp tp f n) := by
  have cast : ∀ k : Nat, k < 2147483648 → (BNode.ints int32 [(k : Int)] : BNode F).toInt32 A = .ok (k : Int) := by
    intro k hk
    rw [show (BNode.ints int32 [(k : Int)] : BNode F).toInt32 A = .ok (int32.cast (int64.cast (k : Int))) from rfl, cast32_64, int32_cast_id k hk]
  obtain ⟨s, s1, s2⟩ := hs
  unfold locate
  rw [getOrEmpty_ok s1]
  dsimp only
  rw [s2]
  dsimp only
  rw [h1, h3, h4, getOrEmpty_ok h2]
  simp only [Res.bind_ok]
  rw [cast n hn, cast f hf]
  rfl

theorem loadMesh_old (A : Arith F) {name protocol root dir : Str} {doms : List (BNode F)} {fs : Disk F}
    (h : Stored name protocol root dir (doms.mapIdx setId) fs) (hne : doms ≠ []) (hgn : GoodName name) (hpl : ∀ d ∈ doms, Plain d)
    (hpct : '%' ∉ root ∧ '%' ∉ protocol) (h32 : doms.length < 2147483648) :
    ∃ R, fs root = some R ∧ Loads A (fs.put root (withoutPartition name R)) root name doms := by
  obtain ⟨base, hsp⟩ := h.split
  obtain ⟨R, idx, q, place, e1, e2, e3, e4, e5, e6, ⟨o1, o2, o3, f, o4, o5, o6⟩, e7⟩ := h.content
  rw [List.length_mapIdx] at o3 o5 o6
  refine ⟨R, e1, fun o ho => ?_⟩
  obtain ⟨w1, w2⟩ := withoutPartition_get e2
  obtain ⟨i1, i2, i3⟩ := stripIndex_spec e4.tidy (tidy_tidy _)
  have hpar : ∀ s ∈ rootNames, ∀ x, (withoutPartition name R).get s = .ok x → Plain x ∧ tidy x = x := by
    intro s hs x hx
    by_cases e : s = chars! "blueprint_index"
    · rw [e, w1] at hx
      injection hx with hx
      subst hx
      have hname : name ≠ vkey := by
        have := (e3 _ (by decide) _ e2).1
        exact (this.item (k := (name, _)) List.mem_cons_self).1
      refine ⟨plain_obj (by simp) fun k hk => ?_, tidy_fix (by simp) fun k hk => ?_⟩ <;> rw [List.mem_singleton] at hk <;> subst hk
      · exact ⟨hname, i1.plain⟩
      · exact i2
    · rw [w2 s e] at hx
      exact e3 s hs x hx
  obtain ⟨r, r1, r2⟩ := readRoot_eq (fs := fs.put root (withoutPartition name R)) h.rootColon (by rw [Disk.put, if_pos rfl]) w1 hpar ho
  have hget : ∀ s ∈ rootNames, s ≠ chars! "blueprint_index" → r.get s = R.get s := fun s hs e => by rw [r2 s hs, w2 s e]
  refine load_from A hne hgn hpl hsp r1 (by rw [r2 _ (by decide), w1]) i1
    (locate_old A h32 (by omega) i3 (by rw [hget _ (by decide) (by decide), o1]) (by rw [hget _ (by decide) (by decide), o2])
      (by rw [hget _ (by decide) (by decide), o3]) (by rw [hget _ (by decide) (by decide), o4])) (o6 hpct.1 hpct.2) (fun i d hd => ?_)
  obtain ⟨f1, ⟨-, s, rest, g1, g2⟩, f2, T, f3, f4⟩ := e7 i d hd
  refine ⟨f1, f2, ?_⟩
  by_cases c : (place i).1 = root
  · refine ⟨withoutPartition name R, by rw [Disk.put, if_pos c], ?_⟩
    rw [c, e1] at f3
    injection f3 with f3
    subst f3
    rw [g1] at f4 ⊢
    rw [down] at f4 ⊢
    rw [w2 s (fun e => g2 (by rw [e]; decide))]
    exact f4
  · exact ⟨T, by rw [Disk.put, if_neg c]; exact f3, f4⟩

end
end Conduit.MeshIO
