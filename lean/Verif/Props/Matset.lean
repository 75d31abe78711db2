import Verif.Lemmas.Matset4
/-
Property theorems C66 (matset conversions keep the volume fractions) and C67 (material dependent
fields follow their matset).
`big v` stands for `v > epsilon`.
-/
namespace Conduit.Matset
open Conduit.O2M (rd wr ones size target entries)
variable {α β : Type}

/-! ### helper facts -/

private theorem full_getD {vfs : List (Str × List α)} {N : Nat} (h : FullWF vfs N) {x : Str × List α} (hx : x ∈ vfs) (e : Nat) (d : α) :
    e < N → x.2[e]? = some (x.2.getD e d) := by
  intro he
  have := h.len x hx
  simp [List.getD, List.getElem?_eq_getElem (show e < x.2.length by omega)]

theorem mem_matmap (vfs : List (Str × List α)) (n : Str) (i : Int) :
    (n, i) ∈ vfs.zipIdx.map (fun x => (x.1.1, (x.2 : Int))) ↔ ∃ (m : Nat) (c : List α), vfs[m]? = some (n, c) ∧ i = m := by
  rw [List.mem_map]
  constructor
  · rintro ⟨⟨⟨a, c⟩, m⟩, hx, heq⟩
    simp only [Prod.mk.injEq] at heq
    obtain ⟨rfl, rfl⟩ := heq
    exact ⟨m, c, List.mem_zipIdx_iff_getElem?.mp hx, rfl⟩
  · rintro ⟨m, c, hm, rfl⟩
    exact ⟨((n, c), m), List.mem_zipIdx_iff_getElem?.mpr hm, rfl⟩

theorem matmap_names (vfs : List (Str × List α)) : (vfs.zipIdx.map (fun x => (x.1.1, (x.2 : Int)))).map (·.1) = vfs.map (·.1) := by
  rw [List.map_map]
  have := congrArg (List.map fun x : Str × List α => x.1) (zipIdx_fst vfs 0)
  rw [List.map_map] at this
  exact this

theorem matmap_nums (vfs : List (Str × List α)) : ((vfs.zipIdx.map (fun x => (x.1.1, (x.2 : Int)))).map (·.2)).Nodup := by
  rw [List.map_map]
  have : (fun x : Str × Int => x.2) ∘ (fun x : (Str × List α) × Nat => (x.1.1, (x.2 : Int))) = fun x => ((x.2 : Nat) : Int) := rfl
  rw [this]
  have h2 : vfs.zipIdx.map (fun x => ((x.2 : Nat) : Int)) = (List.range vfs.length).map fun (i : Nat) => (i : Int) := by
    have hz : vfs.zipIdx.map (·.2) = List.range vfs.length := by
      rw [List.zipIdx_map_snd, List.range_eq_range']
    rw [← hz, List.map_map]; rfl
  rw [h2]
  unfold List.Nodup
  rw [List.pairwise_map]
  refine List.Pairwise.imp ?_ (List.nodup_range (n := vfs.length))
  intro a b hab e
  exact hab (by omega)

private theorem range_map_get {γ : Type} (N e : Nat) (F : Nat → γ) (g : γ) : ((List.range N).map F)[e]? = some g ↔ e < N ∧ g = F e := by
  rw [List.getElem?_map]
  by_cases h : e < N
  · rw [List.getElem?_range h]; simp [h, eq_comm]
  · rw [List.getElem?_eq_none (by simp; omega)]; simp [h]

private theorem mem_kept (big : α → Bool) (dα : α) (vfs : List (Str × List α)) (fvs : List (Str × List β)) (e : Nat)
    (x : Nat × (((Str × List α) × (Str × List β)) × Nat)) :
    x ∈ kept big dα vfs fvs e ↔ x.1 = e ∧ vfs[x.2.2]? = some x.2.1.1 ∧ fvs[x.2.2]? = some x.2.1.2 ∧ big (x.2.1.1.2.getD e dα) = true := by
  unfold kept table
  rw [List.mem_map]
  constructor
  · rintro ⟨t, ht, rfl⟩
    obtain ⟨h1, h2⟩ := List.mem_filter.mp ht
    have h3 := List.mem_zipIdx_iff_getElem?.mp h1
    rw [List.getElem?_zip_eq_some] at h3
    exact ⟨rfl, h3.1, h3.2, h2⟩
  · obtain ⟨e', t, m⟩ := x
    rintro ⟨rfl, h1, h2, h3⟩
    refine ⟨(t, m), List.mem_filter.mpr ⟨List.mem_zipIdx_iff_getElem?.mpr ?_, h3⟩, rfl⟩
    rw [List.getElem?_zip_eq_some]; exact ⟨h1, h2⟩

private theorem kept_nodup (big : α → Bool) (dα : α) (vfs : List (Str × List α)) (fvs : List (Str × List β)) (e : Nat) :
    ((kept big dα vfs fvs e).map fun x => (x.2.2 : Int)).Nodup := by
  unfold kept table
  rw [List.map_map]
  have hz : ((vfs.zip fvs).zipIdx.map fun t => ((t.2 : Nat) : Int)).Nodup := by
    have hz : (vfs.zip fvs).zipIdx.map (·.2) = List.range (vfs.zip fvs).length := by
      rw [List.zipIdx_map_snd, List.range_eq_range']
    have h2 : (vfs.zip fvs).zipIdx.map (fun x => ((x.2 : Nat) : Int)) = (List.range (vfs.zip fvs).length).map fun (i : Nat) => (i : Int) := by
      rw [← hz, List.map_map]; rfl
    rw [h2]
    unfold List.Nodup
    rw [List.pairwise_map]
    refine List.Pairwise.imp ?_ (List.nodup_range (n := (vfs.zip fvs).length))
    intro a b hab e
    exact hab (by omega)
  exact List.Nodup.sublist (List.Sublist.map _ List.filter_sublist) hz

/-- names in the same order at the same position -/
private theorem same_name {vfs : List (Str × List α)} {fvs : List (Str × List β)} (h : vfs.map (·.1) = fvs.map (·.1)) (m : Nat)
    {a : Str × List α} {b : Str × List β} (ha : vfs[m]? = some a) (hb : fvs[m]? = some b) : a.1 = b.1 := by
  have h1 : (vfs.map (·.1))[m]? = some a.1 := by rw [List.getElem?_map, ha]; rfl
  have h2 : (fvs.map (·.1))[m]? = some b.1 := by rw [List.getElem?_map, hb]; rfl
  rw [h, h2] at h1
  simpa using h1.symm

/-! ### full to sparse by element -/

private theorem full_element_aux (big : α → Bool) (vfs : List (Str × List α)) (fvs : List (Str × List β)) (N : Nat)
    (h : FullWF vfs N) (h' : FullWF fvs N) (hn : vfs.map (·.1) = fvs.map (·.1)) (hne : vfs ≠ []) (dα : α) (dβ : β) :
    ∃ S, fullToSbe big vfs = .ok S ∧ SbeWF S N ∧ Once S ∧ S.matmap.map (·.1) = vfs.map (·.1) ∧
      ∃ fv, fullToSbeField big vfs fvs = .ok fv ∧ fv.length = S.vals.length ∧
      (∀ e n v, SbeHas S S.vals e n v ↔ FullHas vfs e n v ∧ big v = true) ∧
      (∀ e n v w, SbeHas2 S fv e n v w ↔ FullHas vfs e n v ∧ FullHas fvs e n w ∧ big v = true) := by
  have hl : vfs.length = fvs.length := by have := congrArg List.length hn; simpa using this
  obtain ⟨S, hS, hg, hids, hvals, hmm⟩ := fullToSbe_spec big dα vfs fvs hl N h hne
  have hf := fullToSbeField_spec big dα dβ vfs fvs hn N h h' hne
  have key : ∀ e n v w, (∃ g x, ((List.range N).map (kept big dα vfs fvs))[e]? = some g ∧ x ∈ g ∧ (n, ((x.2.2 : Nat) : Int)) ∈ S.matmap ∧
      x.2.1.1.2.getD x.1 dα = v ∧ x.2.1.2.2.getD x.1 dβ = w) ↔ FullHas vfs e n v ∧ FullHas fvs e n w ∧ big v = true := by
    intro e n v w
    constructor
    · rintro ⟨g, ⟨e', ⟨a, b⟩, m⟩, hg, hx, hm, rfl, rfl⟩
      obtain ⟨he, rfl⟩ := (range_map_get _ _ _ _).mp hg
      obtain ⟨rfl, h1, h2, h3⟩ := (mem_kept _ _ _ _ _ _).mp hx
      simp only at h1 h2 h3 he hm
      rw [hmm, mem_matmap] at hm
      obtain ⟨m', c, hm', hmeq⟩ := hm
      have : m = m' := by omega
      subst this
      rw [h1] at hm'
      simp only [Option.some.injEq] at hm'
      have hnm : b.1 = n := by rw [← same_name hn m h1 h2, hm']
      have ha := List.mem_of_getElem? h1
      have hb := List.mem_of_getElem? h2
      refine ⟨⟨a.2, ?_, full_getD h ha _ dα he⟩, ⟨b.2, ?_, full_getD h' hb _ dβ he⟩, h3⟩
      · rw [hm'] at ha ⊢; exact ha
      · rw [← hnm]; exact hb
    · rintro ⟨⟨c, hc, hcv⟩, ⟨f, hf', hfw⟩, hb⟩
      obtain ⟨m, hm⟩ := List.getElem?_of_mem hc
      have hlt : m < fvs.length := by
        obtain ⟨hh, _⟩ := List.getElem?_eq_some_iff.mp hm; omega
      have hfm := List.getElem?_eq_getElem hlt
      have hn1 : fvs[m].1 = n := (same_name hn m hm hfm).symm
      have hf2 : fvs[m].2 = f := mem_unique h'.names (k := n) (by rw [← hn1]; exact List.getElem_mem hlt) hf'
      have he : e < N := by
        obtain ⟨hh, _⟩ := List.getElem?_eq_some_iff.mp hcv
        have := h.len _ hc
        simp only at this; omega
      have hv : c.getD e dα = v := by simp [List.getD, hcv]
      have hw : fvs[m].2.getD e dβ = w := by rw [hf2]; simp [List.getD, hfw]
      refine ⟨_, (e, (((n, c), fvs[m]), m)), (range_map_get _ _ _ _).mpr ⟨he, rfl⟩, (mem_kept _ _ _ _ _ _).mpr ⟨rfl, hm, hfm, ?_⟩, ?_, hv, hw⟩
      · simpa only [hv] using hb
      · rw [hmm, mem_matmap]; exact ⟨m, c, hm, rfl⟩
  have hwf := hg.wf (fun x => ((x.2.2 : Nat) : Int)) (fun x => x.2.1.1.2.getD x.1 dα) hids hvals
    (by rw [hmm, matmap_names]; exact h.names) (by rw [hmm]; exact matmap_nums vfs)
    (by
      intro g hg x hx
      obtain ⟨e, he, rfl⟩ := List.mem_map.mp hg
      obtain ⟨_, h1, _, _⟩ := (mem_kept _ _ _ _ _ _).mp hx
      rw [hmm]
      exact List.mem_map.mpr ⟨(x.2.1.1.1, ((x.2.2 : Nat) : Int)), (mem_matmap _ _ _).mpr ⟨x.2.2, x.2.1.1.2, h1, rfl⟩, rfl⟩)
  refine ⟨S, hS, by simpa using hwf, hg.once _ hids ?_, by rw [hmm, matmap_names], _, hf, by rw [hvals, List.length_map, List.length_map], ?_, ?_⟩
  · intro g hg
    obtain ⟨e, _, rfl⟩ := List.mem_map.mp hg
    exact kept_nodup big dα vfs fvs e
  · intro e n v
    rw [hvals, hg.has (fun x => ((x.2.2 : Nat) : Int)) _ hids]
    constructor
    · rintro ⟨g, x, h1, h2, h3, h4⟩
      obtain ⟨a, _, b⟩ := (key e n v _).mp ⟨g, x, h1, h2, h3, h4, rfl⟩
      exact ⟨a, b⟩
    · rintro ⟨a, b⟩
      have hw : ∃ w, FullHas fvs e n w := by
        obtain ⟨c, hc, hcv⟩ := a
        have : n ∈ fvs.map (·.1) := by rw [← hn]; exact List.mem_map.mpr ⟨_, hc, rfl⟩
        obtain ⟨⟨n', f⟩, hf1, rfl⟩ := List.mem_map.mp this
        have he : e < f.length := by
          obtain ⟨hh, _⟩ := List.getElem?_eq_some_iff.mp hcv
          have h1 := h.len _ hc
          have h2 := h'.len _ hf1
          simp only at h1 h2; omega
        exact ⟨_, f, hf1, List.getElem?_eq_getElem he⟩
      obtain ⟨w, hw⟩ := hw
      obtain ⟨g, x, h1, h2, h3, h4, _⟩ := (key e n v w).mpr ⟨a, hw, b⟩
      exact ⟨g, x, h1, h2, h3, h4⟩
  · intro e n v w
    rw [hg.has2 (fun x => ((x.2.2 : Nat) : Int)) (fun x => x.2.1.1.2.getD x.1 dα) (fun x => x.2.1.2.2.getD x.1 dβ) hids hvals]
    exact key e n v w

/-- C66: `to_sparse_by_element` of a full matset keeps exactly the volume fractions above epsilon,
    each with its element and material. -/
theorem C66_full_to_element [Inhabited α] (big : α → Bool) (vfs : List (Str × List α)) (N : Nat) (h : FullWF vfs N) (hne : vfs ≠ []) :
    ∃ S, toSbe big (.full vfs) = .ok (.sbe S) ∧ SbeWF S N ∧ Once S ∧ S.matmap.map (·.1) = vfs.map (·.1) ∧
      ∀ e n v, SbeHas S S.vals e n v ↔ FullHas vfs e n v ∧ big v = true := by
  obtain ⟨S, h1, h2, h3, h4, _, _, _, h5, _⟩ := full_element_aux big vfs vfs N h h rfl hne default default
  exact ⟨S, by simp [toSbe, h1], h2, h3, h4, h5⟩

/-- C67: the field conversion puts the value of (element, material) where the matset conversion
    puts its volume fraction. -/
theorem C67_full_to_element [Inhabited α] [Inhabited β] (big : α → Bool) (vfs : List (Str × List α)) (fvs : List (Str × List β)) (N : Nat)
    (h : FullWF vfs N) (h' : FullWF fvs N) (hn : vfs.map (·.1) = fvs.map (·.1)) (hne : vfs ≠ []) :
    ∃ S fv, fullToSbe big vfs = .ok S ∧ fullToSbeField big vfs fvs = .ok fv ∧ fv.length = S.vals.length ∧
      ∀ e n v w, SbeHas2 S fv e n v w ↔ FullHas vfs e n v ∧ FullHas fvs e n w ∧ big v = true := by
  obtain ⟨S, h1, _, _, _, fv, h2, h3, _, h5⟩ := full_element_aux big vfs fvs N h h' hn hne default default
  exact ⟨S, fv, h1, h2, h3, h5⟩

/-! ### full to sparse by material -/

private theorem mem_bigAt (big : α → Bool) (dα : α) (c : List α) (N e : Nat) : e ∈ bigAt big dα c N ↔ e < N ∧ big (c.getD e dα) = true := by
  unfold bigAt; simp [List.mem_filter]

private theorem bigAt_nodup (big : α → Bool) (dα : α) (c : List α) (N : Nat) : ((bigAt big dα c N).map fun (e : Nat) => (e : Int)).Nodup := by
  unfold List.Nodup
  rw [List.pairwise_map]
  refine List.Pairwise.imp ?_ (List.Nodup.sublist List.filter_sublist (List.nodup_range (n := N)))
  intro a b hab e
  exact hab (by omega)

/-- position `k` of the two arrays of a material -/
private theorem bigAt_pos (big : α → Bool) (dα : α) (c : List α) (N e : Nat) (f : Nat → β) (k : Nat) (v : β)
    (h1 : ((bigAt big dα c N).map fun (e : Nat) => (e : Int))[k]? = some (e : Int)) (h2 : ((bigAt big dα c N).map f)[k]? = some v) :
    e ∈ bigAt big dα c N ∧ v = f e := by
  rw [List.getElem?_map] at h1 h2
  cases hk : (bigAt big dα c N)[k]? with
  | none => rw [hk] at h1; simp at h1
  | some x =>
    rw [hk] at h1 h2
    simp only [Option.map_some, Option.some.injEq] at h1 h2
    have : x = e := by omega
    subst this
    exact ⟨List.mem_of_getElem? hk, h2.symm⟩

private theorem fullToSbm_wf (big : α → Bool) (dα : α) (vfs : List (Str × List α)) (N : Nat) (h : FullWF vfs N) (g : Str × List α → Nat → β) :
    SbmWF (vfs.map fun x => (x.1, (bigAt big dα x.2 N).map fun (e : Nat) => (e : Int)))
      (vfs.map fun x => (x.1, (bigAt big dα x.2 N).map (g x))) where
  enames := by rw [List.map_map]; exact h.names
  vnames := by rw [List.map_map]; exact h.names
  same := by intro n; rw [List.map_map, List.map_map]; rfl
  len := by
    intro n es vs he hv
    obtain ⟨⟨a, c⟩, hx, heq⟩ := List.mem_map.mp he
    obtain ⟨⟨a', c'⟩, hy, heq'⟩ := List.mem_map.mp hv
    simp only [Prod.mk.injEq] at heq heq'
    obtain ⟨rfl, rfl⟩ := heq
    obtain ⟨rfl, rfl⟩ := heq'
    have := mem_unique h.names hx hy
    subst this
    simp

/-- C66: `to_multi_buffer_by_material` of a full matset keeps exactly the volume fractions above
    epsilon. -/
theorem C66_full_to_material [Inhabited α] (big : α → Bool) (vfs : List (Str × List α)) (N : Nat) (h : FullWF vfs N) :
    ∃ vfs' eids, toSbm big (.full vfs) = .ok (.sbm vfs' eids) ∧ SbmWF eids vfs' ∧ SbmOnce eids ∧
      vfs'.map (·.1) = vfs.map (·.1) ∧
      ∀ e n v, SbmHas eids vfs' e n v ↔ FullHas vfs e n v ∧ big v = true := by
  have heq := fullToSbm_eq big default vfs N h
  refine ⟨_, _, rfl, ?_, ?_, ?_, ?_⟩ <;> rw [heq]
  · exact fullToSbm_wf big default vfs N h fun x e => x.2.getD e default
  · intro n es he
    obtain ⟨x, _, hx⟩ := List.mem_map.mp he
    simp only [Prod.mk.injEq] at hx
    rw [← hx.2]; exact bigAt_nodup _ _ _ _
  · simp [List.map_map]
  · intro e n v
    constructor
    · rintro ⟨es, vs, k, he, hv, hek, hvk⟩
      obtain ⟨⟨a, c⟩, hx, heq⟩ := List.mem_map.mp he
      obtain ⟨⟨a', c'⟩, hy, heq'⟩ := List.mem_map.mp hv
      simp only [Prod.mk.injEq] at heq heq'
      obtain ⟨rfl, rfl⟩ := heq
      obtain ⟨rfl, rfl⟩ := heq'
      have := mem_unique h.names hx hy
      subst this
      obtain ⟨h1, rfl⟩ := bigAt_pos big default c N e _ k v hek hvk
      obtain ⟨h2, h3⟩ := (mem_bigAt _ _ _ _ _).mp h1
      exact ⟨⟨c, hx, full_getD h hx e default h2⟩, h3⟩
    · rintro ⟨⟨c, hc, hcv⟩, hb⟩
      have he : e < N := by
        obtain ⟨hh, _⟩ := List.getElem?_eq_some_iff.mp hcv
        have := h.len _ hc
        simp only at this; omega
      have hv : c.getD e default = v := by simp [List.getD, hcv]
      obtain ⟨k, hk⟩ := List.getElem?_of_mem ((mem_bigAt big default c N e).mpr ⟨he, by rw [hv]; exact hb⟩)
      refine ⟨_, _, k, List.mem_map.mpr ⟨(n, c), hc, rfl⟩, List.mem_map.mpr ⟨(n, c), hc, rfl⟩, ?_, ?_⟩
      · rw [List.getElem?_map, hk]; rfl
      · rw [List.getElem?_map, hk]; simp only [Option.map_some]; rw [hv]

/-- C67: the same for a material dependent field. -/
theorem C67_full_to_material [Inhabited α] [Inhabited β] (big : α → Bool) (vfs : List (Str × List α)) (fvs : List (Str × List β)) (N : Nat)
    (h : FullWF vfs N) (h' : FullWF fvs N) (hn : vfs.map (·.1) = fvs.map (·.1)) :
    ∃ fvs', fullToSbmField big vfs fvs = .ok fvs' ∧ SbmWF (fullToSbm big vfs).2 fvs' ∧
      ∀ e n v w, SbmHas2 (fullToSbm big vfs).2 (fullToSbm big vfs).1 fvs' e n v w ↔
        FullHas vfs e n v ∧ FullHas fvs e n w ∧ big v = true := by
  have heq := fullToSbm_eq big default vfs N h
  have hl : vfs.length = fvs.length := by have := congrArg List.length hn; simpa using this
  refine ⟨_, fullToSbmField_eq big default default vfs fvs hn N h h', ?_, ?_⟩ <;> rw [heq]
  · have hz1 : (vfs.zip fvs).map (fun t => t.1.1) = vfs.map (·.1) := by
      have := congrArg (List.map fun x : Str × List α => x.1) (zip_fst vfs fvs (by omega))
      rw [List.map_map] at this; exact this
    refine ⟨by rw [List.map_map]; exact h.names, ?_, ?_, ?_⟩
    · rw [List.map_map]
      show ((vfs.zip fvs).map fun t => t.1.1).Nodup
      rw [hz1]; exact h.names
    · intro n
      rw [List.map_map, List.map_map]
      show n ∈ vfs.map (·.1) ↔ n ∈ (vfs.zip fvs).map fun t => t.1.1
      rw [hz1]
    · intro n es ws he hw
      obtain ⟨⟨a, c⟩, hx, heq⟩ := List.mem_map.mp he
      obtain ⟨⟨⟨a', c'⟩, f⟩, hy, heq'⟩ := List.mem_map.mp hw
      simp only [Prod.mk.injEq] at heq heq'
      obtain ⟨rfl, rfl⟩ := heq
      obtain ⟨rfl, rfl⟩ := heq'
      have := mem_unique h.names hx (List.of_mem_zip hy).1
      subst this
      simp
  · intro e n v w
    constructor
    · rintro ⟨es, vs, ws, k, he, hv, hw, hek, hvk, hwk⟩
      obtain ⟨⟨a, c⟩, hx, heq⟩ := List.mem_map.mp he
      obtain ⟨⟨a', c'⟩, hy, heq'⟩ := List.mem_map.mp hv
      obtain ⟨⟨⟨a'', c''⟩, ⟨b, f⟩⟩, hz, heq''⟩ := List.mem_map.mp hw
      simp only [Prod.mk.injEq] at heq heq' heq''
      obtain ⟨rfl, rfl⟩ := heq
      obtain ⟨rfl, rfl⟩ := heq'
      obtain ⟨rfl, rfl⟩ := heq''
      have := mem_unique h.names hx hy
      subst this
      have := mem_unique h.names hx (List.of_mem_zip hz).1
      subst this
      obtain ⟨h1, rfl⟩ := bigAt_pos big default c N e _ k v hek hvk
      obtain ⟨_, rfl⟩ := bigAt_pos big default c N e _ k w hek hwk
      obtain ⟨h2, h3⟩ := (mem_bigAt _ _ _ _ _).mp h1
      have hf := (List.of_mem_zip hz).2
      obtain ⟨m, hm⟩ := List.getElem?_of_mem hz
      rw [List.getElem?_zip_eq_some] at hm
      have hnm := same_name hn m hm.1 hm.2
      simp only at hnm
      subst hnm
      exact ⟨⟨c, hx, full_getD h hx e default h2⟩, ⟨f, hf, full_getD h' hf e default h2⟩, h3⟩
    · rintro ⟨⟨c, hc, hcv⟩, ⟨f, hf, hfw⟩, hb⟩
      have he : e < N := by
        obtain ⟨hh, _⟩ := List.getElem?_eq_some_iff.mp hcv
        have := h.len _ hc
        simp only at this; omega
      have hv : c.getD e default = v := by simp [List.getD, hcv]
      have hw : f.getD e default = w := by simp [List.getD, hfw]
      obtain ⟨m, hm⟩ := List.getElem?_of_mem hc
      have hlt : m < fvs.length := by
        obtain ⟨hh, _⟩ := List.getElem?_eq_some_iff.mp hm; omega
      have hfm := List.getElem?_eq_getElem hlt
      have hn1 : fvs[m].1 = n := (same_name hn m hm hfm).symm
      have hf2 : fvs[m].2 = f := mem_unique h'.names (k := n) (by rw [← hn1]; exact List.getElem_mem hlt) hf
      have hfe : fvs[m] = (n, f) := Prod.ext hn1 hf2
      have hz : ((n, c), (n, f)) ∈ vfs.zip fvs := by
        apply List.mem_of_getElem? (i := m)
        rw [List.getElem?_zip_eq_some]; exact ⟨hm, by rw [hfm, hfe]⟩
      obtain ⟨k, hk⟩ := List.getElem?_of_mem ((mem_bigAt big default c N e).mpr ⟨he, by rw [hv]; exact hb⟩)
      refine ⟨_, _, _, k, List.mem_map.mpr ⟨(n, c), hc, rfl⟩, List.mem_map.mpr ⟨(n, c), hc, rfl⟩, List.mem_map.mpr ⟨_, hz, rfl⟩, ?_, ?_, ?_⟩
      · rw [List.getElem?_map, hk]; rfl
      · rw [List.getElem?_map, hk]; simp only [Option.map_some]; rw [hv]
      · rw [List.getElem?_map, hk]; simp only [Option.map_some]; rw [hw]

/-! ### sparse by element to sparse by material -/

private theorem items_pos {S : Sbe α} {N : Nat} (h : SbeWF S N) [Inhabited α] [Inhabited β] (fv : List β) (hf : S.vals.length ≤ fv.length)
    (e : Nat) (n : Str) (v : α) (w : β) :
    (∃ d, (e, n, d) ∈ items S ∧ S.vals.getD d default = v ∧ fv.getD d default = w) ↔ SbeHas2 S fv e n v w := by
  constructor
  · rintro ⟨d, hd, rfl, rfl⟩
    obtain ⟨id, hs, hid, hm⟩ := (mem_items h e n d).mp hd
    obtain ⟨_, h2⟩ := h.data e d hs
    exact ⟨d, id, hs, hid, hm, by simp [List.getD, List.getElem?_eq_getElem h2],
      by simp [List.getD, List.getElem?_eq_getElem (show d < fv.length by omega)]⟩
  · rintro ⟨d, id, hs, hid, hm, hv, hw⟩
    exact ⟨d, (mem_items h e n d).mpr ⟨id, hs, hid, hm⟩, by simp [List.getD, hv], by simp [List.getD, hw]⟩

private theorem has_of_has2 (S : Sbe α) (e : Nat) (n : Str) (v : α) : SbeHas2 S S.vals e n v v ↔ SbeHas S S.vals e n v := by
  constructor
  · rintro ⟨d, id, a, b, c, f, _⟩; exact ⟨d, id, a, b, c, f⟩
  · rintro ⟨d, id, a, b, c, f⟩; exact ⟨d, id, a, b, c, f, f⟩

private theorem push_wf (S : Sbe α) (f : Nat × Str × Nat → β) :
    SbmWF (pushAll ((items S).map fun x => (x.2.1, (x.1 : Int))) []) (pushAll ((items S).map fun x => (x.2.1, f x)) []) where
  enames := sorted_names (pushAll_sorted _ List.Pairwise.nil)
  vnames := sorted_names (pushAll_sorted _ List.Pairwise.nil)
  same := by
    intro n
    rw [List.mem_map, List.mem_map]
    constructor
    · rintro ⟨⟨n', es⟩, hx, rfl⟩
      have := (mem_pushAll (items S) (fun x => x.2.1) (fun x => (x.1 : Int)) _ _).mp hx
      exact ⟨(n', _), (mem_pushAll (items S) (fun x => x.2.1) f _ _).mpr ⟨this.1, rfl⟩, rfl⟩
    · rintro ⟨⟨n', es⟩, hx, rfl⟩
      have := (mem_pushAll (items S) (fun x => x.2.1) f _ _).mp hx
      exact ⟨(n', _), (mem_pushAll (items S) (fun x => x.2.1) (fun x => (x.1 : Int)) _ _).mpr ⟨this.1, rfl⟩, rfl⟩
  len := by
    intro n es vs he hv
    rw [((mem_pushAll (items S) (fun x => x.2.1) (fun x => (x.1 : Int)) _ _).mp he).2, ((mem_pushAll (items S) (fun x => x.2.1) f _ _).mp hv).2]
    simp

private theorem items_nodup {S : Sbe α} {N : Nat} (h : SbeWF S N) (ho : Once S) (n : Str) :
    (((items S).filter fun x => x.2.1 = n).map fun x => (x.1 : Int)).Nodup := by
  unfold items
  rw [List.filter_map, List.map_map]
  have hnd : (entries S.rel).Nodup := by
    unfold entries List.Nodup
    rw [List.pairwise_flatMap]
    constructor
    · intro i _
      rw [List.pairwise_map]
      refine List.Pairwise.imp ?_ (List.nodup_range (n := size S.rel i))
      intro a b hab e
      exact hab (congrArg Prod.snd e)
    · refine List.Pairwise.imp ?_ (List.nodup_range (n := ones S.rel))
      intro a b hab x hx y hy heq
      obtain ⟨_, _, rfl⟩ := List.mem_map.mp hx
      obtain ⟨_, _, rfl⟩ := List.mem_map.mp hy
      exact hab (congrArg Prod.fst heq)
  have hnd' := List.Nodup.sublist (List.filter_sublist (p := (fun x : Nat × Str × Nat => decide (x.2.1 = n)) ∘ fun x : Nat × Nat =>
    (x.1, revGet S.matmap (S.ids.getD (target S.rel x.1 x.2).toNat 0), (target S.rel x.1 x.2).toNat))) hnd
  unfold List.Nodup
  rw [List.pairwise_map]
  refine List.Pairwise.imp_of_mem ?_ hnd'
  rintro ⟨i, j⟩ ⟨i', j'⟩ ha hb hne heq
  obtain ⟨ha1, ha2⟩ := List.mem_filter.mp ha
  obtain ⟨hb1, hb2⟩ := List.mem_filter.mp hb
  have hi : i = i' := by simp only [Function.comp_apply] at heq; omega
  subst hi
  obtain ⟨hi, hj⟩ := (mem_entries _ _ _).mp ha1
  obtain ⟨_, hj'⟩ := (mem_entries _ _ _).mp hb1
  simp only [Function.comp_apply, decide_eq_true_eq] at ha2 hb2
  have fact : ∀ j, j < size S.rel i → revGet S.matmap (S.ids.getD (target S.rel i j).toNat 0) = n →
      ∃ id, S.ids[(target S.rel i j).toNat]? = some id ∧ (n, id) ∈ S.matmap := by
    intro j hj hr
    have hp := h.pos i (by rw [← h.zones]; exact hi) j hj
    have hs : Slot S i (target S.rel i j).toNat := ⟨hi, j, hj, by omega⟩
    obtain ⟨h1, _⟩ := h.data _ _ hs
    have hid : S.ids[(target S.rel i j).toNat]? = some (S.ids.getD (target S.rel i j).toNat 0) := by
      simp [List.getD, List.getElem?_eq_getElem h1]
    refine ⟨_, hid, ?_⟩
    have := revGet_mem _ _ (h.known _ _ _ hs hid)
    rw [hr] at this; exact this
  obtain ⟨id, h1, h2⟩ := fact j hj ha2
  obtain ⟨id', h1', h2'⟩ := fact j' hj' hb2
  have := mem_unique h.names h2 h2'
  subst this
  exact hne (by rw [ho i j j' id hi hj hj' h1 h1'])

/-- C66: `to_multi_buffer_by_material` of a sparse by element matset keeps every entry; the
    materials listed are those in use. -/
theorem C66_element_to_material [Inhabited α] (big : α → Bool) (S : Sbe α) (N : Nat) (h : SbeWF S N) :
    ∃ vfs eids, toSbm big (.sbe S) = .ok (.sbm vfs eids) ∧ SbmWF eids vfs ∧ (Once S → SbmOnce eids) ∧
      (∀ n, n ∈ vfs.map (·.1) ↔ ∃ e v, SbeHas S S.vals e n v) ∧
      ∀ e n v, SbmHas eids vfs e n v ↔ SbeHas S S.vals e n v := by
  have hS : toSbm big (.sbe S) = .ok (.sbm (pushAll ((items S).map fun x => (x.2.1, S.vals.getD x.2.2 default)) [])
      (pushAll ((items S).map fun x => (x.2.1, (x.1 : Int))) [])) := by simp only [toSbm, sbeToSbm_eq h, Res.map'_ok]
  refine ⟨_, _, hS, push_wf S _, ?_, ?_, ?_⟩
  · intro ho n es he
    rw [((mem_pushAll (items S) (fun x => x.2.1) (fun x => (x.1 : Int)) _ _).mp he).2]
    exact items_nodup h ho n
  · intro n
    rw [List.mem_map]
    constructor
    · rintro ⟨⟨n', vs⟩, hx, rfl⟩
      obtain ⟨⟨⟨e, n'', d⟩, hx1, rfl⟩, _⟩ := (mem_pushAll (items S) (fun x => x.2.1) _ _ _).mp hx
      refine ⟨e, S.vals.getD d default, (has_of_has2 S e _ _).mp ((items_pos h S.vals (Nat.le_refl _) e n'' _ _).mp ⟨d, hx1, rfl, rfl⟩)⟩
    · rintro ⟨e, v, hv⟩
      obtain ⟨d, hd, _, _⟩ := (items_pos h S.vals (Nat.le_refl _) e n v v).mpr ((has_of_has2 S e n v).mpr hv)
      exact ⟨(n, _), (mem_pushAll (items S) (fun x => x.2.1) _ _ _).mpr ⟨⟨_, hd, rfl⟩, rfl⟩, rfl⟩
  · intro e n v
    rw [← has_of_has2, ← items_pos h S.vals (Nat.le_refl _)]
    constructor
    · rintro ⟨es, vs, k, he, hv, hek, hvk⟩
      obtain ⟨_, rfl⟩ := (mem_pushAll (items S) (fun x => x.2.1) (fun x => (x.1 : Int)) _ _).mp he
      obtain ⟨_, rfl⟩ := (mem_pushAll (items S) (fun x => x.2.1) (fun x => S.vals.getD x.2.2 default) _ _).mp hv
      rw [List.getElem?_map] at hek hvk
      cases hk : ((items S).filter fun x => x.2.1 = n)[k]? with
      | none => rw [hk] at hek; simp at hek
      | some x =>
        obtain ⟨e', n', d⟩ := x
        rw [hk] at hek hvk
        simp only [Option.map_some, Option.some.injEq] at hek hvk
        obtain ⟨hx1, hx2⟩ := List.mem_filter.mp (List.mem_of_getElem? hk)
        simp only [decide_eq_true_eq] at hx2
        have : e' = e := by omega
        subst this; subst hx2
        exact ⟨d, hx1, hvk, hvk⟩
    · rintro ⟨d, hd, hv, _⟩
      obtain ⟨k, hk⟩ := List.getElem?_of_mem (List.mem_filter.mpr ⟨hd, by simp⟩ : (e, n, d) ∈ (items S).filter fun x => x.2.1 = n)
      refine ⟨_, _, k, (mem_pushAll (items S) (fun x => x.2.1) (fun x => (x.1 : Int)) _ _).mpr ⟨⟨_, hd, rfl⟩, rfl⟩,
        (mem_pushAll (items S) (fun x => x.2.1) (fun x => S.vals.getD x.2.2 default) _ _).mpr ⟨⟨_, hd, rfl⟩, rfl⟩, ?_, ?_⟩
      · rw [List.getElem?_map, hk]; rfl
      · rw [List.getElem?_map, hk]; simp only [Option.map_some]; rw [hv]

/-- C67: the same for a material dependent field. -/
theorem C67_element_to_material [Inhabited α] [Inhabited β] (S : Sbe α) (N : Nat) (h : SbeWF S N) (fv : List β) (hf : S.vals.length ≤ fv.length) :
    ∃ r fvs, sbeToSbm S = .ok r ∧ sbeToSbmField S fv = .ok fvs ∧ SbmWF r.2 fvs ∧
      ∀ e n v w, SbmHas2 r.2 r.1 fvs e n v w ↔ SbeHas2 S fv e n v w := by
  refine ⟨_, _, sbeToSbm_eq h, sbeToSbmField_eq h fv hf, push_wf S _, ?_⟩
  intro e n v w
  rw [← items_pos h fv hf]
  constructor
  · rintro ⟨es, vs, ws, k, he, hv, hw, hek, hvk, hwk⟩
    obtain ⟨_, rfl⟩ := (mem_pushAll (items S) (fun x => x.2.1) (fun x => (x.1 : Int)) _ _).mp he
    obtain ⟨_, rfl⟩ := (mem_pushAll (items S) (fun x => x.2.1) (fun x => S.vals.getD x.2.2 default) _ _).mp hv
    obtain ⟨_, rfl⟩ := (mem_pushAll (items S) (fun x => x.2.1) (fun x => fv.getD x.2.2 default) _ _).mp hw
    rw [List.getElem?_map] at hek hvk hwk
    cases hk : ((items S).filter fun x => x.2.1 = n)[k]? with
    | none => rw [hk] at hek; simp at hek
    | some x =>
      obtain ⟨e', n', d⟩ := x
      rw [hk] at hek hvk hwk
      simp only [Option.map_some, Option.some.injEq] at hek hvk hwk
      obtain ⟨hx1, hx2⟩ := List.mem_filter.mp (List.mem_of_getElem? hk)
      simp only [decide_eq_true_eq] at hx2
      have : e' = e := by omega
      subst this; subst hx2
      exact ⟨d, hx1, hvk, hwk⟩
  · rintro ⟨d, hd, hv, hw⟩
    obtain ⟨k, hk⟩ := List.getElem?_of_mem (List.mem_filter.mpr ⟨hd, by simp⟩ : (e, n, d) ∈ (items S).filter fun x => x.2.1 = n)
    refine ⟨_, _, _, k, (mem_pushAll (items S) (fun x => x.2.1) (fun x => (x.1 : Int)) _ _).mpr ⟨⟨_, hd, rfl⟩, rfl⟩,
      (mem_pushAll (items S) (fun x => x.2.1) (fun x => S.vals.getD x.2.2 default) _ _).mpr ⟨⟨_, hd, rfl⟩, rfl⟩,
      (mem_pushAll (items S) (fun x => x.2.1) (fun x => fv.getD x.2.2 default) _ _).mpr ⟨⟨_, hd, rfl⟩, rfl⟩, ?_, ?_, ?_⟩
    · rw [List.getElem?_map, hk]; rfl
    · rw [List.getElem?_map, hk]; simp only [Option.map_some]; rw [hv]
    · rw [List.getElem?_map, hk]; simp only [Option.map_some]; rw [hw]

/-! ### sparse by element to full -/

private theorem once_unique {S : Sbe α} {N : Nat} (h : SbeWF S N) (ho : Once S) {e d d' : Nat} {n : Str}
    (h1 : (e, n, d) ∈ items S) (h2 : (e, n, d') ∈ items S) : d = d' := by
  obtain ⟨id, ⟨he, j, hj, ht⟩, hid, hm⟩ := (mem_items h e n d).mp h1
  obtain ⟨id', ⟨_, j', hj', ht'⟩, hid', hm'⟩ := (mem_items h e n d').mp h2
  have := mem_unique h.names hm hm'
  subst this
  have := ho e j j' id he hj hj' (by rw [ht]; exact hid) (by rw [ht']; exact hid')
  subst this
  omega

private theorem walk_has {S : Sbe α} {N : Nat} (h : SbeWF S N) (ho : Once S) (vals : List β) (hv : S.vals.length ≤ vals.length) (zero : β) :
    ∃ m, walk S vals zero = .ok m ∧ FullWF m N ∧ (∀ n, n ∈ m.map (·.1) ↔ n ∈ S.matmap.map (·.1)) ∧
      ∀ e n v, FullHas m e n v ↔ SbeHas S vals e n v ∨
        (e < N ∧ n ∈ S.matmap.map (·.1) ∧ v = zero ∧ ∀ w, ¬ SbeHas S vals e n w) := by
  obtain ⟨m, h1, h2, h3⟩ := walk_spec h vals hv zero
  have hitem : ∀ e n d, (e, n, d) ∈ items S → SbeHas S vals e n (vals.getD d zero) := by
    intro e n d hd
    obtain ⟨id, hs, hid, hm⟩ := (mem_items h e n d).mp hd
    obtain ⟨_, hlt⟩ := h.data e d hs
    exact ⟨d, id, hs, hid, hm, by simp [List.getD, List.getElem?_eq_getElem (show d < vals.length by omega)]⟩
  have hmem : ∀ n e v, (e, v) ∈ (((items S).filter fun x => x.2.1 = n).map fun x => (x.1, vals.getD x.2.2 zero)) ↔ SbeHas S vals e n v := by
    intro n e v
    rw [List.mem_map]
    constructor
    · rintro ⟨⟨e', n', d⟩, hx, heq⟩
      obtain ⟨hx1, hx2⟩ := List.mem_filter.mp hx
      simp only [decide_eq_true_eq] at hx2
      simp only [Prod.mk.injEq] at heq
      obtain ⟨rfl, rfl⟩ := heq
      subst hx2
      exact hitem _ _ _ hx1
    · rintro ⟨d, id, hs, hid, hm, hvd⟩
      exact ⟨(e, n, d), List.mem_filter.mpr ⟨(mem_items h e n d).mpr ⟨id, hs, hid, hm⟩, by simp⟩, by simp [List.getD, hvd]⟩
  have huniq : ∀ e n v v', SbeHas S vals e n v → SbeHas S vals e n v' → v' = v := by
    rintro e n v v' ⟨d, id, hs, hid, hm, hvd⟩ ⟨d', id', hs', hid', hm', hvd'⟩
    have := once_unique h ho ((mem_items h e n d).mpr ⟨id, hs, hid, hm⟩) ((mem_items h e n d').mpr ⟨id', hs', hid', hm'⟩)
    subst this
    rw [hvd] at hvd'; simpa using hvd'.symm
  refine ⟨m, h1, ⟨sorted_names h2, ?_⟩, ?_, ?_⟩
  · rintro ⟨k, row⟩ hx
    rw [((h3 k row).mp hx).2, setAll_length]; simp
  · intro n
    rw [List.mem_map]
    constructor
    · rintro ⟨⟨k, row⟩, hx, rfl⟩
      exact ((h3 k row).mp hx).1
    · intro hn
      exact ⟨(n, _), (h3 n _).mpr ⟨hn, rfl⟩, rfl⟩
  · intro e n v
    constructor
    · rintro ⟨row, hrow, hv⟩
      obtain ⟨hn, rfl⟩ := (h3 n row).mp hrow
      have he : e < N := by
        obtain ⟨hh, _⟩ := List.getElem?_eq_some_iff.mp hv
        rw [setAll_length] at hh; simpa using hh
      rcases Classical.em (∃ w, SbeHas S vals e n w) with ⟨w, hw⟩ | hnone
      · rw [setAll_in _ _ e w (by simpa using he) ((hmem n e w).mpr hw) fun v' hv' => huniq e n w v' hw ((hmem n e v').mp hv')] at hv
        simp only [Option.some.injEq] at hv
        subst hv
        exact .inl hw
      · rw [setAll_out] at hv
        · rw [List.getElem?_replicate, if_pos he] at hv
          simp only [Option.some.injEq] at hv
          exact .inr ⟨he, hn, hv.symm, fun w hw => hnone ⟨w, hw⟩⟩
        · rintro ⟨a, b⟩ hx rfl
          exact hnone ⟨b, (hmem n _ b).mp hx⟩
    · rintro (hw | ⟨he, hn, rfl, hnone⟩)
      · have hw' := hw
        obtain ⟨d, id, hs, hid, hm, hvd⟩ := hw'
        have hn : n ∈ S.matmap.map (·.1) := List.mem_map.mpr ⟨_, hm, rfl⟩
        have he : e < N := by rw [← h.zones]; exact hs.1
        exact ⟨_, (h3 n _).mpr ⟨hn, rfl⟩, setAll_in _ _ e v (by simpa using he) ((hmem n e v).mpr hw)
          fun v' hv' => huniq e n v v' hw ((hmem n e v').mp hv')⟩
      · refine ⟨_, (h3 n _).mpr ⟨hn, rfl⟩, ?_⟩
        rw [setAll_out]
        · rw [List.getElem?_replicate, if_pos he]
        · rintro ⟨a, b⟩ hx rfl
          exact hnone b ((hmem n _ b).mp hx)

/-- C66: `to_multi_buffer_full` of a sparse by element matset keeps every entry and is zero
    elsewhere, for the materials of the material map. -/
theorem C66_element_to_full (zero : α) (S : Sbe α) (N : Nat) (h : SbeWF S N) (ho : Once S) :
    ∃ vfs, toFull zero (.sbe S) = .ok (.full vfs) ∧ FullWF vfs N ∧ (∀ n, n ∈ vfs.map (·.1) ↔ n ∈ S.matmap.map (·.1)) ∧
      ∀ e n v, FullHas vfs e n v ↔ SbeHas S S.vals e n v ∨
        (e < N ∧ n ∈ S.matmap.map (·.1) ∧ v = zero ∧ ∀ w, ¬ SbeHas S S.vals e n w) := by
  obtain ⟨m, h1, h2, h3, h4⟩ := walk_has h ho S.vals (Nat.le_refl _) zero
  exact ⟨m, by simp [toFull, sbeToFull, h1], h2, h3, h4⟩

/-- C67: the field conversion puts the values at the same elements and materials. -/
theorem C67_element_to_full (zero : β) (S : Sbe α) (N : Nat) (h : SbeWF S N) (ho : Once S) (fv : List β) (hf : S.vals.length ≤ fv.length) :
    ∃ fvs, sbeToFullField zero S fv = .ok fvs ∧ FullWF fvs N ∧ (∀ n, n ∈ fvs.map (·.1) ↔ n ∈ S.matmap.map (·.1)) ∧
      ∀ e n w, FullHas fvs e n w ↔ SbeHas S fv e n w ∨
        (e < N ∧ n ∈ S.matmap.map (·.1) ∧ w = zero ∧ ∀ w', ¬ SbeHas S fv e n w') :=
  walk_has h ho fv hf zero

/-! ### sparse by material to full -/

private theorem mem_zip_toNat (es : List Int) (vs : List β) (hes : ∀ x ∈ es, 0 ≤ x) (e : Nat) (v : β) :
    (e, v) ∈ (es.map Int.toNat).zip vs ↔ ∃ k : Nat, es[k]? = some (e : Int) ∧ vs[k]? = some v := by
  rw [List.mem_iff_getElem?]
  simp only [List.getElem?_zip_eq_some, List.getElem?_map]
  constructor
  · rintro ⟨k, h1, h2⟩
    refine ⟨k, ?_, h2⟩
    cases hk : es[k]? with
    | none => rw [hk] at h1; simp at h1
    | some x =>
      rw [hk] at h1
      simp only [Option.map_some, Option.some.injEq] at h1
      have := hes x (List.mem_of_getElem? hk)
      congr 1; omega
  · rintro ⟨k, h1, h2⟩
    exact ⟨k, by rw [h1]; simp, h2⟩

private theorem sbm_has (zero : β) (vals : List (Str × List β)) (eids : List (Str × List Int)) (N : Nat) (h : SbmWF eids vals)
    (hd : Dense eids N) (ho : SbmOnce eids) :
    ∃ m, sbmToFull zero vals eids = .ok m ∧ FullWF m N ∧ (∀ n, n ∈ m.map (·.1) ↔ n ∈ vals.map (·.1)) ∧
      ∀ e n v, FullHas m e n v ↔ SbmHas eids vals e n v ∨
        (e < N ∧ n ∈ vals.map (·.1) ∧ v = zero ∧ ∀ w, ¬ SbmHas eids vals e n w) := by
  obtain ⟨m, h1, h2, h3⟩ := sbmToFull_spec zero h hd
  have hmem : ∀ n es vs e v, (n, es) ∈ eids → (n, vs) ∈ vals → ((e, v) ∈ (es.map Int.toNat).zip vs ↔ SbmHas eids vals e n v) := by
    intro n es vs e v he hv
    rw [mem_zip_toNat es vs fun x hx => ((hd x).mp ⟨n, es, he, hx⟩).1]
    constructor
    · rintro ⟨k, a, b⟩; exact ⟨es, vs, k, he, hv, a, b⟩
    · rintro ⟨es', vs', k, he', hv', a, b⟩
      have := mem_unique h.enames he he'; subst this
      have := mem_unique h.vnames hv hv'; subst this
      exact ⟨k, a, b⟩
  have huniq : ∀ e n v v', SbmHas eids vals e n v → SbmHas eids vals e n v' → v' = v := by
    rintro e n v v' ⟨es, vs, k, he, hv, a, b⟩ ⟨es', vs', k', he', hv', a', b'⟩
    have := mem_unique h.enames he he'; subst this
    have := mem_unique h.vnames hv hv'; subst this
    obtain ⟨hlt, _⟩ := List.getElem?_eq_some_iff.mp a
    have := (List.getElem?_inj hlt (ho n es he)).mp (a.trans a'.symm)
    subst this
    rw [b] at b'; simpa using b'.symm
  have hex : ∀ n, n ∈ vals.map (·.1) → ∃ es vs, (n, es) ∈ eids ∧ (n, vs) ∈ vals := by
    intro n hn
    obtain ⟨⟨n', es⟩, he, rfl⟩ := List.mem_map.mp ((h.same n).mpr hn)
    obtain ⟨⟨n'', vs⟩, hv, hnn⟩ := List.mem_map.mp hn
    simp only at hnn; subst hnn
    exact ⟨es, vs, he, hv⟩
  refine ⟨m, h1, ⟨sorted_names h2, ?_⟩, ?_, ?_⟩
  · rintro ⟨k, row⟩ hx
    obtain ⟨_, _, _, _, rfl⟩ := (h3 k row).mp hx
    simp [setAll_length]
  · intro n
    rw [List.mem_map]
    constructor
    · rintro ⟨⟨k, row⟩, hx, rfl⟩
      obtain ⟨_, vs, _, hv, _⟩ := (h3 k row).mp hx
      exact List.mem_map.mpr ⟨_, hv, rfl⟩
    · intro hn
      obtain ⟨es, vs, he, hv⟩ := hex n hn
      exact ⟨(n, _), (h3 n _).mpr ⟨es, vs, he, hv, rfl⟩, rfl⟩
  · intro e n v
    constructor
    · rintro ⟨row, hrow, hv⟩
      obtain ⟨es, vs, hes, hvs, rfl⟩ := (h3 n row).mp hrow
      have he : e < N := by
        obtain ⟨hh, _⟩ := List.getElem?_eq_some_iff.mp hv
        rw [setAll_length] at hh; simpa using hh
      rcases Classical.em (∃ w, SbmHas eids vals e n w) with ⟨w, hw⟩ | hnone
      · rw [setAll_in _ _ e w (by simpa using he) ((hmem n es vs e w hes hvs).mpr hw)
          fun v' hv' => huniq e n w v' hw ((hmem n es vs e v' hes hvs).mp hv')] at hv
        simp only [Option.some.injEq] at hv
        subst hv
        exact .inl hw
      · rw [setAll_out] at hv
        · rw [List.getElem?_replicate, if_pos he] at hv
          simp only [Option.some.injEq] at hv
          exact .inr ⟨he, List.mem_map.mpr ⟨_, hvs, rfl⟩, hv.symm, fun w hw => hnone ⟨w, hw⟩⟩
        · rintro ⟨a, b⟩ hx rfl
          exact hnone ⟨b, (hmem n es vs _ b hes hvs).mp hx⟩
    · rintro (hw | ⟨he, hn, rfl, hnone⟩)
      · have hw' := hw
        obtain ⟨es, vs, k, hes, hvs, a, b⟩ := hw'
        have he : e < N := by
          have := ((hd (e : Int)).mp ⟨n, es, hes, List.mem_of_getElem? a⟩).2; omega
        exact ⟨_, (h3 n _).mpr ⟨es, vs, hes, hvs, rfl⟩, setAll_in _ _ e v (by simpa using he) ((hmem n es vs e v hes hvs).mpr hw)
          fun v' hv' => huniq e n v v' hw ((hmem n es vs e v' hes hvs).mp hv')⟩
      · obtain ⟨es, vs, hes, hvs⟩ := hex n hn
        refine ⟨_, (h3 n _).mpr ⟨es, vs, hes, hvs, rfl⟩, ?_⟩
        rw [setAll_out]
        · rw [List.getElem?_replicate, if_pos he]
        · rintro ⟨a, b⟩ hx rfl
          exact hnone b ((hmem n es vs _ b hes hvs).mp hx)

/-- C66: `to_multi_buffer_full` of a sparse by material matset keeps every entry and is zero
    elsewhere, provided every element has a material. -/
theorem C66_material_to_full_partial (zero : α) (vfs : List (Str × List α)) (eids : List (Str × List Int)) (N : Nat) (h : SbmWF eids vfs)
    (hd : Dense eids N) (ho : SbmOnce eids) :
    ∃ vfs', toFull zero (.sbm vfs eids) = .ok (.full vfs') ∧ FullWF vfs' N ∧ (∀ n, n ∈ vfs'.map (·.1) ↔ n ∈ vfs.map (·.1)) ∧
      ∀ e n v, FullHas vfs' e n v ↔ SbmHas eids vfs e n v ∨
        (e < N ∧ n ∈ vfs.map (·.1) ∧ v = zero ∧ ∀ w, ¬ SbmHas eids vfs e n w) := by
  obtain ⟨m, h1, h2, h3, h4⟩ := sbm_has zero vfs eids N h hd ho
  exact ⟨m, by simp [toFull, h1], h2, h3, h4⟩

/-- C67: the same for a material dependent field. -/
theorem C67_material_to_full_partial (zero : β) (fvs : List (Str × List β)) (eids : List (Str × List Int)) (N : Nat) (h : SbmWF eids fvs)
    (hd : Dense eids N) (ho : SbmOnce eids) :
    ∃ fvs', sbmToFull zero fvs eids = .ok fvs' ∧ FullWF fvs' N ∧ (∀ n, n ∈ fvs'.map (·.1) ↔ n ∈ fvs.map (·.1)) ∧
      ∀ e n w, FullHas fvs' e n w ↔ SbmHas eids fvs e n w ∨
        (e < N ∧ n ∈ fvs.map (·.1) ∧ w = zero ∧ ∀ w', ¬ SbmHas eids fvs e n w') :=
  sbm_has zero fvs eids N h hd ho

/-! ### sparse by material to sparse by element -/

private theorem matmap_get {vfs : List (Str × List α)} (hn : (vfs.map (·.1)).Nodup) {n : Str} {m : Nat} {c : List α} (h : vfs[m]? = some (n, c)) :
    oget (vfs.zipIdx.map (fun x => (x.1.1, (x.2 : Int)))) n = some (m : Int) := by
  rw [← oget_nodup (by rw [matmap_names]; exact hn), mem_matmap]
  exact ⟨m, c, h, rfl⟩

private theorem material_element_aux [Inhabited α] [Inhabited β] (vfs : List (Str × List α)) (fvs : List (Str × List β)) (eids : List (Str × List Int))
    (N : Nat) (h : SbmWF eids vfs) (h' : SbmWF eids fvs) (hd : Dense eids N) :
    ∃ S, sbmToSbe vfs eids = .ok S ∧ SbeWF S N ∧ (SbmOnce eids → Once S) ∧ S.matmap.map (·.1) = vfs.map (·.1) ∧
      ∃ fv, sbmToSbeField eids fvs = .ok fv ∧ fv.length = S.vals.length ∧
        ∀ e n v w, SbeHas2 S fv e n v w ↔ SbmHas2 eids vfs fvs e n v w := by
  obtain ⟨S, hS, hg, hmm, hids, hvals⟩ := sbmToSbe_spec (default : α) h hd
  have hf := sbmToSbeField_spec (default : β) h h' hd
  have hnum : ∀ n es, (n, es) ∈ eids → ∃ i, oget S.matmap n = some i ∧ (n, i) ∈ S.matmap := by
    intro n es he
    have hn : n ∈ vfs.map (·.1) := (h.same n).mp (List.mem_map.mpr ⟨_, he, rfl⟩)
    obtain ⟨⟨n', c⟩, hc, rfl⟩ := List.mem_map.mp hn
    obtain ⟨m, hm⟩ := List.getElem?_of_mem hc
    have hg := matmap_get h.vnames hm
    rw [← hmm] at hg
    exact ⟨_, hg, (oget_nodup (by rw [hmm, matmap_names]; exact h.vnames) _ _).mpr hg⟩
  have hnames : (S.matmap.map (·.1)).Nodup := by rw [hmm, matmap_names]; exact h.vnames
  have hnums : (S.matmap.map (·.2)).Nodup := by rw [hmm]; exact matmap_nums vfs
  have hwf := hg.wf (fun q => (oget S.matmap q.1).getD 0) (fun q => (valOf vfs q.1).getD q.2 default) hids hvals hnames hnums
    (by
      intro g hgm x hx
      obtain ⟨e, _, rfl⟩ := List.mem_map.mp hgm
      obtain ⟨es, he, _⟩ := (mem_places h e x.1 x.2).mp hx
      obtain ⟨i, hi, hi'⟩ := hnum _ _ he
      rw [hi]
      exact List.mem_map.mpr ⟨_, hi', rfl⟩)
  refine ⟨S, hS, by simpa using hwf, ?_, by rw [hmm, matmap_names], _, hf, by rw [hvals, List.length_map, List.length_map], ?_⟩
  · intro ho
    refine hg.once _ hids ?_
    intro g hgm
    obtain ⟨e, _, rfl⟩ := List.mem_map.mp hgm
    unfold List.Nodup
    rw [List.pairwise_map]
    have hnd : (places (idsOf eids vfs) e).Nodup := by
      unfold places List.Nodup
      rw [List.pairwise_flatMap]
      constructor
      · intro m _
        rw [List.pairwise_map]
        refine List.Pairwise.imp ?_ (List.Nodup.sublist List.filter_sublist (List.nodup_range (n := m.2.length)))
        intro a b hab heq
        exact hab (congrArg Prod.snd heq)
      · have hs : Sorted (idsOf eids vfs) := map_sorted (sbmRep_sorted h) fun _ p => p.1
        refine List.Pairwise.imp ?_ hs
        intro a b hab x hx y hy heq
        obtain ⟨_, _, rfl⟩ := List.mem_map.mp hx
        obtain ⟨_, _, rfl⟩ := List.mem_map.mp hy
        have : a.1 = b.1 := (Prod.mk.inj heq).1
        rw [this, strLt_irrefl] at hab; simp at hab
    refine List.Pairwise.imp_of_mem ?_ hnd
    rintro ⟨n, k⟩ ⟨n', k'⟩ ha hb hne heq
    obtain ⟨es, he, hk⟩ := (mem_places h e n k).mp ha
    obtain ⟨es', he', hk'⟩ := (mem_places h e n' k').mp hb
    obtain ⟨i, hi, hi'⟩ := hnum _ _ he
    obtain ⟨i', hj, hj'⟩ := hnum _ _ he'
    simp only [hi, hj, Option.getD_some] at heq
    subst heq
    have hnn := nodup_map_inj hnums hi' hj' rfl
    have hnn : n = n' := congrArg Prod.fst hnn
    subst hnn
    have := mem_unique h.enames he he'
    subst this
    obtain ⟨hlt, _⟩ := List.getElem?_eq_some_iff.mp hk
    have := (List.getElem?_inj hlt (ho n es he)).mp (hk.trans hk'.symm)
    exact hne (by rw [this])
  · intro e n v w
    rw [hg.has2 (fun q => (oget S.matmap q.1).getD 0) (fun q => (valOf vfs q.1).getD q.2 default) (fun q => (valOf fvs q.1).getD q.2 default) hids hvals]
    constructor
    · rintro ⟨g, ⟨n', k⟩, hge, hx, hm, rfl, rfl⟩
      obtain ⟨_, rfl⟩ := (range_map_get _ _ _ _).mp hge
      obtain ⟨es, he, hk⟩ := (mem_places h e n' k).mp hx
      obtain ⟨i, hi, hi'⟩ := hnum _ _ he
      simp only [hi, Option.getD_some] at hm
      have hnn : n' = n := congrArg Prod.fst (nodup_map_inj hnums hi' hm rfl)
      subst hnn
      obtain ⟨⟨_, vs⟩, hv, hnv⟩ := List.mem_map.mp ((h.same n').mp (List.mem_map.mpr ⟨_, he, rfl⟩))
      obtain ⟨⟨_, ws⟩, hw, hnw⟩ := List.mem_map.mp ((h'.same n').mp (List.mem_map.mpr ⟨_, he, rfl⟩))
      simp only at hnv hnw
      subst hnv
      subst hnw
      obtain ⟨hlt, _⟩ := List.getElem?_eq_some_iff.mp hk
      have l1 := h.len _ _ _ he hv
      have l2 := h'.len _ _ _ he hw
      refine ⟨es, vs, ws, k, he, hv, hw, hk, ?_, ?_⟩
      · rw [valOf_eq h.vnames hv]; simp [List.getD, List.getElem?_eq_getElem (show k < vs.length by omega)]
      · rw [valOf_eq h'.vnames hw]; simp [List.getD, List.getElem?_eq_getElem (show k < ws.length by omega)]
    · rintro ⟨es, vs, ws, k, he, hv, hw, hek, hvk, hwk⟩
      obtain ⟨i, hi, hi'⟩ := hnum _ _ he
      have heN : e < N := by
        have := ((hd (e : Int)).mp ⟨n, es, he, List.mem_of_getElem? hek⟩).2; omega
      refine ⟨_, (n, k), (range_map_get _ _ _ _).mpr ⟨heN, rfl⟩, (mem_places h e n k).mpr ⟨es, he, hek⟩, ?_, ?_, ?_⟩
      · simp only [hi, Option.getD_some]; exact hi'
      · simp only [valOf_eq h.vnames hv, List.getD, hvk, Option.getD_some]
      · simp only [valOf_eq h'.vnames hw, List.getD, hwk, Option.getD_some]

/-- C66: `to_sparse_by_element` of a sparse by material matset keeps every entry, provided every
    element has a material. -/
theorem C66_material_to_element_partial [Inhabited α] (big : α → Bool) (vfs : List (Str × List α)) (eids : List (Str × List Int)) (N : Nat)
    (h : SbmWF eids vfs) (hd : Dense eids N) :
    ∃ S, toSbe big (.sbm vfs eids) = .ok (.sbe S) ∧ SbeWF S N ∧ (SbmOnce eids → Once S) ∧ S.matmap.map (·.1) = vfs.map (·.1) ∧
      ∀ e n v, SbeHas S S.vals e n v ↔ SbmHas eids vfs e n v := by
  obtain ⟨S, h1, h2, h3, h4, fv, h5, h6, h7⟩ := material_element_aux vfs vfs eids N h h hd
  refine ⟨S, by simp [toSbe, h1], h2, h3, h4, ?_⟩
  intro e n v
  constructor
  · rintro ⟨d, id, hs, hid, hm, hv⟩
    obtain ⟨_, hlt⟩ := h2.data e d hs
    obtain ⟨es, vs, ws, k, a, b, _, c, f, _⟩ := (h7 e n v (fv.getD d default)).mp ⟨d, id, hs, hid, hm, hv,
      by simp [List.getD, List.getElem?_eq_getElem (show d < fv.length by omega)]⟩
    exact ⟨es, vs, k, a, b, c, f⟩
  · rintro ⟨es, vs, k, a, b, c, f⟩
    obtain ⟨d, id, hs, hid, hm, hv, _⟩ := (h7 e n v v).mpr ⟨es, vs, vs, k, a, b, b, c, f, f⟩
    exact ⟨d, id, hs, hid, hm, hv⟩

/-- C67: the same for a material dependent field. -/
theorem C67_material_to_element_partial [Inhabited α] [Inhabited β] (vfs : List (Str × List α)) (fvs : List (Str × List β))
    (eids : List (Str × List Int)) (N : Nat) (h : SbmWF eids vfs) (h' : SbmWF eids fvs) (hd : Dense eids N) :
    ∃ S fv, sbmToSbe vfs eids = .ok S ∧ sbmToSbeField eids fvs = .ok fv ∧ fv.length = S.vals.length ∧
      ∀ e n v w, SbeHas2 S fv e n v w ↔ SbmHas2 eids vfs fvs e n v w := by
  obtain ⟨S, h1, _, _, _, fv, h5, h6, h7⟩ := material_element_aux vfs fvs eids N h h' hd
  exact ⟨S, fv, h1, h5, h6, h7⟩

/-! ### round trips -/

/-- C66: going to the sparse by element form and back changes nothing but the entries that are not
    above epsilon, which become zero. -/
theorem C66_full_element_full [Inhabited α] (big : α → Bool) (zero : α) (vfs : List (Str × List α)) (N : Nat) (h : FullWF vfs N) (hne : vfs ≠ []) :
    ∃ S vfs', toSbe big (.full vfs) = .ok (.sbe S) ∧ toFull zero (.sbe S) = .ok (.full vfs') ∧ FullWF vfs' N ∧
      ∀ e n v, FullHas vfs' e n v ↔ ∃ v', FullHas vfs e n v' ∧ v = if big v' then v' else zero := by
  obtain ⟨S, h1, h2, h3, h4, h5⟩ := C66_full_to_element big vfs N h hne
  obtain ⟨vfs', g1, g2, g3, g4⟩ := C66_element_to_full zero S N h2 h3
  refine ⟨S, vfs', h1, g1, g2, ?_⟩
  intro e n v
  rw [g4, h5, h4]
  constructor
  · rintro (⟨a, b⟩ | ⟨he, hn, rfl, hno⟩)
    · exact ⟨v, a, by simp [b]⟩
    · obtain ⟨⟨n', c⟩, hc, rfl⟩ := List.mem_map.mp hn
      have hl := h.len _ hc
      simp only at hl
      have hce : c[e]? = some c[e] := List.getElem?_eq_getElem (by omega)
      refine ⟨_, ⟨c, hc, hce⟩, ?_⟩
      have := hno c[e]
      rw [h5] at this
      by_cases hb : big c[e] = true
      · exact absurd ⟨⟨c, hc, hce⟩, hb⟩ this
      · simp [hb]
  · rintro ⟨v', hv', rfl⟩
    by_cases hb : big v' = true
    · simp only [hb, if_true]; exact .inl ⟨hv', trivial⟩
    · right
      obtain ⟨c, hc, hce⟩ := hv'
      have hl := h.len _ hc
      obtain ⟨hlt, _⟩ := List.getElem?_eq_some_iff.mp hce
      refine ⟨by simp only at hl; omega, List.mem_map.mpr ⟨_, hc, rfl⟩, by simp [hb], ?_⟩
      intro w hw
      obtain ⟨⟨c', hc', hce'⟩, hbw⟩ := (h5 e n w).mp hw
      have := mem_unique h.names hc hc'
      subst this
      rw [hce] at hce'
      simp only [Option.some.injEq] at hce'
      subst hce'
      exact hb hbw

/-! ### cases -/

private def mA : Str := chars! "a"
private def mB : Str := chars! "b"

private theorem hnm : ([mA, mB] : List Str).Nodup := by decide +kernel

/-- two materials over three elements, the middle one mixed -/
private def exFull : List (Str × List Nat) := [(mB, [0, 4, 7]), (mA, [9, 5, 0])]

private theorem exFullWF : FullWF exFull 3 := ⟨by decide +kernel, by decide +kernel⟩

/-- The hypotheses hold of a matset with a mixed element, and the conversion is as expected. -/
example : FullWF exFull 3 ∧ exFull ≠ [] ∧ toSbe (fun v => decide (0 < v)) (.full exFull) = .ok (.sbe
      { matmap := [(mB, 0), (mA, 1)], sizes := some [1, 2, 1], offsets := some [0, 1, 3], indices := none,
        ids := [1, 0, 1, 0], vals := [9, 4, 5, 7] }) :=
  ⟨exFullWF, by decide, by decide +kernel⟩

example : toSbm (fun v => decide (0 < v)) (.full exFull) =
    .ok (.sbm [(mB, [4, 7]), (mA, [9, 5])] [(mB, [1, 2]), (mA, [0, 1])]) := by decide +kernel

/-- a well formed sparse by element matset that is not laid out as the conversions would -/
def exSbe : Sbe Nat :=
  { matmap := [(mB, 5), (mA, 2)], sizes := some [1, 2], offsets := some [0, 1], indices := some [2, 0, 1],
    ids := [2, 5, 5], vals := [6, 4, 9] }

theorem exSbeWF : SbeWF exSbe 2 := by
  have hz : ones exSbe.rel = 2 := by decide +kernel
  have hslot : ∀ e d, Slot exSbe e d → d < 3 := by
    rintro e d ⟨he, j, hj, ht⟩
    rw [hz] at he
    match e, he with
    | 0, _ => match j, hj with
      | 0, _ => have : target exSbe.rel 0 0 = 2 := by decide +kernel
                omega
    | 1, _ => match j, hj with
      | 0, _ => have : target exSbe.rel 1 0 = 0 := by decide +kernel
                omega
      | 1, _ => have : target exSbe.rel 1 1 = 1 := by decide +kernel
                omega
  refine ⟨?_, hz, ⟨[0, 1], rfl, rfl⟩, by decide, by decide +kernel, ?_, by decide +kernel, by decide +kernel, ?_⟩
  · refine ⟨?_, ?_, ?_⟩
    · intro s h; injection h with h; subst h; decide
    · intro o h; injection h with h; subst h; decide
    · intro ix h; injection h with h; subst h; decide +kernel
  · intro e d h
    have := hslot e d h
    exact ⟨this, this⟩
  · intro e d id h hid
    have := hslot e d h
    match d, this with
    | 0, _ => have : id = 2 := by simpa [exSbe] using hid.symm
              subst this; decide
    | 1, _ => have : id = 5 := by simpa [exSbe] using hid.symm
              subst this; decide
    | 2, _ => have : id = 5 := by simpa [exSbe] using hid.symm
              subst this; decide

theorem exOnce : Once exSbe := by
  have hz : ones exSbe.rel = 2 := by decide +kernel
  intro e j j' id he hj hj' h1 h2
  rw [hz] at he
  match e, he with
  | 0, _ =>
    have hs : size exSbe.rel 0 = 1 := by decide +kernel
    omega
  | 1, _ =>
    match j, hj, j', hj' with
    | 0, _, 0, _ => rfl
    | 1, _, 1, _ => rfl
    | 0, _, 1, _ =>
      have a : exSbe.ids[(target exSbe.rel 1 0).toNat]? = some 2 := by decide +kernel
      have b : exSbe.ids[(target exSbe.rel 1 1).toNat]? = some 5 := by decide +kernel
      rw [a] at h1; rw [b, ← h1] at h2; simp at h2
    | 1, _, 0, _ =>
      have a : exSbe.ids[(target exSbe.rel 1 0).toNat]? = some 2 := by decide +kernel
      have b : exSbe.ids[(target exSbe.rel 1 1).toNat]? = some 5 := by decide +kernel
      rw [a] at h2; rw [b, ← h2] at h1; simp at h1

/-- The hypotheses hold of a matset with "indices", material numbers that are not positions and a
    mixed element; the conversions of it and of a field over it are as expected. -/
example : SbeWF exSbe 2 ∧ Once exSbe ∧
    toFull 0 (.sbe exSbe) = .ok (.full [(mA, [0, 6]), (mB, [9, 4])]) ∧
    toSbm (fun v => decide (0 < v)) (.sbe exSbe) = .ok (.sbm [(mA, [6]), (mB, [9, 4])] [(mA, [1]), (mB, [0, 1])]) ∧
    sbeToFullField 0 exSbe [60, 40, 90] = .ok [(mA, [0, 60]), (mB, [90, 40])] ∧
    sbeToSbmField exSbe [60, 40, 90] = .ok [(mA, [60]), (mB, [90, 40])] :=
  ⟨exSbeWF, exOnce, by decide +kernel, by decide +kernel, by decide +kernel, by decide +kernel⟩

private def exIds : List (Str × List Int) := [(mB, [2, 0]), (mA, [1, 0])]
private def exVfs : List (Str × List Nat) := [(mA, [8, 3]), (mB, [5, 6])]
private def exFvs : List (Str × List Nat) := [(mB, [50, 60]), (mA, [80, 30])]

private theorem two_names {γ δ : Type} {x y : γ} {u v : δ} (n : Str) (es : γ) (vs : δ) :
    (n, es) ∈ [(mB, x), (mA, y)] → (n, vs) ∈ [(mA, v), (mB, u)] → (es = x ∧ vs = u) ∨ (es = y ∧ vs = v) := by
  have hne : mA ≠ mB := by decide +kernel
  simp only [List.mem_cons, List.not_mem_nil, or_false, Prod.mk.injEq]
  rintro (⟨rfl, rfl⟩ | ⟨rfl, rfl⟩) (⟨h, rfl⟩ | ⟨h, rfl⟩)
  · exact absurd h.symm hne
  · exact .inl ⟨rfl, rfl⟩
  · exact .inr ⟨rfl, rfl⟩
  · exact absurd h hne

private theorem exSbmWF : SbmWF exIds exVfs := by
  refine ⟨by decide +kernel, by decide +kernel, ?_, ?_⟩
  · intro n
    simp only [exIds, exVfs, List.map_cons, List.map_nil, List.mem_cons, List.not_mem_nil, or_false]
    exact Or.comm
  · intro n es vs h1 h2
    rcases two_names n es vs h1 h2 with ⟨rfl, rfl⟩ | ⟨rfl, rfl⟩ <;> rfl

private theorem exDense : Dense exIds 3 := by
  intro x
  simp only [exIds, List.mem_cons, List.not_mem_nil, or_false, Prod.mk.injEq]
  constructor
  · rintro ⟨n, es, ⟨rfl, rfl⟩ | ⟨rfl, rfl⟩, hx⟩ <;>
    · simp only [List.mem_cons, List.not_mem_nil, or_false] at hx
      rcases hx with rfl | rfl <;> decide
  · rintro ⟨h1, h2⟩
    have : x = 0 ∨ x = 1 ∨ x = 2 := by omega
    rcases this with rfl | rfl | rfl
    · exact ⟨mB, _, .inl ⟨rfl, rfl⟩, by decide⟩
    · exact ⟨mA, _, .inr ⟨rfl, rfl⟩, by decide⟩
    · exact ⟨mB, _, .inl ⟨rfl, rfl⟩, by decide⟩

private theorem exSbmOnce : SbmOnce exIds := by
  intro n es
  simp only [exIds, List.mem_cons, List.not_mem_nil, or_false, Prod.mk.injEq]
  rintro (⟨rfl, rfl⟩ | ⟨rfl, rfl⟩) <;> decide

/-- The hypotheses hold of a matset whose "element_ids" are unordered and whose materials come in
    different orders; the conversions of it and of a field over it are as expected. -/
example : SbmWF exIds exVfs ∧ Dense exIds 3 ∧ SbmOnce exIds ∧
    toFull 0 (.sbm exVfs exIds) = .ok (.full [(mA, [3, 8, 0]), (mB, [6, 0, 5])]) ∧
    toSbe (fun v => decide (0 < v)) (.sbm exVfs exIds) = .ok (.sbe
      { matmap := [(mA, 0), (mB, 1)], sizes := some [2, 1, 1], offsets := some [0, 2, 3], indices := none,
        ids := [0, 1, 0, 1], vals := [3, 6, 8, 5] }) ∧
    sbmToFull 0 exFvs exIds = .ok [(mA, [30, 80, 0]), (mB, [60, 0, 50])] ∧
    sbmToSbeField exIds exFvs = .ok [30, 60, 80, 50] :=
  ⟨exSbmWF, exDense, exSbmOnce, by decide +kernel, by decide +kernel, by decide +kernel, by decide +kernel⟩

/-! ### where the claims fail -/

/-- C66 is false for a sparse by material matset in which some element has no material: the number
    of elements is taken to be the number of different element ids, and the larger ids are written
    past the end. -/
theorem C66_gap_in_ids_is_ub : toFull 0 (.sbm [(mA, [8])] [(mA, [1])]) = .ub ∧
    toSbe (fun v : Nat => decide (0 < v)) (.sbm [(mA, [8])] [(mA, [1])]) = .ub := by
  constructor <;> decide +kernel

/-- Such a matset is what `to_multi_buffer_by_material` makes of a full matset with an element
    without materials, so that converting back is undefined. -/
theorem C66_empty_element_breaks_round_trip :
    FullWF [(mA, [0, 8])] 2 ∧ toSbm (fun v : Nat => decide (0 < v)) (.full [(mA, [0, 8])]) = .ok (.sbm [(mA, [8])] [(mA, [1])]) ∧
    toFull 0 (.sbm [(mA, [8])] [(mA, [1])]) = .ub :=
  ⟨⟨by decide +kernel, by decide +kernel⟩, by decide +kernel, by decide +kernel⟩

/-- A full matset whose last element has no material loses that element on the way. -/
theorem C66_empty_last_element_lost :
    toSbm (fun v : Nat => decide (0 < v)) (.full [(mA, [8, 0])]) = .ok (.sbm [(mA, [8])] [(mA, [0])]) ∧
    toFull 0 (.sbm [(mA, [8])] [(mA, [0])]) = .ok (.full [(mA, [8])]) := by
  constructor <;> decide +kernel

/-- A uni-buffer, material dominant matset converts to an empty one. -/
theorem C66_material_dominant_unibuffer_lost (S : Sbe α) (eids : List Int) (zero : α) (big : α → Bool) :
    toFull zero (.ubm S eids) = .ok (.full []) ∧
    toSbe big (.ubm S eids) = .ok (.sbe ⟨[], some [], some [], none, [], []⟩) ∧
    toSbm big (.ubm S eids) = .ok (.ubm S eids) := ⟨rfl, rfl, rfl⟩

/-- A material number that the material map does not list is undefined behaviour in the conversion
    to the full form, and becomes a material without a name in the sparse by material form. -/
theorem C66_unknown_material :
    toFull 0 (.sbe (⟨[(mA, 0)], some [1], some [0], none, [3], [8]⟩ : Sbe Nat)) = .ub ∧
    toSbm (fun v : Nat => decide (0 < v)) (.sbe ⟨[(mA, 0)], some [1], some [0], none, [3], [8]⟩) = .ok (.sbm [([], [8])] [([], [0])]) := by
  constructor <;> decide +kernel

/-- An element that lists a material twice keeps the last volume fraction only. -/
theorem C66_duplicate_lost :
    toFull 0 (.sbe (⟨[(mA, 0)], some [2], some [0], none, [0, 0], [3, 5]⟩ : Sbe Nat)) = .ok (.full [(mA, [5])]) := by decide +kernel

/-- A sparse by element matset without "offsets" (one material per element) converts as if it had
    no elements. -/
theorem C66_no_offsets_lost :
    toFull 0 (.sbe (⟨[(mA, 0)], none, none, none, [0], [8]⟩ : Sbe Nat)) = .ok (.full [(mA, [])]) ∧
    toSbm (fun v : Nat => decide (0 < v)) (.sbe ⟨[(mA, 0)], none, none, none, [0], [8]⟩) = .ok (.sbm [] []) := by
  constructor <;> decide +kernel

/-- C67 is false without equal material order: the conversion of a field that lists the materials
    in another order than its full matset is an error, and a field that lacks the last material
    yields a shorter array than the matset does. -/
theorem C67_field_order : fullToSbeField (fun v : Nat => decide (0 < v)) [(mA, [3]), (mB, [4])] [(mB, [40]), (mA, [30])] = .error ∧
    fullToSbeField (fun v : Nat => decide (0 < v)) [(mA, [3, 5]), (mB, [4, 0])] [(mA, [30, 50])] = .ok [30, 50] ∧
    toSbe (fun v : Nat => decide (0 < v)) (.full [(mA, [3, 5]), (mB, [4, 0])]) =
      .ok (.sbe ⟨[(mA, 0), (mB, 1)], some [2, 1], some [0, 2], none, [0, 1, 0], [3, 4, 5]⟩) := by
  refine ⟨by decide +kernel, by decide +kernel, by decide +kernel⟩

end Conduit.Matset
