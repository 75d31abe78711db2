import Verif.Lemmas.McarrayConv
/-
The layout conversions: the values arrive.
-/
namespace Conduit.MCArray
open Conduit Spec Schema Node

/-- One component: its name, where its data is, its type, and its type in the result. -/
structure Comp where
  name : Str
  x : Info
  d : DataType
  t : DataType

/-- The components as children of the source. -/
def srcKids (ks : List Comp) : List (Str × Node) := ks.map fun k => (k.name, .leaf k.x k.d)
/-- The components as children of the result, whose data is at `p`. -/
def outKids (p : Ptr) (ks : List Comp) : List (Str × Node) := ks.map fun k => (k.name, .leaf ⟨some p, false⟩ k.t)

theorem walkE_out (p : Ptr) : ∀ ks : List Comp,
    walkE (some p) (ks.map fun k => (k.name, Tree.leaf k.t)) = outKids p ks
  | [] => rfl
  | k :: ks => by simp only [List.map_cons, walkE, walk, outKids, walkE_out p ks]

theorem forwardE_out : ∀ ks : List Comp, (∀ k ∈ ks, Forward (.leaf k.t)) → ForwardE (ks.map fun k => (k.name, Tree.leaf k.t))
  | [], _ => trivial
  | k :: ks, h => ⟨h k List.mem_cons_self, forwardE_out ks fun j hj => h j (List.mem_cons_of_mem _ hj)⟩

theorem natE_out (p : Ptr) : ∀ ks : List Comp, (∀ k ∈ ks, k.t.ele = k.t.id.bytes) → NatSizeE (outKids p ks)
  | [], _ => trivial
  | k :: ks, h => ⟨fun _ => h k List.mem_cons_self, natE_out p ks fun j hj => h j (List.mem_cons_of_mem _ hj)⟩

theorem readableE_out {m : Mem} (p : Ptr) : ∀ ks : List Comp,
    (∀ k ∈ ks, k.t.id ≠ .empty ∧ k.t.id ≠ .object ∧ k.t.id ≠ .list ∧ 0 ≤ k.t.n) →
    valE m (outKids p ks) = zerosE (ks.map fun k => (k.name, Tree.leaf k.t)) → ReadableE m (outKids p ks)
  | [], _, _ => trivial
  | k :: ks, h, hv => by
    obtain ⟨a, b, c, e⟩ := h k List.mem_cons_self
    simp only [outKids, List.map_cons, valE, zerosE, List.cons.injEq, Prod.mk.injEq, true_and] at hv
    refine ⟨⟨b, c, e, fun _ => ?_⟩, readableE_out p ks (fun j hj => h j (List.mem_cons_of_mem _ hj)) hv.2⟩
    have hv1 := hv.1
    simp only [val, zeros, if_neg a, Val.leaf.injEq, true_and] at hv1
    rw [hv1]
    intro e' he' b' hb'
    rw [(List.mem_replicate.mp he').2] at hb'
    rw [(List.mem_replicate.mp hb').2]; rfl

theorem distinctE_src {m : Mem} : ∀ ks : List Comp, DistinctVE (valE m (srcKids ks))
  | [] => trivial
  | k :: ks => by
    refine ⟨?_, distinctE_src ks⟩
    simp only [val]; split <;> trivial
theorem distinctE_out {m : Mem} (p : Ptr) : ∀ ks : List Comp, DistinctVE (valE m (outKids p ks))
  | [] => trivial
  | k :: ks => by
    refine ⟨?_, distinctE_out p ks⟩
    simp only [val]; split <;> trivial

theorem names_valE {m : Mem} : ∀ es : List (Str × Node), (valE m es).map Prod.fst = es.map Prod.fst
  | [] => rfl
  | (n, c) :: es => by simp only [valE, List.map_cons, names_valE es]

/-- Elements of the same number and type written over others are the elements. -/
theorem overlay_same {m m' : Mem} {x y : Info} {d t : DataType} (he : d.id ≠ .empty) (h1 : t.id = d.id) (h2 : t.n = d.n)
    (h3 : t.endian = d.endian) : overlay (val m (.leaf x d)) (val m' (.leaf y t)) = val m (.leaf x d) := by
  simp only [val, h1, if_neg he, overlay, overLeaf]
  rw [if_pos ⟨trivial, by simp [elems, h2]⟩, h3]
  congr 1
  rw [List.drop_eq_nil_of_le (by simp [elems, h2]), List.append_nil]

theorem overlayE_out {m m' : Mem} (p : Ptr) : ∀ (ks A : List Comp), ((A ++ ks).map Comp.name).Nodup →
    (∀ k ∈ ks, k.d.id ≠ .empty ∧ k.t.id = k.d.id ∧ k.t.n = k.d.n ∧ k.t.endian = k.d.endian) →
    overlayE (valE m (srcKids (A ++ ks))) (valE m' (outKids p ks)) = valE m (srcKids ks)
  | [], A, _, _ => rfl
  | k :: ks, A, hn, h => by
    obtain ⟨a, b, c, d⟩ := h k List.mem_cons_self
    have hent : entry k.name (valE m (srcKids (A ++ k :: ks))) = some (val m (.leaf k.x k.d)) := by
      clear h
      induction A with
      | nil => simp [srcKids, valE, entry]
      | cons e A ih =>
        simp only [List.cons_append, List.map_cons, List.nodup_cons] at hn
        have hne : e.name ≠ k.name := by
          intro h; apply hn.1; rw [h]; simp
        have := ih hn.2
        simp only [srcKids, List.cons_append, List.map_cons, valE, entry, if_neg hne] at this ⊢
        exact this
    have ih := overlayE_out p ks (A ++ [k]) (m := m) (m' := m') (by simpa using hn) fun j hj => h j (List.mem_cons_of_mem _ hj)
    simp only [List.append_assoc, List.singleton_append] at ih
    show overlayE _ ((k.name, val m' (.leaf ⟨some p, false⟩ k.t)) :: valE m' (outKids p ks)) = (k.name, val m (.leaf k.x k.d)) :: valE m (srcKids ks)
    rw [overlayE, hent, ih]
    simp only [overlay_same a b c d]

theorem pos_out (p : Ptr) : ∀ (ks : List Comp), (ks.map Comp.name).Nodup → ∀ k ∈ ks, ∃ i, posOf (outKids p ks) k.name = some i ∧
    (outKids p ks)[i]? = some (k.name, .leaf ⟨some p, false⟩ k.t)
  | [], _, k, hk => by simp at hk
  | e :: ks, hn, k, hk => by
    simp only [List.map_cons, List.nodup_cons] at hn
    rcases List.mem_cons.mp hk with rfl | hk
    · exact ⟨0, by simp [posOf, outKids, List.findIdx?_cons], rfl⟩
    · obtain ⟨i, h1, h2⟩ := pos_out p ks hn.2 k hk
      refine ⟨i + 1, ?_, h2⟩
      have hne : e.name ≠ k.name := by
        intro h; exact hn.1 (h ▸ List.mem_map_of_mem hk)
      simp only [posOf, outKids, List.map_cons, List.findIdx?_cons, beq_eq_false_iff_ne.mpr hne, Bool.false_eq_true, if_false]
      simp only [posOf, outKids] at h1
      rw [h1]; rfl

/-- Both conversions, for a layout without overlap. -/
theorem convert_spec (ks : List Comp) (x : Info) (dest : Node) (m : Mem) (hne : ks ≠ [])
    (hplain : ∀ k ∈ ks, '/' ∉ k.name) (hnod : (ks.map Comp.name).Nodup)
    (hid : ∀ k ∈ ks, k.d.id ≠ .empty ∧ k.d.id ≠ .object ∧ k.d.id ≠ .list ∧ 0 ≤ k.d.n ∧ k.d.ele = k.d.id.bytes)
    (hsame : ∀ k ∈ ks, k.t.id = k.d.id ∧ k.t.n = k.d.n ∧ k.t.endian = k.d.endian ∧ k.t.ele = k.d.ele)
    (hfw : ∀ k ∈ ks, 0 ≤ k.t.offset ∧ 0 ≤ k.t.stride)
    (hsep : (placesE (outKids ⟨m.length, 0⟩ ks)).Pairwise NoShare)
    (hr : Readable m (.obj x (srcKids ks))) (hd : GoodOwners m (owned dest))
    (hap : ∀ p ∈ owned dest, p.blk ∉ blocks (.obj x (srcKids ks))) :
    ∃ m', ((layoutSchema ((ks.map Comp.name).zip (ks.map Comp.t)) RSchema.empty).bind fun r =>
        (setSchema (toSchema r) dest m).bind fun p => update (.obj x (srcKids ks)) p.2 p.1)
          = .ok (m', .obj ⟨some ⟨m.length, 0⟩, true⟩ (outKids ⟨m.length, 0⟩ ks)) ∧
      val m' (.obj ⟨some ⟨m.length, 0⟩, true⟩ (outKids ⟨m.length, 0⟩ ks)) = val m (.obj x (srcKids ks)) ∧
      val m' (.obj x (srcKids ks)) = val m (.obj x (srcKids ks)) ∧
      (∀ b i, b < m.length → b ∉ (owned dest).map Ptr.blk → m'.byte b i = m.byte b i) := by
  -- the schema
  have hz : (ks.map Comp.name).zip (ks.map Comp.t) = ks.map fun k => (k.name, k.t) := List.zip_map'
  obtain ⟨r, r1, r2⟩ := layout_plain (ks.map fun k => (k.name, k.t)) [] RSchema.empty flat_empty
    (by intro e he; obtain ⟨k, hk, rfl⟩ := List.mem_map.mp he; exact hplain k hk)
    (by simpa [List.map_map, Function.comp_def] using hnod)
    (by
      intro e he; obtain ⟨k, hk, rfl⟩ := List.mem_map.mp he
      obtain ⟨_, b, c, _⟩ := hid k hk
      rw [(hsame k hk).1]; exact ⟨b, c⟩)
    (by simpa using hne)
  have hs : toSchema r = .obj (ks.map fun k => (k.name, Tree.leaf k.t)) := by rw [r2]; simp [Function.comp_def]
  rw [hz, r1]
  simp only [Res.bind, hs]
  -- the buffer
  obtain ⟨m1, a1, a2⟩ := releaseMem_spec dest m hd
  have hlen : m1.length = m.length := a2.1
  generalize hS : (Tree.obj (ks.map fun k => (k.name, Tree.leaf k.t)) : Schema) = S
  have hfwS : Forward S := by
    subst hS
    refine forwardE_out ks fun k hk => Or.inr ?_
    obtain ⟨_, _, _, d, e⟩ := hid k hk
    obtain ⟨f, g, _, i⟩ := hsame k hk
    obtain ⟨o, s⟩ := hfw k hk
    refine ⟨o, s, by omega, ?_⟩
    rw [f]; omega
  have h0 : 0 ≤ (Schema.spannedBytes S) := by subst hS; exact (spanE_ge _ 0).1
  have hall : allocate m1 (Schema.spannedBytes S) =
      ((m1.alloc ((Schema.spannedBytes S).toNat)).1, { data := some ⟨m1.length, 0⟩, alloced := true }) := by
    rw [allocate, if_neg (by omega)]; rfl
  have hw : walk (some ⟨m.length, 0⟩) true S = .obj ⟨some ⟨m.length, 0⟩, true⟩ (outKids ⟨m.length, 0⟩ ks) := by
    subst hS; rw [walk, walkE_out]
  have hset : setSchema S dest m = .ok ((m1.alloc ((Schema.spannedBytes S).toNat)).1, .obj ⟨some ⟨m.length, 0⟩, true⟩ (outKids ⟨m.length, 0⟩ ks)) := by
    rw [setSchema, a1, Res.bind_ok, hall, hlen]
    simp only [hw]
  rw [hset]
  simp only
  generalize hm2 : (m1.alloc ((Schema.spannedBytes S).toNat)).1 = m2
  have hold : ∀ b i, b < m.length → b ∉ (owned dest).map Ptr.blk → m2.byte b i = m.byte b i := by
    intro b i hb hb'
    rw [← hm2, Mem.byte_alloc_old _ _ _ _ (by omega), a2.byte hb']
  have hz2 : val m2 (walk (some ⟨m.length, 0⟩) true S) = zeros S := by
    rw [val_walk]
    apply view_zeros S hfwS
    intro i hi1 hi2
    simp only [Mem.byteAt]
    rw [← hm2, ← hlen, Mem.byte_alloc_new, if_pos (by omega)]
  rw [hw] at hz2
  -- the source is untouched
  have hsrc : Same m m2 (.obj x (srcKids ks)) := by
    intro pl hpl b i hh
    have hb := has_blocks _ pl hpl b i hh
    refine hold b i (blocks_lt _ hr b hb) ?_
    intro h; obtain ⟨p, hp, rfl⟩ := List.mem_map.mp h
    exact hap p hp hb
  have hupd : update (.obj x (srcKids ks)) (.obj ⟨some ⟨m.length, 0⟩, true⟩ (outKids ⟨m.length, 0⟩ ks)) m2 =
      updateCompatible (.obj x (srcKids ks)) (.obj ⟨some ⟨m.length, 0⟩, true⟩ (outKids ⟨m.length, 0⟩ ks)) m2 := by
    rw [update, updateCompatible]
    apply updateE_compat
    · intro e he; obtain ⟨k, hk, rfl⟩ := List.mem_map.mp he; exact ⟨_, _, rfl⟩
    · intro e he; obtain ⟨k, hk, rfl⟩ := List.mem_map.mp he
      obtain ⟨i, p1, p2⟩ := pos_out ⟨m.length, 0⟩ ks hnod k hk
      obtain ⟨f, g, _, _⟩ := hsame k hk
      exact ⟨i, _, p1, p2, f, by simp only [dtype]; omega, _, _, rfl⟩
  have hnames : (srcKids ks).map Prod.fst = ks.map Comp.name := by simp [srcKids, Function.comp_def]
  have hnames' : (outKids ⟨m.length, 0⟩ ks).map Prod.fst = ks.map Comp.name := by simp [outKids, Function.comp_def]
  have hout : ∀ b ∈ placesE (outKids ⟨m.length, 0⟩ ks), ∀ c i, b.Has c i → c = m.length := by
    intro b hb c i hh
    have := has_blocksE _ b hb c i hh
    have e := blocks_walk ⟨m.length, 0⟩ true S c (by rw [hw]; exact this)
    exact e
  obtain ⟨m', c1, c2, c3, c4⟩ := C27_update_compatible (.obj x (srcKids ks)) (.obj ⟨some ⟨m.length, 0⟩, true⟩ (outKids ⟨m.length, 0⟩ ks)) m2
    (readable_same _ hsrc hr)
    (by
      refine readableE_out _ ks ?_ ?_
      · intro k hk
        obtain ⟨a, b, c, d, e⟩ := hid k hk
        obtain ⟨f, g, _, _⟩ := hsame k hk
        rw [f, g]; exact ⟨a, b, c, d⟩
      · rw [← hS] at hz2
        simpa only [val, zeros, Val.obj.injEq] using hz2)
    (natE_out _ ks fun k hk => by
      rw [(hsame k hk).2.2.2, (hsame k hk).1]; exact (hid k hk).2.2.2.2)
    hsep
    (by
      intro a ha b hb c i h1 h2
      have e1 : c = m.length := hout b hb c i h2
      have e2 := blocks_lt _ hr c (has_blocks _ a ha c i h1)
      omega)
    ⟨by rw [names_valE, hnames]; exact hnod, distinctE_src ks⟩
    ⟨by rw [names_valE, hnames']; exact hnod, distinctE_out _ ks⟩
  have hv : val m2 (.obj x (srcKids ks)) = val m (.obj x (srcKids ks)) := val_same _ hsrc
  refine ⟨m', by rw [hupd, c1], ?_, by rw [c3, hv], ?_⟩
  · rw [c2, hv]
    simp only [val, overlay, Val.obj.injEq]
    exact overlayE_out ⟨m.length, 0⟩ ks [] (by simpa using hnod) fun k hk =>
      ⟨(hid k hk).1, (hsame k hk).1, (hsame k hk).2.1, (hsame k hk).2.2.1⟩
  · intro b i hb hb'
    rw [c4 b i, hold b i hb hb']
    intro pl hpl hh
    have := hout pl hpl b i hh
    omega

end Conduit.MCArray
