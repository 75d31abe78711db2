import Verif.Spec.Update
import Verif.Lemmas.NodeEndian
import Verif.Lemmas.NodeSet
/-
Lemmas about places, in-place leaf copies and frames, for update and
update_compatible (C26, C27).
-/
namespace Conduit
open Spec Spec.Tree Schema Node

/-! ### lists of children -/

theorem ownedL_eq (cs : List Node) : ownedL cs = cs.flatMap owned := by
  induction cs with
  | nil => rfl
  | cons c cs ih => simp [ownedL, ih]
theorem placesL_eq (cs : List Node) : placesL cs = cs.flatMap places := by
  induction cs with
  | nil => rfl
  | cons c cs ih => simp [placesL, ih]
theorem blocksL_eq (cs : List Node) : blocksL cs = cs.flatMap blocks := by
  induction cs with
  | nil => rfl
  | cons c cs ih => simp [blocksL, ih]
theorem valL_eq (m : Mem) (cs : List Node) : valL m cs = cs.map (val m) := by
  induction cs with
  | nil => rfl
  | cons c cs ih => simp [valL, ih]
theorem readableL_iff (m : Mem) (cs : List Node) : ReadableL m cs ↔ ∀ c ∈ cs, Readable m c := by
  induction cs with
  | nil => simp [ReadableL]
  | cons c cs ih => simp [ReadableL, ih]
theorem naturalL_iff (cs : List Node) : NatSizeL cs ↔ ∀ c ∈ cs, NatSize c := by
  induction cs with
  | nil => simp [NatSizeL]
  | cons c cs ih => simp [NatSizeL, ih]
theorem tidyL_iff (cs : List Node) : TidyL cs ↔ ∀ c ∈ cs, Tidy c := by
  induction cs with
  | nil => simp [TidyL]
  | cons c cs ih => simp [TidyL, ih]
theorem cleanL_iff (cs : List Node) : CleanL cs ↔ ∀ c ∈ cs, Clean c := by
  induction cs with
  | nil => simp [CleanL]
  | cons c cs ih => simp [CleanL, ih]

theorem ownedE_eq (es : List (Str × Node)) : ownedE es = ownedL (es.map Prod.snd) := by
  induction es with
  | nil => rfl
  | cons c cs ih => simp [ownedL, ownedE, ih]
theorem placesE_eq (es : List (Str × Node)) : placesE es = placesL (es.map Prod.snd) := by
  induction es with
  | nil => rfl
  | cons c cs ih => simp [placesL, placesE, ih]
theorem blocksE_eq (es : List (Str × Node)) : blocksE es = blocksL (es.map Prod.snd) := by
  induction es with
  | nil => rfl
  | cons c cs ih => simp [blocksL, blocksE, ih]
theorem readableE_iff (m : Mem) (es : List (Str × Node)) : ReadableE m es ↔ ReadableL m (es.map Prod.snd) := by
  induction es with
  | nil => simp [ReadableL, ReadableE]
  | cons c cs ih => simp [ReadableL, ReadableE, ih]
theorem naturalE_iff (es : List (Str × Node)) : NatSizeE es ↔ NatSizeL (es.map Prod.snd) := by
  induction es with
  | nil => simp [NatSizeL, NatSizeE]
  | cons c cs ih => simp [NatSizeL, NatSizeE, ih]
theorem tidyE_iff (es : List (Str × Node)) : TidyE es ↔ TidyL (es.map Prod.snd) := by
  induction es with
  | nil => simp [TidyL, TidyE]
  | cons c cs ih => simp [TidyL, TidyE, ih]
theorem cleanE_iff (es : List (Str × Node)) : CleanE es ↔ CleanL (es.map Prod.snd) := by
  induction es with
  | nil => simp [CleanL, CleanE]
  | cons c cs ih => simp [CleanL, CleanE, ih]
theorem valE_eq (m : Mem) (es : List (Str × Node)) : valE m es = es.map (fun e => (e.1, val m e.2)) := by
  induction es with
  | nil => rfl
  | cons c cs ih => simp [valE, ih]

/-! ### places -/

theorem noShare_symm {a b : Place} (h : NoShare a b) : NoShare b a := fun blk i hb ha => h blk i ha hb

mutual
/-- bytes of elements are in the blocks of the tree -/
theorem has_blocks : ∀ (n : Node), ∀ pl ∈ places n, ∀ b i, pl.Has b i → b ∈ blocks n
  | .leaf x d, pl, hpl, b, i, hh => by
    simp only [places, leafPlaces, List.mem_map, List.mem_range] at hpl
    obtain ⟨e, he, rfl⟩ := hpl
    obtain ⟨p, hp, rfl, h1, h2⟩ := hh
    simp only at hp h1 h2
    have hb : d.id ≠ .empty := by intro h; simp [h, TypeId.bytes] at h2; omega
    simp only [blocks]
    rw [if_neg (by rw [not_or]; exact ⟨hb, by omega⟩)]
    simp [hp]
  | .obj x es, pl, hpl, b, i, hh => has_blocksE es pl hpl b i hh
  | .lst x cs, pl, hpl, b, i, hh => has_blocksL cs pl hpl b i hh
theorem has_blocksE : ∀ (es : List (Str × Node)), ∀ pl ∈ placesE es, ∀ b i, pl.Has b i → b ∈ blocksE es
  | [], pl, hpl, b, i, hh => by simp [placesE] at hpl
  | (n, c) :: es, pl, hpl, b, i, hh => by
    simp only [placesE, blocksE, List.mem_append] at hpl ⊢
    exact hpl.imp (fun h => has_blocks c pl h b i hh) (fun h => has_blocksE es pl h b i hh)
theorem has_blocksL : ∀ (es : List Node), ∀ pl ∈ placesL es, ∀ b i, pl.Has b i → b ∈ blocksL es
  | [], pl, hpl, b, i, hh => by simp [placesL] at hpl
  | c :: es, pl, hpl, b, i, hh => by
    simp only [placesL, blocksL, List.mem_append] at hpl ⊢
    exact hpl.imp (fun h => has_blocks c pl h b i hh) (fun h => has_blocksL es pl h b i hh)
end

/-- the bytes of a tree's elements are the same in both memories -/
def Same (m m' : Mem) (n : Node) : Prop :=
  ∀ pl ∈ places n, ∀ b i, pl.Has b i → m'.byte b i = m.byte b i

theorem elems_same {m m' : Mem} {x : Info} {d : DataType} (h : Same m m' (.leaf x d)) :
    elems m' x.data d = elems m x.data d := by
  rw [elems_places, elems_places]
  apply List.map_congr_left
  intro pl hpl
  exact bytesOf_congr (h pl hpl)

mutual
theorem val_same {m m' : Mem} : ∀ n : Node, Same m m' n → val m' n = val m n
  | .leaf x d, h => by simp only [val, elems_same h]
  | .obj x es, h => by simp only [val]; rw [valE_same es h]
  | .lst x es, h => by simp only [val]; rw [valL_same es h]
theorem valE_same {m m' : Mem} : ∀ es : List (Str × Node),
    (∀ pl ∈ placesE es, ∀ b i, pl.Has b i → m'.byte b i = m.byte b i) → valE m' es = valE m es
  | [], _ => rfl
  | (n, c) :: es, h => by
    simp only [valE]
    rw [val_same c (fun pl hpl => h pl (by simp [placesE, hpl])), valE_same es (fun pl hpl => h pl (by simp [placesE, hpl]))]
theorem valL_same {m m' : Mem} : ∀ es : List Node,
    (∀ pl ∈ placesL es, ∀ b i, pl.Has b i → m'.byte b i = m.byte b i) → valL m' es = valL m es
  | [], _ => rfl
  | c :: es, h => by
    simp only [valL]
    rw [val_same c (fun pl hpl => h pl (by simp [placesL, hpl])), valL_same es (fun pl hpl => h pl (by simp [placesL, hpl]))]
end

mutual
theorem readable_same {m m' : Mem} : ∀ n : Node, Same m m' n → Readable m n → Readable m' n
  | .leaf x d, h, hr => by simp only [Readable, elems_same h] at hr ⊢; exact hr
  | .obj x es, h, hr => readableE_same es h hr
  | .lst x es, h, hr => readableL_same es h hr
theorem readableE_same {m m' : Mem} : ∀ es : List (Str × Node),
    (∀ pl ∈ placesE es, ∀ b i, pl.Has b i → m'.byte b i = m.byte b i) → ReadableE m es → ReadableE m' es
  | [], _, _ => trivial
  | (n, c) :: es, h, hr =>
    ⟨readable_same c (fun pl hpl => h pl (by simp [placesE, hpl])) hr.1,
      readableE_same es (fun pl hpl => h pl (by simp [placesE, hpl])) hr.2⟩
theorem readableL_same {m m' : Mem} : ∀ es : List Node,
    (∀ pl ∈ placesL es, ∀ b i, pl.Has b i → m'.byte b i = m.byte b i) → ReadableL m es → ReadableL m' es
  | [], _, _ => trivial
  | c :: es, h, hr =>
    ⟨readable_same c (fun pl hpl => h pl (by simp [placesL, hpl])) hr.1,
      readableL_same es (fun pl hpl => h pl (by simp [placesL, hpl])) hr.2⟩
end

mutual
theorem readable_shape {m m' : Mem} (hs : Mem.SameShape m m') : ∀ n : Node, Readable m n → Readable m' n
  | .leaf x d, hr => by
    refine ⟨hr.1, hr.2.1, hr.2.2.1, fun he => ?_⟩
    rw [elems_isSome]
    intro i k hi hk
    have := elems_isSome.1 (hr.2.2.2 he) i k hi hk
    unfold Mem.byteAt at this ⊢
    cases hx : x.data with
    | none => simp [hx] at this
    | some q => simp only [hx] at this ⊢; rw [hs.isSome]; exact this
  | .obj x es, hr => readableE_shape hs es hr
  | .lst x es, hr => readableL_shape hs es hr
theorem readableE_shape {m m' : Mem} (hs : Mem.SameShape m m') : ∀ es : List (Str × Node), ReadableE m es → ReadableE m' es
  | [], _ => trivial
  | (_, c) :: es, hr => ⟨readable_shape hs c hr.1, readableE_shape hs es hr.2⟩
theorem readableL_shape {m m' : Mem} (hs : Mem.SameShape m m') : ∀ es : List Node, ReadableL m es → ReadableL m' es
  | [], _ => trivial
  | c :: es, hr => ⟨readable_shape hs c hr.1, readableL_shape hs es hr.2⟩
end

/-! ### copying into a leaf in place -/

theorem has_inElems {x : Info} {d : DataType} {p : Ptr} (hx : x.data = some p) {i : Int} {n : Nat}
    (hn : (n : Int) ≤ d.n) (h : Mem.InElems (p.off + d.elementIndex 0) d.stride n d.id.bytes i) :
    ∃ pl ∈ leafPlaces x d, pl.Has p.blk i := by
  obtain ⟨e, he, h1, h2⟩ := h
  simp only [DataType.elementIndex, Int.mul_zero, Int.add_zero] at h1 h2
  refine ⟨⟨x.data, d.offset + d.stride * e, d.id.bytes⟩, ?_, p, hx, rfl, ?_, ?_⟩
  · exact List.mem_map.2 ⟨e, List.mem_range.2 (by omega), rfl⟩
  · simp only; omega
  · simp only; omega

theorem leaf_apart {x : Info} {d : DataType} {p : Ptr} (hx : x.data = some p) (hs : (leafPlaces x d).Pairwise NoShare)
    {n : Nat} (hn : (n : Int) ≤ d.n) (hb : 0 < d.id.bytes) : Mem.Apart d.stride n d.id.bytes := by
  intro e e' h1 h2
  have hp := List.pairwise_iff_getElem.1 hs e e' (by simp [leafPlaces]; omega) (by simp [leafPlaces]; omega) h1
  simp only [leafPlaces, List.getElem_map, List.getElem_range] at hp
  apply Classical.byContradiction
  intro hc
  rw [not_or] at hc
  have key : ∀ i : Int, d.stride * e ≤ i → i < d.stride * e + d.id.bytes → d.stride * e' ≤ i → i < d.stride * e' + d.id.bytes → False := by
    intro i a1 a2 a3 a4
    exact hp p.blk (p.off + d.offset + i) ⟨p, hx, rfl, by simp only; omega, by simp only; omega⟩
      ⟨p, hx, rfl, by simp only; omega, by simp only; omega⟩
  by_cases hle : d.stride * e ≤ d.stride * e'
  · exact key (d.stride * e') hle (by omega) (Int.le_refl _) (by omega)
  · exact key (d.stride * e) (Int.le_refl _) (by omega) (by omega) (by omega)

theorem elems_length (m : Mem) (p : Option Ptr) (d : DataType) : (elems m p d).length = d.n.toNat := by simp [elems]

/-- The in-place branch of `update` and `update_compatible`. -/
theorem leafCopy_spec {sx x : Info} {s d : DataType} {m : Mem} (hs : Readable m (.leaf sx s)) (hd : Readable m (.leaf x d))
    (hn : NatSize (.leaf x d)) (hsep : (leafPlaces x d).Pairwise NoShare)
    (hap : ∀ a ∈ leafPlaces sx s, ∀ b ∈ leafPlaces x d, NoShare a b) (he : s.id ≠ .empty)
    (hid : d.id = s.id) (hle : s.n ≤ d.n) :
    ∃ m', updateLeaf sx s (.leaf x d) m = .ok (m', .leaf x d) ∧ Mem.SameShape m m' ∧
      (∀ b i, (∀ pl ∈ leafPlaces x d, ¬ pl.Has b i) → m'.byte b i = m.byte b i) ∧
      elems m' x.data d = elems m sx.data s ++ (elems m x.data d).drop s.n.toNat := by
  have hde : d.id ≠ .empty := by rw [hid]; exact he
  have hele := hn hde
  have hsn : 0 ≤ s.n := hs.2.2.1
  have hred : ∀ m', m.stridedCopy x.data (d.elementIndex 0) s.n.toNat d.id.bytes d.stride sx.data (s.elementIndex 0) s.stride = .ok m' →
      updateLeaf sx s (.leaf x d) m = .ok (m', .leaf x d) := by
    intro m' h
    have hc : ¬ (s.n < 0 ∨ (Node.leaf x d).dtype.ele < 0) := by
      simp only [dtype, hele]; omega
    unfold updateLeaf
    rw [if_neg he, if_pos ⟨hid, hle⟩, if_neg hc]
    simp only [dtype, info, hele, Int.toNat_natCast, h, bind_ok]
  by_cases h0 : s.n = 0
  · refine ⟨m, hred m (Mem.stridedCopy_zero _ _ _ _ _ _ _ _ _ (Or.inl (by omega))), Mem.SameShape.refl m, fun _ _ _ => rfl, ?_⟩
    rw [h0, elems_nil (d := s) (by omega)]; simp
  · have hbp := bytes_pos hde hd.1 hd.2.1
    have rs := elems_isSome.1 (hs.2.2.2 he)
    have rd := elems_isSome.1 (hd.2.2.2 hde)
    cases hq : sx.data with
    | none => have := rs 0 0 (by omega) (by rw [← hid]; exact hbp); simp [hq, Mem.byteAt] at this
    | some q =>
      cases hp : x.data with
      | none => have := rd 0 0 (by omega) hbp; simp [hp, Mem.byteAt] at this
      | some p =>
        obtain ⟨m', h1, h2, h3, h4⟩ := Mem.stridedCopy_spec p q d.id.bytes d.stride s.stride s.n.toNat m
          (d.elementIndex 0) (s.elementIndex 0)
          (fun e k hek hkk => by
            have := rs e k (by omega) (by rw [← hid]; exact hkk)
            rw [hq, Mem.byteAt] at this
            rw [← this]; congr 2; simp only [DataType.elementIndex]; omega)
          (fun e k hek hkk => by
            have := rd e k (by omega) hkk
            rw [hp, Mem.byteAt] at this
            rw [← this]; congr 2; simp only [DataType.elementIndex]; omega)
          (fun hb i hi hi' => by
            obtain ⟨pl, hpl, hh⟩ := has_inElems hp (by omega) hi
            obtain ⟨pl', hpl', hh'⟩ := has_inElems (d := s) (i := i) hq (n := s.n.toNat) (by omega) (by rw [← hid]; exact hi')
            rw [hb] at hh
            exact hap pl' hpl' pl hpl _ _ hh' hh)
          (leaf_apart hp hsep (by omega) hbp)
        refine ⟨m', hred m' (by rw [hp, hq]; exact h1), h2, ?_, ?_⟩
        · intro b i hb
          apply h3
          intro hbp' hi
          obtain ⟨pl, hpl, hh⟩ := has_inElems hp (by omega) hi
          exact hb pl hpl (by rw [hbp']; exact hh)
        · apply List.ext_getElem
          · simp only [List.length_append, List.length_drop, elems_length]; omega
          · intro i hi1 hi2
            rw [elems_length] at hi1
            rw [List.getElem_append]
            split
            · rename_i hlt
              rw [elems_length] at hlt
              simp only [elems, List.getElem_map, List.getElem_range]
              rw [← hid]
              apply List.map_congr_left
              intro k hk
              rw [List.mem_range] at hk
              have := h4 i k hlt hk
              simp only [Mem.byteAt, DataType.elementIndex, Int.mul_zero, Int.add_zero] at this ⊢
              rw [show p.off + (d.offset + d.stride * ↑i + ↑k) = p.off + d.offset + d.stride * ↑i + ↑k by omega, this]
              congr 1; omega
            · rename_i hge
              rw [elems_length] at hge
              simp only [List.getElem_drop, elems_length]
              simp only [elems, List.getElem_map, List.getElem_range]
              rw [show s.n.toNat + (i - s.n.toNat) = i by omega]
              apply List.map_congr_left
              intro k hk
              rw [List.mem_range] at hk
              simp only [Mem.byteAt]
              apply h3
              rintro - ⟨e, he1, he2, he3⟩
              have hpw := List.pairwise_iff_getElem.1 hsep e i (by simp [leafPlaces]; omega) (by simp [leafPlaces]; omega) (by omega)
              simp only [leafPlaces, List.getElem_map, List.getElem_range] at hpw
              simp only [DataType.elementIndex, Int.mul_zero, Int.add_zero] at he2 he3
              exact hpw p.blk (p.off + (d.offset + d.stride * ↑i + ↑k)) ⟨p, hp, rfl, by simp only; omega, by simp only; omega⟩
                ⟨p, hp, rfl, by simp only; omega, by simp only; omega⟩

end Conduit
