import Verif.Props.NodeCopy
/-
Property theorems C25, C31 and C58: external data, element writes, and copies
between a node and itself.
-/
namespace Conduit
open Spec Spec.Tree Schema Node

/-! ### C25 -/

/-- C25: after `set_external(schema, data)` every leaf element is the bytes of the
    caller's memory at its offset, now and after any later change of memory; the
    node owns nothing; and the call changes no memory but the node's own old
    buffers. -/
theorem C25_set_external_schema (s : Schema) (data : Ptr) (dest : Node) (m : Mem)
    (hd : GoodOwners m (owned dest)) (hc : Clean dest) :
    ∃ m' n', setExternalSchema s (some data) dest m = .ok (m', n') ∧ n'.schema = s ∧ owned n' = [] ∧
      (∀ m'' : Mem, val m'' n' = view m'' (some data) s) ∧
      ∀ b, b ∉ (owned dest).map Ptr.blk → m'[b]? = m[b]? := by
  obtain ⟨m1, a1, a2⟩ := reset_spec dest m hd
  refine ⟨m1, walk (some data) false s, ?_, schema_walk _ _ _, (walk_false _ _).2, fun m'' => val_walk _ _ _ _,
    fun b hb => a2.2 b hb⟩
  simp only [setExternalSchema, a1, bind_ok, info, releasedInfo_clean hc]

mutual
theorem val_mirror (m : Mem) (al : Bool) : ∀ n : Node, val m (mirror al n) = val m n
  | .leaf x d => rfl
  | .obj x es => by simp only [mirror, val, valE_mirror m es]
  | .lst x es => by simp only [mirror, val, valL_mirror m es]
theorem valE_mirror (m : Mem) : ∀ es : List (Str × Node), valE m (mirrorE es) = valE m es
  | [] => rfl
  | (n, c) :: es => by simp only [mirrorE, valE, val_mirror m false c, valE_mirror m es]
theorem valL_mirror (m : Mem) : ∀ es : List Node, valL m (mirrorL es) = valL m es
  | [] => rfl
  | c :: es => by simp only [mirrorL, valL, val_mirror m false c, valL_mirror m es]
end

mutual
theorem schema_mirror (al : Bool) : ∀ n : Node, (mirror al n).schema = n.schema
  | .leaf x d => rfl
  | .obj x es => by simp only [mirror, schema, schemaE_mirror es]
  | .lst x es => by simp only [mirror, schema, schemaL_mirror es]
theorem schemaE_mirror : ∀ es : List (Str × Node), schemaE (mirrorE es) = schemaE es
  | [] => rfl
  | (n, c) :: es => by simp only [mirrorE, schemaE, schema_mirror false c, schemaE_mirror es]
theorem schemaL_mirror : ∀ es : List Node, schemaL (mirrorL es) = schemaL es
  | [] => rfl
  | c :: es => by simp only [mirrorL, schemaL, schema_mirror false c, schemaL_mirror es]
end

mutual
theorem mirror_false : ∀ n : Node, Clean (mirror false n) ∧ owned (mirror false n) = []
  | .leaf x d => ⟨⟨by simp [CleanInfo], by simp⟩, by simp [mirror, owned, ownPtr]⟩
  | .obj x es => by
    obtain ⟨h1, h2⟩ := mirrorE_false es
    exact ⟨⟨by simp [CleanInfo], h1⟩, by simp [mirror, owned, ownPtr, h2]⟩
  | .lst x es => by
    obtain ⟨h1, h2⟩ := mirrorL_false es
    exact ⟨⟨by simp [CleanInfo], h1⟩, by simp [mirror, owned, ownPtr, h2]⟩
theorem mirrorE_false : ∀ es : List (Str × Node), CleanE (mirrorE es) ∧ ownedE (mirrorE es) = []
  | [] => ⟨trivial, rfl⟩
  | (n, c) :: es => by
    obtain ⟨h1, h2⟩ := mirror_false c
    obtain ⟨h3, h4⟩ := mirrorE_false es
    exact ⟨⟨h1, h3⟩, by simp [mirrorE, ownedE, h2, h4]⟩
theorem mirrorL_false : ∀ es : List Node, CleanL (mirrorL es) ∧ ownedL (mirrorL es) = []
  | [] => ⟨trivial, rfl⟩
  | c :: es => by
    obtain ⟨h1, h2⟩ := mirror_false c
    obtain ⟨h3, h4⟩ := mirrorL_false es
    exact ⟨⟨h1, h3⟩, by simp [mirrorL, ownedL, h2, h4]⟩
end

/-- C25: after `set_external(node)` the two nodes show the same value in every later
    state of memory (each sees all writes through the other), and the new one owns
    nothing. -/
theorem C25_set_external_node (src dest : Node) (m : Mem) (hd : GoodOwners m (owned dest)) (hc : Clean dest) :
    ∃ m' n', setExternalNode src dest m = .ok (m', n') ∧ n'.schema = src.schema ∧ owned n' = [] ∧
      (∀ m'' : Mem, val m'' n' = val m'' src) ∧
      ∀ b, b ∉ (owned dest).map Ptr.blk → m'[b]? = m[b]? := by
  obtain ⟨m1, a1, a2⟩ := reset_spec dest m hd
  refine ⟨m1, mirror false src, ?_, schema_mirror _ _, (mirror_false _).2, fun m'' => val_mirror _ _ _,
    fun b hb => a2.2 b hb⟩
  simp only [setExternalNode, a1, bind_ok, info, releasedInfo_clean hc]

/-- C25, the array and string forms: `set_external(ptr, n, offset, stride, ...)`. -/
theorem C25_set_external_ptr (d : DataType) (data : Ptr) (dest : Node) (m : Mem)
    (hd : GoodOwners m (owned dest)) (hc : Clean dest) :
    ∃ m' n', setExternalPtr d (some data) dest m = .ok (m', n') ∧ n'.dtype = d ∧ owned n' = [] ∧
      (∀ m'' : Mem, val m'' n' = view m'' (some data) (.leaf d)) ∧
      ∀ b, b ∉ (owned dest).map Ptr.blk → m'[b]? = m[b]? := by
  obtain ⟨m1, a1, a2⟩ := releaseMem_spec dest m hd
  refine ⟨m1, .leaf ⟨some data, false⟩ d, ?_, rfl, by simp [owned, ownPtr], fun m'' => rfl, fun b hb => a2.2 b hb⟩
  simp only [setExternalPtr, a1, bind_ok, releasedInfo_clean hc]

example : GoodOwners copyMem (owned copyDest) ∧ Clean copyDest :=
  ⟨copy_call_ok.2, by simp [copyDest, Clean, CleanInfo, DataType.ofId]⟩

/-! ### C31 -/

/-- byte `a` of block `b` belongs to element `i` of the leaf -/
def ElemByte (p : Ptr) (d : DataType) (i : Nat) (b : Nat) (a : Int) : Prop :=
  b = p.blk ∧ p.off + d.offset + d.stride * i ≤ a ∧ a < p.off + d.offset + d.stride * i + d.id.bytes

/-- C31: writing element `i` of a readable leaf succeeds, the element's bytes are
    the written ones, and no byte outside the element changes. -/
theorem C31_write_exact (p : Ptr) (al : Bool) (d : DataType) (m : Mem) (i : Nat) (bs : List UInt8)
    (hr : Readable m (.leaf ⟨some p, al⟩ d)) (he : d.id ≠ .empty) (hi : (i : Int) < d.n)
    (hl : bs.length = d.id.bytes) :
    ∃ m', writeElem ⟨some p, al⟩ d i bs m = .ok m' ∧
      (elems m' (some p) d)[i]? = some (bs.map some) ∧
      (∀ b a, ¬ ElemByte p d i b a → m'.byte b a = m.byte b a) ∧
      (∀ b, m'.size b = m.size b) := by
  have hel := elems_isSome.1 (hr.2.2.2 he)
  obtain ⟨m', h1, h2, h3, h4⟩ := Mem.store_spec (m := m) (q := p) (off := d.elementIndex i) (xs := bs) (by
    intro k hk
    have := hel i k hi (by omega)
    simp only [Mem.byteAt] at this
    rw [show p.off + d.elementIndex i + (k : Int) = p.off + (d.offset + d.stride * i + k) by
      simp only [DataType.elementIndex]; omega]
    exact this)
  refine ⟨m', h1, ?_, ?_, h3⟩
  · unfold elems
    rw [List.getElem?_map, List.getElem?_range (by omega)]
    simp only [Option.map_some, Option.some.injEq]
    apply List.ext_getElem
    · simp [hl]
    · intro k hk1 hk2
      simp at hk1
      simp only [List.getElem_map, List.getElem_range, Mem.byteAt]
      rw [h4, if_pos ⟨rfl, by simp only [DataType.elementIndex]; omega, by simp only [DataType.elementIndex]; omega⟩]
      rw [List.getElem?_eq_getElem (by simp only [DataType.elementIndex]; omega)]
      congr 2
      simp only [DataType.elementIndex]; omega
  · intro b a hb
    rw [h4, if_neg]
    rintro ⟨h5, h6, h7⟩
    apply hb
    simp only [DataType.elementIndex] at h6 h7
    exact ⟨h5, by omega, by omega⟩

/-- C31: the other elements of the leaf keep their values when the stride is at
    least the element size: the array afterwards is the old array with element `i`
    replaced. -/
theorem C31_other_elements (p : Ptr) (al : Bool) (d : DataType) (m m' : Mem) (i : Nat) (bs : List UInt8)
    (hr : Readable m (.leaf ⟨some p, al⟩ d)) (he : d.id ≠ .empty) (hi : (i : Int) < d.n)
    (hl : bs.length = d.id.bytes) (hst : (d.id.bytes : Int) ≤ d.stride)
    (hw : writeElem ⟨some p, al⟩ d i bs m = .ok m') :
    elems m' (some p) d = (elems m (some p) d).set i (bs.map some) := by
  obtain ⟨m1, h1, h2, h3, h4⟩ := C31_write_exact p al d m i bs hr he hi hl
  rw [hw] at h1; injection h1 with h1; subst h1
  apply List.ext_getElem?
  intro j
  by_cases hij : i = j
  · subst hij
    rw [h2, List.getElem?_set_self (by simp [elems]; omega)]
  · rw [List.getElem?_set_ne hij]
    unfold elems
    rw [List.getElem?_map, List.getElem?_map]
    by_cases hj : j < d.n.toNat
    · rw [List.getElem?_range hj]
      simp only [Option.map_some, Option.some.injEq]
      apply List.map_congr_left
      intro k hk
      rw [List.mem_range] at hk
      simp only [Mem.byteAt]
      apply h3
      rintro ⟨_, h5, h6⟩
      rcases Nat.lt_or_gt_of_ne hij with hlt | hlt
      · have := Mem.apart_of_le (n := d.n.toNat) hst i j hlt hj
        have hneg : ¬ (d.stride * j + d.id.bytes ≤ d.stride * i) := by
          have := Int.mul_le_mul_of_nonneg_left (c := d.stride) (show (i : Int) ≤ j by omega) (by omega)
          have := bytes_pos he hr.1 hr.2.1
          omega
        omega
      · have := Mem.apart_of_le (n := d.n.toNat) hst j i hlt (by omega)
        have hneg : ¬ (d.stride * i + d.id.bytes ≤ d.stride * j) := by
          have := Int.mul_le_mul_of_nonneg_left (c := d.stride) (show (j : Int) ≤ i by omega) (by omega)
          have := bytes_pos he hr.1 hr.2.1
          omega
        omega
    · have : (List.range d.n.toNat)[j]? = none := by rw [List.getElem?_eq_none_iff]; simp; omega
      rw [this]; rfl

/-- C31: another leaf (in the same buffer or not) that shares no byte with the
    written element keeps all its elements. -/
theorem C31_other_leaves (p q : Ptr) (al : Bool) (d e : DataType) (m m' : Mem) (i : Nat) (bs : List UInt8)
    (hr : Readable m (.leaf ⟨some p, al⟩ d)) (he : d.id ≠ .empty) (hi : (i : Int) < d.n)
    (hl : bs.length = d.id.bytes)
    (hdis : ∀ j : Nat, (j : Int) < e.n → ∀ b a, ¬ (ElemByte p d i b a ∧ ElemByte q e j b a))
    (hw : writeElem ⟨some p, al⟩ d i bs m = .ok m') :
    elems m' (some q) e = elems m (some q) e := by
  obtain ⟨m1, h1, h2, h3, h4⟩ := C31_write_exact p al d m i bs hr he hi hl
  rw [hw] at h1; injection h1 with h1; subst h1
  refine elems_congr rfl rfl (fun j k hj hk => ?_)
  simp only [Mem.byteAt]
  apply h3
  intro hb
  exact hdis j hj _ _ ⟨hb, rfl, by omega, by omega⟩

/-- two interleaved arrays in one buffer -/
def ileaveX : DataType := { id := .int16, n := 3, offset := 0, stride := 4, ele := 2 }
def ileaveY : DataType := { id := .int16, n := 3, offset := 2, stride := 4, ele := 2 }
def ileaveMem : Mem := [some [0, 1, 2, 3, 4, 5, 6, 7, 8, 9, 10, 11]]

example : Readable ileaveMem (.leaf ⟨some ⟨0, 0⟩, false⟩ ileaveX) ∧ ileaveX.id ≠ .empty ∧
    ((ileaveX.id.bytes : Int) ≤ ileaveX.stride) := by
  refine ⟨?_, by decide, by decide⟩
  simp only [Readable]; decide

example (i : Nat) : ∀ j : Nat, (j : Int) < ileaveY.n → ∀ b a,
    ¬ (ElemByte ⟨0, 0⟩ ileaveX i b a ∧ ElemByte ⟨0, 0⟩ ileaveY j b a) := by
  rintro j _ b a ⟨⟨_, h1, h2⟩, _, h3, h4⟩
  simp only [ileaveX, ileaveY, TypeId.bytes] at h1 h2 h3 h4
  omega

/-! ### C58 -/

/-- C58: after `dest = src` (operator=), `dest` has the value `src` had, for the node
    itself as well as for any source whose elements are not in buffers `dest` owns. -/
theorem C58_assign_partial (same : Bool) (src dest : Node) (m : Mem) (hs : same = true → src = dest)
    (h : same = false → CallOK m src dest) :
    ∃ m' n', assign same src dest m = .ok (m', n') ∧ val m' n' = val m src := by
  cases same with
  | true => exact ⟨m, dest, rfl, by rw [hs rfl]⟩
  | false =>
    obtain ⟨m', n', h1, h2, _⟩ := C24_set_node_deep_copy src dest m (h rfl)
    exact ⟨m', n', h1, h2⟩

/-- C58 is false for `set`: `n.set(n)` empties `n`. -/
theorem C58_set_self_loses_value :
    ∃ (n n' : Node) (m m' : Mem), Readable m n ∧ GoodOwners m (owned n) ∧ Clean n ∧
      setSelf n m = .ok (m', n') ∧ val m' n' = .leaf .empty .default [] ∧
      val m n = .leaf .uint8 .default [[some 1], [some 2], [some 3], [some 4]] := by
  refine ⟨copyDest, .leaf {} {}, copyMem, [some [10, 11, 12, 13, 14, 15, 16, 17, 18, 19], none], ?_,
    copy_call_ok.2, by simp [copyDest, Clean, CleanInfo, DataType.ofId], rfl, rfl, rfl⟩
  simp only [copyDest, Readable]; decide

/-- C58 is false when the source views the destination's memory: `n.set(v)` with `v`
    external to `n`'s own buffer reads it after it was freed. -/
theorem C58_set_from_own_view_undefined :
    ∃ (n v : Node) (m : Mem), Readable m n ∧ GoodOwners m (owned n) ∧ Clean n ∧ Readable m v ∧
      owned v = [] ∧ setNode v n m = .ub := by
  refine ⟨copyDest, .leaf ⟨some ⟨1, 0⟩, false⟩ (DataType.ofId .uint8 2), copyMem, ?_, copy_call_ok.2,
    by simp [copyDest, Clean, CleanInfo, DataType.ofId], ?_, by simp [owned, ownPtr], rfl⟩
  · simp only [copyDest, Readable]; decide
  · simp only [Readable]; decide

end Conduit
