import Verif.Lemmas.NodeSet
import Verif.Props.NodeExternal
/-
Property theorems C30: what a node holds after set.
Specification: Verif/Spec/Value.lean, Verif/Spec/Endian.lean (places).
`InPlace m dest k`: the destination's elements can be written, there are exactly
`k` of them, and their byte order is the default one.
-/
namespace Conduit
open Spec Spec.Tree Schema Node

/-- C30 (partial): `n.set(v)` for a vector or a scalar (one element) of type `t`.
    Afterwards the node holds exactly the elements of `v` in default byte order, and
    no memory outside the node's own buffers and elements has changed, PROVIDED
    that the old leaf, if it is compatible (same type, at least as many elements),
    has exactly as many elements, default order, and is packed.  Missing: the other
    compatible leaves, where the claim is false (theorems below). -/
theorem C30_set_vector_partial (t : TypeId) (es : List (List UInt8)) (dest : Node) (m : Mem)
    (ht : t ≠ .empty ∧ t ≠ .object ∧ t ≠ .list) (hl : ∀ x ∈ es, x.length = t.bytes)
    (hd : GoodOwners m (owned dest))
    (hin : dest.dtype.compatible (DataType.ofId t es.length) = true →
      InPlace m dest es.length ∧ (dest.dtype.stride = t.bytes ∨ es.length ≤ 1)) :
    ∃ m' n', setVector t es dest m = .ok (m', n') ∧ val m' n' = .leaf t .default (es.map (fun x => x.map some)) ∧
      Outside m m' dest :=
  setVector_spec t es dest m ht hl hd hin

theorem C30_set_scalar_partial (t : TypeId) (bytes : List UInt8) (dest : Node) (m : Mem)
    (ht : t ≠ .empty ∧ t ≠ .object ∧ t ≠ .list) (hl : bytes.length = t.bytes)
    (hd : GoodOwners m (owned dest))
    (hin : dest.dtype.compatible (DataType.ofId t 1) = true → InPlace m dest 1) :
    ∃ m' n', setScalar t bytes dest m = .ok (m', n') ∧ val m' n' = .leaf t .default [bytes.map some] ∧
      Outside m m' dest := by
  rw [setScalar_eq]
  exact setVector_spec t [bytes] dest m ht (by simpa using hl) hd (fun h => ⟨hin h, Or.inr (by simp)⟩)

/-- C30 (partial), the array form: `n.set(array)` where the array is any strided view
    of readable memory: afterwards the node holds exactly the elements the array
    had. -/
theorem C30_set_array_partial (s : DataType) (q : Ptr) (dest : Node) (m : Mem)
    (ht : s.id ≠ .empty ∧ s.id ≠ .object ∧ s.id ≠ .list)
    (hs : Readable m (.leaf ⟨some q, false⟩ s)) (hd : GoodOwners m (owned dest))
    (hsep : ∀ p ∈ owned dest, dest.dtype.compatible (DataType.ofId s.id s.n) = false → p.blk ≠ q.blk)
    (hin : dest.dtype.compatible (DataType.ofId s.id s.n) = true →
      InPlace m dest s.n.toNat ∧ ((s.id.bytes : Int) ≤ dest.dtype.stride ∨ s.n ≤ 1) ∧
      ∀ a ∈ places dest, ∀ b ∈ leafPlaces ⟨some q, false⟩ s, Place.Apart a b) :
    ∃ m' n', setArray s (some q) dest m = .ok (m', n') ∧ val m' n' = .leaf s.id .default (elems m (some q) s) ∧
      Outside m m' dest :=
  setArray_spec s q dest m ht hs hd hsep hin

/-- the hypotheses hold for any set of a four byte leaf to two int16 -/
example : GoodOwners copyMem (owned copyDest) ∧
    (copyDest.dtype.compatible (DataType.ofId .int16 2) = true → InPlace copyMem copyDest 2) :=
  ⟨copy_call_ok.2, fun h => absurd h (by decide)⟩
/-- and in place, for a leaf of the same length -/
example : copyDest.dtype.compatible (DataType.ofId .uint8 4) = true ∧ InPlace copyMem copyDest 4 ∧
    copyDest.dtype.stride = TypeId.uint8.bytes :=
  ⟨by decide, ⟨by simp only [copyDest, Readable]; decide, rfl, rfl⟩, rfl⟩
example : (setArray ileaveX (some ⟨0, 0⟩) (.leaf ⟨some ⟨1, 0⟩, true⟩ (DataType.ofId .uint8 4))
    (ileaveMem ++ [some [1, 2, 3, 4]])).isOk = true := by decide

/-- C30: after `n.set("text")` on any node whose old leaf, if it is a string leaf that
    is large enough, is packed and writable: `n.as_string()` is the text, also when
    the old string was longer. -/
theorem C30_set_string (text : List UInt8) (h0 : 0 ∉ text) (dest : Node) (m : Mem) (hd : GoodOwners m (owned dest))
    (hin : dest.dtype.compatible (DataType.ofId .char8Str (text.length + 1)) = true →
      Readable m dest ∧ dest.dtype.stride = 1) :
    ∃ m' x d, setString text dest m = .ok (m', .leaf x d) ∧ asString x d m' = .ok text ∧ Outside m m' dest := by
  obtain ⟨m', x, d, p, h1, h2, h3, h4, h5, h6, h7, h8⟩ := setString_spec text dest m hd
    (fun h => ⟨(hin h).1, Or.inl (by have := (hin h).2; omega)⟩)
  refine ⟨m', x, d, h1, asString_of h2 h3 (Or.inl ?_) h0 h7, h8⟩
  cases hc : dest.dtype.compatible (DataType.ofId .char8Str (text.length + 1)) with
  | true =>
    have := (hin hc).2
    rw [← h6 hc] at this; exact this
  | false => rw [h5 hc]; rfl

/-- C30 (partial): the elements of the leaf after `set("text")` are the characters and
    one 0, when the old leaf is not a large enough string leaf. -/
theorem C30_set_string_elements_partial (text : List UInt8) (dest : Node) (m : Mem) (hd : GoodOwners m (owned dest))
    (hc : dest.dtype.compatible (DataType.ofId .char8Str (text.length + 1)) = false) :
    ∃ m' n', setString text dest m = .ok (m', n') ∧
      val m' n' = .leaf .char8Str .default ((text ++ [0]).map (fun b => [some b])) ∧ Outside m m' dest := by
  obtain ⟨m', x, d, p, h1, h2, h3, h4, h5, h6, h7, h8⟩ := setString_spec text dest m hd
    (fun h => by rw [hc] at h; cases h)
  refine ⟨m', .leaf x d, h1, ?_, h8⟩
  have hd' := h5 hc
  simp only [val]
  rw [if_neg (by rw [h2]; decide), h2, hd']
  show Val.leaf .char8Str .default _ = _
  congr 1
  have := elems_eq (m := m') (p := x.data) (d := DataType.ofId .char8Str (text.length + 1))
    (es := (text ++ [0]).map (fun b => [b])) (by simp [DataType.ofId]) (stringElems text) (by
      intro e k y hy hk
      have hk0 : k = 0 := by simp [DataType.ofId, TypeId.bytes] at hk; exact hk
      subst hk0
      have hlt := (List.getElem?_eq_some_iff.1 hy).1
      simp at hlt
      rw [List.getElem?_map, List.getElem?_eq_getElem (by simp; omega)] at hy
      simp only [Option.map_some, Option.some.injEq] at hy
      subst hy
      have := h7 e (by omega)
      rw [hd', List.getElem?_eq_getElem (by simp; omega)] at this
      rw [h3]
      simp only [Mem.byteAt]
      rw [List.getElem?_cons_zero, ← this]
      congr 1
      simp [DataType.elementIndex, DataType.ofId])
  rw [this, List.map_map]
  rfl

example : GoodOwners copyMem (owned copyDest) ∧ (0 : UInt8) ∉ [104, 105] ∧
    copyDest.dtype.compatible (DataType.ofId .char8Str ([104, 105].length + 1)) = false := ⟨copy_call_ok.2, by decide, by decide⟩

/-! ### where C30 fails -/

/-- a longer array keeps its length and its other elements -/
theorem C30_longer_leaf_keeps_elements :
    ∃ (m' : Mem) (n' : Node), Readable copyMem copyDest ∧ GoodOwners copyMem (owned copyDest) ∧
      setScalar .uint8 [9] copyDest copyMem = .ok (m', n') ∧
      val m' n' = .leaf .uint8 .default [[some 9], [some 2], [some 3], [some 4]] :=
  ⟨_, _, by simp only [copyDest, Readable]; decide, copy_call_ok.2, rfl, rfl⟩

/-- a leaf in the other byte order keeps that order, so the number read is not the
    number set: setting int16 1 (bytes 1, 0 on a little endian machine) reads 256 -/
theorem C30_other_byte_order_false :
    ∃ (n n' : Node) (m m' : Mem), Readable m n ∧ setScalar .int16 [1, 0] n m = .ok (m', n') ∧
      numbers false (val m' n') = .leaf .int16 [some 256] :=
  ⟨.leaf ⟨some ⟨0, 0⟩, false⟩ { DataType.ofId .int16 1 with endian := .big }, _, copyMem, _,
    by simp only [Readable]; decide, rfl, rfl⟩

/-- setting a vector on a strided leaf of the same length overwrites the bytes
    between the elements (here: the interleaved array y) and the elements are not
    those of the vector -/
theorem C30_vector_clobbers_neighbours :
    ∃ (m' : Mem) (n' : Node), Readable ileaveMem (.leaf ⟨some ⟨0, 0⟩, false⟩ ileaveX) ∧
      setVector .int16 [[101, 102], [103, 104], [105, 106]] (.leaf ⟨some ⟨0, 0⟩, false⟩ ileaveX) ileaveMem = .ok (m', n') ∧
      val m' n' = .leaf .int16 .default [[some 101, some 102], [some 105, some 106], [some 8, some 9]] ∧
      elems ileaveMem (some ⟨0, 0⟩) ileaveY = [[some 2, some 3], [some 6, some 7], [some 10, some 11]] ∧
      elems m' (some ⟨0, 0⟩) ileaveY = [[some 103, some 104], [some 6, some 7], [some 10, some 11]] :=
  ⟨_, _, by simp only [Readable]; decide, rfl, rfl, rfl, rfl⟩

/-- setting an array on a longer leaf reads past the end of the array -/
theorem C30_array_overread :
    ∃ (s : DataType) (q : Ptr) (m : Mem), Readable m (.leaf ⟨some q, false⟩ s) ∧ Readable m copyDest ∧
      GoodOwners m (owned copyDest) ∧ setArray s (some q) copyDest m = .ub := by
  refine ⟨DataType.ofId .uint8 2, ⟨0, 0⟩, [some [7, 8], some [1, 2, 3, 4]], ?_, ?_, ?_, rfl⟩
  · simp only [Readable]; decide
  · simp only [copyDest, Readable]; decide
  · refine ⟨by decide, fun p hp => ?_⟩
    simp [copyDest, owned, ownPtr] at hp; subst hp
    exact ⟨rfl, [1, 2, 3, 4], rfl⟩

/-- a string set on a strided string leaf is stored at the stride, but `as_string`
    reads consecutive bytes: "hi" comes back as something else -/
theorem C30_strided_string_false :
    ∃ (x : Info) (d : DataType) (m m' : Mem), Readable m (.leaf x d) ∧
      setString [104, 105] (.leaf x d) m = .ok (m', .leaf x d) ∧ asString x d m' = .ok [104, 7, 105, 7] :=
  ⟨⟨some ⟨0, 0⟩, false⟩, { id := .char8Str, n := 3, offset := 0, stride := 2, ele := 1 },
    [some [7, 7, 7, 7, 7, 7]], _, by simp only [Readable]; decide, rfl, rfl⟩

end Conduit
