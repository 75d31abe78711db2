import Verif.Lemmas.NodeEndian
namespace Conduit
open Spec Spec.Tree Schema

namespace Mem

theorem flatten_get {es : List (List UInt8)} {eb : Nat} (h : ∀ x ∈ es, x.length = eb) (e k : Nat) (hk : k < eb)
    {x : List UInt8} (he : es[e]? = some x) : es.flatten[eb * e + k]? = x[k]? := by
  induction es generalizing e with
  | nil => simp at he
  | cons y es ih =>
    have hy : y.length = eb := h y (by simp)
    cases e with
    | zero =>
      simp at he; subst he
      rw [List.flatten_cons, List.getElem?_append_left (by omega)]; simp
    | succ e =>
      rw [List.flatten_cons, List.getElem?_append_right (by rw [Nat.mul_succ]; omega), hy]
      have : eb * (e + 1) + k - eb = eb * e + k := by rw [Nat.mul_succ]; omega
      rw [this]
      exact ih (fun z hz => h z (by simp [hz])) e (by simpa using he)

theorem flatten_length {es : List (List UInt8)} {eb : Nat} (h : ∀ x ∈ es, x.length = eb) :
    es.flatten.length = eb * es.length := by
  induction es with
  | nil => simp
  | cons y es ih =>
    rw [List.flatten_cons, List.length_append, ih (fun z hz => h z (by simp [hz])), h y (by simp), List.length_cons,
      Nat.mul_succ]; omega

/-- elements written one by one -/
theorem storeElems_spec (p : Ptr) (eb : Nat) (ds : Int) : ∀ (es : List (List UInt8)) (m : Mem) (off : Int),
    (∀ x ∈ es, x.length = eb) →
    (∀ e k : Nat, e < es.length → k < eb → (m.byte p.blk (p.off + off + ds * e + k)).isSome) →
    Apart ds es.length eb →
    ∃ m', Node.storeElems (some p) ds es off m = .ok m' ∧ SameShape m m' ∧
      (∀ b i, (b = p.blk → ¬ InElems (p.off + off) ds es.length eb i) → m'.byte b i = m.byte b i) ∧
      (∀ (e k : Nat) (x : List UInt8), es[e]? = some x → k < eb →
        m'.byte p.blk (p.off + off + ds * e + k) = x[k]?)
  | [], m, off, _, _, _ => ⟨m, rfl, SameShape.refl m, fun _ _ _ => rfl, by intro e k x h; simp at h⟩
  | y :: es, m, off, hl, hd, hap => by
    have hy : y.length = eb := hl y (by simp)
    have hstep : ∀ (a d : Int) (e : Nat), a + d + d * e = a + d * (e + 1 : Nat) := by
      intro a d e
      simp only [Int.natCast_add, Int.natCast_one, Int.mul_add, Int.mul_one]; omega
    obtain ⟨m1, e1, e2, e3, e4⟩ := store_spec (m := m) (q := p) (off := off) (xs := y) (by
      intro k hk; have := hd 0 k (by simp) (by omega); simpa using this)
    have hap' : Apart ds es.length eb := by
      intro e e' h1 h2
      have := hap (e + 1) (e' + 1) (by omega) (by simp; omega)
      simp only [Int.natCast_add, Int.natCast_one, Int.mul_add, Int.mul_one] at this
      omega
    have sh : SameShape m m1 := ⟨e2, e3⟩
    obtain ⟨m2, f1, f2, f3, f4⟩ := storeElems_spec p eb ds es m1 (off + ds) (fun z hz => hl z (by simp [hz]))
      (by
        intro e k he hk
        have := hd (e + 1) k (by simp; omega) hk
        rw [sh.isSome, ← Int.add_assoc, hstep]
        exact this)
      hap'
    refine ⟨m2, ?_, sh.trans f2, ?_, ?_⟩
    · rw [Node.storeElems, e1]; exact f1
    · intro b i hb
      rw [f3 b i, e4, if_neg]
      · rintro ⟨hbp, h1, h2⟩
        exact hb hbp ⟨0, by simp, by simpa using h1, by simp; omega⟩
      · rintro hbp ⟨e, he, h1, h2⟩
        rw [← Int.add_assoc, hstep] at h1 h2
        exact hb hbp ⟨e + 1, by simp; omega, h1, h2⟩
    · intro e k x he hk
      cases e with
      | zero =>
        simp at he; subst he
        rw [f3, e4, if_pos ⟨rfl, by simp; omega, by simp; omega⟩]
        · congr 1; simp; omega
        · rintro _ ⟨e', he', h1, h2⟩
          rw [← Int.add_assoc, hstep] at h1 h2
          have := hap 0 (e' + 1) (by omega) (by simp; omega)
          simp only [Int.natCast_zero, Int.mul_zero] at this h1 h2
          omega
      | succ e =>
        have := f4 e k x (by simpa using he) hk
        rw [← Int.add_assoc, hstep] at this
        exact this

/-- elements written as one run -/
theorem store_flatten_spec (p : Ptr) (eb : Nat) (es : List (List UInt8)) (m : Mem) (off : Int)
    (hl : ∀ x ∈ es, x.length = eb)
    (hd : ∀ e k : Nat, e < es.length → k < eb → (m.byte p.blk (p.off + off + eb * e + k)).isSome) :
    ∃ m', m.store (some p) off es.flatten = .ok m' ∧ SameShape m m' ∧
      (∀ b i, (b = p.blk → ¬ InElems (p.off + off) eb es.length eb i) → m'.byte b i = m.byte b i) ∧
      (∀ (e k : Nat) (x : List UInt8), es[e]? = some x → k < eb →
        m'.byte p.blk (p.off + off + eb * e + k) = x[k]?) := by
  have hfl := flatten_length hl
  obtain ⟨m1, e1, e2, e3, e4⟩ := store_spec (m := m) (q := p) (off := off) (xs := es.flatten) (by
    intro k hk
    rw [hfl] at hk
    obtain ⟨a1, a2, a3⟩ := div_bytes hk
    have := hd _ _ a1 a2
    rw [← Int.natCast_mul] at this
    rw [show p.off + off + (k : Int) = p.off + off + ((eb * (k / eb) : Nat) : Int) + ((k % eb : Nat) : Int) by omega]
    exact this)
  refine ⟨m1, e1, ⟨e2, e3⟩, ?_, ?_⟩
  · intro b i hb
    rw [e4, if_neg]
    rintro ⟨h1, h2, h3⟩
    apply hb h1
    rw [hfl] at h3
    obtain ⟨a1, a2, a3⟩ := div_bytes (eb := eb) (k := (i - (p.off + off)).toNat) (n := es.length) (by omega)
    refine ⟨(i - (p.off + off)).toNat / eb, a1, ?_, ?_⟩
    · rw [← Int.natCast_mul]; omega
    · rw [← Int.natCast_mul]; omega
  · intro e k x he hk
    have hlt := (List.getElem?_eq_some_iff.1 he).1
    have hin : eb * e + k < eb * es.length := by
      have : eb * (e + 1) ≤ eb * es.length := Nat.mul_le_mul_left _ hlt
      rw [Nat.mul_succ] at this; omega
    rw [e4, if_pos ⟨rfl, by rw [← Int.natCast_mul]; omega, by rw [← Int.natCast_mul, hfl]; omega⟩,
      ← flatten_get hl e k hk he]
    congr 1
    rw [← Int.natCast_mul]; omega

end Mem

namespace Node

/-- a number or string type -/
def DataId (t : TypeId) : Prop := t ≠ .empty ∧ t ≠ .object ∧ t ≠ .list

theorem ofDtype_leaf (x : Info) (d : DataType) (h : DataId d.id) : ofDtype x d = .leaf x d := by
  unfold ofDtype
  split
  · rename_i h'; exact absurd h' h.2.1
  · rename_i h'; exact absurd h' h.2.2
  · rfl

theorem spanned_ofId (t : TypeId) (k : Int) : (DataType.ofId t k).spannedBytes = t.bytes * k := by
  simp only [DataType.spannedBytes, DataType.ofId, Int.mul_sub]; omega

/-- what `init` leaves: the node as it was, or a new zeroed block -/
theorem init_spec (dest : Node) (t : TypeId) (k : Nat) (m : Mem) (ht : DataId t) (hd : GoodOwners m (owned dest)) :
    (dest.dtype.compatible (DataType.ofId t k) = true ∧ dest.init (DataType.ofId t k) m = .ok (m, dest)) ∨
    (dest.dtype.compatible (DataType.ofId t k) = false ∧ ∃ m1,
      dest.init (DataType.ofId t k) m = .ok (m1, .leaf ⟨some ⟨m.length, 0⟩, true⟩ (DataType.ofId t k)) ∧
      m1.length = m.length + 1 ∧ Frame m m1 (owned dest) ∧
      m1.size m.length = some (t.bytes * k) ∧
      ∀ i, m1.byte m.length i = if 0 ≤ i ∧ i < (t.bytes * k : Nat) then some 0 else none) := by
  cases hc : dest.dtype.compatible (DataType.ofId t k) with
  | true => left; exact ⟨rfl, by rw [init, if_pos hc]⟩
  | false =>
    right
    refine ⟨rfl, ?_⟩
    obtain ⟨m1, a1, a2⟩ : ∃ m1 i1, (if dest.info.data.isSome || (dest.dtype.id == .object || dest.dtype.id == .list) then do
        let m1 ← dest.releaseMem m
        .ok (m1, dest.releasedInfo)
      else .ok (m, dest.info) : Res (Mem × Info)) = .ok (m1, i1) ∧ Rel m m1 (owned dest) := by
      split
      · obtain ⟨m1, a1, a2⟩ := releaseMem_spec dest m hd
        exact ⟨m1, _, by rw [a1, bind_ok], a2⟩
      · exact ⟨m, _, rfl, Rel.refl _ _⟩
    obtain ⟨b1, b2⟩ := a2
    have hlen : m1.length = m.length := b2.1
    refine ⟨(m1.alloc (t.bytes * k)).1, ?_, ?_, ⟨?_, ?_⟩, ?_, ?_⟩
    · rw [init, if_neg (by simp [hc])]
      simp only
      rw [b1, bind_ok]
      have h1 : (DataType.ofId t k).id = t := rfl
      simp only [h1]
      have : (t != .object && t != .list && t != .empty) = true := by simp [ht.1, ht.2.1, ht.2.2]
      rw [if_pos this, spanned_ofId, allocate]
      have h0 : 0 ≤ (t.bytes : Int) * k := Int.mul_nonneg (by omega) (by omega)
      rw [if_neg (by omega), ofDtype_leaf _ _ ht]
      have : ((t.bytes : Int) * k).toNat = t.bytes * k := by rw [← Int.natCast_mul, Int.toNat_natCast]
      rw [this]
      simp only [Mem.alloc, hlen]
    · simp [Mem.alloc, hlen]
    · simp [Mem.alloc, hlen]
    · intro b hb hn
      refine ⟨?_, fun i => ?_⟩
      · rw [Mem.size_alloc_old _ _ _ (by omega), b2.size hn]
      · rw [Mem.byte_alloc_old _ _ _ _ (by omega), b2.byte hn]
    · rw [← hlen]; exact size_alloc_new _ _
    · intro i; rw [← hlen]; exact Mem.byte_alloc_new _ _ _

theorem compatible_leaf {dest : Node} {t : TypeId} {k : Nat} (ht : DataId t)
    (h : dest.dtype.compatible (DataType.ofId t k) = true) :
    ∃ x d, dest = .leaf x d ∧ d.id = t ∧ d.ele = t.bytes ∧ (k : Int) ≤ d.n := by
  simp only [DataType.compatible, DataType.ofId, Bool.and_eq_true, beq_iff_eq, decide_eq_true_eq] at h
  cases dest with
  | leaf x d => exact ⟨x, d, rfl, h.1.1, h.1.2, by simpa [dtype] using h.2⟩
  | obj x es => exact absurd h.1.1.symm ht.2.1
  | lst x es => exact absurd h.1.1.symm ht.2.2

/-- the elements of a leaf are the given ones -/
theorem elems_eq {m : Mem} {p : Option Ptr} {d : DataType} {es : List (List UInt8)}
    (hn : d.n = es.length) (hl : ∀ x ∈ es, x.length = d.id.bytes)
    (h : ∀ (e k : Nat) (x : List UInt8), es[e]? = some x → k < d.id.bytes →
      m.byteAt p (d.offset + d.stride * e + k) = x[k]?) :
    elems m p d = es.map (fun x => x.map some) := by
  apply List.ext_getElem
  · simp [elems, hn]
  · intro i h1 h2
    simp at h2
    simp only [elems, List.getElem_map, List.getElem_range]
    apply List.ext_getElem
    · simp [hl es[i] (List.getElem_mem h2)]
    · intro k h3 h4
      simp at h3
      simp only [List.getElem_map, List.getElem_range]
      have := hl es[i] (List.getElem_mem h2)
      rw [h i k es[i] (List.getElem?_eq_getElem h2) h3, List.getElem?_eq_getElem (by omega)]

/-- an element byte lies in a place of the leaf -/
theorem has_of_inElems {x : Info} {d : DataType} {p : Ptr} (hx : x.data = some p) {b : Nat} {i : Int} {n : Nat}
    (hn : (n : Int) ≤ d.n) (hb : b = p.blk) (h : Mem.InElems (p.off + d.elementIndex 0) d.stride n d.id.bytes i) :
    ∃ pl ∈ places (.leaf x d), pl.Has b i := by
  obtain ⟨e, h1, h2, h3⟩ := h
  refine ⟨⟨x.data, d.offset + d.stride * e, d.id.bytes⟩, ?_, p, hx, hb, ?_, ?_⟩
  · simp only [places, leafPlaces, List.mem_map, List.mem_range]
    exact ⟨e, by omega, rfl⟩
  · simp only [DataType.elementIndex, Int.mul_zero] at h2; simp; omega
  · simp only [DataType.elementIndex, Int.mul_zero] at h3; simp; omega

theorem readable_elem {m : Mem} {x : Info} {d : DataType} (hr : Readable m (.leaf x d)) (he : d.id ≠ .empty)
    {e k : Nat} (h1 : (e : Int) < d.n) (h2 : k < d.id.bytes) :
    ∃ p, x.data = some p ∧ (m.byte p.blk (p.off + d.elementIndex 0 + d.stride * e + k)).isSome := by
  have := elems_isSome.1 (hr.2.2.2 he) e k h1 h2
  unfold Mem.byteAt at this
  cases hp : x.data with
  | none => simp [hp] at this
  | some p =>
    simp only [hp] at this
    refine ⟨p, rfl, ?_⟩
    rw [show p.off + d.elementIndex 0 + d.stride * e + (k : Int) = p.off + (d.offset + d.stride * e + k) by
      simp only [DataType.elementIndex, Int.mul_zero]; omega]
    exact this

/-- The memory outside a node's own buffers and elements is as before. -/
def Outside (m m' : Mem) (dest : Node) : Prop :=
  ∀ b i, b < m.length → b ∉ (owned dest).map Ptr.blk → (∀ pl ∈ places dest, ¬ pl.Has b i) → m'.byte b i = m.byte b i

/-- The condition under which an existing leaf is written in place without
    remains of the old value: same number of elements, default byte order. -/
def InPlace (m : Mem) (dest : Node) (k : Nat) : Prop :=
  Readable m dest ∧ dest.dtype.n = k ∧ dest.dtype.endian = .default

theorem setVector_spec (t : TypeId) (es : List (List UInt8)) (dest : Node) (m : Mem) (ht : DataId t)
    (hl : ∀ x ∈ es, x.length = t.bytes) (hd : GoodOwners m (owned dest))
    (hin : dest.dtype.compatible (DataType.ofId t es.length) = true →
      InPlace m dest es.length ∧ (dest.dtype.stride = t.bytes ∨ es.length ≤ 1)) :
    ∃ m' n', setVector t es dest m = .ok (m', n') ∧ val m' n' = .leaf t .default (es.map (fun x => x.map some)) ∧
      Outside m m' dest := by
  rcases init_spec dest t es.length m ht hd with ⟨hc, h1⟩ | ⟨hc, m1, h1, h2, h3, h4, h5⟩
  · obtain ⟨⟨hr, hn, hend⟩, hst⟩ := hin hc
    obtain ⟨x, d, rfl, hid, hele, _⟩ := compatible_leaf ht hc
    simp only [dtype] at hn hend hst
    have he : d.id ≠ .empty := by rw [hid]; exact ht.1
    by_cases h0 : es.length = 0
    · have : es = [] := List.length_eq_zero_iff.1 h0
      subst this
      refine ⟨m, .leaf x d, ?_, ?_, fun _ _ _ _ _ => rfl⟩
      · simp only [setVector, h1, bind_ok]; rfl
      · simp [val, he, hid, hend, elems, hn, ht.1]
    · obtain ⟨p, hp, _⟩ := readable_elem hr he (e := 0) (k := 0) (by omega) (bytes_pos he hr.1 hr.2.1)
      have hstride : ∀ e : Nat, e < es.length → d.stride * e = (t.bytes : Int) * e := by
        intro e he'
        rcases hst with h | h
        · rw [h]
        · have : e = 0 := by omega
          subst this; simp
      obtain ⟨m2, g1, g2, g3, g4⟩ := Mem.store_flatten_spec p t.bytes es m (d.elementIndex 0) hl (by
        intro e k he' hk
        obtain ⟨p', hp', h'⟩ := readable_elem hr he (e := e) (k := k) (by omega) (by rw [hid]; exact hk)
        rw [hp] at hp'; injection hp' with hp'; subst hp'
        rw [hstride e he'] at h'; exact h')
      refine ⟨m2, .leaf x d, ?_, ?_, ?_⟩
      · simp only [setVector, h1, bind_ok, info, dtype, hp, g1]
      · simp only [val, he, if_false, hend]
        rw [hid]
        congr 1
        refine elems_eq hn (by rw [hid]; exact hl) ?_
        intro e k y hy hk
        rw [hid] at hk
        have := g4 e k y hy hk
        have hlt := (List.getElem?_eq_some_iff.1 hy).1
        rw [hp]
        simp only [Mem.byteAt]
        rw [← this, hstride e hlt]
        congr 1
        simp only [DataType.elementIndex, Int.mul_zero]; omega
      · intro b i _ _ hpl
        apply g3
        rintro hb ⟨e, q1, q2, q3⟩
        obtain ⟨pl, hpl1, hpl2⟩ := has_of_inElems (d := d) hp (n := es.length) (i := i) (by omega) hb
          ⟨e, q1, by rw [hstride e q1]; exact q2, by rw [hstride e q1, hid]; exact q3⟩
        exact hpl pl hpl1 hpl2
  · obtain ⟨m2, g1, g2, g3, g4⟩ := Mem.store_flatten_spec ⟨m.length, 0⟩ t.bytes es m1 0 hl (by
      intro e k he' hk
      simp only
      rw [h5, if_pos]; · rfl
      have : t.bytes * (e + 1) ≤ t.bytes * es.length := Nat.mul_le_mul_left _ he'
      rw [Nat.mul_succ] at this
      rw [← Int.natCast_mul]; omega)
    refine ⟨m2, .leaf ⟨some ⟨m.length, 0⟩, true⟩ (DataType.ofId t es.length), ?_, ?_, ?_⟩
    · rw [setVector, h1, bind_ok]
      simp only [info, dtype]
      rw [show (DataType.ofId t es.length).elementIndex 0 = 0 by simp [DataType.elementIndex, DataType.ofId], g1, bind_ok]
    · have he : (DataType.ofId t es.length).id ≠ .empty := ht.1
      simp only [val, he, if_false]
      show Val.leaf t .default _ = _
      congr 1
      refine elems_eq rfl hl ?_
      intro e k y hy hk
      have := g4 e k y hy hk
      simp only [Mem.byteAt]
      rw [← this]
      congr 1
      simp only [DataType.ofId]; omega
    · intro b i hb hno _
      rw [g3 b i (fun hb' => by simp at hb'; omega), (h3.2 b hb hno).2]

theorem setScalar_eq (t : TypeId) (bytes : List UInt8) (dest : Node) (m : Mem) :
    setScalar t bytes dest m = setVector t [bytes] dest m := by
  simp [setScalar, setVector]

theorem setArray_of {s : DataType} {src : Option Ptr} {dest n1 : Node} {m m1 m2 : Mem} {k eb : Nat}
    (h1 : dest.init (DataType.ofId s.id s.n) m = .ok (m1, n1)) (hn : n1.dtype.n = k) (he : n1.dtype.ele = eb)
    (h2 : m1.stridedCopy n1.info.data (n1.dtype.elementIndex 0) k eb n1.dtype.stride src (s.elementIndex 0) s.stride
      = .ok m2) : setArray s src dest m = .ok (m2, n1) := by
  rw [setArray, h1, bind_ok]
  have hg : ¬ (n1.dtype.n < 0 ∨ n1.dtype.ele < 0) := by omega
  show ((if n1.dtype.n < 0 ∨ n1.dtype.ele < 0 then Res.ub else _) >>= _) = _
  rw [if_neg hg, hn, he, Int.toNat_natCast, Int.toNat_natCast, h2, bind_ok]

theorem setArray_spec (s : DataType) (q : Ptr) (dest : Node) (m : Mem) (ht : DataId s.id)
    (hs : Readable m (.leaf ⟨some q, false⟩ s)) (hd : GoodOwners m (owned dest))
    (hsep : ∀ p ∈ owned dest, dest.dtype.compatible (DataType.ofId s.id s.n) = false → p.blk ≠ q.blk)
    (hin : dest.dtype.compatible (DataType.ofId s.id s.n) = true →
      InPlace m dest s.n.toNat ∧ ((s.id.bytes : Int) ≤ dest.dtype.stride ∨ s.n ≤ 1) ∧
      ∀ a ∈ places dest, ∀ b ∈ leafPlaces ⟨some q, false⟩ s, Place.Apart a b) :
    ∃ m' n', setArray s (some q) dest m = .ok (m', n') ∧ val m' n' = .leaf s.id .default (elems m (some q) s) ∧
      Outside m m' dest := by
  have hsn : 0 ≤ s.n := hs.2.2.1
  have hcast : ((s.n.toNat : Nat) : Int) = s.n := by omega
  have hse := elems_isSome.1 (hs.2.2.2 ht.1)
  have hsrc : ∀ (m1 : Mem), (∀ i, m1.byte q.blk i = m.byte q.blk i) → ∀ e k : Nat, e < s.n.toNat → k < s.id.bytes →
      (m1.byte q.blk (q.off + s.elementIndex 0 + s.stride * e + k)).isSome := by
    intro m1 h1 e k he hk
    rw [h1]
    have := hse e k (by omega) hk
    simp only [Mem.byteAt] at this
    rw [show q.off + s.elementIndex 0 + s.stride * e + (k : Int) = q.off + (s.offset + s.stride * e + k) by
      simp only [DataType.elementIndex, Int.mul_zero]; omega]
    exact this
  rcases init_spec dest s.id s.n.toNat m ht hd with ⟨hc, h1⟩ | ⟨hc, m1, h1, h2, h3, h4, h5⟩
  · rw [hcast] at hc h1
    obtain ⟨⟨hr, hn, hend⟩, hst, hap⟩ := hin hc
    rw [← hcast] at hc
    obtain ⟨x, d, rfl, hid, hele, _⟩ := compatible_leaf ht hc
    simp only [dtype] at hn hend hst
    have he : d.id ≠ .empty := by rw [hid]; exact ht.1
    by_cases h0 : s.n = 0
    · refine ⟨m, .leaf x d, ?_, ?_, fun _ _ _ _ _ => rfl⟩
      · exact setArray_of (k := 0) h1 (by simp only [dtype]; omega) hele
          (Mem.stridedCopy_zero _ _ _ _ _ _ _ _ _ (Or.inl rfl))
      · rw [val, if_neg he, hend, hid]
        congr 1
        rw [elems_nil (by omega), elems_nil (by omega)]
    · obtain ⟨p, hp, _⟩ := readable_elem hr he (e := 0) (k := 0) (by omega) (bytes_pos he hr.1 hr.2.1)
      obtain ⟨m2, g1, g2, g3, g4⟩ := Mem.stridedCopy_spec p q s.id.bytes d.stride s.stride s.n.toNat m
        (d.elementIndex 0) (s.elementIndex 0) (hsrc m (fun _ => rfl))
        (by
          intro e k he' hk
          obtain ⟨p', hp', h'⟩ := readable_elem hr he (e := e) (k := k) (by omega) (by rw [hid]; exact hk)
          rw [hp] at hp'; injection hp' with hp'; subst hp'
          exact h')
        (by
          intro hb i h7 h8
          obtain ⟨pl, hpl1, hpl2⟩ := has_of_inElems (d := d) hp (n := s.n.toNat) (i := i) (b := p.blk) (by omega) rfl
            (by rw [hid]; exact h7)
          obtain ⟨pl', hpl1', hpl2'⟩ := has_of_inElems (x := ⟨some q, false⟩) (d := s) rfl (n := s.n.toNat) (i := i)
            (b := p.blk) (by omega) hb h8
          exact apart_has (hap pl hpl1 pl' hpl1') hpl2 hpl2')
        (by
          rcases hst with h | h
          · exact Mem.apart_of_le h
          · exact Mem.apart_one (by omega))
      refine ⟨m2, .leaf x d, ?_, ?_, ?_⟩
      · exact setArray_of (k := s.n.toNat) h1 hn hele (by simp only [info, hp]; exact g1)
      · simp only [val, he, if_false, hend]
        rw [hid]
        congr 1
        refine elems_congr (by omega) hid ?_
        intro i k hi hk
        have := g4 i k (by omega) hk
        rw [hp]
        simp only [Mem.byteAt]
        rw [show p.off + (d.offset + d.stride * i + (k : Int)) = p.off + d.elementIndex 0 + d.stride * i + k by
          simp only [DataType.elementIndex, Int.mul_zero]; omega, this]
        congr 1
        simp only [DataType.elementIndex, Int.mul_zero]; omega
      · intro b i _ _ hpl
        apply g3
        intro hb h7
        obtain ⟨pl, hpl1, hpl2⟩ := has_of_inElems (d := d) hp (n := s.n.toNat) (i := i) (by omega) hb
            (by rw [hid]; exact h7)
        exact hpl pl hpl1 hpl2
  · rw [hcast] at hc h1
    have hqlt : s.n ≠ 0 → q.blk < m.length := by
      intro h0
      have := hse 0 0 (by omega) (bytes_pos ht.1 ht.2.1 ht.2.2)
      exact Mem.byte_lt this
    by_cases h0 : s.n = 0
    · refine ⟨m1, .leaf ⟨some ⟨m.length, 0⟩, true⟩ (DataType.ofId s.id s.n), ?_, ?_, ?_⟩
      · exact setArray_of (k := 0) h1 h0 rfl (Mem.stridedCopy_zero _ _ _ _ _ _ _ _ _ (Or.inl rfl))
      · simp only [val]
        rw [if_neg (show (DataType.ofId s.id s.n).id ≠ .empty from ht.1)]
        show Val.leaf s.id .default _ = _
        congr 1
        rw [elems_nil (by simp [DataType.ofId]; omega), elems_nil (by omega)]
      · intro b i hb hno _
        exact (h3.2 b hb hno).2 i
    · have hqn : q.blk ∉ (owned dest).map Ptr.blk := by
        intro h
        obtain ⟨p, hp, hpb⟩ := List.mem_map.1 h
        exact hsep p hp hc hpb
      have hkeep : ∀ i, m1.byte q.blk i = m.byte q.blk i := (h3.2 _ (hqlt h0) hqn).2
      obtain ⟨m2, g1, g2, g3, g4⟩ := Mem.stridedCopy_spec ⟨m.length, 0⟩ q s.id.bytes s.id.bytes s.stride s.n.toNat m1
        0 (s.elementIndex 0) (hsrc m1 hkeep)
        (by
          intro e k he' hk
          simp only
          rw [h5, if_pos]; · rfl
          have : s.id.bytes * (e + 1) ≤ s.id.bytes * s.n.toNat := Nat.mul_le_mul_left _ he'
          rw [Nat.mul_succ] at this
          rw [← Int.natCast_mul]; omega)
        (by intro hb; have := hqlt h0; simp at hb; omega)
        (Mem.apart_of_le (Int.le_refl _))
      refine ⟨m2, .leaf ⟨some ⟨m.length, 0⟩, true⟩ (DataType.ofId s.id s.n), ?_, ?_, ?_⟩
      · refine setArray_of (k := s.n.toNat) h1 hcast.symm rfl ?_
        have e0 : (DataType.ofId s.id s.n).elementIndex 0 = 0 := by simp [DataType.elementIndex, DataType.ofId]
        simp only [dtype, info, e0]
        exact g1
      · simp only [val]
        rw [if_neg (show (DataType.ofId s.id s.n).id ≠ .empty from ht.1)]
        show Val.leaf s.id .default _ = _
        congr 1
        refine elems_congr rfl rfl ?_
        intro i k hi hk
        have := g4 i k (by omega) hk
        simp only [Mem.byteAt, DataType.ofId]
        rw [show (0 : Int) + (0 + (s.id.bytes : Int) * i + k) = 0 + 0 + s.id.bytes * i + k by omega, this]
        rw [show q.off + (s.offset + s.stride * i + (k : Int)) = q.off + s.elementIndex 0 + s.stride * i + k by
          simp only [DataType.elementIndex, Int.mul_zero]; omega, hkeep]
      · intro b i hb hno _
        rw [g3 b i (fun hb' => by simp at hb'; omega), (h3.2 b hb hno).2]

theorem stringElems (text : List UInt8) : ∀ x ∈ (text ++ [0]).map (fun b => [b]), x.length = TypeId.char8Str.bytes := by
  intro x hx
  obtain ⟨b, _, rfl⟩ := List.mem_map.1 hx
  rfl

theorem singles_flatten (l : List UInt8) : (l.map (fun b => [b])).flatten = l := by
  induction l with
  | nil => rfl
  | cons a l ih => simp [ih]

/-- what `set_string` leaves: the characters and the terminating 0 in the first
    elements of a string leaf -/
theorem setString_spec (text : List UInt8) (dest : Node) (m : Mem) (hd : GoodOwners m (owned dest))
    (hin : dest.dtype.compatible (DataType.ofId .char8Str (text.length + 1)) = true →
      Readable m dest ∧ (1 ≤ dest.dtype.stride ∨ text = [])) :
    ∃ m' x d p, setString text dest m = .ok (m', .leaf x d) ∧ d.id = .char8Str ∧ x.data = some p ∧
      ((text.length : Int) + 1 ≤ d.n) ∧
      (dest.dtype.compatible (DataType.ofId .char8Str (text.length + 1)) = false →
        d = DataType.ofId .char8Str (text.length + 1)) ∧
      (dest.dtype.compatible (DataType.ofId .char8Str (text.length + 1)) = true → .leaf x d = dest) ∧
      (∀ (e : Nat), e < text.length + 1 → m'.byte p.blk (p.off + d.elementIndex 0 + d.stride * e) = (text ++ [0])[e]?) ∧
      Outside m m' dest := by
  have ht : DataId .char8Str := ⟨by decide, by decide, by decide⟩
  have hlen : ((text ++ [0]).length : Int) = (text.length : Int) + 1 := by simp
  have hb1 : TypeId.char8Str.bytes = 1 := rfl
  have hget : ∀ e : Nat, e < text.length + 1 → ((text ++ [0]).map (fun b => [b]))[e]? = some [(text ++ [0])[e]?.getD 0] := by
    intro e he
    rw [List.getElem?_map, List.getElem?_eq_getElem (by simp; omega)]
    simp
  have hgetD : ∀ e : Nat, e < text.length + 1 → some ((text ++ [0])[e]?.getD 0) = (text ++ [0])[e]? := by
    intro e he
    rw [List.getElem?_eq_getElem (by simp; omega)]; rfl
  have hcast : ((text.length + 1 : Nat) : Int) = (text.length : Int) + 1 := by omega
  rcases init_spec dest .char8Str (text.length + 1) m ht hd with ⟨hc, h1⟩ | ⟨hc, m1, h1, h2, h3, h4, h5⟩
  · rw [hcast] at h1
    have hc' := hc
    rw [hcast] at hc'
    obtain ⟨hr, hst⟩ := hin hc'
    obtain ⟨x, d, rfl, hid, hele, hk⟩ := compatible_leaf ht hc
    simp only [dtype] at hst
    have he : d.id ≠ .empty := by rw [hid]; exact ht.1
    obtain ⟨p, hp, _⟩ := readable_elem hr he (e := 0) (k := 0) (by omega) (bytes_pos he hr.1 hr.2.1)
    have hw : ∀ e k : Nat, e < ((text ++ [0]).map (fun b => [b])).length → k < TypeId.char8Str.bytes →
        (m.byte p.blk (p.off + d.elementIndex 0 + d.stride * e + k)).isSome := by
      intro e k he' hk'
      simp at he'
      obtain ⟨p', hp', h'⟩ := readable_elem hr he (e := e) (k := k) (by omega) (by rw [hid]; exact hk')
      rw [hp] at hp'; injection hp' with hp'; subst hp'
      exact h'
    have key : ∃ m2, setString text (.leaf x d) m = .ok (m2, .leaf x d) ∧
        (∀ b i, (b = p.blk → ¬ Mem.InElems (p.off + d.elementIndex 0) d.stride (text.length + 1) 1 i) → m2.byte b i = m.byte b i) ∧
        (∀ (e : Nat), e < text.length + 1 → m2.byte p.blk (p.off + d.elementIndex 0 + d.stride * e) = (text ++ [0])[e]?) := by
      by_cases hs1 : d.stride = 1
      · obtain ⟨m2, g1, g2, g3, g4⟩ := Mem.store_flatten_spec p TypeId.char8Str.bytes ((text ++ [0]).map (fun b => [b])) m (d.elementIndex 0) (stringElems text) (by
          intro e k h7 h8
          have := hw e k h7 h8
          rw [hs1] at this
          exact this)
        rw [singles_flatten] at g1
        refine ⟨m2, ?_, ?_, ?_⟩
        · simp only [setString, hlen]
          rw [h1, bind_ok]
          simp only [dtype, info, hp]
          rw [if_pos ⟨by rw [hele]; rfl, hs1⟩, g1, bind_ok]
        · intro b i hb
          apply g3
          rw [List.length_map, List.length_append]
          intro hb' h7
          refine hb hb' ?_
          rw [hs1]; exact h7
        · intro e h7
          have := g4 e 0 _ (hget e h7) (by decide)
          rw [hs1, ← hgetD e h7]
          simpa [TypeId.bytes] using this
      · obtain ⟨m2, g1, g2, g3, g4⟩ := Mem.storeElems_spec p TypeId.char8Str.bytes d.stride ((text ++ [0]).map (fun b => [b])) m (d.elementIndex 0) (stringElems text) hw (by
          rcases hst with h | h
          · exact Mem.apart_of_le (by rw [hb1]; exact h)
          · subst h; exact Mem.apart_one (by simp))
        refine ⟨m2, ?_, ?_, ?_⟩
        · simp only [setString, hlen]
          rw [h1, bind_ok]
          simp only [dtype, info, hp]
          rw [if_neg (by simp [hs1]), if_pos (by rw [hele]; rfl), g1, bind_ok]
        · intro b i hb
          apply g3
          rw [List.length_map, List.length_append]
          exact hb
        · intro e h7
          have := g4 e 0 _ (hget e h7) (by decide)
          rw [← hgetD e h7]
          simpa using this
    obtain ⟨m2, k1, k2, k3⟩ := key
    refine ⟨m2, x, d, p, k1, hid, hp, by omega, ?_, fun _ => rfl, k3, ?_⟩
    · intro hf; rw [hc'] at hf; cases hf
    · intro b i _ _ hpl
      apply k2
      intro hb h7
      obtain ⟨pl, hpl1, hpl2⟩ := has_of_inElems (d := d) hp (n := text.length + 1) (i := i) (by omega) hb
        (by rw [hid]; exact h7)
      exact hpl pl hpl1 hpl2
  · rw [hcast] at h1 hc
    obtain ⟨m2, g1, g2, g3, g4⟩ := Mem.store_flatten_spec ⟨m.length, 0⟩ TypeId.char8Str.bytes ((text ++ [0]).map (fun b => [b])) m1 0 (stringElems text) (by
      intro e k he' hk
      simp at he'
      simp only
      rw [h5, if_pos]; · rfl
      simp only [hb1] at hk ⊢
      omega)
    rw [singles_flatten] at g1
    refine ⟨m2, ⟨some ⟨m.length, 0⟩, true⟩, DataType.ofId .char8Str (text.length + 1), ⟨m.length, 0⟩, ?_, rfl, rfl,
      Int.le_refl _, fun _ => rfl, ?_, ?_, ?_⟩
    · simp only [setString, hlen]
      rw [h1, bind_ok]
      show ((if (DataType.ofId .char8Str ((text.length : Int) + 1)).ele = 1 ∧
        (DataType.ofId .char8Str ((text.length : Int) + 1)).stride = 1 then
          m1.store (some ⟨m.length, 0⟩) ((DataType.ofId .char8Str ((text.length : Int) + 1)).elementIndex 0) (text ++ [0])
          else _) >>= _) = _
      rw [if_pos ⟨rfl, rfl⟩]
      have e0 : (DataType.ofId .char8Str ((text.length : Int) + 1)).elementIndex 0 = 0 := by
        simp [DataType.elementIndex, DataType.ofId]
      rw [e0, g1, bind_ok]
    · intro hf; rw [hc] at hf; cases hf
    · intro e h7
      have := g4 e 0 _ (hget e h7) (by decide)
      rw [← hgetD e h7]
      simpa [TypeId.bytes, DataType.elementIndex, DataType.ofId] using this
    · intro b i hb hno _
      rw [g3 b i (fun hb' => by simp at hb'; omega), (h3.2 b hb hno).2]

theorem takeWhile_text (text rest : List UInt8) (h : 0 ∉ text) : (text ++ 0 :: rest).takeWhile (· ≠ 0) = text := by
  induction text with
  | nil => simp
  | cons a l ih =>
    simp only [List.mem_cons, not_or] at h
    rw [List.cons_append, List.takeWhile_cons, if_pos (by simp; exact fun h' => h.1 h'.symm), ih h.2]

/-- the C string at the start of a leaf of stride 1 -/
theorem asString_of {x : Info} {d : DataType} {p : Ptr} {m : Mem} {text : List UInt8} (hid : d.id = .char8Str)
    (hx : x.data = some p) (hst : d.stride = 1 ∨ text = []) (h0 : 0 ∉ text)
    (h : ∀ (e : Nat), e < text.length + 1 → m.byte p.blk (p.off + d.elementIndex 0 + d.stride * e) = (text ++ [0])[e]?) :
    asString x d m = .ok text := by
  have h' : ∀ (e : Nat), e < text.length + 1 → m.byte p.blk (p.off + d.elementIndex 0 + e) = (text ++ [0])[e]? := by
    intro e he
    rw [← h e he]
    rcases hst with hs | hs
    · rw [hs]; congr 1; omega
    · subst hs; simp at he; subst he; simp
  unfold asString
  rw [if_neg (by simp [hid]), hx]
  simp only
  have h0' := h' 0 (by omega)
  have hsome : (m.byte p.blk (p.off + d.elementIndex 0 + (0 : Nat))).isSome := by
    rw [h0', List.getElem?_eq_getElem (by simp)]; rfl
  obtain ⟨n, hn, q1, q2⟩ := (Mem.byte_isSome _ _ _).1 hsome
  obtain ⟨bs, hbs⟩ := live_of_size hn
  rw [hbs]
  simp only
  rw [if_neg (by omega)]
  have hpre : ∃ rest, bs.drop (p.off + d.elementIndex 0).toNat = text ++ 0 :: rest := by
    refine ⟨bs.drop ((p.off + d.elementIndex 0).toNat + (text.length + 1)), ?_⟩
    apply List.ext_getElem?
    intro i
    rw [List.getElem?_drop]
    by_cases hi : i < text.length + 1
    · have := h' i hi
      unfold Mem.byte at this
      rw [hbs] at this
      simp only at this
      rw [if_neg (by omega)] at this
      rw [show text ++ 0 :: bs.drop ((p.off + d.elementIndex 0).toNat + (text.length + 1)) =
        (text ++ [0]) ++ bs.drop ((p.off + d.elementIndex 0).toNat + (text.length + 1)) by simp]
      rw [List.getElem?_append_left (by simp; omega), ← this]
      congr 1; omega
    · rw [show text ++ 0 :: bs.drop ((p.off + d.elementIndex 0).toNat + (text.length + 1)) =
        (text ++ [0]) ++ bs.drop ((p.off + d.elementIndex 0).toNat + (text.length + 1)) by simp]
      rw [List.getElem?_append_right (by simp; omega), List.getElem?_drop]
      congr 1; simp; omega
  obtain ⟨rest, hrest⟩ := hpre
  rw [hrest, if_pos (by simp), takeWhile_text text rest h0]

end Node
end Conduit
