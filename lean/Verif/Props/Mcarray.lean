import Verif.Model.Mcarray
/-
Property theorems C53 (mcarray::verify) and the layout part of C52.
-/
namespace Conduit.MCArray

/-! ## C53 -/

/-- What verification should accept: an object or list of numeric components of equal length. -/
def EqualComponents (kind : TypeId) (ds : List DataType) : Prop :=
  (kind = .object ∨ kind = .list) ∧ (∀ d ∈ ds, isNumber d.id = true) ∧ ∀ d ∈ ds, ∀ e ∈ ds, d.n = e.n

private theorem loop_false (ds : List DataType) : ∀ k, verifyLoop ds k false = false := by
  induction ds with
  | nil => intro _; rfl
  | cons d ds ih =>
    intro k
    simp only [verifyLoop]
    split
    · simp only [ite_self]; exact ih _
    · exact ih _

private theorem loop_pos (ds : List DataType) : ∀ k : Int, k ≠ 0 →
    (verifyLoop ds k true = true ↔ (∀ d ∈ ds, isNumber d.id = true) ∧ ∀ d ∈ ds, d.n = k) := by
  induction ds with
  | nil => intro k _; simp [verifyLoop]
  | cons d ds ih =>
    intro k hk
    simp only [verifyLoop, if_neg hk]
    by_cases hn : isNumber d.id = true
    · rw [if_pos hn]
      by_cases he : d.n = k
      · rw [if_neg (by simp [he]), ih k hk]; simp [hn, he]
      · rw [if_pos he, loop_false]; simp [he]
    · rw [if_neg hn, loop_false]; simp [hn]

/-- C53, exact: the verdict is true exactly when the node is an object or list, all components are
    numeric, and the components after the leading zero-length ones have equal length. -/
theorem C53_exact (kind : TypeId) (ds : List DataType) :
    verify kind ds = true ↔ (kind = .object ∨ kind = .list) ∧ (∀ d ∈ ds, isNumber d.id = true) ∧
      ∀ d ∈ ds.dropWhile (fun d => d.n == 0), ∀ e ∈ ds.dropWhile (fun d => d.n == 0), d.n = e.n := by
  have hk : (kind == .object || kind == .list) = true ↔ (kind = .object ∨ kind = .list) := by simp
  unfold verify
  by_cases h : (kind == .object || kind == .list) = true
  · rw [h, ← hk, h]
    simp only [true_and]
    clear h hk
    induction ds with
    | nil => simp [verifyLoop]
    | cons d ds ih =>
      simp only [verifyLoop, if_true]
      by_cases hn : isNumber d.id = true
      · rw [if_pos hn, if_neg (by simp)]
        by_cases h0 : d.n = 0
        · rw [h0, List.dropWhile_cons_of_pos (by simp [h0])]
          simp only [List.mem_cons, forall_eq_or_imp, hn, true_and]
          exact ih
        · rw [loop_pos ds d.n h0, List.dropWhile_cons_of_neg (by simp [h0])]
          constructor
          · rintro ⟨a, b⟩
            refine ⟨by intro x hx; rcases List.mem_cons.mp hx with e | hx; exact e ▸ hn; exact a x hx, ?_⟩
            have c : ∀ x ∈ d :: ds, x.n = d.n := by
              intro x hx; rcases List.mem_cons.mp hx with e | hx; exact e ▸ rfl; exact b x hx
            intro x hx y hy; rw [c x hx, c y hy]
          · rintro ⟨a, b⟩
            exact ⟨fun x hx => a x (List.mem_cons_of_mem _ hx), fun x hx => b x (List.mem_cons_of_mem _ hx) d List.mem_cons_self⟩
      · rw [if_neg hn, loop_false]; simp [hn]
  · have hf : (kind == .object || kind == .list) = false := by simpa using h
    rw [hf, loop_false]
    constructor
    · intro x; simp at x
    · rintro ⟨x, -⟩; exact absurd (hk.mpr x) h

/-- C53 (`_partial`: no component is empty): the verdict is true exactly for equal-length numeric
    components; so it does not depend on their order. -/
theorem C53_verify_partial (kind : TypeId) (ds : List DataType) (h : ∀ d ∈ ds, d.n ≠ 0) :
    (verify kind ds = true ↔ EqualComponents kind ds) ∧ ∀ es, es.Perm ds → verify kind es = verify kind ds := by
  have key : ∀ l : List DataType, (∀ d ∈ l, d.n ≠ 0) → (verify kind l = true ↔ EqualComponents kind l) := by
    intro l hl
    rw [C53_exact]
    have : l.dropWhile (fun d => d.n == 0) = l := by
      cases l with
      | nil => rfl
      | cons d l => exact List.dropWhile_cons_of_neg (by simpa using hl d List.mem_cons_self)
    rw [this]; rfl
  refine ⟨key ds h, fun es hp => ?_⟩
  have h1 := key ds h
  have h2 := key es (fun d hd => h d (hp.mem_iff.mp hd))
  have h3 : EqualComponents kind es ↔ EqualComponents kind ds := by
    unfold EqualComponents; simp only [hp.mem_iff]
  rw [Bool.eq_iff_iff, h1, h2, h3]

example : verify .object [DataType.ofId .float64 3, DataType.ofId .int32 3] = true ∧
    verify .object [DataType.ofId .float64 3, DataType.ofId .int32 2] = false ∧
    (∀ d ∈ [DataType.ofId .float64 3, DataType.ofId .int32 3], d.n ≠ 0) := by decide

/-- C53 is not met with zero-length components: components of different length are accepted in one
    order and rejected in the other. -/
theorem C53_order_dependent : ∃ a b : DataType, a.n ≠ b.n ∧ verify .object [a, b] = true ∧ verify .object [b, a] = false :=
  ⟨DataType.ofId .float64 0, DataType.ofId .float64 3, by decide, by decide, by decide⟩

/-! ## C52, layout -/

/-- The bytes of element `j` of a component. -/
def At (d : DataType) (j : Int) (b : Int) : Prop := d.elementIndex j ≤ b ∧ b < d.elementIndex j + d.id.bytes

private theorem contiguous_get (ds : List DataType) : ∀ (off : Int) (i : Nat) (d : DataType), (contiguousTypes ds off)[i]? = some d →
    ∃ s, ds[i]? = some s ∧ d = { s with stride := s.ele, offset := off + ((ds.take i).map fun e => e.ele * e.n).sum } := by
  induction ds with
  | nil => intro off i d h; simp [contiguousTypes] at h
  | cons s ds ih =>
    intro off i d h
    cases i with
    | zero => simp [contiguousTypes] at h; exact ⟨s, rfl, by simp [← h]⟩
    | succ i =>
      simp only [contiguousTypes, List.getElem?_cons_succ] at h
      obtain ⟨s', h1, h2⟩ := ih _ i d h
      exact ⟨s', by simpa using h1, by rw [h2]; simp [Int.add_assoc]⟩

/-- C52, `to_contiguous`: component `i` keeps its type and length, and its element `j` is stored right
    after its predecessors: at (sizes of the components before) + j * (element size). -/
theorem C52_contiguous_layout (ds : List DataType) (i : Nat) (d : DataType) (h : (contiguousTypes ds 0)[i]? = some d)
    (hnat : ∀ s ∈ ds, s.ele = s.id.bytes) :
    ∃ s, ds[i]? = some s ∧ d.id = s.id ∧ d.n = s.n ∧ d.endian = s.endian ∧ d.ele = s.ele ∧
      ∀ j, d.elementIndex j = ((ds.take i).map fun e => (e.id.bytes : Int) * e.n).sum + s.id.bytes * j := by
  obtain ⟨s, h1, rfl⟩ := contiguous_get ds 0 i d h
  refine ⟨s, h1, rfl, rfl, rfl, rfl, fun j => ?_⟩
  have hs : s ∈ ds := List.mem_of_getElem? h1
  have e : ((ds.take i).map fun e => e.ele * e.n) = (ds.take i).map fun e => (e.id.bytes : Int) * e.n := by
    apply List.map_congr_left
    intro x hx; rw [hnat x (List.mem_of_mem_take hx)]
  simp only [DataType.elementIndex, e, hnat s hs]; omega

example : contiguousTypes [DataType.ofId .float64 3, DataType.ofId .int32 2] 0 =
    [DataType.ofId .float64 3, { DataType.ofId .int32 2 with offset := 24 }] := by decide

private theorem interleaved_get (stride : Int) (ds : List DataType) : ∀ (off : Int) (i : Nat) (d : DataType),
    (interleavedTypes stride ds off)[i]? = some d →
    ∃ s, ds[i]? = some s ∧ d = { s with stride := stride, offset := off + tupleBytes (ds.take i) } := by
  induction ds with
  | nil => intro off i d h; simp [interleavedTypes] at h
  | cons s ds ih =>
    intro off i d h
    cases i with
    | zero => simp [interleavedTypes] at h; exact ⟨s, rfl, by simp [← h, tupleBytes]⟩
    | succ i =>
      simp only [interleavedTypes, List.getElem?_cons_succ] at h
      obtain ⟨s', h1, h2⟩ := ih _ i d h
      exact ⟨s', by simpa using h1, by rw [h2]; simp [tupleBytes, Int.add_assoc]⟩

private theorem tuple_nonneg (ds : List DataType) : 0 ≤ tupleBytes ds := by
  induction ds with
  | nil => simp [tupleBytes]
  | cons d ds ih => simp only [tupleBytes, List.map_cons, List.sum_cons] at *; omega

private theorem tuple_take (ds : List DataType) : ∀ (i : Nat) (s : DataType), ds[i]? = some s →
    tupleBytes (ds.take i) + s.id.bytes ≤ tupleBytes ds := by
  induction ds with
  | nil => intro i s h; simp at h
  | cons d ds ih =>
    intro i s h
    cases i with
    | zero =>
      simp at h; subst h
      have := tuple_nonneg ds
      simp only [tupleBytes, List.take_zero, List.map_nil, List.sum_nil, List.map_cons, List.sum_cons] at *; omega
    | succ i =>
      have := ih i s (by simpa using h)
      simp only [tupleBytes, List.take_succ_cons, List.map_cons, List.sum_cons] at *; omega

private theorem tuple_take_lt (ds : List DataType) (i k : Nat) (h : i < k) (s : DataType) (hs : ds[i]? = some s) :
    tupleBytes (ds.take i) + s.id.bytes ≤ tupleBytes (ds.take k) := by
  have h1 : (ds.take k)[i]? = some s := by rw [List.getElem?_take]; simp [h, hs]
  have := tuple_take (ds.take k) i s h1
  rwa [List.take_take, show min i k = i by omega] at this

/-- C52, `to_interleaved`: component `i` keeps its type and length; element `j` of component `i` is
    stored in tuple `j`, after the elements of the components before. -/
theorem C52_interleaved_layout (ds : List DataType) (i : Nat) (d : DataType)
    (h : (interleavedTypes (tupleBytes ds) ds 0)[i]? = some d) :
    ∃ s, ds[i]? = some s ∧ d.id = s.id ∧ d.n = s.n ∧ d.endian = s.endian ∧ d.ele = s.ele ∧
      ∀ j, d.elementIndex j = tupleBytes ds * j + tupleBytes (ds.take i) := by
  obtain ⟨s, h1, rfl⟩ := interleaved_get _ ds 0 i d h
  exact ⟨s, h1, rfl, rfl, rfl, rfl, fun j => by simp only [DataType.elementIndex]; omega⟩

/-- C52, `to_interleaved`: no byte belongs to two elements, whether of one or of two components. -/
theorem C52_interleaved_disjoint (ds : List DataType) (i k : Nat) (d e : DataType)
    (hd : (interleavedTypes (tupleBytes ds) ds 0)[i]? = some d) (he : (interleavedTypes (tupleBytes ds) ds 0)[k]? = some e)
    (j l b : Int) (h1 : At d j b) (h2 : At e l b) : i = k ∧ j = l := by
  obtain ⟨s, hs, e1, -, -, -, a1⟩ := C52_interleaved_layout ds i d hd
  obtain ⟨t, ht, e2, -, -, -, a2⟩ := C52_interleaved_layout ds k e he
  unfold At at h1 h2
  rw [a1 j, e1] at h1
  rw [a2 l, e2] at h2
  have b1 := tuple_take ds i s hs
  have b2 := tuple_take ds k t ht
  have n1 := tuple_nonneg (ds.take i)
  have n2 := tuple_nonneg (ds.take k)
  generalize hT : tupleBytes ds = T at *
  have hjl : j = l := by
    rcases Int.lt_trichotomy j l with hlt | heq | hlt
    · have : T * (j + 1) ≤ T * l := Int.mul_le_mul_of_nonneg_left (by omega) (by omega)
      rw [Int.mul_add] at this; omega
    · exact heq
    · have : T * (l + 1) ≤ T * j := Int.mul_le_mul_of_nonneg_left (by omega) (by omega)
      rw [Int.mul_add] at this; omega
  refine ⟨?_, hjl⟩
  subst hjl
  rcases Nat.lt_trichotomy i k with hlt | heq | hlt
  · have := tuple_take_lt ds i k hlt s hs; omega
  · exact heq
  · have := tuple_take_lt ds k i hlt t ht; omega

example : interleavedTypes 12 [DataType.ofId .float64 3, DataType.ofId .int32 3] 0 =
    [{ DataType.ofId .float64 3 with stride := 12 }, { DataType.ofId .int32 3 with offset := 8, stride := 12 }] ∧
    tupleBytes [DataType.ofId .float64 3, DataType.ofId .int32 3] = 12 := by decide

/-- C52: the layout `to_interleaved` produces is recognised by `is_interleaved`, wherever the
    block starts. -/
theorem C52_is_interleaved (ds : List DataType) (base : Int) (hnat : ∀ s ∈ ds, s.ele = s.id.bytes) :
    isInterleaved ((interleavedTypes (tupleBytes ds) ds 0).map fun d => (base + d.elementIndex 0, d)) = true := by
  have key : ∀ (l : List DataType) (st off : Int), (∀ s ∈ l, s.ele = s.id.bytes) →
      interleavedLoop base st ((interleavedTypes st l off).map fun d => (base + d.elementIndex 0, d)) off = true := by
    intro l
    induction l with
    | nil => intro st off _; rfl
    | cons d l ih =>
      intro st off hl
      have := ih st (off + d.id.bytes) (fun s hs => hl s (List.mem_cons_of_mem _ hs))
      simp only [interleavedTypes, List.map_cons, interleavedLoop]
      rw [if_pos ⟨by simp [DataType.elementIndex]; omega, trivial⟩, hl d List.mem_cons_self]; exact this
  have := key ds (tupleBytes ds) 0 hnat
  cases ds with
  | nil => rfl
  | cons d ds =>
    simp only [interleavedTypes, List.map_cons, isInterleaved] at this ⊢
    have e : base + ({ d with stride := tupleBytes (d :: ds), offset := 0 } : DataType).elementIndex 0 = base := by
      simp [DataType.elementIndex]
    rw [e] at this ⊢; exact this

end Conduit.MCArray
