import Verif.Lemmas.McarrayConv2
import Verif.Props.Mcarray
/-
Property theorems C52: the layout conversions keep the values.
Specification: Verif/Spec/Value.lean (`val`), Verif/Spec/Update.lean (`NoShare`).
-/
namespace Conduit.MCArray
open Conduit Spec Schema Node

/-- C52, `to_contiguous`: no byte belongs to two elements, whether of one or of two components. -/
theorem C52_contiguous_disjoint (ds : List DataType) (i k : Nat) (d e : DataType) (hnat : ∀ s ∈ ds, s.ele = s.id.bytes)
    (hn : ∀ s ∈ ds, 0 ≤ s.n)
    (hd : (contiguousTypes ds 0)[i]? = some d) (he : (contiguousTypes ds 0)[k]? = some e)
    (j l b : Int) (hj : 0 ≤ j ∧ j < d.n) (hl : 0 ≤ l ∧ l < e.n) (h1 : At d j b) (h2 : At e l b) : i = k ∧ j = l := by
  obtain ⟨s, hs, e1, e2, -, -, a1⟩ := C52_contiguous_layout ds i d hd hnat
  obtain ⟨t, ht, f1, f2, -, -, a2⟩ := C52_contiguous_layout ds k e he hnat
  unfold At at h1 h2
  rw [a1 j, e1] at h1
  rw [a2 l, f1] at h2
  -- the sizes of the components before grow
  have key : ∀ (ds : List DataType), (∀ s ∈ ds, 0 ≤ s.n) → ∀ (i k : Nat) (s : DataType), i < k → ds[i]? = some s →
      ((ds.take i).map fun e => (e.id.bytes : Int) * e.n).sum + s.id.bytes * s.n ≤
        ((ds.take k).map fun e => (e.id.bytes : Int) * e.n).sum := by
    intro ds
    induction ds with
    | nil => intro _ i k s _ h; simp at h
    | cons d ds ih =>
      intro hn i k s hik h
      have hpos : ∀ (l : List DataType), (∀ s ∈ l, 0 ≤ s.n) → 0 ≤ (l.map fun e => (e.id.bytes : Int) * e.n).sum := by
        intro l hl
        induction l with
        | nil => simp
        | cons a l ih =>
          simp only [List.map_cons, List.sum_cons]
          have := ih fun s hs => hl s (List.mem_cons_of_mem _ hs)
          have := Int.mul_nonneg (Int.natCast_nonneg a.id.bytes) (hl a List.mem_cons_self)
          omega
      obtain ⟨k, rfl⟩ : ∃ k', k = k' + 1 := ⟨k - 1, by omega⟩
      have hn' : ∀ s ∈ ds, 0 ≤ s.n := fun s hs => hn s (List.mem_cons_of_mem _ hs)
      cases i with
      | zero =>
        simp at h; subst h
        have := hpos (ds.take k) fun s hs => hn' s (List.mem_of_mem_take hs)
        simp only [List.take_zero, List.map_nil, List.sum_nil, List.take_succ_cons, List.map_cons, List.sum_cons]; omega
      | succ i =>
        have := ih hn' i k s (by omega) (by simpa using h)
        simp only [List.take_succ_cons, List.map_cons, List.sum_cons]; omega
  have bound : ∀ (x : DataType) (j : Int), j < x.n → (x.id.bytes : Int) * j + x.id.bytes ≤ x.id.bytes * x.n := by
    intro x j hj
    have : (x.id.bytes : Int) * (j + 1) ≤ x.id.bytes * x.n := Int.mul_le_mul_of_nonneg_left (by omega) (by omega)
    rw [Int.mul_add] at this; omega
  have b1 := bound s j (by omega)
  have b2 := bound t l (by omega)
  have p1 := Int.mul_nonneg (Int.natCast_nonneg s.id.bytes) hj.1
  have p2 := Int.mul_nonneg (Int.natCast_nonneg t.id.bytes) hl.1
  rcases Nat.lt_trichotomy i k with hlt | heq | hlt
  · have := key ds hn i k s hlt hs; omega
  · subst heq
    rw [hs] at ht; cases ht
    refine ⟨rfl, ?_⟩
    rcases Int.lt_trichotomy j l with hlt | heq | hlt
    · have : (s.id.bytes : Int) * (j + 1) ≤ s.id.bytes * l := Int.mul_le_mul_of_nonneg_left (by omega) (by omega)
      rw [Int.mul_add] at this; omega
    · exact heq
    · have : (s.id.bytes : Int) * (l + 1) ≤ s.id.bytes * j := Int.mul_le_mul_of_nonneg_left (by omega) (by omega)
      rw [Int.mul_add] at this; omega
  · have := key ds hn k i t hlt ht; omega

/-- A multi-component array: an object of numeric arrays with distinct plain names, whose elements
    can be read. -/
structure IsMCArray (m : Mem) (x : Info) (cs : List (Str × Info × DataType)) : Prop where
  some : cs ≠ []
  plain : ∀ c ∈ cs, '/' ∉ c.1
  names : (cs.map Prod.fst).Nodup
  numbers : ∀ c ∈ cs, isNumber c.2.2.id = true ∧ c.2.2.ele = c.2.2.id.bytes
  readable : Readable m (.obj x (cs.map fun c => (c.1, .leaf c.2.1 c.2.2)))

/-- The node. -/
def node (x : Info) (cs : List (Str × Info × DataType)) : Node := .obj x (cs.map fun c => (c.1, .leaf c.2.1 c.2.2))

private theorem placesE_out (p : Ptr) : ∀ ks : List Comp, placesE (outKids p ks) = ks.flatMap fun k => leafPlaces ⟨some p, false⟩ k.t
  | [] => rfl
  | k :: ks => by simp only [outKids, List.map_cons, placesE, places, List.flatMap_cons]; rw [← placesE_out p ks]; rfl

private theorem has_at {p : Ptr} {t : DataType} {pl : Place} (h : pl ∈ leafPlaces ⟨some p, false⟩ t) :
    ∃ j : Nat, (j : Int) < t.n ∧ pl = ⟨some p, t.offset + t.stride * j, t.id.bytes⟩ ∧ ∀ b i, pl.Has b i → b = p.blk ∧ At t j (i - p.off) := by
  simp only [leafPlaces, List.mem_map, List.mem_range] at h
  obtain ⟨j, hj, rfl⟩ := h
  refine ⟨j, by omega, rfl, ?_⟩
  rintro b i ⟨q, hq, h1, h2, h3⟩
  simp only [Option.some.injEq] at hq; subst hq
  refine ⟨h1, ?_⟩
  simp only [At, DataType.elementIndex]
  simp only at h2 h3
  omega

/-- Where no two elements share a byte the places of the result are apart. -/
private theorem separate_out (p : Ptr) (ks : List Comp)
    (h : ∀ (i k : Nat) (a b : Comp), ks[i]? = some a → ks[k]? = some b → ∀ j l c : Int, 0 ≤ j ∧ j < a.t.n → 0 ≤ l ∧ l < b.t.n →
      At a.t j c → At b.t l c → i = k ∧ j = l) : (placesE (outKids p ks)).Pairwise NoShare := by
  rw [placesE_out, List.pairwise_flatMap]
  constructor
  · intro k hk
    obtain ⟨i, hi⟩ := List.mem_iff_getElem?.mp hk
    rw [leafPlaces, List.pairwise_map, List.pairwise_iff_getElem]
    intro u v hu hv huv b c h1 h2
    simp only [List.length_range] at hu hv
    simp only [List.getElem_range] at h1 h2
    obtain ⟨q, hq, -, x1, x2⟩ := h1
    obtain ⟨q', hq', -, y1, y2⟩ := h2
    simp only [Option.some.injEq] at hq hq'; subst hq hq'
    simp only at x1 x2 y1 y2
    have := (h i i k k hi hi u v (c - p.off) ⟨by omega, by omega⟩ ⟨by omega, by omega⟩
      (by simp only [At, DataType.elementIndex]; omega) (by simp only [At, DataType.elementIndex]; omega)).2
    omega
  · rw [List.pairwise_iff_getElem]
    intro i k hi hk hik a ha b hb c o h1 h2
    obtain ⟨j, j1, -, j2⟩ := has_at ha
    obtain ⟨l, l1, -, l2⟩ := has_at hb
    have := (h i k _ _ (List.getElem?_eq_getElem hi) (List.getElem?_eq_getElem hk) j l (o - p.off) ⟨by omega, j1⟩ ⟨by omega, l1⟩
      (j2 c o h1).2 (l2 c o h2).2).1
    omega

private theorem mk_comps : ∀ (cs : List (Str × Info × DataType)) (ts : List DataType), ts.length = cs.length →
    ∃ ks : List Comp, srcKids ks = (cs.map fun c => (c.1, Node.leaf c.2.1 c.2.2)) ∧ ks.map Comp.name = cs.map Prod.fst ∧ ks.map Comp.t = ts ∧
      ks.map Comp.d = cs.map (fun c => c.2.2) ∧ ks.map Comp.x = cs.map (fun c => c.2.1)
  | [], [], _ => ⟨[], rfl, rfl, rfl, rfl, rfl⟩
  | c :: cs, t :: ts, h => by
    obtain ⟨ks, h1, h2, h3, h4, h5⟩ := mk_comps cs ts (by simpa using h)
    exact ⟨⟨c.1, c.2.1, c.2.2, t⟩ :: ks, by simp only [srcKids, List.map_cons] at h1 ⊢; rw [h1], by simp [h2], by simp [h3], by simp [h4], by simp [h5]⟩

private theorem readable_n {m : Mem} : ∀ (cs : List (Str × Info × DataType)), ReadableE m (cs.map fun c => (c.1, .leaf c.2.1 c.2.2)) →
    ∀ c ∈ cs, 0 ≤ c.2.2.n
  | [], _, c, hc => by simp at hc
  | a :: cs, h, c, hc => by
    simp only [List.map_cons, ReadableE, Readable] at h
    rcases List.mem_cons.mp hc with rfl | hc
    · exact h.1.2.2.1
    · exact readable_n cs h.2 c hc

theorem number_id {t : TypeId} (h : isNumber t = true) : t ≠ .empty ∧ t ≠ .object ∧ t ≠ .list := by
  cases t <;> simp_all [isNumber]

private theorem types_src (x : Info) (cs : List (Str × Info × DataType)) :
    (childTypes (node x cs)).map Prod.fst = cs.map Prod.fst ∧ (childTypes (node x cs)).map Prod.snd = cs.map fun c => c.2.2 := by
  simp [childTypes, node, Function.comp_def, dtype]

/-- Both conversions: what `convert_spec` gives for a list of layout types. -/
private theorem convert (x : Info) (cs : List (Str × Info × DataType)) (dest : Node) (m : Mem) (h : IsMCArray m x cs)
    (ts : List DataType) (hlen : ts.length = cs.length)
    (hsame : ∀ (i : Nat) t c, ts[i]? = some t → cs[i]? = some c → t.id = c.2.2.id ∧ t.n = c.2.2.n ∧ t.endian = c.2.2.endian ∧ t.ele = c.2.2.ele)
    (hfw : ∀ t ∈ ts, 0 ≤ t.offset ∧ 0 ≤ t.stride)
    (hdis : ∀ (i k : Nat) (a b : DataType), ts[i]? = some a → ts[k]? = some b → ∀ j l c : Int, 0 ≤ j ∧ j < a.n → 0 ≤ l ∧ l < b.n →
      At a j c → At b l c → i = k ∧ j = l)
    (hd : GoodOwners m (owned dest)) (hap : ∀ p ∈ owned dest, p.blk ∉ blocks (node x cs)) :
    ∃ m' kids, ((layoutSchema ((cs.map Prod.fst).zip ts) RSchema.empty).bind fun r =>
        (setSchema (toSchema r) dest m).bind fun p => update (node x cs) p.2 p.1)
          = .ok (m', .obj ⟨some ⟨m.length, 0⟩, true⟩ kids) ∧
      val m' (.obj ⟨some ⟨m.length, 0⟩, true⟩ kids) = val m (node x cs) ∧ val m' (node x cs) = val m (node x cs) ∧
      kids.length = cs.length ∧
      (∀ (i : Nat) c, cs[i]? = some c → ∃ t, ts[i]? = some t ∧ kids[i]? = some (c.1, .leaf ⟨some ⟨m.length, 0⟩, false⟩ t)) ∧
      (placesE kids).Pairwise NoShare ∧
      (∀ b i, b < m.length → b ∉ (owned dest).map Ptr.blk → m'.byte b i = m.byte b i) := by
  obtain ⟨ks, k1, k2, k3, k4, k5⟩ := mk_comps cs ts hlen
  have hat : ∀ (i : Nat) k, ks[i]? = some k → ts[i]? = some k.t ∧ cs[i]? = some (k.name, k.x, k.d) := by
    intro i k hk
    refine ⟨by rw [← k3, List.getElem?_map, hk]; rfl, ?_⟩
    have a : (cs.map Prod.fst)[i]? = some k.name := by rw [← k2, List.getElem?_map, hk]; rfl
    have b : (cs.map (fun c => c.2.2))[i]? = some k.d := by rw [← k4, List.getElem?_map, hk]; rfl
    have c : (cs.map (fun c => c.2.1))[i]? = some k.x := by rw [← k5, List.getElem?_map, hk]; rfl
    rw [List.getElem?_map] at a b c
    cases hc : cs[i]? with
    | none => simp [hc] at a
    | some e =>
      obtain ⟨e1, e2, e3⟩ := e
      simp [hc] at a b c; rw [a, b, c]
  have hmem : ∀ k ∈ ks, k.t ∈ ts ∧ (k.name, k.x, k.d) ∈ cs := by
    intro k hk
    obtain ⟨i, hi⟩ := List.mem_iff_getElem?.mp hk
    exact ⟨List.mem_of_getElem? (hat i k hi).1, List.mem_of_getElem? (hat i k hi).2⟩
  have hrd : ReadableE m (cs.map fun c => (c.1, .leaf c.2.1 c.2.2)) := h.readable
  have hsep : (placesE (outKids ⟨m.length, 0⟩ ks)).Pairwise NoShare :=
    separate_out _ ks fun i k a b ha hb => hdis i k a.t b.t (hat i a ha).1 (hat k b hb).1
  have := convert_spec ks x dest m
    (by intro e; apply h.some; have := congrArg List.length k2; rw [e] at this; simpa using this.symm)
    (fun k hk => h.plain _ (hmem k hk).2) (by rw [k2]; exact h.names)
    (fun k hk => by
      obtain ⟨a, b⟩ := h.numbers _ (hmem k hk).2
      obtain ⟨c, d, e⟩ := number_id a
      exact ⟨c, d, e, readable_n cs hrd _ (hmem k hk).2, b⟩)
    (fun k hk => by
      obtain ⟨i, hi⟩ := List.mem_iff_getElem?.mp hk
      exact hsame i k.t _ (hat i k hi).1 (hat i k hi).2)
    (fun k hk => hfw k.t (hmem k hk).1) hsep
    (by rw [k1]; exact h.readable) hd (by rw [k1]; exact hap)
  obtain ⟨m', c1, c2, c3, c4⟩ := this
  rw [k1] at c1 c2 c3
  rw [k2, k3] at c1
  refine ⟨m', outKids ⟨m.length, 0⟩ ks, c1, c2, c3, ?_, ?_, hsep, c4⟩
  · have := congrArg List.length k2; simp only [List.length_map] at this; simp [outKids, this]
  · intro i c hc
    have hlt := (List.getElem?_eq_some_iff.mp hc).1
    have hl2 := congrArg List.length k2
    simp only [List.length_map] at hl2
    have hk : ks[i]? = some ks[i] := List.getElem?_eq_getElem (by omega)
    obtain ⟨a, b⟩ := hat i _ hk
    rw [hc] at b; cases b
    exact ⟨_, a, by simp [outKids, hk]⟩

private theorem contiguous_length : ∀ (ds : List DataType) (o : Int), (contiguousTypes ds o).length = ds.length
  | [], _ => rfl
  | d :: ds, o => by simp [contiguousTypes, contiguous_length ds]
private theorem interleaved_length (st : Int) : ∀ (ds : List DataType) (o : Int), (interleavedTypes st ds o).length = ds.length
  | [], _ => rfl
  | d :: ds, o => by simp [interleavedTypes, interleaved_length st ds]
private theorem contiguous_forward : ∀ (ds : List DataType) (o : Int), 0 ≤ o → (∀ s ∈ ds, s.ele = s.id.bytes ∧ 0 ≤ s.n) →
    ∀ t ∈ contiguousTypes ds o, 0 ≤ t.offset ∧ 0 ≤ t.stride
  | [], _, _, _, t, ht => by simp [contiguousTypes] at ht
  | d :: ds, o, ho, h, t, ht => by
    simp only [contiguousTypes, List.mem_cons] at ht
    obtain ⟨a, b⟩ := h d List.mem_cons_self
    rcases ht with rfl | ht
    · simp only; omega
    · refine contiguous_forward ds _ ?_ (fun s hs => h s (List.mem_cons_of_mem _ hs)) t ht
      have := Int.mul_nonneg (a := d.ele) (b := d.n) (by omega) b
      omega
private theorem interleaved_forward (st : Int) (hst : 0 ≤ st) : ∀ (ds : List DataType) (o : Int), 0 ≤ o →
    ∀ t ∈ interleavedTypes st ds o, 0 ≤ t.offset ∧ 0 ≤ t.stride
  | [], _, _, t, ht => by simp [interleavedTypes] at ht
  | d :: ds, o, ho, t, ht => by
    simp only [interleavedTypes, List.mem_cons] at ht
    rcases ht with rfl | ht
    · exact ⟨ho, hst⟩
    · exact interleaved_forward st hst ds _ (by omega) t ht

/-- C52, `to_contiguous` (`_partial`: the source is an object of at least one component with names without
    '/', see `C52_list_false`, `C52_slash_false`, `C52_no_components_false`): the call succeeds, the result has
    the values of the source, the source and all memory except the old buffers of `dest` are unchanged.  The
    result is one new buffer; element `j` of component `i` is at (sizes of the components before) + j * (element
    size); no byte belongs to two elements. -/
theorem C52_to_contiguous_partial (x : Info) (cs : List (Str × Info × DataType)) (dest : Node) (m : Mem) (h : IsMCArray m x cs)
    (hd : GoodOwners m (owned dest)) (hap : ∀ p ∈ owned dest, p.blk ∉ blocks (node x cs)) :
    ∃ m' kids, toContiguous (node x cs) dest m = .ok (m', .obj ⟨some ⟨m.length, 0⟩, true⟩ kids) ∧
      val m' (.obj ⟨some ⟨m.length, 0⟩, true⟩ kids) = val m (node x cs) ∧ val m' (node x cs) = val m (node x cs) ∧
      kids.length = cs.length ∧
      (∀ (i : Nat) c, cs[i]? = some c → ∃ t, kids[i]? = some (c.1, .leaf ⟨some ⟨m.length, 0⟩, false⟩ t) ∧
        t.id = c.2.2.id ∧ t.n = c.2.2.n ∧
        ∀ j, t.elementIndex j = ((cs.take i).map fun e => (e.2.2.id.bytes : Int) * e.2.2.n).sum + c.2.2.id.bytes * j) ∧
      (placesE kids).Pairwise NoShare ∧
      (∀ b i, b < m.length → b ∉ (owned dest).map Ptr.blk → m'.byte b i = m.byte b i) := by
  have hrd : ReadableE m (cs.map fun c => (c.1, .leaf c.2.1 c.2.2)) := h.readable
  have hnat : ∀ s ∈ cs.map (fun c => c.2.2), s.ele = s.id.bytes := by
    intro s hs; obtain ⟨c, hc, rfl⟩ := List.mem_map.mp hs; exact (h.numbers c hc).2
  have hn : ∀ s ∈ cs.map (fun c => c.2.2), 0 ≤ s.n := by
    intro s hs; obtain ⟨c, hc, rfl⟩ := List.mem_map.mp hs; exact readable_n cs hrd c hc
  have hget : ∀ (i : Nat) t c, (contiguousTypes (cs.map fun c => c.2.2) 0)[i]? = some t → cs[i]? = some c →
      t.id = c.2.2.id ∧ t.n = c.2.2.n ∧ t.endian = c.2.2.endian ∧ t.ele = c.2.2.ele ∧
      ∀ j, t.elementIndex j = ((cs.take i).map fun e => (e.2.2.id.bytes : Int) * e.2.2.n).sum + c.2.2.id.bytes * j := by
    intro i t c ht hc
    obtain ⟨s, h1, h2, h3, h4, h5, h6⟩ := C52_contiguous_layout _ i t ht hnat
    rw [List.getElem?_map, hc] at h1
    simp only [Option.map_some, Option.some.injEq] at h1; subst h1
    refine ⟨h2, h3, h4, h5, fun j => ?_⟩
    rw [h6 j, ← List.map_take, List.map_map]; rfl
  obtain ⟨m', kids, c1, c2, c3, c4, c5, c6, c7⟩ := convert x cs dest m h (contiguousTypes (cs.map fun c => c.2.2) 0)
    (by rw [contiguous_length, List.length_map])
    (fun i t c ht hc => by obtain ⟨a, b, c, d, -⟩ := hget i t c ht hc; exact ⟨a, b, c, d⟩)
    (contiguous_forward _ 0 (by omega) fun s hs => ⟨hnat s hs, hn s hs⟩)
    (fun i k a b ha hb j l c hj hl h1 h2 => C52_contiguous_disjoint _ i k a b hnat hn ha hb j l c hj hl h1 h2)
    hd hap
  obtain ⟨t1, t2⟩ := types_src x cs
  refine ⟨m', kids, ?_, c2, c3, c4, ?_, c6, c7⟩
  · rw [toContiguous, t1, t2]; exact c1
  · intro i c hc
    obtain ⟨t, d1, d2⟩ := c5 i c hc
    obtain ⟨a, b, -, -, e⟩ := hget i t c d1 hc
    exact ⟨t, d2, a, b, e⟩

/-- C52, `to_interleaved` (`_partial` as above): likewise; element `j` of component `i` is in tuple `j`, after the
    elements of the components before. -/
theorem C52_to_interleaved_partial (x : Info) (cs : List (Str × Info × DataType)) (dest : Node) (m : Mem) (h : IsMCArray m x cs)
    (hd : GoodOwners m (owned dest)) (hap : ∀ p ∈ owned dest, p.blk ∉ blocks (node x cs)) :
    ∃ m' kids, toInterleaved (node x cs) dest m = .ok (m', .obj ⟨some ⟨m.length, 0⟩, true⟩ kids) ∧
      val m' (.obj ⟨some ⟨m.length, 0⟩, true⟩ kids) = val m (node x cs) ∧ val m' (node x cs) = val m (node x cs) ∧
      kids.length = cs.length ∧
      (∀ (i : Nat) c, cs[i]? = some c → ∃ t, kids[i]? = some (c.1, .leaf ⟨some ⟨m.length, 0⟩, false⟩ t) ∧
        t.id = c.2.2.id ∧ t.n = c.2.2.n ∧
        ∀ j, t.elementIndex j = (cs.map fun e => (e.2.2.id.bytes : Int)).sum * j + ((cs.take i).map fun e => (e.2.2.id.bytes : Int)).sum) ∧
      (placesE kids).Pairwise NoShare ∧
      (∀ b i, b < m.length → b ∉ (owned dest).map Ptr.blk → m'.byte b i = m.byte b i) := by
  have htup : ∀ l : List (Str × Info × DataType), tupleBytes (l.map fun c => c.2.2) = (l.map fun e => (e.2.2.id.bytes : Int)).sum := by
    intro l; simp [tupleBytes, Function.comp_def]
  have hpos : 0 ≤ tupleBytes (cs.map fun c => c.2.2) := by
    generalize cs.map (fun c => c.2.2) = l
    induction l with
    | nil => simp [tupleBytes]
    | cons a l ih => simp only [tupleBytes, List.map_cons, List.sum_cons] at ih ⊢; omega
  have hget : ∀ (i : Nat) t c, (interleavedTypes (tupleBytes (cs.map fun c => c.2.2)) (cs.map fun c => c.2.2) 0)[i]? = some t → cs[i]? = some c →
      t.id = c.2.2.id ∧ t.n = c.2.2.n ∧ t.endian = c.2.2.endian ∧ t.ele = c.2.2.ele ∧
      ∀ j, t.elementIndex j = (cs.map fun e => (e.2.2.id.bytes : Int)).sum * j + ((cs.take i).map fun e => (e.2.2.id.bytes : Int)).sum := by
    intro i t c ht hc
    obtain ⟨s, h1, h2, h3, h4, h5, h6⟩ := C52_interleaved_layout _ i t ht
    rw [List.getElem?_map, hc] at h1
    simp only [Option.map_some, Option.some.injEq] at h1; subst h1
    refine ⟨h2, h3, h4, h5, fun j => ?_⟩
    rw [h6 j, ← List.map_take, htup, htup]
  obtain ⟨m', kids, c1, c2, c3, c4, c5, c6, c7⟩ := convert x cs dest m h
    (interleavedTypes (tupleBytes (cs.map fun c => c.2.2)) (cs.map fun c => c.2.2) 0)
    (by rw [interleaved_length, List.length_map])
    (fun i t c ht hc => by obtain ⟨a, b, c, d, -⟩ := hget i t c ht hc; exact ⟨a, b, c, d⟩)
    (interleaved_forward _ hpos _ 0 (by omega))
    (fun i k a b ha hb j l c _ _ h1 h2 => C52_interleaved_disjoint _ i k a b ha hb j l c h1 h2)
    hd hap
  obtain ⟨t1, t2⟩ := types_src x cs
  refine ⟨m', kids, ?_, c2, c3, c4, ?_, c6, c7⟩
  · rw [toInterleaved, t1, t2]; exact c1
  · intro i c hc
    obtain ⟨t, d1, d2⟩ := c5 i c hc
    obtain ⟨a, b, -, -, e⟩ := hget i t c d1 hc
    exact ⟨t, d2, a, b, e⟩

/-! ### the situation occurs -/

/-- two components interleaved in one buffer of the caller -/
def mcMem : Mem := [some [1, 0, 10, 2, 0, 20, 3, 0, 30], some [9, 9]]
def mcComps : List (Str × Info × DataType) :=
  [(chars! "x", ⟨some ⟨0, 0⟩, false⟩, ⟨.int16, 3, 0, 3, 2, .default⟩), (chars! "y", ⟨some ⟨0, 0⟩, false⟩, ⟨.uint8, 3, 2, 3, 1, .default⟩)]
def mcDest : Node := .leaf ⟨some ⟨1, 0⟩, true⟩ (DataType.ofId .uint8 2)

theorem mc_ok : IsMCArray mcMem {} mcComps ∧ GoodOwners mcMem (owned mcDest) ∧ ∀ p ∈ owned mcDest, p.blk ∉ blocks (node {} mcComps) := by
  refine ⟨⟨by simp [mcComps], by decide, by decide, by decide, ?_⟩, ⟨by decide, ?_⟩, ?_⟩
  · simp only [mcComps, List.map_cons, List.map_nil, Readable, ReadableE]; decide
  · intro p hp
    simp [mcDest, owned, ownPtr] at hp; subst hp; exact ⟨rfl, _, rfl⟩
  · simp [mcDest, owned, ownPtr, node, mcComps, blocks, blocksE]

example : toContiguous (node {} mcComps) mcDest mcMem =
    .ok ([some [1, 0, 10, 2, 0, 20, 3, 0, 30], none, some [1, 0, 2, 0, 3, 0, 10, 20, 30]],
      .obj ⟨some ⟨2, 0⟩, true⟩ [(chars! "x", .leaf ⟨some ⟨2, 0⟩, false⟩ ⟨.int16, 3, 0, 2, 2, .default⟩),
        (chars! "y", .leaf ⟨some ⟨2, 0⟩, false⟩ ⟨.uint8, 3, 6, 1, 1, .default⟩)]) := by
  with_unfolding_all rfl

/-! ### where the claim fails -/

private theorem listConv : toInterleaved (.lst {} [.leaf ⟨some ⟨0, 0⟩, false⟩ (DataType.ofId .int16 2),
      .leaf ⟨some ⟨0, 0⟩, false⟩ { DataType.ofId .int16 2 with offset := 4 }]) new [some [1, 2, 3, 4, 5, 6, 7, 8]] =
    .ok ([some [1, 2, 3, 4, 5, 6, 7, 8], none, some [1, 2, 3, 4], some [5, 6, 7, 8]],
      .lst {} [.leaf ⟨some ⟨2, 0⟩, true⟩ (DataType.ofId .int16 2), .leaf ⟨some ⟨3, 0⟩, true⟩ (DataType.ofId .int16 2)]) := by
  have h : childTypes (.lst {} [.leaf ⟨some ⟨0, 0⟩, false⟩ (DataType.ofId .int16 2),
      .leaf ⟨some ⟨0, 0⟩, false⟩ { DataType.ofId .int16 2 with offset := 4 }]) =
      [(chars! "0", DataType.ofId .int16 2), (chars! "1", { DataType.ofId .int16 2 with offset := 4 })] := by decide +kernel
  rw [toInterleaved, h]
  with_unfolding_all rfl

/-- A list of components, which `verify` accepts, is not laid out in one block: the components of the
    result are two buffers, each with offset 0. -/
theorem C52_list_false : ∃ (src dest : Node) (m m' : Mem) (p q : Ptr) (d e : DataType) (i : Info),
    verify src.dtype.id ((childTypes src).map Prod.snd) = true ∧
    toInterleaved src dest m = .ok (m', .lst i [.leaf ⟨some p, true⟩ d, .leaf ⟨some q, true⟩ e]) ∧ d.n = 2 ∧ e.n = 2 ∧
    p.blk ≠ q.blk ∧ d.stride = d.ele ∧ e.stride = e.ele :=
  ⟨.lst {} [.leaf ⟨some ⟨0, 0⟩, false⟩ (DataType.ofId .int16 2), .leaf ⟨some ⟨0, 0⟩, false⟩ { DataType.ofId .int16 2 with offset := 4 }],
    new, [some [1, 2, 3, 4, 5, 6, 7, 8]],
    [some [1, 2, 3, 4, 5, 6, 7, 8], none, some [1, 2, 3, 4], some [5, 6, 7, 8]], ⟨2, 0⟩, ⟨3, 0⟩, DataType.ofId .int16 2, DataType.ofId .int16 2,
    {}, by decide, by rw [show toInterleaved _ _ _ = _ from listConv], rfl, rfl, by decide, rfl, rfl⟩

/-- A component whose name contains '/' (made with `add_child`) is laid out at the nested path, and its values
    go to a further child: the result has two children for one component. -/
theorem C52_slash_false : ∃ (x : Info) (d : DataType) (m m' : Mem) (i j k l : Info) (t u : DataType),
    toContiguous (.obj {} [(chars! "a/b", .leaf x d)]) new m =
      .ok (m', .obj i [(chars! "a", .obj j [(chars! "b", .leaf k t)]), (chars! "a/b", .leaf l u)]) :=
  ⟨⟨some ⟨0, 0⟩, false⟩, DataType.ofId .uint8 2, [some [1, 2]], [some [1, 2], some [0, 0], some [1, 2]],
    ⟨some ⟨1, 0⟩, true⟩, ⟨some ⟨1, 0⟩, false⟩, ⟨some ⟨1, 0⟩, false⟩, ⟨some ⟨2, 0⟩, true⟩, DataType.ofId .uint8 2, DataType.ofId .uint8 2,
    by with_unfolding_all rfl⟩

/-- An object without components, which `verify` accepts, becomes an empty node. -/
theorem C52_no_components_false : ∃ (m m' : Mem) (i : Info), verify .object [] = true ∧
    toContiguous (.obj {} []) new m = .ok (m', .leaf i {}) :=
  ⟨[], [some []], ⟨some ⟨0, 0⟩, true⟩, by decide, by with_unfolding_all rfl⟩

/-- Converting in place loses the data: the new buffer is copied onto itself (undefined for `memcpy`)
    and the old one is freed before. -/
theorem C52_in_place_false : ∃ (n : Node) (m : Mem), verify n.dtype.id ((childTypes n).map Prod.snd) = true ∧
    (toContiguous n new m).isOk = true ∧ toContiguousSelf n m = .ub :=
  ⟨node {} mcComps, mcMem, by decide, by decide +kernel, by with_unfolding_all rfl⟩

end Conduit.MCArray
