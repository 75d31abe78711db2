import Verif.Model.Reduce
import Verif.Lemmas.Bcast2
import Verif.Lemmas.PlainMsg2
namespace Conduit
namespace Relay
open Spec Spec.Tree Schema Node

/-! ### pieces -/

theorem pieces_flatten (k : Nat) : ∀ (n : Nat) (l : List UInt8), l.length = n * k → (pieces k n l).flatten = l
  | 0, l, h => by rw [Nat.zero_mul] at h; rw [List.eq_nil_of_length_eq_zero h]; rfl
  | n + 1, l, h => by
    rw [pieces, List.flatten_cons, pieces_flatten k n _ (by rw [List.length_drop, h, Nat.succ_mul]; omega), List.take_append_drop]

theorem pieces_len (k : Nat) : ∀ (n : Nat) (l : List UInt8), l.length = n * k → ∀ x ∈ pieces k n l, x.length = k
  | 0, l, h, x, hx => by cases hx
  | n + 1, l, h, x, hx => by
    rw [Nat.succ_mul] at h
    rw [pieces, List.mem_cons] at hx
    rcases hx with rfl | hx
    · rw [List.length_take]; omega
    · exact pieces_len k n _ (by rw [List.length_drop, h]; omega) x hx

theorem pieces_length (k : Nat) : ∀ (n : Nat) (l : List UInt8), (pieces k n l).length = n
  | 0, l => rfl
  | n + 1, l => by rw [pieces, List.length_cons, pieces_length k n]

theorem els_flatten_length {els : List (List UInt8)} {k : Nat} (h : ∀ x ∈ els, x.length = k) : els.flatten.length = els.length * k := by
  induction els with
  | nil => simp
  | cons x els ih =>
    rw [List.flatten_cons, List.length_append, ih (fun y hy => h y (by simp [hy])), h x (by simp), List.length_cons, Nat.succ_mul]
    omega

theorem flatten_getElem? {els : List (List UInt8)} {k : Nat} (h : ∀ x ∈ els, x.length = k) (i j : Nat) (hj : j < k) (hi : i < els.length) :
    els.flatten[k * i + j]? = (els[i])[j]? := by
  induction els generalizing i with
  | nil => simp at hi
  | cons x els ih =>
    have hx := h x (by simp)
    rw [List.flatten_cons]
    cases i with
    | zero => rw [List.getElem?_append_left (by rw [hx]; omega)]; simp
    | succ i =>
      rw [List.getElem?_append_right (by rw [hx, Nat.mul_succ]; omega), hx, Nat.mul_succ,
        show k * i + k + j - k = k * i + j by omega, ih (fun y hy => h y (by simp [hy])) i (by simpa using hi)]
      simp

/-- a leaf whose elements follow each other -/
theorem compact_elems (m : Mem) (p : Option Ptr) {d : DataType} (he : d.ele = d.id.bytes) (hc : d.bytesCompact = d.stridedBytes) :
    elems m p d = (List.range d.n.toNat).map fun (i : Nat) => (List.range d.id.bytes).map fun (k : Nat) =>
      m.byteAt p (d.offset + (d.id.bytes * i + k : Nat)) := by
  unfold elems
  apply List.map_congr_left
  intro i hi
  apply List.map_congr_left
  intro k hk
  rw [List.mem_range] at hi
  rw [own_stride he hc i (by omega)]
  congr 1
  push_cast
  omega

theorem list_of_flat {es : List (List (Option UInt8))} {n k : Nat} {bs : List UInt8} (hn : es.length = n) (hk : ∀ x ∈ es, x.length = k)
    (h : bs.map some = es.flatten) : (pieces k n bs).map (fun x => x.map some) = es := by
  have hl : bs.length = n * k := by
    have := congrArg List.length h
    rw [List.length_map, List.length_flatten] at this
    rw [this, ← hn]
    clear h this
    induction es generalizing n with
    | nil => simp
    | cons x es ih =>
      rw [List.map_cons, List.sum_cons, ih rfl (fun y hy => hk y (by simp [hy])), hk x (by simp), List.length_cons, Nat.succ_mul]
      omega
  apply flatten_inj
  · rw [List.map_map]
    have h1 : ∀ {l : List (List (Option UInt8))}, (∀ x ∈ l, x.length = k) → l.map (fun x => x.map fun _ => (none : Option UInt8)) =
        List.replicate l.length (List.replicate k none) := by
      intro l hl
      induction l with
      | nil => rfl
      | cons x l ih =>
        rw [List.map_cons, ih (fun y hy => hl y (by simp [hy])), List.length_cons, List.replicate_succ]
        congr 1
        rw [List.map_const', hl x (by simp)]
    rw [← List.map_map, h1, h1 hk, List.length_map, pieces_length, hn]
    intro x hx
    obtain ⟨y, hy, rfl⟩ := List.mem_map.1 hx
    rw [List.length_map]
    exact pieces_len k n bs hl y hy
  · rw [← List.map_flatten, pieces_flatten k n bs hl, h]

theorem elems_sizes (m : Mem) (p : Option Ptr) (d : DataType) : ∀ x ∈ elems m p d, x.length = d.id.bytes := by
  intro x hx
  unfold elems at hx
  obtain ⟨i, _, rfl⟩ := List.mem_map.1 hx
  simp

theorem mem_elems_byte {m : Mem} {x : Info} {d : DataType} (hr : Readable m (.leaf x d)) (he : d.id ≠ .empty) (i k : Nat)
    (hi : (i : Int) < d.n) (hk : k < d.id.bytes) : (m.byteAt x.data (d.offset + d.stride * i + k)).isSome := by
  refine hr.2.2.2 he ((List.range d.id.bytes).map fun (k : Nat) => m.byteAt x.data (d.offset + d.stride * i + k)) ?_ _ ?_
  · unfold elems
    exact List.mem_map.2 ⟨i, by rw [List.mem_range]; omega, rfl⟩
  · exact List.mem_map.2 ⟨k, by rw [List.mem_range]; omega, rfl⟩

theorem reduceSend_ok {x : Info} {d : DataType} {m : Mem} (hr : Readable m (.leaf x d)) (ht : hasMpiType d.id = true)
    (hc : d.bytesCompact = d.stridedBytes → d.ele = d.id.bytes ∧ d.offset = 0) (hn : d.n < 2 ^ 31) :
    ∃ els, reduceSend (.leaf x d) m = .ok (d.id, els) ∧ els.map (fun x => x.map some) = elems m x.data d := by
  have he : d.id ≠ .empty := by rintro h; rw [h] at ht; exact absurd ht (by decide)
  have h0 : 0 ≤ d.n := hr.2.2.1
  obtain ⟨bs, b1, b2⟩ := flat_bytes_exist hr
  rw [val, if_neg he, flat] at b1
  simp only [Node.schema, totalBytesCompact, he, if_false, DataType.bytesCompact] at b2
  have hbl : bs.length = d.n.toNat * d.id.bytes := by
    have : (bs.length : Int) = ((d.n.toNat * d.id.bytes : Nat) : Int) := by
      rw [Int.natCast_mul, Int.toNat_of_nonneg h0, b2, Int.mul_comm]
    omega
  have hels := list_of_flat (elems_length m x.data d) (elems_sizes m x.data d) b1
  refine ⟨_, ?_, hels⟩
  unfold reduceSend
  simp only [dtype, Node.schema, show (Node.leaf x d).info = x from rfl, ht, Bool.not_true, Bool.false_eq_true, if_false]
  -- what is loaded
  have key : ∀ (m' : Mem) (p : Option Ptr), (∀ k : Nat, k < bs.length → m'.byteAt p k = bs[k]?) →
      m'.load p 0 (d.n.toNat * d.id.bytes) = .ok bs := by
    intro m' p h
    rw [← hbl]
    rcases Nat.eq_zero_or_pos bs.length with h0 | hp
    · rw [List.eq_nil_of_length_eq_zero h0]; rfl
    · cases p with
      | none =>
        have := h 0 hp
        rw [List.getElem?_eq_getElem hp] at this
        simp [Mem.byteAt] at this
      | some q =>
        have h' : ∀ k : Nat, k < bs.length → m'.byte q.blk (q.off + 0 + k) = bs[k]? := by
          intro k hk
          rw [Int.add_zero]; exact h k hk
        obtain ⟨bs2, l1, l2, l3⟩ := Mem.load_ok (m := m') (q := q) (off := 0) (len := bs.length) (by
          intro k hk
          rw [h' k hk, List.getElem?_eq_getElem hk]; rfl)
        rw [l1]
        congr 1
        apply List.ext_getElem?
        intro i
        by_cases hi : i < bs.length
        · rw [l3 i hi, h' i hi]
        · rw [List.getElem?_eq_none (by omega), List.getElem?_eq_none (by omega)]
  have cast : castInt d.n = d.n := castInt_small (by omega) (by omega)
  by_cases hcc : isCompact (.leaf d) = true
  · rw [if_pos hcc, bind_ok]
    simp only [cast]
    rw [if_neg (by omega), key m x.data, bind_ok]
    intro k hk
    have hcc' : d.bytesCompact = d.stridedBytes := by
      simp only [isCompact, totalBytesCompact, totalStridedBytes, he, if_false, beq_iff_eq] at hcc
      exact hcc
    obtain ⟨e1, e2⟩ := hc hcc'
    have hpos : 0 < d.id.bytes := by
      rcases Nat.eq_zero_or_pos d.id.bytes with h | h
      · rw [h] at hbl; omega
      · exact h
    have hkn : k / d.id.bytes < d.n.toNat := by rw [Nat.div_lt_iff_lt_mul hpos]; omega
    have hb := congrArg (fun l => l[k]?) b1
    simp only [List.getElem?_map] at hb
    rw [List.getElem?_eq_getElem hk, Option.map_some] at hb
    rw [List.getElem?_eq_getElem hk]
    have hfl := flatten_getElem? (pieces_len d.id.bytes d.n.toNat bs hbl) (k / d.id.bytes) (k % d.id.bytes) (Nat.mod_lt _ hpos)
      (by rw [pieces_length]; exact hkn)
    rw [Nat.div_add_mod, pieces_flatten _ _ _ hbl, List.getElem?_eq_getElem hk] at hfl
    have h2 := congrArg (fun l => l[k / d.id.bytes]?) hels
    rw [compact_elems m x.data e1 hcc'] at h2
    simp only [List.getElem?_map] at h2
    rw [List.getElem?_range hkn, List.getElem?_eq_getElem (by rw [pieces_length]; exact hkn), Option.map_some, Option.map_some] at h2
    injection h2 with h2
    have h3 := congrArg (fun l => l[k % d.id.bytes]?) h2
    simp only [List.getElem?_map] at h3
    rw [List.getElem?_range (Nat.mod_lt _ hpos), ← hfl] at h3
    simp only [Option.map_some, Option.some.injEq] at h3
    rw [e2, Nat.div_add_mod, Int.zero_add] at h3
    exact h3.symm
  · rw [if_neg hcc]
    rcases Nat.eq_zero_or_pos bs.length with h0' | hp
    · obtain ⟨m', n', d1, _⟩ := compactTo_spec (.leaf x d) new m hr (good_nil m) (by simp [new, owned, ownPtr])
      rw [d1, bind_ok, bind_ok]
      simp only [cast]
      rw [if_neg (by omega), key _ _ (fun k hk => by omega), bind_ok]
    · obtain ⟨m', bs', d1, d2, d3, d4, _⟩ := compactTo_block (.leaf x d) new m hr (good_nil m) (by simp [new, owned, ownPtr]) (by
        simp only [Node.schema, totalBytesCompact, he, if_false, DataType.bytesCompact]; omega)
      have : bs' = bs := by
        rw [val, if_neg he, flat] at d3
        have := d3.trans b1.symm
        exact List.map_injective_iff.2 (Option.some_injective _) this
      subst this
      rw [d1, bind_ok, bind_ok]
      simp only [cast, info_walk]
      rw [if_neg (by omega), key _ _ (fun k hk => by simp [Mem.byteAt, Mem.byte, d2]), bind_ok]

/-- what a receiver of elements has -/
structure GotEls (id : TypeId) (e : Endian) (els : List (List UInt8)) (m : Mem) (dest : Node) (r : Mem × Node) : Prop where
  value : val r.1 r.2 = merge (.leaf id e (els.map fun x => x.map some)) (val m dest)
  ready : Ready r.1 r.2
  rest : ∀ b i, b < m.length → b ∉ (owned dest).map Ptr.blk → (∀ pl ∈ places dest, ¬ pl.Has b i) → r.1.byte b i = m.byte b i

/-- elements stored at the start of a compact leaf -/
theorem store_els {base : Nat → Int} {x : Info} {d : DataType} {m : Mem} {els : List (List UInt8)} (hd : Ready m (.leaf x d))
    {p : Option Ptr} {o : Int} (hown : ownData base (.leaf x d) = some (p, o)) (hl : (els.length : Int) ≤ d.n)
    (hs : ∀ y ∈ els, y.length = d.id.bytes) (e : Endian) :
    ∃ m', m.store p o els.flatten = .ok m' ∧ GotEls d.id e els m (.leaf x d) (m', .leaf x d) := by
  obtain ⟨rfl, rfl, hde, hcomp⟩ := own_leaf hown
  have hele := hd.nat hde
  have hlen := els_flatten_length hs
  have hmerge : merge (.leaf d.id e (els.map fun x => x.map some)) (val m (.leaf x d)) =
      .leaf d.id d.endian (els.map (fun x => x.map some) ++ (elems m x.data d).drop els.length) := by
    rw [merge, if_neg hde, val, if_neg hde, overLeaf, if_pos ⟨rfl, by rw [List.length_map, elems_length]; omega⟩, List.length_map]
  rcases Nat.eq_zero_or_pos els.flatten.length with h0 | hpos
  · refine ⟨m, by unfold Mem.store; rw [if_pos h0], ?_, hd, fun _ _ _ _ _ => rfl⟩
    rw [hmerge, val, if_neg hde]
    congr 1
    rw [hlen] at h0
    rcases Nat.mul_eq_zero.1 h0 with h | h
    · rw [List.eq_nil_of_length_eq_zero h]; rfl
    · apply List.ext_getElem (by rw [List.length_append, List.length_map, List.length_drop, elems_length]; omega)
      intro i h1 h2
      have hz : ∀ y ∈ elems m x.data d, y = [] := fun y hy => List.eq_nil_of_length_eq_zero (by rw [elems_sizes _ _ _ y hy, h])
      rw [hz _ (List.getElem_mem h1)]
      symm
      rcases List.mem_append.1 (List.getElem_mem h2) with hm | hm
      · obtain ⟨y, hy, hy2⟩ := List.mem_map.1 hm
        rw [← hy2, List.eq_nil_of_length_eq_zero (by rw [hs y hy, h] : y.length = 0)]; rfl
      · exact hz _ (List.mem_of_mem_drop hm)
  · have hb : 0 < d.id.bytes ∧ 0 < els.length := by
      rw [hlen] at hpos
      exact ⟨Nat.pos_of_mul_pos_left hpos, Nat.pos_of_mul_pos_right hpos⟩
    have hbyte := mem_elems_byte hd.readable hde
    obtain ⟨q, hq⟩ : ∃ q, x.data = some q := by
      have := hbyte 0 0 (by omega) hb.1
      cases hx : x.data with
      | none => rw [hx] at this; simp [Mem.byteAt] at this
      | some q => exact ⟨q, rfl⟩
    have split : ∀ k : Nat, k < els.flatten.length → k / d.id.bytes < els.length ∧ k % d.id.bytes < d.id.bytes ∧
        d.stride * ((k / d.id.bytes : Nat) : Int) + ((k % d.id.bytes : Nat) : Int) = k := by
      intro k hk
      have h1 : k / d.id.bytes < els.length := by rw [Nat.div_lt_iff_lt_mul hb.1]; omega
      refine ⟨h1, Nat.mod_lt _ hb.1, ?_⟩
      rw [own_stride hele hcomp _ (by omega), ← Int.natCast_mul, ← Int.natCast_add, Nat.div_add_mod]
    obtain ⟨m1, s1, s2, s3, s4⟩ := Mem.store_spec (m := m) (q := q) (off := d.offset) (xs := els.flatten) (by
      intro k hk
      obtain ⟨k1, k2, k3⟩ := split k hk
      have := hbyte (k / d.id.bytes) (k % d.id.bytes) (by omega) k2
      rw [hq] at this
      simp only [Mem.byteAt] at this
      rw [show q.off + (d.offset + d.stride * ((k / d.id.bytes : Nat) : Int) + ((k % d.id.bytes : Nat) : Int)) = q.off + d.offset + k by
        omega] at this
      exact this)
    have hr1 : Readable m1 (.leaf x d) := readable_sizes (by
      intro b i hh
      rw [Mem.byte_isSome, s3]
      exact (Mem.byte_isSome _ _ _).1 hh) _ hd.readable
    rw [hq]
    refine ⟨m1, s1, ?_, ⟨hr1, hd.sep, hd.nat, hd.clean, ⟨hd.good.1, fun q hq => ⟨(hd.good.2 q hq).1, ?_⟩⟩, hd.tidy⟩, ?_⟩
    · rw [hmerge, val, if_neg hde]
      congr 1
      rw [compact_elems m1 x.data hele hcomp, compact_elems m x.data hele hcomp]
      apply List.ext_getElem (by simp; omega)
      intro i h1 h2
      have hin : i < d.n.toNat := by simpa using h1
      simp only [List.getElem_map, List.getElem_range]
      by_cases hi : i < els.length
      · rw [List.getElem_append_left (by simpa using hi), List.getElem_map]
        apply List.ext_getElem (by rw [List.length_map, List.length_map, List.length_range, hs _ (List.getElem_mem hi)])
        intro k h3 h4
        have hk : k < d.id.bytes := by simpa using h3
        simp only [List.getElem_map, List.getElem_range]
        have hlt : d.id.bytes * i + k < els.flatten.length := by
          rw [hlen]
          have : d.id.bytes * i + d.id.bytes ≤ d.id.bytes * els.length := by rw [← Nat.mul_succ]; exact Nat.mul_le_mul_left _ hi
          rw [Nat.mul_comm els.length]; omega
        rw [hq]
        simp only [Mem.byteAt]
        rw [s4, if_pos ⟨rfl, by omega, by omega⟩]
        rw [show (q.off + (d.offset + ((d.id.bytes * i + k : Nat) : Int)) - (q.off + d.offset)).toNat = d.id.bytes * i + k by omega,
          flatten_getElem? hs i k hk hi, List.getElem?_eq_getElem (by rw [hs _ (List.getElem_mem hi)]; exact hk)]
      · rw [List.getElem_append_right (by simpa using hi)]
        simp only [List.getElem_drop, List.getElem_map, List.getElem_range, List.length_map]
        rw [show els.length + (i - els.length) = i by omega]
        apply List.map_congr_left
        intro k hk
        rw [hq]
        simp only [Mem.byteAt]
        rw [s4, if_neg]
        rintro ⟨_, _, h5⟩
        have : d.id.bytes * els.length ≤ d.id.bytes * i := Nat.mul_le_mul_left _ (by omega)
        rw [hlen, Nat.mul_comm els.length] at h5
        omega
    · rw [live_iff, s3, ← live_iff]
      exact (hd.good.2 q hq).2
    · intro b i _ _ hno
      simp only
      rw [s4, if_neg]
      rintro ⟨rfl, i1, i2⟩
      obtain ⟨k1, k2, k3⟩ := split (i - (q.off + d.offset)).toNat (by omega)
      refine hno ⟨x.data, d.offset + d.stride * (((i - (q.off + d.offset)).toNat / d.id.bytes : Nat) : Int), d.id.bytes⟩ ?_ ⟨q, hq, rfl, ?_, ?_⟩
      · rw [places]
        exact List.mem_map.2 ⟨_, by rw [List.mem_range]; omega, rfl⟩
      · simp only; omega
      · simp only; omega

theorem copyOut_els {dest : Node} {m : Mem} {els : List (List UInt8)} {d : DataType} (hok : LeafOK d) (hde : d.id ≠ .empty)
    (hn : (els.length : Int) = d.n) (hs : ∀ y ∈ els, y.length = d.id.bytes) (hd : Ready m dest) (hdd : DistinctV (val m dest)) :
    ∃ r, copyOut (walk (some ⟨m.length, 0⟩) true (Schema.compactTo (.leaf d))) dest (m ++ [some els.flatten]) = .ok r ∧
      GotEls d.id d.endian els m dest r := by
  have hlen := els_flatten_length hs
  have hc : CountsOK (.leaf d) := by
    intro d' hd'
    simp only [leaves, List.mem_singleton] at hd'
    subst hd'
    exact hok.1
  have hv : view (m ++ [some els.flatten]) (some ⟨m.length, 0⟩) (Schema.compactTo (.leaf d)) = .leaf d.id d.endian (els.map fun x => x.map some) := by
    apply blank_flat_inj
    · rw [← val_walk _ _ true, blank_val, schema_walk, Schema.compactTo, blankS_compactAt, blankS, if_neg hde, blank]
      congr 1
      apply List.ext_getElem (by simp; omega)
      intro i h1 h2
      have hi : i < els.length := by simpa using h2
      simp only [List.getElem_map, List.getElem_replicate, List.map_map]
      apply List.ext_getElem (by simp [hs _ (List.getElem_mem hi)])
      intro k h3 h4
      simp
    · rw [← val_walk _ _ true, show Schema.compactTo (.leaf d) = compactAt (.leaf d) 0 from rfl,
        flat_walk_compact (m ++ [some els.flatten]) (some ⟨m.length, 0⟩) true (.leaf d) 0 hc, flat, ← List.map_flatten]
      have : (totalBytesCompact (.leaf d)).toNat = els.flatten.length := by
        rw [totalBytesCompact, if_neg hde, DataType.bytesCompact, ← hn, hlen, Nat.mul_comm]; omega
      rw [this]
      exact run_bytes _ _ _ (by simp)
  have hread : Readable (m ++ [some els.flatten]) (walk (some ⟨m.length, 0⟩) true (Schema.compactTo (.leaf d))) := by
    apply readable_of_flat
    · rw [schema_walk]
      refine leavesOK_compactAt _ _ ?_
      intro d' hd'
      simp only [leaves, List.mem_singleton] at hd'
      subst hd'; exact hok
    · rw [val_walk, hv, flat, ← List.map_flatten]
      intro b hb
      obtain ⟨x, _, rfl⟩ := List.mem_map.1 hb
      rfl
  obtain ⟨m', n', c1, c2, c3, c4⟩ := copyOut_ok hv hread trivial trivial hd hdd
  exact ⟨(m', n'), c1, c2, c3, c4⟩

theorem reduceRecv_ok {base : Nat → Int} {own dest : Node} {m : Mem} {els : List (List UInt8)} {xo : Info} {d : DataType} (ho : own = .leaf xo d)
    (hok : LeafOK d) (hde : d.id ≠ .empty)
    (hn : (els.length : Int) = d.n) (hs : ∀ y ∈ els, y.length = d.id.bytes) (hd : Ready m dest) (hdd : DistinctV (val m dest)) :
    ∃ r, reduceRecv base own els dest m = .ok r ∧ GotEls d.id d.endian els m dest r := by
  subst ho
  have hcopy : ∃ r, (do
      let r ← setSchema (Schema.compactTo (.leaf d)) new m
      let m1 ← r.1.store r.2.info.data 0 els.flatten
      copyOut r.2 dest m1 : Res (Mem × Node)) = .ok r ∧ GotEls d.id d.endian els m dest r := by
    obtain ⟨r, c1, c2⟩ := copyOut_els hok hde hn hs hd hdd
    refine ⟨r, ?_, c2⟩
    have hspan : spannedBytes (Schema.compactTo (.leaf d)) = (els.flatten.length : Nat) := by
      rw [span_compactTo, totalBytesCompact, if_neg hde, DataType.bytesCompact, ← hn, els_flatten_length hs]
      · push_cast; rw [Int.mul_comm]
      · intro d' hd'
        simp only [leaves, List.mem_singleton] at hd'
        subst hd'
        exact hok.1
    rw [setSchema_own hspan (dest := new) (m := m) (m1 := m) (by rfl) rfl, bind_ok]
    simp only [info_walk]
    rw [store_last _ _ _ rfl, bind_ok, c1]
  unfold reduceRecv
  simp only [Node.schema, dtype]
  cases dest with
  | leaf x e =>
    by_cases hcm : e.compatible d = true
    · simp only [hcm, if_true]
      simp only [DataType.compatible, Bool.and_eq_true, beq_iff_eq, decide_eq_true_eq] at hcm
      cases hw : ownData base (.leaf x e) with
      | none => exact hcopy
      | some po =>
        obtain ⟨p, o⟩ := po
        obtain ⟨m', s1, s2⟩ := store_els hd hw (els := els) (by omega) (by rw [hcm.1.1]; exact hs) d.endian
        simp only
        rw [s1, bind_ok]
        rw [hcm.1.1] at s2
        exact ⟨_, rfl, s2⟩
    · simp only [hcm]
      exact hcopy
  | obj x es => exact hcopy
  | lst x es => exact hcopy

end Relay
end Conduit
