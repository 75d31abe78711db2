import Verif.Lemmas.Bcast
namespace Conduit
namespace Relay
open Spec Spec.Tree Schema Node

/-! ### a leaf of the receiver that the data are put into -/

theorem own_leaf {base : Nat → Int} {x : Info} {d : DataType} {p : Option Ptr} {o : Int} (h : ownData base (.leaf x d) = some (p, o)) :
    p = x.data ∧ o = d.offset ∧ d.id ≠ .empty ∧ d.bytesCompact = d.stridedBytes := by
  unfold ownData at h
  split at h
  · rename_i hc
    rw [firstElem] at h
    split at h
    · cases h
    · rename_i he
      simp only [not_or] at he
      injection h with h
      injection h with h1 h2
      refine ⟨h1.symm, by rw [← h2]; simp [DataType.elementIndex], he.1, ?_⟩
      rw [Bool.and_eq_true] at hc
      have := hc.1
      simpa [Node.schema, Schema.isCompact, totalBytesCompact, totalStridedBytes, he.1] using this
  · cases h

/-- elements of a compact leaf follow each other -/
theorem own_stride {d : DataType} (he : d.ele = d.id.bytes) (h : d.bytesCompact = d.stridedBytes) (i : Nat) (hi : (i : Int) < d.n) :
    d.stride * i = d.id.bytes * i := by
  rcases Nat.eq_zero_or_pos i with rfl | hp
  · simp
  · unfold DataType.bytesCompact DataType.stridedBytes at h
    rw [he] at h
    have : (d.id.bytes : Int) * (d.n - 1) = d.stride * (d.n - 1) := by
      rw [Int.mul_sub, Int.mul_one]; omega
    rw [Int.eq_of_mul_eq_mul_right (by omega) this]

theorem bcast_own {big : Bool} {n0 : Node} {m0 : Mem} {X : List UInt8 × List UInt8} {x0 : Info} {e0 : DataType}
    (hn0 : n0 = .leaf x0 e0) (hp : Part big (n0, m0) X) (hr : Readable m0 n0) (he0 : e0.id ≠ .empty)
    {x : Info} {d : DataType} {m : Mem} (hd : Readable m (.leaf x d)) (hnat : NatSize (.leaf x d)) (hid : d.id = e0.id) (hlen : d.n = e0.n)
    {base : Nat → Int} {p : Option Ptr} {o : Int} (hown : ownData base (.leaf x d) = some (p, o)) :
    ∃ m', m.store p o X.2 = .ok m' ∧ val m' (.leaf x d) = .leaf e0.id d.endian (elems m0 x0.data e0) ∧ Readable m' (.leaf x d) ∧
      m'.length = m.length ∧ (∀ b, m'.size b = m.size b) ∧
      (∀ b i, (∀ pl ∈ places (.leaf x d), ¬ pl.Has b i) → m'.byte b i = m.byte b i) := by
  obtain ⟨rfl, rfl, hde, hcomp⟩ := own_leaf hown
  subst hn0
  have hele := hnat hde
  obtain ⟨hd1, hd2, hdn, hdb⟩ := hd
  have hdb := hdb hde
  have hXl : (X.2.length : Int) = d.id.bytes * d.n := by
    have := hp.len
    simp only [Node.schema, totalBytesCompact, he0, if_false, DataType.bytesCompact] at this
    rw [this, hid, hlen]
  have hbyte : ∀ i k : Nat, (i : Int) < d.n → k < d.id.bytes → (m.byteAt x.data (d.offset + d.stride * i + k)).isSome := by
    intro i k hi hk
    refine hdb ((List.range d.id.bytes).map fun (k : Nat) => m.byteAt x.data (d.offset + d.stride * i + k)) ?_ _ ?_
    · unfold elems
      exact List.mem_map.2 ⟨i, by rw [List.mem_range]; omega, rfl⟩
    · exact List.mem_map.2 ⟨k, by rw [List.mem_range]; omega, rfl⟩
  rcases Nat.eq_zero_or_pos X.2.length with h0 | hpos
  · have hnone : ∀ i k : Nat, (i : Int) < d.n → k < d.id.bytes → False := by
      intro i k hi hk
      have : (0 : Int) < d.id.bytes * d.n := Int.mul_pos (by omega) (by omega)
      omega
    refine ⟨m, by unfold Mem.store; rw [if_pos h0], ?_, ⟨hd1, hd2, hdn, fun _ => hdb⟩, rfl, fun _ => rfl, fun _ _ _ => rfl⟩
    rw [val, if_neg hde, ← hid]
    congr 1
    exact elems_congr hlen hid (fun i k hi hk => (hnone i k (by omega) (by rw [hid]; exact hk)).elim)
  · have hn1 : 0 < d.n ∧ 0 < d.id.bytes := by
      constructor
      · rcases Int.lt_or_eq_of_le hdn with h | h
        · exact h
        · rw [← h] at hXl; omega
      · rcases Nat.eq_zero_or_pos d.id.bytes with h | h
        · have : X.2.length = 0 := by rw [h] at hXl; simpa using hXl
          omega
        · exact h
    obtain ⟨q, hq⟩ : ∃ q, x.data = some q := by
      have := hbyte 0 0 (by omega) hn1.2
      cases hx : x.data with
      | none => rw [hx] at this; simp [Mem.byteAt] at this
      | some q => exact ⟨q, rfl⟩
    rw [hq] at hbyte ⊢
    -- byte `k` of all
    have split : ∀ k : Nat, k < X.2.length → ((k / d.id.bytes : Nat) : Int) < d.n ∧ k % d.id.bytes < d.id.bytes ∧
        d.stride * ((k / d.id.bytes : Nat) : Int) + ((k % d.id.bytes : Nat) : Int) = k := by
      intro k hk
      have h1 : ((k / d.id.bytes : Nat) : Int) < d.n := by
        have : k / d.id.bytes < d.n.toNat := by
          rw [Nat.div_lt_iff_lt_mul hn1.2]
          have : (X.2.length : Int) = ((d.n.toNat * d.id.bytes : Nat) : Int) := by
            rw [hXl, Int.natCast_mul, Int.toNat_of_nonneg hdn, Int.mul_comm]
          omega
        omega
      refine ⟨h1, Nat.mod_lt _ hn1.2, ?_⟩
      rw [own_stride hele hcomp _ h1, ← Int.natCast_mul, ← Int.natCast_add, Nat.div_add_mod]
    obtain ⟨m1, s1, s2, s3, s4⟩ := Mem.store_spec (m := m) (q := q) (off := d.offset) (xs := X.2) (by
      intro k hk
      obtain ⟨k1, k2, k3⟩ := split k hk
      have := hbyte _ _ k1 k2
      simp only [Mem.byteAt] at this
      rw [show q.off + (d.offset + d.stride * ((k / d.id.bytes : Nat) : Int) + ((k % d.id.bytes : Nat) : Int)) = q.off + d.offset + k by
        omega] at this
      exact this)
    have hv := (view_flat (.leaf x0 e0) m0 hr X.2 hp.data m1 (some ⟨q.blk, q.off + d.offset⟩) (by
      intro i hi
      show m1.byte q.blk (q.off + d.offset + i) = _
      rw [s4, if_pos ⟨rfl, by omega, by omega⟩]
      congr 1
      omega)).1
    have hel : elems m1 (some q) d = elems m0 x0.data e0 := by
      simp only [Node.schema, Schema.compactTo, compactAt, he0, if_false, view, val, DataType.compactTo] at hv
      injection hv with _ _ hv
      rw [← hv]
      refine elems_congr hlen hid ?_
      intro i k hi hk
      simp only [Mem.byteAt] at *
      rw [own_stride hele hcomp i (by omega), hid]
      congr 1
      omega
    have hsz : ∀ b i, (m1.byte b i).isSome ↔ (m.byte b i).isSome := by
      intro b i
      rw [Mem.byte_isSome, Mem.byte_isSome, s3]
    refine ⟨m1, s1, ?_, ⟨hd1, hd2, hdn, fun _ => ?_⟩, s2, s3, ?_⟩
    · rw [val, if_neg hde, hq, hel, hid]
    · rw [hq]
      intro e he b hb
      unfold elems at he
      obtain ⟨i, hi, rfl⟩ := List.mem_map.1 he
      obtain ⟨k, hk, rfl⟩ := List.mem_map.1 hb
      have := hbyte i k (by have := List.mem_range.1 hi; omega) (List.mem_range.1 hk)
      exact (hsz _ _).2 this
    · intro b i hno
      rw [s4]
      split
      · rename_i hh
        obtain ⟨rfl, i1, i2⟩ := hh
        exfalso
        obtain ⟨k1, k2, k3⟩ := split (i - (q.off + d.offset)).toNat (by omega)
        refine hno ⟨x.data, d.offset + d.stride * (((i - (q.off + d.offset)).toNat / d.id.bytes : Nat) : Int), d.id.bytes⟩ ?_
          ⟨q, hq, rfl, by simp only; omega, by simp only; omega⟩
        exact List.mem_map.2 ⟨_, by rw [List.mem_range]; omega, rfl⟩
      · rfl

/-- the data are put into a buffer of the leaf's type and copied from there -/
theorem bcast_copy {m : Mem} {data : List UInt8} {e : DataType} (he : e.id ≠ .empty) {dest : Node} {v : Val}
    (hv : view (m ++ [some data]) (some ⟨m.length, 0⟩) (.leaf e) = v)
    (hr : Readable (m ++ [some data]) (walk (some ⟨m.length, 0⟩) true (.leaf e)))
    (hdest : Ready m dest) (hdd : DistinctV (val m dest)) :
    ∃ u m' n', update (walk (some ⟨m.length, 0⟩) true (.leaf e)) dest (m ++ [some data]) = .ok (u, n') ∧
      releaseMem (walk (some ⟨m.length, 0⟩) true (.leaf e)) u = .ok m' ∧ val m' n' = merge v (val m dest) ∧ Ready m' n' ∧
      (∀ b i, b < m.length → b ∉ (owned dest).map Ptr.blk → (∀ pl ∈ places dest, ¬ pl.Has b i) → m'.byte b i = m.byte b i) := by
  let p : Ptr := ⟨m.length, 0⟩
  let m1 : Mem := m ++ [some data]
  let src := walk (some p) true (.leaf e)
  have hval : val m1 src = v := by rw [val_walk]; exact hv
  have hr1 : Ready m1 dest := ready_ext data hdest
  have hbd : ∀ b ∈ blocks dest, b < m.length := blocks_lt dest hdest.readable
  have hod : ∀ q ∈ owned dest, q.blk < m.length := owned_lt hdest.good
  have hbs : ∀ b ∈ blocks src, b = m.length := blocks_walk p true (.leaf e)
  have hvd : val m1 dest = val m dest := val_agree dest (fun b hb i => byte_ext m data (hbd b hb) i)
  have hsrc : SrcOK m1 src dest := ⟨hr, fun q hq h => by
      have := hbs _ h; have := hod q hq; omega, fun a ha b hb blk i h1 h2 => by
      have x := hbs _ (has_blocks src a ha blk i h1)
      have y := hbd _ (has_blocks dest b hb blk i h2)
      omega⟩
  have hvl : ∃ a b c, v = .leaf a b c := by
    rw [← hv, view]
    exact ⟨_, _, _, if_neg he⟩
  obtain ⟨va, vb, vc, hvv⟩ := hvl
  obtain ⟨m2, d2, u1, u2, u3, u4⟩ := update_spec src dest m1 hsrc hr1 (by rw [hval, hvv]; simp [Fits]) (by rw [hval, hvv]; simp [DistinctV])
    (by rw [hvd]; exact hdd)
  have hl1 : m1.length = m.length + 1 := by simp [m1]
  have hlive : Live m2 m.length := u2.live m.length (by omega) (by
    intro h
    obtain ⟨q, hq, he⟩ := List.mem_map.1 h
    have := hod q hq; omega) ⟨data, by simp [m1]⟩
  have hfree : m2.free ⟨m.length, 0⟩ = .ok (m2.set m.length none) := free_ok rfl hlive
  have hbyte : ∀ b i, b ≠ m.length → Mem.byte (m2.set m.length none) b i = m2.byte b i := by
    intro b i hb
    rw [Mem.byte_free hfree]
    simp [hb]
  have hb2 : ∀ b ∈ blocks d2, b ≠ m.length := by
    intro b hb
    rcases u2.blk b hb with h | h
    · have := hbd b h; omega
    · omega
  have ag : Agree m2 (m2.set m.length none) (blocks d2) := fun b hb i => hbyte b i (hb2 b hb)
  refine ⟨m2, m2.set m.length none, d2, u1, ?_, ?_, ?_, ?_⟩
  · show releaseMem (.leaf ⟨some p, true⟩ e) m2 = _
    rw [releaseMem, freeOwn]
    simp only [Bool.true_and]
    rw [if_pos (by simpa using he)]
    exact hfree
  · rw [val_agree d2 ag, u4, hval, hvd]
  · refine ⟨(readable_agree d2 ag).2 u3.readable, u3.sep, u3.nat, u3.clean, ⟨u3.good.1, fun q hq => ⟨(u3.good.2 q hq).1, ?_⟩⟩, u3.tidy⟩
    have hne : q.blk ≠ m.length := by
      rcases u2.own q hq with h | h
      · have := hod q h; omega
      · omega
    obtain ⟨xs, hx⟩ := (u3.good.2 q hq).2
    exact ⟨xs, by rw [List.getElem?_set_ne (Ne.symm hne)]; exact hx⟩
  · intro b i hb ho hp
    rw [hbyte b i (by omega), u2.keep b i (by omega) ho hp]
    exact byte_ext m data hb i

theorem bcastRecv_ok {big : Bool} {n : Node} {m : Mem} {X : List UInt8 × List UInt8} (hp : Part big (n, m) X) (hs : Sends big (n, m))
    (h2 : totalBytesCompact n.schema < 2 ^ 31) (base : Nat → Int) (dest : Node) (md : Mem) (hd : Ready md dest)
    (hl : NotLonger (val m n) (val md dest)) :
    ∃ m' n', bcastRecv base X dest md = .ok (m', n') ∧ val m' n' = received (named big (val m n)) (val md dest) ∧ Readable m' n' ∧
      (∀ b i, b < md.length → b ∉ (owned dest).map Ptr.blk → (∀ pl ∈ places dest, ¬ pl.Has b i) → m'.byte b i = md.byte b i) := by
  have hr := hs.readable
  obtain ⟨t1, t2⟩ := part_text big (n, m) hs h2
  have hg : gatherSchema X.1 0 = .ok (partSchema big (n, m)) := by
    have := gatherSchema_at (pre := []) (post := []) t1 t2
    simpa [hp.text] using this
  unfold bcastRecv
  rw [hg, bind_ok]
  have hnew : received (named big (val m n)) (val md dest) = named big (val m n) →
      ∃ m' n', bcastNew X.2 (partSchema big (n, m)) dest md = .ok (m', n') ∧ val m' n' = received (named big (val m n)) (val md dest) ∧
        Readable m' n' ∧
        (∀ b i, b < md.length → b ∉ (owned dest).map Ptr.blk → (∀ pl ∈ places dest, ¬ pl.Has b i) → m'.byte b i = md.byte b i) := by
    intro h
    obtain ⟨m', n', a1, a2, a3, a4⟩ := bcastNew_ok hp hr h2 dest md hd.good
    exact ⟨m', n', a1, by rw [h]; exact a2, a3, fun b i hb hb' _ => a4 b hb hb' i⟩
  cases n with
  | obj x0 es => 
    cases dest <;> simpa [partSchema, Node.schema, Schema.compactTo, compactAt, readBack] using hnew (by simp [val, named, received])
  | lst x0 es =>
    cases dest <;> simpa [partSchema, Node.schema, Schema.compactTo, compactAt, readBack] using hnew (by simp [val, named, received])
  | leaf x0 e0 =>
    by_cases he : e0.id = .empty
    · have : received (named big (val m (.leaf x0 e0))) (val md dest) = named big (val m (.leaf x0 e0)) := by
        simp only [val, named, he, if_true]
        generalize val md dest = w
        cases w <;> simp [received]
      cases dest <;> simpa [partSchema, Node.schema, Schema.compactTo, compactAt, readBack, he] using hnew this
    · cases dest with
      | obj x es => simpa [partSchema, Node.schema, Schema.compactTo, compactAt, readBack, he, DataType.compactTo] using hnew (by simp [val, named, received, he])
      | lst x es => simpa [partSchema, Node.schema, Schema.compactTo, compactAt, readBack, he, DataType.compactTo] using hnew (by simp [val, named, received, he])
      | leaf x d =>
        obtain ⟨_, _, hn0, _⟩ := hr
        have hdn := hd.readable.2.2.1
        have hps : partSchema big (.leaf x0 e0, m) = .leaf { e0.compactTo with endian := Node.resolve big e0.endian } := by
          simp [partSchema, Node.schema, Schema.compactTo, compactAt, readBack, he, DataType.compactTo]
        rw [hps] at hnew ⊢
        simp only
        by_cases hc : d.id ≠ .empty ∧ d.id = e0.id ∧ e0.n ≤ d.n
        · obtain ⟨c1, c2, c3⟩ := hc
          have hele : d.ele = d.id.bytes := hd.nat c1
          have hlen : d.n = e0.n := by
            simp only [val, he, c1, if_false, NotLonger, elems_length] at hl
            have := hl c2
            omega
          have hcomp : d.id ≠ .empty ∧ ({ e0.compactTo with endian := Node.resolve big e0.endian } : DataType).id ≠ .empty ∧
              d.compatible { e0.compactTo with endian := Node.resolve big e0.endian } = true :=
            ⟨c1, by simpa [DataType.compactTo] using he, by simp [DataType.compatible, DataType.compactTo, hele, c2, hlen]⟩
          have hrecv : received (named big (val m (.leaf x0 e0))) (val md (.leaf x d)) = .leaf e0.id d.endian (elems m x0.data e0) := by
            simp [val, he, named, received, c2, elems_length, hlen]
          have hlX : (X.2.length : Int) = totalBytesCompact (Node.leaf x d).schema := by
            have := hp.len
            simp only [Node.schema, totalBytesCompact, he, c1, if_false, DataType.bytesCompact] at this ⊢
            rw [this, c2, hlen]
          have hlX2 : (X.2.length : Int) < 2 ^ 31 := by rw [hp.len]; exact h2
          rw [if_pos hcomp, ← hlX, castInt_small (by omega) hlX2, if_neg (by simp), hrecv]
          cases ho : ownData base (.leaf x d) with
          | some po =>
            obtain ⟨p, o⟩ := po
            obtain ⟨m', s1, s2, s3, _, _, s6⟩ := bcast_own rfl hp hs.readable he hd.readable hd.nat c2 hlen ho
            simp only
            rw [s1, bind_ok]
            exact ⟨m', .leaf x d, rfl, s2, s3, fun b i _ _ h => s6 b i h⟩
          | none =>
            obtain ⟨v1, v2⟩ := view_part hp hs.readable (md ++ [some X.2]) ⟨md.length, 0⟩ true (by
              intro i hi
              simp [Mem.byteAt, Mem.byte])
            rw [hps] at v1 v2
            have hspan : spannedBytes (.leaf { e0.compactTo with endian := Node.resolve big e0.endian } : Schema) = (X.2.length : Nat) := by
              rw [← hps, partSchema, span_readBack_compact big _ (countsOK_of hs.readable), ← hp.len]
            obtain ⟨u, m', n', w1, w2, w3, w4, w5⟩ := bcast_copy (by simpa [DataType.compactTo] using he) v1 v2 hd (by simp [val, c1, DistinctV])
            simp only
            rw [setSchema_own hspan (dest := new) (m := md) (m1 := md) (by rfl) rfl, bind_ok]
            simp only [info_walk]
            rw [store_last _ _ _ rfl, bind_ok, w1, bind_ok, w2, bind_ok]
            refine ⟨m', n', rfl, ?_, w4.readable, w5⟩
            rw [w3]
            simp [val, he, named, merge, overLeaf, c2, elems_length, hlen]
        · rw [if_neg]
          · refine hnew ?_
            by_cases c1 : d.id = .empty
            · simp [val, he, c1, named, received, Ne.symm he]
            · simp only [val, he, c1, if_false, named, received, elems_length]
              rw [if_neg]
              rintro ⟨_, h3, h4⟩
              exact hc ⟨c1, h3, by omega⟩
          · rintro ⟨h1, _, h3⟩
            simp only [DataType.compatible, DataType.compactTo, Bool.and_eq_true, beq_iff_eq] at h3
            exact hc ⟨h1, h3.1.1, of_decide_eq_true h3.2⟩

end Relay
end Conduit
