import Verif.Model.Mem
namespace Conduit
namespace Mem

/-- size of a live block -/
def size (m : Mem) (b : Nat) : Option Nat :=
  match m[b]? with
  | some (some bs) => some bs.length
  | _ => none

theorem byte_isSome (m : Mem) (b : Nat) (i : Int) :
    (m.byte b i).isSome ↔ ∃ n, m.size b = some n ∧ 0 ≤ i ∧ i < n := by
  unfold byte size
  rcases h : m[b]? with _ | (_ | bs)
  · simp
  · simp
  · simp only [Option.some.injEq, exists_eq_left']
    split
    · simp; omega
    · rename_i hi
      simp [List.getElem?_eq_none_iff, Option.isSome_iff_ne_none]; omega

theorem load_ok {m : Mem} {q : Ptr} {off : Int} {len : Nat}
    (h : ∀ k : Nat, k < len → (m.byte q.blk (q.off + off + k)).isSome) :
    ∃ bs, m.load (some q) off len = .ok bs ∧ bs.length = len ∧
      ∀ k : Nat, k < len → bs[k]? = m.byte q.blk (q.off + off + k) := by
  unfold load
  by_cases hl : len = 0
  · subst hl; exact ⟨[], by simp⟩
  · rw [if_neg hl]
    simp only
    have h0 := (byte_isSome _ _ _).1 (h 0 (by omega))
    have h1 := (byte_isSome _ _ _).1 (h (len - 1) (by omega))
    obtain ⟨n, hn, h0a, h0b⟩ := h0
    obtain ⟨n', hn', h1a, h1b⟩ := h1
    rw [hn] at hn'; injection hn' with hn'; subst hn'
    unfold size at hn
    rcases hb : m[q.blk]? with _ | (_ | bs)
    · simp [hb] at hn
    · simp [hb] at hn
    · simp only [hb, Option.some.injEq] at hn
      simp only
      rw [if_pos (by omega)]
      refine ⟨_, rfl, by simp; omega, ?_⟩
      intro k hk
      rw [List.getElem?_take_of_lt hk, List.getElem?_drop]
      unfold byte
      rw [hb]
      simp only
      rw [if_neg (by omega)]
      congr 1; omega

theorem load_ub {m : Mem} {q : Ptr} {off : Int} {len k : Nat} (hk : k < len)
    (h : m.byte q.blk (q.off + off + k) = none) : m.load (some q) off len = .ub := by
  unfold load
  rw [if_neg (by omega)]
  simp only
  rcases hb : m[q.blk]? with _ | (_ | bs)
  · rfl
  · rfl
  · simp only
    rw [if_neg]
    intro hh
    unfold byte at h
    rw [hb] at h
    simp only at h
    rw [if_neg (by omega)] at h
    rw [List.getElem?_eq_none_iff] at h
    omega

theorem store_spec {m : Mem} {q : Ptr} {off : Int} {xs : List UInt8}
    (h : ∀ k : Nat, k < xs.length → (m.byte q.blk (q.off + off + k)).isSome) :
    ∃ m', m.store (some q) off xs = .ok m' ∧ m'.length = m.length ∧
      (∀ b, m'.size b = m.size b) ∧
      (∀ b i, m'.byte b i = if b = q.blk ∧ q.off + off ≤ i ∧ i < q.off + off + xs.length
        then xs[(i - (q.off + off)).toNat]? else m.byte b i) := by
  unfold store
  by_cases hl : xs.length = 0
  · rw [if_pos hl]
    refine ⟨m, rfl, rfl, fun _ => rfl, fun b i => ?_⟩
    rw [if_neg (by omega)]
  · rw [if_neg hl]
    simp only
    have h0 := (byte_isSome _ _ _).1 (h 0 (by omega))
    have h1 := (byte_isSome _ _ _).1 (h (xs.length - 1) (by omega))
    obtain ⟨n, hn, h0a, h0b⟩ := h0
    obtain ⟨n', hn', h1a, h1b⟩ := h1
    rw [hn] at hn'; injection hn' with hn'; subst hn'
    unfold size at hn
    rcases hb : m[q.blk]? with _ | (_ | bs)
    · simp [hb] at hn
    · simp [hb] at hn
    · simp only [hb, Option.some.injEq] at hn
      have hlt := (List.getElem?_eq_some_iff.1 hb).1
      simp only
      rw [if_pos (by omega)]
      refine ⟨_, rfl, by simp, ?_, ?_⟩
      · intro b
        unfold size
        by_cases hbb : b = q.blk
        · subst hbb
          rw [List.getElem?_set_self hlt, hb]
          simp; omega
        · rw [List.getElem?_set_ne (fun h => hbb h.symm)]
      · intro b i
        unfold byte
        by_cases hbb : b = q.blk
        · subst hbb
          rw [List.getElem?_set_self hlt, hb]
          simp only [true_and]
          by_cases hi : i < 0
          · rw [if_pos hi, if_neg (by omega)]; simp [hi]
          · rw [if_neg hi]
            by_cases h1 : q.off + off ≤ i
            · by_cases h2 : i < q.off + off + xs.length
              · rw [if_pos ⟨h1, h2⟩, List.getElem?_append_left (by simp; omega),
                  List.getElem?_append_right (by simp; omega)]
                congr 1; simp; omega
              · rw [if_neg (by omega), List.getElem?_append_right (by simp; omega), List.getElem?_drop]
                simp only [hi, if_false]
                congr 1; simp; omega
            · rw [if_neg (by omega)]
              simp only [hi, if_false]
              rw [List.append_assoc, List.getElem?_append_left (by simp; omega), List.getElem?_take_of_lt (by omega)]
        · rw [List.getElem?_set_ne (fun h => hbb h.symm), if_neg (by simp [hbb])]

/-- two memories have the same blocks, of the same size -/
def SameShape (m m' : Mem) : Prop := m'.length = m.length ∧ ∀ b, m'.size b = m.size b

theorem SameShape.refl (m : Mem) : SameShape m m := ⟨rfl, fun _ => rfl⟩
theorem SameShape.trans {a b c : Mem} (h : SameShape a b) (h' : SameShape b c) : SameShape a c :=
  ⟨h'.1.trans h.1, fun x => (h'.2 x).trans (h.2 x)⟩

theorem SameShape.isSome {m m' : Mem} (h : SameShape m m') (b : Nat) (i : Int) :
    (m'.byte b i).isSome ↔ (m.byte b i).isSome := by
  rw [byte_isSome, byte_isSome, h.2 b]

theorem load_null (m : Mem) (off : Int) : m.load none off 0 = .ok [] := rfl

/-- one `memcpy` between ranges that do not overlap -/
theorem memcpy_spec {m : Mem} {p q : Ptr} {doff soff : Int} {len : Nat}
    (hs : ∀ k : Nat, k < len → (m.byte q.blk (q.off + soff + k)).isSome)
    (hd : ∀ k : Nat, k < len → (m.byte p.blk (p.off + doff + k)).isSome)
    (ho : len = 0 ∨ p.blk ≠ q.blk ∨ p.off + doff + len ≤ q.off + soff ∨ q.off + soff + len ≤ p.off + doff) :
    ∃ m', m.memcpy (some p) doff (some q) soff len = .ok m' ∧ SameShape m m' ∧
      (∀ b i, m'.byte b i = if b = p.blk ∧ p.off + doff ≤ i ∧ i < p.off + doff + len
        then m.byte q.blk (q.off + soff + (i - (p.off + doff))) else m.byte b i) := by
  obtain ⟨bs, h1, h2, h3⟩ := load_ok hs
  unfold memcpy
  rw [h1]
  have hov : overlaps (some p) doff (some q) soff len = false := by
    simp only [overlaps, Bool.and_eq_false_iff, beq_eq_false_iff_ne, decide_eq_false_iff_not]
    rcases ho with ho | ho | ho | ho
    · subst ho; by_cases h : p.off + doff ≤ q.off + soff
      · right; omega
      · left; right; omega
    · exact Or.inl (Or.inl ho)
    · right; omega
    · left; right; omega
  simp only [hov, Bool.false_eq_true, if_false]
  obtain ⟨m', g1, g2, g3, g4⟩ := store_spec (m := m) (q := p) (off := doff) (xs := bs) (by rw [h2]; exact hd)
  refine ⟨m', g1, ⟨g2, g3⟩, fun b i => ?_⟩
  rw [g4, h2]
  by_cases hc : b = p.blk ∧ p.off + doff ≤ i ∧ i < p.off + doff + len
  · rw [if_pos hc, if_pos hc, h3 _ (by omega)]
    congr 1; omega
  · rw [if_neg hc, if_neg hc]

theorem memcpy_zero (m : Mem) (dst : Option Ptr) (doff : Int) (src : Option Ptr) (soff : Int) :
    m.memcpy dst doff src soff 0 = .ok m := by
  have hov : overlaps dst doff src soff 0 = false := by
    unfold overlaps
    split
    · simp only [Bool.and_eq_false_iff, beq_eq_false_iff_ne, decide_eq_false_iff_not]
      rename_i p q
      by_cases h : p.off + doff ≤ q.off + soff
      · right; simp; omega
      · left; right; simp; omega
    · rfl
  simp [memcpy, load, hov, store]

/-! ### strided copies -/

/-- a byte of one of the elements `0 .. n-1` of `eb` bytes at stride `ds` from `base` -/
def InElems (base ds : Int) (n eb : Nat) (i : Int) : Prop :=
  ∃ e : Nat, e < n ∧ base + ds * e ≤ i ∧ i < base + ds * e + eb

/-- destination elements do not overlap one another -/
def Apart (ds : Int) (n eb : Nat) : Prop :=
  ∀ e e' : Nat, e < e' → e' < n → ds * e + eb ≤ ds * e' ∨ ds * e' + eb ≤ ds * e

theorem apart_of_le {ds : Int} {n eb : Nat} (h : (eb : Int) ≤ ds) : Apart ds n eb := by
  intro e e' h1 _
  left
  have : ds * ((e : Int) + 1) ≤ ds * e' := Int.mul_le_mul_of_nonneg_left (by omega) (by omega)
  rw [Int.mul_add] at this
  omega

theorem apart_one {ds : Int} {n eb : Nat} (h : n ≤ 1) : Apart ds n eb := by
  intro e e' h1 h2; omega

/-- Effect of a strided copy between regions that do not meet. -/
theorem copyLoop_spec (p q : Ptr) (eb : Nat) (ds ss : Int) : ∀ (n : Nat) (m : Mem) (doff soff : Int),
    (∀ e k : Nat, e < n → k < eb → (m.byte q.blk (q.off + soff + ss * e + k)).isSome) →
    (∀ e k : Nat, e < n → k < eb → (m.byte p.blk (p.off + doff + ds * e + k)).isSome) →
    (p.blk = q.blk → ∀ i, InElems (p.off + doff) ds n eb i → ¬ InElems (q.off + soff) ss n eb i) →
    Apart ds n eb →
    ∃ m', copyLoop (some p) eb ds (some q) ss n m doff soff = .ok m' ∧ SameShape m m' ∧
      (∀ b i, (b = p.blk → ¬ InElems (p.off + doff) ds n eb i) → m'.byte b i = m.byte b i) ∧
      (∀ e k : Nat, e < n → k < eb →
        m'.byte p.blk (p.off + doff + ds * e + k) = m.byte q.blk (q.off + soff + ss * e + k))
  | 0, m, doff, soff, _, _, _, _ => ⟨m, rfl, SameShape.refl m, fun _ _ _ => rfl, by intros; omega⟩
  | n + 1, m, doff, soff, hs, hd, hdis, hap => by
    have hs0 : ∀ k : Nat, k < eb → (m.byte q.blk (q.off + soff + k)).isSome := by
      intro k hk; have := hs 0 k (by omega) hk; simpa using this
    have hd0 : ∀ k : Nat, k < eb → (m.byte p.blk (p.off + doff + k)).isSome := by
      intro k hk; have := hd 0 k (by omega) hk; simpa using this
    have ho : eb = 0 ∨ p.blk ≠ q.blk ∨ p.off + doff + eb ≤ q.off + soff ∨ q.off + soff + eb ≤ p.off + doff := by
      by_cases h0 : eb = 0
      · exact Or.inl h0
      · by_cases hb : p.blk = q.blk
        · right; right
          have h1 := hdis hb (p.off + doff) ⟨0, by omega, by simp, by simp; omega⟩
          have h2 := hdis hb (q.off + soff)
          by_cases hle : p.off + doff ≤ q.off + soff
          · left
            apply Classical.byContradiction
            intro hc
            exact h2 ⟨0, by omega, by simp; omega, by simp; omega⟩ ⟨0, by omega, by simp, by simp; omega⟩
          · right
            apply Classical.byContradiction
            intro hc
            exact h1 ⟨0, by omega, by simp; omega, by simp; omega⟩
        · exact Or.inr (Or.inl hb)
    obtain ⟨m1, e1, e2, e3⟩ := memcpy_spec hs0 hd0 ho
    -- bytes of the source elements are untouched by the first copy
    have hsrc : ∀ e k : Nat, e < n + 1 → k < eb →
        m1.byte q.blk (q.off + soff + ss * e + k) = m.byte q.blk (q.off + soff + ss * e + k) := by
      intro e k he hk
      rw [e3, if_neg]
      rintro ⟨hb, h1, h2⟩
      exact hdis hb.symm _ ⟨0, by omega, by simpa using h1, by simpa using h2⟩ ⟨e, he, by omega, by omega⟩
    have hap' : Apart ds n eb := by
      intro e e' h1 h2
      have := hap (e + 1) (e' + 1) (by omega) (by omega)
      simp only [Int.natCast_add, Int.natCast_one, Int.mul_add, Int.mul_one] at this
      omega
    have hstep : ∀ (a d : Int) (e : Nat), a + d + d * e = a + d * (e + 1 : Nat) := by
      intro a d e
      simp only [Int.natCast_add, Int.natCast_one, Int.mul_add, Int.mul_one]; omega
    obtain ⟨m2, f1, f2, f3, f4⟩ := copyLoop_spec p q eb ds ss n m1 (doff + ds) (soff + ss)
      (by
        intro e k he hk
        have := hs (e + 1) k (by omega) hk
        rw [e2.isSome, ← Int.add_assoc, hstep]
        exact this)
      (by
        intro e k he hk
        have := hd (e + 1) k (by omega) hk
        rw [e2.isSome, ← Int.add_assoc, hstep]
        exact this)
      (by
        rintro hb i ⟨e, he, h1, h2⟩ ⟨e', he', h1', h2'⟩
        rw [← Int.add_assoc, hstep] at h1 h2 h1' h2'
        exact hdis hb i ⟨e + 1, by omega, h1, h2⟩ ⟨e' + 1, by omega, h1', h2'⟩)
      hap'
    refine ⟨m2, ?_, e2.trans f2, ?_, ?_⟩
    · rw [copyLoop, e1]; exact f1
    · intro b i hb
      rw [f3 b i, e3, if_neg]
      · rintro ⟨hbp, h1, h2⟩
        exact hb hbp ⟨0, by omega, by simpa using h1, by simpa using h2⟩
      · rintro hbp ⟨e, he, h1, h2⟩
        rw [← Int.add_assoc, hstep] at h1 h2
        exact hb hbp ⟨e + 1, by omega, h1, h2⟩
    · intro e k he hk
      cases e with
      | zero =>
        rw [f3, e3, if_pos ⟨rfl, by simp; omega, by simp; omega⟩]
        · congr 1; simp; omega
        · rintro _ ⟨e', he', h1, h2⟩
          rw [← Int.add_assoc, hstep] at h1 h2
          have := hap 0 (e' + 1) (by omega) (by omega)
          simp only [Int.natCast_zero, Int.mul_zero] at this h1 h2
          have h3 : (k : Int) < eb := by omega
          simp at h1 h2
          rcases this with h | h
          · simp at h; omega
          · have hk0 : (0 : Int) ≤ k := by omega
            simp at h; omega
      | succ e =>
        have := f4 e k (by omega) hk
        rw [← Int.add_assoc, hstep] at this
        rw [this, ← Int.add_assoc, hstep, hsrc (e + 1) k he hk]

theorem div_bytes {eb k : Nat} {n : Nat} (h : k < eb * n) : k / eb < n ∧ k % eb < eb ∧ eb * (k / eb) + k % eb = k := by
  have heb : 0 < eb := by
    rcases Nat.eq_zero_or_pos eb with h0 | h0
    · subst h0; simp at h
    · exact h0
  refine ⟨?_, Nat.mod_lt _ heb, Nat.div_add_mod k eb⟩
  exact Nat.div_lt_of_lt_mul h

theorem stridedCopy_spec (p q : Ptr) (eb : Nat) (ds ss : Int) (n : Nat) (m : Mem) (doff soff : Int)
    (hs : ∀ e k : Nat, e < n → k < eb → (m.byte q.blk (q.off + soff + ss * e + k)).isSome)
    (hd : ∀ e k : Nat, e < n → k < eb → (m.byte p.blk (p.off + doff + ds * e + k)).isSome)
    (hdis : p.blk = q.blk → ∀ i, InElems (p.off + doff) ds n eb i → ¬ InElems (q.off + soff) ss n eb i)
    (hap : Apart ds n eb) :
    ∃ m', stridedCopy m (some p) doff n eb ds (some q) soff ss = .ok m' ∧ SameShape m m' ∧
      (∀ b i, (b = p.blk → ¬ InElems (p.off + doff) ds n eb i) → m'.byte b i = m.byte b i) ∧
      (∀ e k : Nat, e < n → k < eb →
        m'.byte p.blk (p.off + doff + ds * e + k) = m.byte q.blk (q.off + soff + ss * e + k)) := by
  unfold stridedCopy
  split
  · rename_i h
    obtain ⟨hds, hss⟩ := h
    subst hds hss
    -- element view of the contiguous range
    have hin : ∀ (base i : Int), base ≤ i → i < base + (eb * n : Nat) → InElems base eb n eb i := by
      intro base i h1 h2
      obtain ⟨a1, a2, a3⟩ := div_bytes (eb := eb) (k := (i - base).toNat) (n := n) (by omega)
      refine ⟨(i - base).toNat / eb, a1, ?_, ?_⟩
      · rw [← Int.natCast_mul]; omega
      · rw [← Int.natCast_mul]; omega
    have helem : ∀ e k : Nat, e < n → k < eb → eb * e + k < eb * n := by
      intro e k he hk
      have : eb * (e + 1) ≤ eb * n := Nat.mul_le_mul_left _ he
      rw [Nat.mul_add] at this; omega
    obtain ⟨m1, e1, e2, e3⟩ := memcpy_spec (m := m) (p := p) (q := q) (doff := doff) (soff := soff) (len := eb * n)
      (by
        intro k hk
        obtain ⟨a1, a2, a3⟩ := div_bytes hk
        have := hs _ _ a1 a2
        rw [← Int.natCast_mul] at this
        rw [show q.off + soff + (k : Int) = q.off + soff + ((eb * (k / eb) : Nat) : Int) + ((k % eb : Nat) : Int) by omega]
        exact this)
      (by
        intro k hk
        obtain ⟨a1, a2, a3⟩ := div_bytes hk
        have := hd _ _ a1 a2
        rw [← Int.natCast_mul] at this
        rw [show p.off + doff + (k : Int) = p.off + doff + ((eb * (k / eb) : Nat) : Int) + ((k % eb : Nat) : Int) by omega]
        exact this)
      (by
        by_cases h0 : eb * n = 0
        · exact Or.inl h0
        · by_cases hb : p.blk = q.blk
          · right; right
            by_cases hle : p.off + doff ≤ q.off + soff
            · left
              apply Classical.byContradiction
              intro hc
              exact hdis hb (q.off + soff) (hin _ _ (by omega) (by omega)) (hin _ _ (by omega) (by omega))
            · right
              apply Classical.byContradiction
              intro hc
              exact hdis hb (p.off + doff) (hin _ _ (by omega) (by omega)) (hin _ _ (by omega) (by omega))
          · exact Or.inr (Or.inl hb))
    refine ⟨m1, e1, e2, ?_, ?_⟩
    · intro b i hb
      rw [e3, if_neg]
      rintro ⟨h1, h2, h3⟩
      exact hb h1 (hin _ _ h2 h3)
    · intro e k he hk
      have := helem e k he hk
      rw [e3, if_pos ⟨rfl, by rw [← Int.natCast_mul]; omega, by rw [← Int.natCast_mul]; omega⟩]
      congr 1; omega
  · exact copyLoop_spec p q eb ds ss n m doff soff hs hd hdis hap

theorem stridedCopy_zero (m : Mem) (dst src : Option Ptr) (doff soff ds ss : Int) (n eb : Nat) (h : n = 0 ∨ eb = 0) :
    stridedCopy m dst doff n eb ds src soff ss = .ok m := by
  unfold stridedCopy
  split
  · rw [show eb * n = 0 by rcases h with h | h <;> simp [h], memcpy_zero]
  · rcases h with h | h
    · subst h; rfl
    · subst h
      suffices ∀ n doff soff, copyLoop dst 0 ds src ss n m doff soff = .ok m from this _ _ _
      intro n
      induction n with
      | zero => intros; rfl
      | succ n ih => intro a b; rw [copyLoop, memcpy_zero]; exact ih _ _

/-! ### allocation -/

theorem byte_alloc_old (m : Mem) (n b : Nat) (i : Int) (h : b < m.length) : (m.alloc n).1.byte b i = m.byte b i := by
  unfold alloc byte; rw [List.getElem?_append_left h]

theorem byte_alloc_new (m : Mem) (n : Nat) (i : Int) :
    (m.alloc n).1.byte m.length i = if 0 ≤ i ∧ i < n then some 0 else none := by
  unfold alloc byte
  rw [List.getElem?_append_right (Nat.le_refl _)]
  simp only [Nat.sub_self, List.getElem?_cons_zero]
  split
  · rw [if_neg (by omega)]
  · rw [List.getElem?_replicate]
    by_cases h : i.toNat < n
    · rw [if_pos h, if_pos (by omega)]
    · rw [if_neg h, if_neg (by omega)]

theorem size_alloc_old (m : Mem) (n b : Nat) (h : b < m.length) : (m.alloc n).1.size b = m.size b := by
  unfold alloc size; rw [List.getElem?_append_left h]

theorem byte_lt {m : Mem} {b : Nat} {i : Int} (h : (m.byte b i).isSome) : b < m.length := by
  unfold byte at h
  rcases hb : m[b]? with _ | x
  · rw [hb] at h; simp at h
  · exact (List.getElem?_eq_some_iff.1 hb).1

theorem byte_free {m m' : Mem} {p : Ptr} (h : m.free p = .ok m') (b : Nat) (i : Int) :
    m'.byte b i = if b = p.blk then none else m.byte b i := by
  unfold free at h
  split at h
  · cases h
  · split at h
    · rename_i hb; injection h with h; subst h
      have hlt := (List.getElem?_eq_some_iff.1 hb).1
      unfold byte
      by_cases hbb : b = p.blk
      · subst hbb; rw [List.getElem?_set_self hlt]; simp
      · rw [List.getElem?_set_ne (fun h => hbb h.symm), if_neg hbb]
    · cases h

theorem length_free {m m' : Mem} {p : Ptr} (h : m.free p = .ok m') : m'.length = m.length := by
  unfold free at h
  split at h
  · cases h
  · split at h
    · injection h with h; subst h; simp
    · cases h

end Mem
end Conduit
