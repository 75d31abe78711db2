import Verif.Lemmas.Array
import Verif.Props.Utils
/-
Property theorems C38 (reductions) and C42 (integer coercion).
-/
namespace Conduit
open Spec Node

/-! ## C38 -/

/-- C38: `min` returns the smallest element; for an array without elements the largest value
    of the type. -/
theorem C38_min (big : Bool) (t : IntTy) (m : Mem) (x : Info) (d : DataType) (ht : d.id.intTy = some t)
    (ho : MachineOrder big d) (vs : List Int) (hv : ints big m x d = vs.map some) :
    ∃ r, arrMin big t m x d = .ok r ∧ (vs ≠ [] → r ∈ vs ∧ ∀ v ∈ vs, r ≤ v) ∧ (vs = [] → r = t.maxVal) := by
  have h := arrFold_spec ht ho (fun res v => (.ok (if v < res then v else res) : Res Int)) vs [] t.maxVal hv
  rw [List.length_nil, ← ints_length hv] at h
  have key : ∀ (vs : List Int) (a : Int), ∃ r, vs.foldlM (fun res v => (.ok (if v < res then v else res) : Res Int)) a = .ok r ∧
      (r = a ∨ r ∈ vs) ∧ r ≤ a ∧ ∀ v ∈ vs, r ≤ v := by
    intro vs
    induction vs with
    | nil => intro a; exact ⟨a, rfl, .inl rfl, Int.le_refl _, by simp⟩
    | cons v vs ih =>
      intro a
      obtain ⟨r, h1, h2, h3, h4⟩ := ih (if v < a then v else a)
      refine ⟨r, by simp only [List.foldlM_cons, Res.bind_ok]; exact h1, ?_, ?_, ?_⟩
      · rcases h2 with h2 | h2
        · split at h2
          · exact .inr (by simp [h2])
          · exact .inl h2
        · exact .inr (by simp [h2])
      · split at h3 <;> omega
      · intro w hw
        rcases List.mem_cons.1 hw with rfl | hw
        · split at h3 <;> omega
        · exact h4 w hw
  obtain ⟨r, h1, h2, h3, h4⟩ := key vs t.maxVal
  refine ⟨r, by unfold arrMin; rw [h]; exact h1, fun hne => ⟨?_, h4⟩, ?_⟩
  · rcases h2 with h2 | h2
    · obtain ⟨v, hv'⟩ := List.exists_mem_of_ne_nil vs hne
      have := ints_mem_holds ht ho hv hv'
      have := h4 v hv'
      have : v = r := by omega
      rw [← this]; exact hv'
    · exact h2
  · rintro rfl; simpa using h2

/-- C38: `max` returns the largest element; for an array without elements the smallest value
    of the type. -/
theorem C38_max (big : Bool) (t : IntTy) (m : Mem) (x : Info) (d : DataType) (ht : d.id.intTy = some t)
    (ho : MachineOrder big d) (vs : List Int) (hv : ints big m x d = vs.map some) :
    ∃ r, arrMax big t m x d = .ok r ∧ (vs ≠ [] → r ∈ vs ∧ ∀ v ∈ vs, v ≤ r) ∧ (vs = [] → r = t.minVal) := by
  have h := arrFold_spec ht ho (fun res v => (.ok (if v > res then v else res) : Res Int)) vs [] t.minVal hv
  rw [List.length_nil, ← ints_length hv] at h
  have key : ∀ (vs : List Int) (a : Int), ∃ r, vs.foldlM (fun res v => (.ok (if v > res then v else res) : Res Int)) a = .ok r ∧
      (r = a ∨ r ∈ vs) ∧ a ≤ r ∧ ∀ v ∈ vs, v ≤ r := by
    intro vs
    induction vs with
    | nil => intro a; exact ⟨a, rfl, .inl rfl, Int.le_refl _, by simp⟩
    | cons v vs ih =>
      intro a
      obtain ⟨r, h1, h2, h3, h4⟩ := ih (if v > a then v else a)
      refine ⟨r, by simp only [List.foldlM_cons, Res.bind_ok]; exact h1, ?_, ?_, ?_⟩
      · rcases h2 with h2 | h2
        · split at h2
          · exact .inr (by simp [h2])
          · exact .inl h2
        · exact .inr (by simp [h2])
      · split at h3 <;> omega
      · intro w hw
        rcases List.mem_cons.1 hw with rfl | hw
        · split at h3 <;> omega
        · exact h4 w hw
  obtain ⟨r, h1, h2, h3, h4⟩ := key vs t.minVal
  refine ⟨r, by unfold arrMax; rw [h]; exact h1, fun hne => ⟨?_, h4⟩, ?_⟩
  · rcases h2 with h2 | h2
    · obtain ⟨v, hv'⟩ := List.exists_mem_of_ne_nil vs hne
      have := ints_mem_holds ht ho hv hv'
      have := h4 v hv'
      have : v = r := by omega
      rw [← this]; exact hv'
    · exact h2
  · rintro rfl; simpa using h2

/-- C38: `count(c)` returns the number of elements equal to `c`. -/
theorem C38_count (big : Bool) (t : IntTy) (m : Mem) (x : Info) (d : DataType) (ht : d.id.intTy = some t)
    (ho : MachineOrder big d) (vs : List Int) (hv : ints big m x d = vs.map some) (c : Int) :
    arrCount big t m x d c = .ok (vs.count c) := by
  have h := arrFold_spec ht ho (fun (res : Nat) v => (.ok (if v = c then res + 1 else res) : Res Nat)) vs [] 0 hv
  rw [List.length_nil, ← ints_length hv] at h
  have key : ∀ (vs : List Int) (a : Nat), vs.foldlM (fun (res : Nat) v => (.ok (if v = c then res + 1 else res) : Res Nat)) a =
      .ok (a + vs.count c) := by
    intro vs
    induction vs with
    | nil => intro a; simp
    | cons v vs ih =>
      intro a
      simp only [List.foldlM_cons, Res.bind_ok, ih]
      by_cases hc : v = c
      · subst hc; simp; omega
      · simp [hc, List.count_cons]
  unfold arrCount; rw [h, key]; simp

private theorem cast_add (t : IntTy) (a b : Int) : t.cast (t.cast a + b) = t.cast (a + b) := by
  obtain ⟨s, w⟩ := t
  cases s <;> cases w <;> simp only [IntTy.cast, IntWidth.card] <;> simp <;> omega

private theorem holds_cast (t : IntTy) (a : Int) (h : t.Holds a) : t.cast a = a := by
  obtain ⟨s, w⟩ := t
  cases s <;> cases w <;> simp only [IntTy.Holds, IntTy.cast, IntWidth.card] at * <;> simp <;> omega

private theorem holds_iff (t : IntTy) (a : Int) : t.Holds a ↔ t.minVal ≤ a ∧ a ≤ t.maxVal := by
  obtain ⟨s, w⟩ := t
  cases s <;> cases w <;> simp only [IntTy.Holds, IntTy.minVal, IntTy.maxVal, IntWidth.card] <;> simp

/-- C38: `sum` is the sum of the elements whenever every running total fits the element
    type. -/
theorem C38_sum (big : Bool) (t : IntTy) (m : Mem) (x : Info) (d : DataType) (ht : d.id.intTy = some t)
    (ho : MachineOrder big d) (vs : List Int) (hv : ints big m x d = vs.map some)
    (hfit : ∀ k, t.Holds (vs.take k).sum) : arrSum big t m x d = .ok vs.sum := by
  have h := arrFold_spec ht ho (addTo t) vs [] 0 hv
  rw [List.length_nil, ← ints_length hv] at h
  have key : ∀ (vs : List Int) (a : Int), (∀ k, t.Holds (a + (vs.take k).sum)) →
      vs.foldlM (addTo t) a = .ok (a + vs.sum) := by
    intro vs
    induction vs with
    | nil => intro a _; simp
    | cons v vs ih =>
      intro a hk
      have h1 : t.Holds (a + v) := by have := hk 1; simpa using this
      have : addTo t a v = .ok (a + v) := by
        unfold addTo
        rw [if_pos ((holds_iff _ _).1 h1), holds_cast _ _ h1]; simp
      rw [List.foldlM_cons, this, Res.bind_ok, ih (a + v) (fun k => by
        have := hk (k + 1); simpa [Int.add_assoc] using this)]
      simp [Int.add_assoc]
  unfold arrSum; rw [h, key vs 0 (by simpa using hfit)]; simp

/-- C38: for the unsigned types and for the signed types narrower than `int`, `sum` is the sum
    of the elements modulo two to the number of bits, whatever the elements are. -/
theorem C38_sum_modular (big : Bool) (t : IntTy) (m : Mem) (x : Info) (d : DataType) (ht : d.id.intTy = some t)
    (ho : MachineOrder big d) (vs : List Int) (hv : ints big m x d = vs.map some)
    (hw : t.signed = false ∨ t.width = .w8 ∨ t.width = .w16) :
    ∃ r, arrSum big t m x d = .ok r ∧ t.Holds r ∧ t.width.card ∣ r - vs.sum := by
  have h := arrFold_spec ht ho (addTo t) vs [] 0 hv
  rw [List.length_nil, ← ints_length hv] at h
  have hadd : ∀ a v, addTo t a v = .ok (t.cast (a + v)) := by
    intro a v; unfold addTo
    rw [if_neg]
    rintro ⟨h1, h2⟩
    rcases hw with hw | hw | hw <;> rcases h2 with h2 | h2 <;> simp [hw] at h1 h2
  have key : ∀ (vs : List Int) (a : Int), vs.foldlM (addTo t) (t.cast a) = .ok (t.cast (a + vs.sum)) := by
    intro vs
    induction vs with
    | nil => intro a; simp
    | cons v vs ih =>
      intro a
      rw [List.foldlM_cons, hadd, Res.bind_ok, cast_add, ih]; simp [Int.add_assoc]
  have h0 : t.cast 0 = 0 := by obtain ⟨s, w⟩ := t; cases s <;> cases w <;> rfl
  refine ⟨t.cast vs.sum, ?_, ?_, ?_⟩
  · unfold arrSum; rw [h]; have := key vs 0; rw [h0] at this; rw [this]; simp
  · obtain ⟨s, w⟩ := t
    cases s <;> cases w <;> simp only [IntTy.Holds, IntTy.cast, IntWidth.card] <;> simp <;> omega
  · obtain ⟨s, w⟩ := t
    cases s <;> cases w <;> simp only [IntTy.cast, IntWidth.card] <;> simp <;> omega

/-- two int16 values with a gap between them: -2, 300 -/
def arrMem : Mem := [some [0xfe, 0xff, 9, 9, 0x2c, 0x01]]
def arrX : Info := ⟨some ⟨0, 0⟩, false⟩
def arrD : DataType := ⟨.int16, 2, 0, 4, 2, .default⟩

example : TypeId.int16.intTy = some ⟨true, .w16⟩ ∧ MachineOrder false arrD ∧
    ints false arrMem arrX arrD = [-2, 300].map some ∧ (∀ k, IntTy.Holds ⟨true, .w16⟩ (([-2, 300] : List Int).take k).sum) :=
  ⟨rfl, .inl rfl, by decide, fun k => by
    match k with
    | 0 => simp [IntTy.Holds]
    | 1 => simp [IntTy.Holds]
    | k + 2 => simp [IntTy.Holds]⟩

/-- C38 needs the running totals to fit: summing two large int32 values is undefined
    behaviour (`sum` accumulates in the element type). -/
theorem C38_sum_overflow :
    arrSum false ⟨true, .w32⟩ [some [0xff, 0xff, 0xff, 0x7f, 1, 0, 0, 0]] ⟨some ⟨0, 0⟩, false⟩ ⟨.int32, 2, 0, 4, 4, .default⟩ = .ub := by
  decide

/-- C38 needs the machine's byte order: the reductions ignore the byte order recorded in the
    leaf. A big-endian leaf holding 1 has minimum 256 on a little-endian machine. -/
theorem C38_byte_order_ignored :
    ints false [some [0, 1]] ⟨some ⟨0, 0⟩, false⟩ ⟨.int16, 1, 0, 2, 2, .big⟩ = [some 1] ∧
    arrMin false ⟨true, .w16⟩ [some [0, 1]] ⟨some ⟨0, 0⟩, false⟩ ⟨.int16, 1, 0, 2, 2, .big⟩ = .ok 256 := by decide

/-! ## C42 -/

/-- C42: `to_int8` ... `to_uint64` of an integer leaf return the stored number when the target
    type holds it, and in every case a number of the target type congruent to it modulo two to
    the number of bits. -/
theorem C42_to_int (big : Bool) (target : IntTy) (m : Mem) (x : Info) (d : DataType) (hi : isInteger d.id = true)
    (ho : MachineOrder big d) (v : Int) (hv : (ints big m x d)[0]? = some (some v)) :
    ∃ r, nodeToInt big target m x d = .ok (some r) ∧ (target.Holds v → r = v) ∧ target.Holds r ∧
      target.width.card ∣ r - v := by
  obtain ⟨t, ht⟩ := (isInteger_iff _).1 hi
  refine ⟨target.cast v, ?_, holds_cast _ _, ?_, ?_⟩
  · have := readInt_elem ht ho hv
    unfold nodeToInt; rw [ht]; simp only [this, Int.natCast_zero] at *
    rfl
  · obtain ⟨s, w⟩ := target
    cases s <;> cases w <;> simp only [IntTy.Holds, IntTy.cast, IntWidth.card] <;> simp <;> omega
  · obtain ⟨s, w⟩ := target
    cases s <;> cases w <;> simp only [IntTy.cast, IntWidth.card] <;> simp <;> omega

/-- C42: the same for every element read through an accessor. -/
theorem C42_accessor_get (big : Bool) (target : IntTy) (m : Mem) (x : Info) (d : DataType) (hi : isInteger d.id = true)
    (ho : MachineOrder big d) (i : Nat) (v : Int) (hv : (ints big m x d)[i]? = some (some v)) :
    ∃ r, accElement big target m x d i = .ok (some r) ∧ (target.Holds v → r = v) ∧ target.Holds r ∧
      target.width.card ∣ r - v := by
  obtain ⟨t, ht⟩ := (isInteger_iff _).1 hi
  refine ⟨target.cast v, ?_, holds_cast _ _, ?_, ?_⟩
  · unfold accElement; rw [ht]; simp only [readInt_elem ht ho hv]; rfl
  · obtain ⟨s, w⟩ := target
    cases s <;> cases w <;> simp only [IntTy.Holds, IntTy.cast, IntWidth.card] <;> simp <;> omega
  · obtain ⟨s, w⟩ := target
    cases s <;> cases w <;> simp only [IntTy.cast, IntWidth.card] <;> simp <;> omega

example : isInteger TypeId.int16 = true ∧ (ints false arrMem arrX arrD)[1]? = some (some 300) ∧
    IntTy.Holds ⟨false, .w64⟩ 300 ∧ nodeToInt false ⟨false, .w8⟩ arrMem arrX arrD = .ok (some 254) :=
  ⟨rfl, by decide, by simp [IntTy.Holds], by decide⟩

/-- C42: writing a number through an accessor stores, in that element only, the number
    itself when the leaf's type holds it and otherwise the number of the type congruent to it;
    nothing else in memory changes. -/
theorem C42_accessor_set (big : Bool) (m : Mem) (x : Info) (d : DataType) (hi : isInteger d.id = true)
    (hr : Readable m (.leaf x d)) (hs : Separate (.leaf x d)) (ho : MachineOrder big d) (i : Nat) (hn : (i : Int) < d.n)
    (v : Int) :
    ∃ m' t r, accSet big x d i v m = .ok m' ∧ d.id.intTy = some t ∧ (t.Holds v → r = v) ∧ t.width.card ∣ r - v ∧
      ints big m' x d = (ints big m x d).set i (some r) ∧ Readable m' (.leaf x d) ∧
      (∀ b j, ¬ Place.Has ⟨x.data, d.offset + d.stride * i, d.id.bytes⟩ b j → m'.byte b j = m.byte b j) := by
  obtain ⟨t, ht⟩ := (isInteger_iff _).1 hi
  obtain ⟨m', h1, h2, h3, h4⟩ := writeElem_spec ht hr hs ho i hn (t.cast v)
  refine ⟨m', t, t.cast v, ?_, ht, holds_cast _ _, ?_, ?_, ?_, h4⟩
  · unfold accSet; rw [ht]; exact h1
  · obtain ⟨s, w⟩ := t
    cases s <;> cases w <;> simp only [IntTy.cast, IntWidth.card] <;> simp <;> omega
  · rw [h2, show t.cast (t.cast v) = t.cast v by have := cast_add t v 0; simpa using this]
  · exact h3

/-- C42: `fill` makes every element the given number (converted to the leaf's type), and
    changes nothing outside the elements. -/
theorem C42_accessor_fill (big : Bool) (m : Mem) (x : Info) (d : DataType) (hi : isInteger d.id = true)
    (hr : Readable m (.leaf x d)) (hs : Separate (.leaf x d)) (ho : MachineOrder big d) (v : Int) :
    ∃ m' t r, accFill big x d v m = .ok m' ∧ d.id.intTy = some t ∧ (t.Holds v → r = v) ∧ t.width.card ∣ r - v ∧
      ints big m' x d = List.replicate d.n.toNat (some r) ∧
      (∀ b j, (∀ pl ∈ places (.leaf x d), ¬ pl.Has b j) → m'.byte b j = m.byte b j) := by
  obtain ⟨t, ht⟩ := (isInteger_iff _).1 hi
  have key : ∀ (k i : Nat) (m : Mem), i + k = d.n.toNat → Readable m (.leaf x d) →
      (∀ j, j < i → (ints big m x d)[j]? = some (some (t.cast v))) →
      ∃ m', accFillLoop big t x d (t.cast v) k i m = .ok m' ∧
        (∀ j, j < i + k → (ints big m' x d)[j]? = some (some (t.cast v))) ∧
        (∀ b j, (∀ pl ∈ places (.leaf x d), ¬ pl.Has b j) → m'.byte b j = m.byte b j) := by
    intro k
    induction k with
    | zero => intro i m hk _ hj; exact ⟨m, rfl, by simpa using hj, fun _ _ _ => rfl⟩
    | succ k ih =>
      intro i m hk hr hj
      obtain ⟨m1, h1, h2, h3, h4⟩ := writeElem_spec ht hr hs ho i (by omega) (t.cast v)
      have hlen : (ints big m x d).length = d.n.toNat := by simp [ints, elems]
      obtain ⟨m2, e1, e2, e3⟩ := ih (i + 1) m1 (by omega) h3 (by
        intro j hji
        rw [h2, List.getElem?_set]
        by_cases hij : i = j
        · subst hij
          rw [if_pos rfl, if_pos (by omega), show t.cast (t.cast v) = t.cast v by have := cast_add t v 0; simpa using this]
        · rw [if_neg hij]; exact hj j (by omega))
      refine ⟨m2, ?_, ?_, ?_⟩
      · simp only [accFillLoop, h1, Res.bind_ok]; exact e1
      · intro j hj'; exact e2 j (by omega)
      · intro b j hp
        rw [e3 b j hp, h4 b j (hp _ ?_)]
        simp only [places, leafPlaces, List.mem_map, List.mem_range]; exact ⟨i, by omega, rfl⟩
  obtain ⟨m', h1, h2, h3⟩ := key d.n.toNat 0 m (by omega) hr (by simp)
  refine ⟨m', t, t.cast v, ?_, ht, holds_cast _ _, ?_, ?_, h3⟩
  · unfold accFill; rw [ht]; exact h1
  · obtain ⟨s, w⟩ := t
    cases s <;> cases w <;> simp only [IntTy.cast, IntWidth.card] <;> simp <;> omega
  · apply List.ext_getElem?
    intro j
    by_cases hj : j < d.n.toNat
    · rw [h2 j (by omega), List.getElem?_replicate, if_pos hj]
    · rw [List.getElem?_eq_none (by simp [ints, elems]; omega), List.getElem?_eq_none (by simp; omega)]

example : Readable arrMem (.leaf arrX arrD) ∧ Separate (.leaf arrX arrD) ∧
    (∃ m', accSet false arrX arrD 1 (-5) arrMem = .ok m' ∧ ints false m' arrX arrD = [some (-2), some (-5)]) :=
  ⟨by simp only [Readable, arrMem, arrX, arrD]; decide, by
    simp only [Separate, places, leafPlaces, arrX, arrD]
    simp [List.range_succ, Place.Apart, TypeId.bytes], _, rfl, by decide⟩

end Conduit
