import Verif.Lemmas.DiffTotal
/-
Property theorems C28 (diff) and C29 (diff_compatible).
Specification: Verif/Spec/Diff.lean (`SameV`).
-/
namespace Conduit
open Spec Node Ieee

/-- The situation of `a.diff(b, info, eps)`: both trees are readable, their strings are terminated,
    names in an object are distinct (they always are). -/
structure DiffOK (m : Mem) (a b : Node) : Prop where
  left : Comparable m a
  right : Comparable m b

/-- the arguments of a call without `relaxint` -/
def plain (big : Bool) (eps : FVal) : DiffCfg := ⟨big, eps, false⟩

/-! ## C28 -/

/-- C28: `a.diff(b)` reports no difference exactly when `a` and `b` have the same names, list
    lengths and leaf types, equal strings, equal integers (byte for byte) and floating point
    numbers at most epsilon apart. -/
theorem C28_diff_exact (m : Mem) (a b : Node) (big : Bool) (eps : FVal) (h : DiffOK m a b) :
    diff false (plain big eps) m a b = .ok false ↔ SameV false big eps (val m a) (val m b) :=
  diff_false (c := plain big eps) rfl a b h.left h.right

/-- C28: a difference is reported, never a crash, when the trees differ and their `int32` and
    `int64` elements are in the middle half of the range.  Missing for the full claim: other integers,
    for which it is false (`C28_overflow_false`). -/
theorem C28_difference_reported_partial (m : Mem) (a b : Node) (big : Bool) (eps : FVal) (h : DiffOK m a b)
    (ha : Modest big (val m a)) (hb : Modest big (val m b)) (hd : ¬ SameV false big eps (val m a) (val m b)) :
    diff false (plain big eps) m a b = .ok true := by
  obtain ⟨r, hr⟩ := diff_total (compat := false) (c := plain big eps) rfl a b ⟨h.left, ha⟩ ⟨h.right, hb⟩
  cases r
  · exact absurd ((C28_diff_exact m a b big eps h).1 hr) hd
  · exact hr

/-- C28: a node has no difference to itself, whatever it holds (NaN included). -/
theorem C28_reflexive (m : Mem) (a : Node) (big : Bool) (eps : FVal) (h : Comparable m a) (he : NonNeg eps) :
    diff false (plain big eps) m a a = .ok false :=
  (C28_diff_exact m a a big eps ⟨h, h⟩).2 (sameV_refl he _ h.2.2)

/-- C28: `a.diff(b)` finds no difference exactly when `b.diff(a)` finds none. -/
theorem C28_symmetric (m : Mem) (a b : Node) (big : Bool) (eps : FVal) (h : DiffOK m a b) :
    diff false (plain big eps) m a b = .ok false ↔ diff false (plain big eps) m b a = .ok false := by
  rw [C28_diff_exact m a b big eps h, C28_diff_exact m b a big eps ⟨h.right, h.left⟩]
  exact ⟨sameV_symm _ _ h.left.2.2 h.right.2.2, sameV_symm _ _ h.right.2.2 h.left.2.2⟩

/-- C28: with epsilon 0, two floating point elements count as equal exactly when they are the same
    number or one of them is not a number. -/
theorem C28_epsilon_zero (big : Bool) (f : Fmt) (x y : List (Option UInt8)) :
    Near big (.fin 0) f x y ↔ SameReal (realOf big f x) (realOf big f y) := far_zero f _ _

/-- C28: numbers at most epsilon apart (exactly, before rounding) are never reported. -/
theorem C28_within_epsilon (big : Bool) (x y : List (Option UInt8)) (a b : Int) (e : Nat) (he : Holds f64 e)
    (hmax : e < 2 ^ (52 + 1 + (2 ^ 11 - 3))) (hx : realOf big f64 x = .fin a) (hy : realOf big f64 y = .fin b)
    (h : (a - b).natAbs ≤ e) : Near big (.fin e) f64 x y := by
  unfold Near; rw [hx, hy]; exact far_of_le a b e he hmax h

/-! ### a case -/

/-- `{a: int16 [1,2], s: "hi", l: [float32 0.5]}` twice, the second time with the names in another
    order, strided, and more bytes after the string's end -/
def difMem : Mem := [some [1, 0, 2, 0], some [104, 105, 0], some [0, 0, 0, 0x3f],
  some [1, 0, 7, 7, 2, 0, 7, 7], some [104, 105, 0, 50, 0], some [9, 0, 0, 0, 0x3f]]
def difX (k : Nat) : Info := ⟨some ⟨k, 0⟩, false⟩
def difNone : Info := ⟨none, false⟩
def difA : Node := .obj difNone [(chars! "a", .leaf (difX 0) ⟨.int16, 2, 0, 2, 2, .default⟩),
  (chars! "s", .leaf (difX 1) ⟨.char8Str, 3, 0, 1, 1, .default⟩),
  (chars! "l", .lst difNone [.leaf (difX 2) ⟨.float32, 1, 0, 4, 4, .default⟩])]
def difB : Node := .obj difNone [(chars! "l", .lst difNone [.leaf (difX 5) ⟨.float32, 1, 1, 4, 4, .default⟩]),
  (chars! "a", .leaf (difX 3) ⟨.int16, 2, 0, 4, 2, .default⟩),
  (chars! "s", .leaf (difX 4) ⟨.char8Str, 5, 0, 1, 1, .default⟩)]

theorem dif_ok : DiffOK difMem difA difB := by
  refine ⟨⟨?_, ?_, ?_⟩, ⟨?_, ?_, ?_⟩⟩
  · simp only [Readable, ReadableE, ReadableL, difA, difMem, difX]; decide
  · simp only [Strings, StringsE, StringsL, difA, difMem, difX]; decide
  · simp [val, valE, valL, DistinctV, DistinctVE, DistinctVL, difA]
  · simp only [Readable, ReadableE, ReadableL, difB, difMem, difX]; decide
  · simp only [Strings, StringsE, StringsL, difB, difMem, difX]; decide
  · simp [val, valE, valL, DistinctV, DistinctVE, DistinctVL, difB]

theorem dif_modest : Modest false (val difMem difA) ∧ Modest false (val difMem difB) := by
  simp [val, valE, valL, difA, difB, Modest, ModestE, ModestL, halfRange]

/-- the hypotheses of C28 are met -/
example : DiffOK difMem difA difB ∧ NonNeg (.fin 0) ∧ Modest false (val difMem difA) ∧ Modest false (val difMem difB) ∧
    diff false (plain false (.fin 0)) difMem difA difB = .ok false ∧
    ¬ SameV false false (.fin 0) (val difMem difA) (val difMem (.leaf (difX 0) ⟨.int16, 2, 0, 2, 2, .default⟩)) :=
  ⟨dif_ok, by simp [NonNeg], dif_modest.1, dif_modest.2, by decide +kernel, by simp [val, difA, SameV]⟩

/-- 1.5 and 1.25 are one quarter apart -/
example : Holds f64 (2 ^ 1072) ∧ realOf false f64 ([0, 0, 0, 0, 0, 0, 0xf8, 0x3f].map some) = .fin (3 * 2 ^ 1073) ∧
    realOf false f64 ([0, 0, 0, 0, 0, 0, 0xf4, 0x3f].map some) = .fin (5 * 2 ^ 1072) ∧
    ((3 * 2 ^ 1073 : Int) - 5 * 2 ^ 1072).natAbs ≤ 2 ^ 1072 :=
  ⟨⟨1, 1072, by decide, by simp⟩, by decide +kernel, by decide +kernel, by decide +kernel⟩

/-! ### what is false -/

/-- C28 (false in general): a NaN is no difference to any number: `float64` NaN against 1. -/
theorem C28_nan_false :
    ∃ (m : Mem) (a b : Node), DiffOK m a b ∧ val m a ≠ val m b ∧ diff false (plain false (.fin 0)) m a b = .ok false :=
  ⟨[some [0, 0, 0, 0, 0, 0, 0xf8, 0x7f], some [0, 0, 0, 0, 0, 0, 0xf0, 0x3f]],
   .leaf (difX 0) ⟨.float64, 1, 0, 8, 8, .default⟩, .leaf (difX 1) ⟨.float64, 1, 0, 8, 8, .default⟩,
   ⟨⟨by simp only [Readable, difX]; decide, by simp [Strings], by simp [val, DistinctV]⟩,
    ⟨by simp only [Readable, difX]; decide, by simp [Strings], by simp [val, DistinctV]⟩⟩,
   by
    intro h
    have : (elems [some [0, 0, 0, 0, 0, 0, 0xf8, 0x7f], some [0, 0, 0, 0, 0, 0, 0xf0, 0x3f]] (difX 0).data ⟨.float64, 1, 0, 8, 8, .default⟩) =
      (elems [some [0, 0, 0, 0, 0, 0, 0xf8, 0x7f], some [0, 0, 0, 0, 0, 0, 0xf0, 0x3f]] (difX 1).data ⟨.float64, 1, 0, 8, 8, .default⟩) := by
      simpa [val] using h
    revert this; decide, by decide +kernel⟩

/-- C28 (false in general): the difference stored in the report overflows: comparing the `int32`s
    -2147483648 and 1 is undefined behaviour. -/
theorem C28_overflow_false :
    ∃ (m : Mem) (a b : Node), DiffOK m a b ∧ diff false (plain false (.fin 0)) m a b = .ub :=
  ⟨[some [0, 0, 0, 0x80], some [1, 0, 0, 0]],
   .leaf (difX 0) ⟨.int32, 1, 0, 4, 4, .default⟩, .leaf (difX 1) ⟨.int32, 1, 0, 4, 4, .default⟩,
   ⟨⟨by simp only [Readable, difX]; decide, by simp [Strings], by simp [val, DistinctV]⟩,
    ⟨by simp only [Readable, difX]; decide, by simp [Strings], by simp [val, DistinctV]⟩⟩, by decide⟩

/-- C28 (false in general): the declared byte order is not looked at: a big endian 1 and a little
    endian 256 (the same bytes) show no difference, while a big and a little endian 1 do. -/
theorem C28_byte_order_false :
    ∃ (m : Mem) (a b c : Node), DiffOK m a b ∧ DiffOK m a c ∧
      diff false (plain false (.fin 0)) m a b = .ok false ∧ numbers false (val m a) = .leaf .int16 [some 1] ∧
      numbers false (val m b) = .leaf .int16 [some 256] ∧
      diff false (plain false (.fin 0)) m a c = .ok true ∧ numbers false (val m c) = .leaf .int16 [some 1] :=
  ⟨[some [0, 1], some [1, 0]],
   .leaf (difX 0) ⟨.int16, 1, 0, 2, 2, .big⟩, .leaf (difX 0) ⟨.int16, 1, 0, 2, 2, .little⟩, .leaf (difX 1) ⟨.int16, 1, 0, 2, 2, .little⟩,
   ⟨⟨by simp only [Readable, difX]; decide, by simp [Strings], by simp [val, DistinctV]⟩,
    ⟨by simp only [Readable, difX]; decide, by simp [Strings], by simp [val, DistinctV]⟩⟩,
   ⟨⟨by simp only [Readable, difX]; decide, by simp [Strings], by simp [val, DistinctV]⟩,
    ⟨by simp only [Readable, difX]; decide, by simp [Strings], by simp [val, DistinctV]⟩⟩,
   by decide, rfl, rfl, by decide, rfl⟩

/-- C28 (false with `relaxint`): integers of different types are compared by their first element
    only: `int32 [1,2]` and `int64 [1,3,4]` show no difference. -/
theorem C28_relaxint_false :
    ∃ (m : Mem) (a b : Node), DiffOK m a b ∧ diff false ⟨false, .fin 0, true⟩ m a b = .ok false ∧
      numbers false (val m a) = .leaf .int32 [some 1, some 2] ∧ numbers false (val m b) = .leaf .int64 [some 1, some 3, some 4] :=
  ⟨[some [1, 0, 0, 0, 2, 0, 0, 0], some [1, 0, 0, 0, 0, 0, 0, 0, 3, 0, 0, 0, 0, 0, 0, 0, 4, 0, 0, 0, 0, 0, 0, 0]],
   .leaf (difX 0) ⟨.int32, 2, 0, 4, 4, .default⟩, .leaf (difX 1) ⟨.int64, 3, 0, 8, 8, .default⟩,
   ⟨⟨by simp only [Readable, difX]; decide, by simp [Strings], by simp [val, DistinctV]⟩,
    ⟨by simp only [Readable, difX]; decide, by simp [Strings], by simp [val, DistinctV]⟩⟩,
   by decide, rfl, rfl⟩

/-! ## C29 -/

/-- C29: `a.diff_compatible(b)` reports no difference exactly when `b` carries everything `a`
    carries: every name, at least as many list items, and for every leaf the same type with `a`'s
    elements (or string) as a prefix. -/
theorem C29_diff_compatible_exact (m : Mem) (a b : Node) (big : Bool) (eps : FVal) (h : DiffOK m a b) :
    diff true (plain big eps) m a b = .ok false ↔ SameV true big eps (val m a) (val m b) :=
  diff_false (c := plain big eps) rfl a b h.left h.right

/-- C29: no difference implies no incompatible difference. -/
theorem C29_diff_implies_compatible (m : Mem) (a b : Node) (big : Bool) (eps : FVal) (h : DiffOK m a b)
    (hd : diff false (plain big eps) m a b = .ok false) : diff true (plain big eps) m a b = .ok false :=
  (C29_diff_compatible_exact m a b big eps h).2 (sameV_weaken _ _ ((C28_diff_exact m a b big eps h).1 hd))

/-- C29: what is missing in `b` is reported, never a crash, for `int32` and `int64` elements in the
    middle half of the range.  Missing for the full claim: other integers, for which the difference
    overflows as in `C28_overflow_false`. -/
theorem C29_difference_reported_partial (m : Mem) (a b : Node) (big : Bool) (eps : FVal) (h : DiffOK m a b)
    (ha : Modest big (val m a)) (hb : Modest big (val m b)) (hd : ¬ SameV true big eps (val m a) (val m b)) :
    diff true (plain big eps) m a b = .ok true := by
  obtain ⟨r, hr⟩ := diff_total (compat := true) (c := plain big eps) rfl a b ⟨h.left, ha⟩ ⟨h.right, hb⟩
  cases r
  · exact absurd ((C29_diff_compatible_exact m a b big eps h).1 hr) hd
  · exact hr

/-- `{a: int16 [1,2]}` is carried by the tree above, not the other way round -/
example : let s : Node := .obj difNone [(chars! "a", .leaf (difX 0) ⟨.int16, 1, 0, 2, 2, .default⟩)]
    DiffOK difMem s difB ∧ Modest false (val difMem s) ∧
    diff true (plain false (.fin 0)) difMem s difB = .ok false ∧ diff true (plain false (.fin 0)) difMem difB s = .ok true ∧
    diff false (plain false (.fin 0)) difMem s difB = .ok true := by
  refine ⟨⟨⟨?_, ?_, ?_⟩, dif_ok.right⟩, ?_, by decide +kernel, by decide +kernel, by decide +kernel⟩
  · simp only [Readable, ReadableE, ReadableL, difMem, difX]; decide
  · simp only [Strings, StringsE, StringsL, difMem, difX]; decide
  · simp [val, valE, valL, DistinctV, DistinctVE, DistinctVL]
  · simp [val, valE, valL, Modest, ModestE, ModestL, halfRange]

end Conduit
