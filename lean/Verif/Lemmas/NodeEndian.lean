import Verif.Model.NodeEndian
import Verif.Spec.Endian
import Verif.Lemmas.Node
namespace Conduit
open Spec Spec.Tree Schema
namespace Node

/-- a place with the decision whether its bytes are turned round -/
structure Slot where
  flip : Bool
  pl : Place

def swapAt (p : Option Ptr) (off : Int) (len : Nat) (m : Mem) : Res Mem :=
  if len = 2 then swap16 p off m else if len = 4 then swap32 p off m
  else if len = 8 then swap64 p off m else .ok m

def swapSlot (s : Slot) (m : Mem) : Res Mem := if s.flip then swapAt s.pl.p s.pl.off s.pl.len m else .ok m

def swapAll : List Slot → Mem → Res Mem
  | [], m => .ok m
  | s :: ss, m => do
    let m1 ← swapSlot s m
    swapAll ss m1

theorem swapAll_append (a b : List Slot) (m : Mem) : swapAll (a ++ b) m = (swapAll a m >>= swapAll b) := by
  induction a generalizing m with
  | nil => rfl
  | cons s a ih =>
    simp only [List.cons_append, swapAll]
    cases swapSlot s m with
    | ok m1 => simp only [Res.bind_ok, ih]
    | error => rfl
    | ub => rfl

def flips (big : Bool) (e : Endian) (d : DataType) : Bool := decide (resolve big d.endian ≠ resolve big e)

mutual
def slots (big : Bool) (e : Endian) : Node → List Slot
  | .leaf x d => (leafPlaces x d).map (fun pl => ⟨flips big e d, pl⟩)
  | .obj _ es => slotsE big e es
  | .lst _ cs => slotsL big e cs
def slotsE (big : Bool) (e : Endian) : List (Str × Node) → List Slot
  | [] => []
  | (_, c) :: es => slots big e c ++ slotsE big e es
def slotsL (big : Bool) (e : Endian) : List Node → List Slot
  | [] => []
  | c :: cs => slots big e c ++ slotsL big e cs
end

mutual
/-- the tree with the byte order of every leaf set -/
def relabel (e : Endian) : Node → Node
  | .leaf x d => .leaf x { d with endian := e }
  | .obj x es => .obj x (relabelE e es)
  | .lst x cs => .lst x (relabelL e cs)
def relabelE (e : Endian) : List (Str × Node) → List (Str × Node)
  | [] => []
  | (n, c) :: es => (n, relabel e c) :: relabelE e es
def relabelL (e : Endian) : List Node → List Node
  | [] => []
  | c :: cs => relabel e c :: relabelL e cs
end

mutual
theorem slots_places (big : Bool) (e : Endian) : ∀ n : Node, (slots big e n).map Slot.pl = places n
  | .leaf x d => by simp [slots, places, List.map_map, Function.comp_def]
  | .obj x es => slotsE_places big e es
  | .lst x es => slotsL_places big e es
theorem slotsE_places (big : Bool) (e : Endian) : ∀ es : List (Str × Node), (slotsE big e es).map Slot.pl = placesE es
  | [] => rfl
  | (n, c) :: es => by simp [slotsE, placesE, slots_places big e c, slotsE_places big e es]
theorem slotsL_places (big : Bool) (e : Endian) : ∀ es : List Node, (slotsL big e es).map Slot.pl = placesL es
  | [] => rfl
  | c :: es => by simp [slotsL, placesL, slots_places big e c, slotsL_places big e es]
end

theorem swapAll_false (l : List Place) (m : Mem) : swapAll (l.map (fun pl => ⟨false, pl⟩)) m = .ok m := by
  induction l with
  | nil => rfl
  | cons a l ih => simp [swapAll, swapSlot, ih]

theorem swapLoop_eq (x : Info) (d : DataType) (k i : Nat) (m : Mem) :
    swapLoop x d k i m = swapAll ((List.range' i k).map
      (fun (j : Nat) => ⟨true, ⟨x.data, d.offset + d.stride * j, d.id.bytes⟩⟩)) m := by
  induction k generalizing i m with
  | zero => rfl
  | succ k ih =>
    simp only [swapLoop, List.range'_succ, List.map_cons, swapAll]
    have : swapElem x d i m = swapSlot ⟨true, ⟨x.data, d.offset + d.stride * i, d.id.bytes⟩⟩ m := by
      simp [swapElem, swapSlot, swapAt, DataType.elementIndex]
    rw [this]
    congr 1
    funext m1
    exact ih _ _

mutual
theorem endianSwap_eq (big : Bool) (e : Endian) : ∀ (n : Node) (m : Mem), endianSwap big e n m =
    (swapAll (slots big e n) m >>= fun m' => .ok (m', relabel (resolve big e) n))
  | .leaf x d, m => by
    simp only [endianSwap, slots, relabel]
    by_cases h : resolve big d.endian = resolve big e
    · have : flips big e d = false := by simp [flips, h]
      simp only [h, ne_eq, not_true, if_false, this, swapAll_false, Res.bind_ok]
    · have : flips big e d = true := by simp [flips, h]
      simp only [ne_eq, h, not_false_iff, if_true, this, swapLoop_eq, leafPlaces, List.map_map]
      rw [List.range_eq_range']
      rfl
  | .obj x es, m => by
    simp only [endianSwap, slots, relabel, endianSwapE_eq big e es m]
    cases swapAll (slotsE big e es) m <;> rfl
  | .lst x es, m => by
    simp only [endianSwap, slots, relabel, endianSwapL_eq big e es m]
    cases swapAll (slotsL big e es) m <;> rfl
theorem endianSwapE_eq (big : Bool) (e : Endian) : ∀ (es : List (Str × Node)) (m : Mem), endianSwapE big e es m =
    (swapAll (slotsE big e es) m >>= fun m' => .ok (m', relabelE (resolve big e) es))
  | [], m => rfl
  | (n, c) :: es, m => by
    simp only [endianSwapE, slotsE, relabelE, endianSwap_eq big e c m, swapAll_append]
    cases swapAll (slots big e c) m with
    | ok m1 =>
      simp only [Res.bind_ok, endianSwapE_eq big e es m1]
      cases swapAll (slotsE big e es) m1 <;> rfl
    | error => rfl
    | ub => rfl
theorem endianSwapL_eq (big : Bool) (e : Endian) : ∀ (es : List Node) (m : Mem), endianSwapL big e es m =
    (swapAll (slotsL big e es) m >>= fun m' => .ok (m', relabelL (resolve big e) es))
  | [], m => rfl
  | c :: es, m => by
    simp only [endianSwapL, slotsL, relabelL, endianSwap_eq big e c m, swapAll_append]
    cases swapAll (slots big e c) m with
    | ok m1 =>
      simp only [Res.bind_ok, endianSwapL_eq big e es m1]
      cases swapAll (slotsL big e es) m1 <;> rfl
    | error => rfl
    | ub => rfl
end

/-! ### memory effect -/

/-- the bytes of a place -/
def bytesOf (m : Mem) (pl : Place) : List (Option UInt8) :=
  (List.range pl.len).map fun (k : Nat) => m.byteAt pl.p (pl.off + k)

def Good (m : Mem) (pl : Place) : Prop := ∀ b ∈ bytesOf m pl, b.isSome

theorem good_iff {m : Mem} {pl : Place} : Good m pl ↔ ∀ k : Nat, k < pl.len → (m.byteAt pl.p (pl.off + k)).isSome := by
  simp only [Good, bytesOf, List.mem_map, List.mem_range]
  exact ⟨fun h k hk => h _ ⟨k, hk, rfl⟩, by rintro h b ⟨k, hk, rfl⟩; exact h k hk⟩

/-- widths of elements -/
def Width (len : Nat) : Prop := len = 0 ∨ len = 1 ∨ len = 2 ∨ len = 4 ∨ len = 8

theorem bytes_width (t : TypeId) : Width t.bytes := by cases t <;> simp [TypeId.bytes, Width]

theorem rev2 {l : List UInt8} (h : l.length = 2) : ∃ a b, l = [a, b] := by
  match l, h with
  | [a, b], _ => exact ⟨a, b, rfl⟩

theorem swapAt_spec {m : Mem} {q : Ptr} {off : Int} {len : Nat} (hw : Width len)
    (h : ∀ k : Nat, k < len → (m.byte q.blk (q.off + off + k)).isSome) :
    ∃ m', swapAt (some q) off len m = .ok m' ∧ Mem.SameShape m m' ∧
      ∀ b i, m'.byte b i = if b = q.blk ∧ q.off + off ≤ i ∧ i < q.off + off + len
        then m.byte b (q.off + off + (len - 1 - (i - (q.off + off)))) else m.byte b i := by
  obtain ⟨bs, h1, h2, h3⟩ := Mem.load_ok h
  have key : ∀ m', m.store (some q) off bs.reverse = .ok m' → swapAt (some q) off len m = .ok m' → 
      ∃ m', swapAt (some q) off len m = .ok m' ∧ Mem.SameShape m m' ∧
      ∀ b i, m'.byte b i = if b = q.blk ∧ q.off + off ≤ i ∧ i < q.off + off + len
        then m.byte b (q.off + off + (len - 1 - (i - (q.off + off)))) else m.byte b i := by
    intro m1 hst hsw
    obtain ⟨m', g1, g2, g3, g4⟩ := Mem.store_spec (m := m) (q := q) (off := off) (xs := bs.reverse)
      (by rw [List.length_reverse, h2]; exact h)
    rw [hst] at g1; injection g1 with g1; subst g1
    refine ⟨m1, hsw, ⟨g2, g3⟩, fun b i => ?_⟩
    rw [g4, List.length_reverse, h2]
    split
    · rename_i hc
      rw [List.getElem?_reverse (by omega), h3 _ (by omega), hc.1]
      congr 1; omega
    · rfl
  obtain ⟨m1, hst, _⟩ := Mem.store_spec (m := m) (q := q) (off := off) (xs := bs.reverse)
      (by rw [List.length_reverse, h2]; exact h)
  rcases hw with hw | hw | hw | hw | hw <;> subst hw
  · refine ⟨m, rfl, Mem.SameShape.refl m, fun b i => ?_⟩
    rw [if_neg (by omega)]
  · refine ⟨m, rfl, Mem.SameShape.refl m, fun b i => ?_⟩
    split
    · congr 1; omega
    · rfl
  · refine key m1 hst ?_
    match bs, h2 with
    | [a, b], _ => simp only [swapAt, swap16, h1, Res.bind_ok, if_true]; exact hst
  · refine key m1 hst ?_
    match bs, h2 with
    | [a, b, c, d], _ => simp only [swapAt, swap32, h1, Res.bind_ok]; exact hst
  · refine key m1 hst ?_
    match bs, h2 with
    | [a, b, c, d, e, f, g, h], _ => simp only [swapAt, swap64, h1, Res.bind_ok]; exact hst

theorem apart_has {a b : Place} (h : Place.Apart a b) {c : Nat} {i : Int} (ha : a.Has c i) : ¬ b.Has c i := by
  rintro ⟨q, hq, h1, h2, h3⟩
  obtain ⟨p, hp, h4, h5, h6⟩ := ha
  simp only [Place.Apart, hp, hq] at h
  rcases h with h | h | h
  · exact h (h4.symm.trans h1)
  · omega
  · omega

theorem bytesOf_congr {m m' : Mem} {pl : Place} (h : ∀ b i, pl.Has b i → m'.byte b i = m.byte b i) :
    bytesOf m' pl = bytesOf m pl := by
  apply List.map_congr_left
  intro k hk
  rw [List.mem_range] at hk
  unfold Mem.byteAt
  cases hp : pl.p with
  | none => rfl
  | some p => exact h _ _ ⟨p, hp, rfl, by omega, by omega⟩

theorem swapSlot_spec {m : Mem} {s : Slot} (hw : Width s.pl.len) (hg : Good m s.pl) :
    ∃ m', swapSlot s m = .ok m' ∧ Mem.SameShape m m' ∧
      bytesOf m' s.pl = (if s.flip then (bytesOf m s.pl).reverse else bytesOf m s.pl) ∧
      ∀ b i, ¬ s.pl.Has b i → m'.byte b i = m.byte b i := by
  unfold swapSlot
  by_cases hf : s.flip = true
  · rw [if_pos hf, if_pos hf]
    by_cases h0 : s.pl.len = 0
    · refine ⟨m, by simp [swapAt, h0], Mem.SameShape.refl m, by simp [bytesOf, h0], fun _ _ _ => rfl⟩
    · cases hp : s.pl.p with
      | none => have := good_iff.1 hg 0 (by omega); simp [hp, Mem.byteAt] at this
      | some q =>
        obtain ⟨m', h1, h2, h3⟩ := swapAt_spec (m := m) (q := q) (off := s.pl.off) hw (by
          intro k hk
          have := good_iff.1 hg k hk
          simp only [hp, Mem.byteAt] at this
          rw [Int.add_assoc]; exact this)
        refine ⟨m', h1, h2, ?_, ?_⟩
        · apply List.ext_getElem
          · simp [bytesOf]
          · intro k hk1 hk2
            simp [bytesOf] at hk1
            rw [List.getElem_reverse]
            simp only [bytesOf, List.getElem_map, List.getElem_range, hp, Mem.byteAt, List.length_map, List.length_range]
            rw [h3, if_pos ⟨rfl, by omega, by omega⟩]
            congr 1; omega
        · intro b i hb
          rw [h3, if_neg]
          rintro ⟨h4, h5, h6⟩
          exact hb ⟨q, hp, h4, h5, h6⟩
  · rw [if_neg hf, if_neg hf]
    exact ⟨m, rfl, Mem.SameShape.refl m, rfl, fun _ _ _ => rfl⟩

theorem swapAll_spec : ∀ (ss : List Slot) (m : Mem), (∀ s ∈ ss, Width s.pl.len) → (∀ s ∈ ss, Good m s.pl) →
    (ss.map Slot.pl).Pairwise Place.Apart →
    ∃ m', swapAll ss m = .ok m' ∧ Mem.SameShape m m' ∧
      (∀ s ∈ ss, bytesOf m' s.pl = (if s.flip then (bytesOf m s.pl).reverse else bytesOf m s.pl)) ∧
      ∀ b i, (∀ s ∈ ss, ¬ s.pl.Has b i) → m'.byte b i = m.byte b i
  | [], m, _, _, _ => ⟨m, rfl, Mem.SameShape.refl m, by simp, fun _ _ _ => rfl⟩
  | s :: ss, m, hw, hg, hp => by
    rw [List.map_cons, List.pairwise_cons] at hp
    obtain ⟨m1, h1, h2, h3, h4⟩ := swapSlot_spec (hw s (by simp)) (hg s (by simp))
    have hkeep : ∀ t ∈ ss, bytesOf m1 t.pl = bytesOf m t.pl := by
      intro t ht
      apply bytesOf_congr
      intro b i hb
      apply h4
      intro hc
      exact apart_has (hp.1 t.pl (List.mem_map.2 ⟨t, ht, rfl⟩)) hc hb
    obtain ⟨m2, g1, g2, g3, g4⟩ := swapAll_spec ss m1 (fun t ht => hw t (by simp [ht]))
      (fun t ht => by have := hg t (by simp [ht]); simp only [Good, hkeep t ht]; exact this) hp.2
    refine ⟨m2, by rw [swapAll, h1, Res.bind_ok, g1], h2.trans g2, ?_, ?_⟩
    · intro t ht
      rcases List.mem_cons.1 ht with ht | ht
      · subst ht
        rw [← h3]
        apply bytesOf_congr
        intro b i hb
        apply g4
        intro u hu hc
        exact apart_has (hp.1 u.pl (List.mem_map.2 ⟨u, hu, rfl⟩)) hb hc
      · rw [g3 t ht, hkeep t ht]
    · intro b i hb
      rw [g4 b i (fun t ht => hb t (by simp [ht])), h4 b i (hb s (by simp))]

/-! ### values -/

theorem elems_places (m : Mem) (x : Info) (d : DataType) : elems m x.data d = (leafPlaces x d).map (bytesOf m) := by
  simp [elems, leafPlaces, bytesOf, List.map_map, Function.comp_def]

/-- a value after conversion to order `e` -/
def turn (big : Bool) (e e' : Endian) (bytes : List (Option UInt8)) : List (Option UInt8) :=
  if resolve big e' ≠ resolve big e then bytes.reverse else bytes

mutual
def swapVal (big : Bool) (e : Endian) : Val → Val
  | .leaf id e' es => if id = .empty then .leaf .empty .default []
      else .leaf id (resolve big e) (es.map (turn big e e'))
  | .obj es => .obj (swapValE big e es)
  | .lst cs => .lst (swapValL big e cs)
def swapValE (big : Bool) (e : Endian) : List (Str × Val) → List (Str × Val)
  | [] => []
  | (n, c) :: es => (n, swapVal big e c) :: swapValE big e es
def swapValL (big : Bool) (e : Endian) : List Val → List Val
  | [] => []
  | c :: cs => swapVal big e c :: swapValL big e cs
end

mutual
theorem val_relabel {m m' : Mem} (big : Bool) (e : Endian) : ∀ n : Node,
    (∀ s ∈ slots big e n, bytesOf m' s.pl = (if s.flip then (bytesOf m s.pl).reverse else bytesOf m s.pl)) →
    val m' (relabel (resolve big e) n) = swapVal big e (val m n)
  | .leaf x d, h => by
    simp only [relabel, val]
    split
    · simp [swapVal]
    · rename_i he
      simp only [swapVal, he, if_false]
      congr 1
      have : elems m' x.data { d with endian := resolve big e } = elems m' x.data d := rfl
      rw [this, elems_places, elems_places, List.map_map]
      apply List.map_congr_left
      intro pl hpl
      have := h ⟨flips big e d, pl⟩ (List.mem_map.2 ⟨pl, hpl, rfl⟩)
      simp only [flips, decide_eq_true_eq] at this
      simp only [Function.comp, turn]
      exact this
  | .obj x es, h => by simp only [relabel, val, swapVal, valE_relabel big e es h]
  | .lst x es, h => by simp only [relabel, val, swapVal, valL_relabel big e es h]
theorem valE_relabel {m m' : Mem} (big : Bool) (e : Endian) : ∀ es : List (Str × Node),
    (∀ s ∈ slotsE big e es, bytesOf m' s.pl = (if s.flip then (bytesOf m s.pl).reverse else bytesOf m s.pl)) →
    valE m' (relabelE (resolve big e) es) = swapValE big e (valE m es)
  | [], h => rfl
  | (n, c) :: es, h => by
    simp only [relabelE, valE, swapValE]
    rw [val_relabel big e c (fun s hs => h s (by simp [slotsE, hs])),
      valE_relabel big e es (fun s hs => h s (by simp [slotsE, hs]))]
theorem valL_relabel {m m' : Mem} (big : Bool) (e : Endian) : ∀ es : List Node,
    (∀ s ∈ slotsL big e es, bytesOf m' s.pl = (if s.flip then (bytesOf m s.pl).reverse else bytesOf m s.pl)) →
    valL m' (relabelL (resolve big e) es) = swapValL big e (valL m es)
  | [], h => rfl
  | c :: es, h => by
    simp only [relabelL, valL, swapValL]
    rw [val_relabel big e c (fun s hs => h s (by simp [slotsL, hs])),
      valL_relabel big e es (fun s hs => h s (by simp [slotsL, hs]))]
end

mutual
theorem slots_width (big : Bool) (e : Endian) : ∀ n : Node, ∀ s ∈ slots big e n, Width s.pl.len
  | .leaf x d, s, hs => by
    simp only [slots, leafPlaces, List.mem_map] at hs
    obtain ⟨pl, ⟨i, _, rfl⟩, rfl⟩ := hs
    exact bytes_width _
  | .obj x es, s, hs => slotsE_width big e es s hs
  | .lst x es, s, hs => slotsL_width big e es s hs
theorem slotsE_width (big : Bool) (e : Endian) : ∀ es : List (Str × Node), ∀ s ∈ slotsE big e es, Width s.pl.len
  | [], s, hs => by simp [slotsE] at hs
  | (n, c) :: es, s, hs => by
    simp only [slotsE, List.mem_append] at hs
    exact hs.elim (slots_width big e c s) (slotsE_width big e es s)
theorem slotsL_width (big : Bool) (e : Endian) : ∀ es : List Node, ∀ s ∈ slotsL big e es, Width s.pl.len
  | [], s, hs => by simp [slotsL] at hs
  | c :: es, s, hs => by
    simp only [slotsL, List.mem_append] at hs
    exact hs.elim (slots_width big e c s) (slotsL_width big e es s)
end

mutual
theorem places_good {m : Mem} : ∀ n : Node, Readable m n → ∀ pl ∈ places n, Good m pl
  | .leaf x d, hr, pl, hp => by
    by_cases he : d.id = .empty
    · simp only [places, leafPlaces, List.mem_map, he, TypeId.bytes] at hp
      obtain ⟨i, _, rfl⟩ := hp
      simp [Good, bytesOf]
    · have := hr.2.2.2 he
      rw [elems_places] at this
      exact this _ (List.mem_map.2 ⟨pl, hp, rfl⟩)
  | .obj x es, hr, pl, hp => placesE_good es hr pl hp
  | .lst x es, hr, pl, hp => placesL_good es hr pl hp
theorem placesE_good {m : Mem} : ∀ es : List (Str × Node), ReadableE m es → ∀ pl ∈ placesE es, Good m pl
  | [], _, pl, hp => by simp [placesE] at hp
  | (n, c) :: es, hr, pl, hp => by
    simp only [placesE, List.mem_append] at hp
    exact hp.elim (places_good c hr.1 pl) (placesE_good es hr.2 pl)
theorem placesL_good {m : Mem} : ∀ es : List Node, ReadableL m es → ∀ pl ∈ placesL es, Good m pl
  | [], _, pl, hp => by simp [placesL] at hp
  | c :: es, hr, pl, hp => by
    simp only [placesL, List.mem_append] at hp
    exact hp.elim (places_good c hr.1 pl) (placesL_good es hr.2 pl)
end

/-- the conversion of a readable tree whose elements do not overlap -/
theorem endianSwap_spec (big : Bool) (e : Endian) (n : Node) (m : Mem) (hr : Readable m n) (hs : Separate n) :
    ∃ m', endianSwap big e n m = .ok (m', relabel (resolve big e) n) ∧ Mem.SameShape m m' ∧
      (∀ s ∈ slots big e n, bytesOf m' s.pl = (if s.flip then (bytesOf m s.pl).reverse else bytesOf m s.pl)) ∧
      (∀ b i, (∀ pl ∈ places n, ¬ pl.Has b i) → m'.byte b i = m.byte b i) := by
  obtain ⟨m', h1, h2, h3, h4⟩ := swapAll_spec (slots big e n) m (slots_width big e n)
    (fun s hs => places_good n hr _ (by rw [← slots_places big e n]; exact List.mem_map.2 ⟨s, hs, rfl⟩))
    (by rw [slots_places]; exact hs)
  refine ⟨m', by rw [endianSwap_eq, h1, Res.bind_ok], h2, h3, ?_⟩
  intro b i hb
  exact h4 b i (fun s hs => hb _ (by rw [← slots_places big e n]; exact List.mem_map.2 ⟨s, hs, rfl⟩))

/-! ### numbers -/

theorem bigNat_append (a b : List UInt8) : bigNat (a ++ b) = bigNat a * 256 ^ b.length + bigNat b := by
  induction a with
  | nil => simp [bigNat]
  | cons x a ih =>
    simp only [List.cons_append, bigNat, ih, List.length_append, Nat.pow_add]
    rw [Nat.add_mul, Nat.mul_assoc, Nat.add_assoc]

theorem bigNat_reverse (l : List UInt8) : bigNat l.reverse = littleNat l := by
  induction l with
  | nil => rfl
  | cons x l ih =>
    rw [List.reverse_cons, bigNat_append, ih]
    simp only [bigNat, littleNat, List.length_cons, List.length_nil]; omega

theorem littleNat_reverse (l : List UInt8) : littleNat l.reverse = bigNat l := by
  rw [← bigNat_reverse, List.reverse_reverse]

theorem allSome_eq (l : List (Option UInt8)) (bs : List UInt8) : allSome l = some bs ↔ l = bs.map some := by
  induction l generalizing bs with
  | nil => cases bs <;> simp [allSome]
  | cons x l ih =>
    cases x with
    | none => cases bs <;> simp [allSome]
    | some b =>
      cases bs with
      | nil => simp [allSome]
      | cons c bs =>
        simp only [allSome, Option.map_eq_some_iff, ih]; grind

theorem allSome_reverse (l : List (Option UInt8)) : allSome l.reverse = (allSome l).map List.reverse := by
  cases h : allSome l with
  | some bs =>
    rw [allSome_eq] at h
    rw [h, Option.map_some, allSome_eq, List.map_reverse]
  | none =>
    cases h' : allSome l.reverse with
    | none => rfl
    | some bs =>
      rw [allSome_eq] at h'
      have : allSome l = some bs.reverse := by
        rw [allSome_eq, List.map_reverse, ← h', List.reverse_reverse]
      rw [this] at h; cases h

theorem number_resolve (big : Bool) (e : Endian) (l : List (Option UInt8)) :
    number big (resolve big e) l = number big e l := by
  cases e <;> cases big <;> rfl

theorem number_turn (big : Bool) (e e' : Endian) (l : List (Option UInt8)) :
    number big (resolve big e) (turn big e e' l) = number big e' l := by
  rw [← number_resolve big e', turn]
  split
  · rename_i h
    have h1 : resolve big e = .big ∨ resolve big e = .little := by cases e <;> cases big <;> simp [resolve, machineDefault]
    have h2 : resolve big e' = .big ∨ resolve big e' = .little := by cases e' <;> cases big <;> simp [resolve, machineDefault]
    simp only [number, allSome_reverse, Option.map_map]
    congr 1
    funext bs
    rcases h1 with h1 | h1 <;> rcases h2 with h2 | h2 <;>
      first
        | (rw [h1, h2] at h; exact absurd rfl h)
        | simp [h1, h2, bigNat_reverse, littleNat_reverse]
  · rename_i h
    rw [Classical.not_not.1 h]

mutual
theorem numbers_swapVal (big : Bool) (e : Endian) (m : Mem) : ∀ n : Node,
    numbers big (swapVal big e (val m n)) = numbers big (val m n)
  | .leaf x d => by
    simp only [val]
    split
    · simp [swapVal, numbers]
    · rename_i he
      simp only [swapVal, he, if_false, numbers, List.map_map]
      congr 1
      apply List.map_congr_left
      intro l _
      exact number_turn big e d.endian l
  | .obj x es => by simp only [val, swapVal, numbers, numbersE_swapVal big e m es]
  | .lst x es => by simp only [val, swapVal, numbers, numbersL_swapVal big e m es]
theorem numbersE_swapVal (big : Bool) (e : Endian) (m : Mem) : ∀ es : List (Str × Node),
    numbersE big (swapValE big e (valE m es)) = numbersE big (valE m es)
  | [] => rfl
  | (n, c) :: es => by
    simp only [valE, swapValE, numbersE, numbers_swapVal big e m c, numbersE_swapVal big e m es]
theorem numbersL_swapVal (big : Bool) (e : Endian) (m : Mem) : ∀ es : List Node,
    numbersL big (swapValL big e (valL m es)) = numbersL big (valL m es)
  | [] => rfl
  | c :: es => by
    simp only [valL, swapValL, numbersL, numbers_swapVal big e m c, numbersL_swapVal big e m es]
end

mutual
theorem allOrder_swapVal (big : Bool) (e : Endian) : ∀ v : Val, AllOrder big (resolve big e) (swapVal big e v)
  | .leaf id e' es => by
    simp only [swapVal]
    split <;> simp [AllOrder]
  | .obj es => by simp only [swapVal, AllOrder]; exact allOrderE_swapVal big e es
  | .lst es => by simp only [swapVal, AllOrder]; exact allOrderL_swapVal big e es
theorem allOrderE_swapVal (big : Bool) (e : Endian) : ∀ v : List (Str × Val),
    AllOrderE big (resolve big e) (swapValE big e v)
  | [] => trivial
  | (n, c) :: es => ⟨allOrder_swapVal big e c, allOrderE_swapVal big e es⟩
theorem allOrderL_swapVal (big : Bool) (e : Endian) : ∀ v : List Val,
    AllOrderL big (resolve big e) (swapValL big e v)
  | [] => trivial
  | c :: es => ⟨allOrder_swapVal big e c, allOrderL_swapVal big e es⟩
end

mutual
theorem places_relabel (e : Endian) : ∀ n : Node, places (relabel e n) = places n
  | .leaf x d => rfl
  | .obj x es => placesE_relabel e es
  | .lst x es => placesL_relabel e es
theorem placesE_relabel (e : Endian) : ∀ es : List (Str × Node), placesE (relabelE e es) = placesE es
  | [] => rfl
  | (n, c) :: es => by simp only [relabelE, placesE, places_relabel e c, placesE_relabel e es]
theorem placesL_relabel (e : Endian) : ∀ es : List Node, placesL (relabelL e es) = placesL es
  | [] => rfl
  | c :: es => by simp only [relabelL, placesL, places_relabel e c, placesL_relabel e es]
end

mutual
theorem readable_relabel {m m' : Mem} (h : Mem.SameShape m m') (e : Endian) : ∀ n : Node,
    Readable m n → Readable m' (relabel e n)
  | .leaf x d, hr => by
    refine ⟨hr.1, hr.2.1, hr.2.2.1, fun he => ?_⟩
    have := elems_isSome.1 (hr.2.2.2 he)
    refine elems_isSome.2 ?_
    intro i k hi hk
    have := this i k hi hk
    unfold Mem.byteAt at this ⊢
    cases hp : x.data with
    | none => simp [hp] at this
    | some p => simp only [hp] at this ⊢; exact (h.isSome _ _).2 this
  | .obj x es, hr => readableE_relabel h e es hr
  | .lst x es, hr => readableL_relabel h e es hr
theorem readableE_relabel {m m' : Mem} (h : Mem.SameShape m m') (e : Endian) : ∀ es : List (Str × Node),
    ReadableE m es → ReadableE m' (relabelE e es)
  | [], _ => trivial
  | (n, c) :: es, hr => ⟨readable_relabel h e c hr.1, readableE_relabel h e es hr.2⟩
theorem readableL_relabel {m m' : Mem} (h : Mem.SameShape m m') (e : Endian) : ∀ es : List Node,
    ReadableL m es → ReadableL m' (relabelL e es)
  | [], _ => trivial
  | c :: es, hr => ⟨readable_relabel h e c hr.1, readableL_relabel h e es hr.2⟩
end

/-! ### and back -/

mutual
theorem flip_of_order (big : Bool) (e e0 : Endian) (m : Mem) : ∀ n : Node, AllOrder big e0 (val m n) →
    ∀ s ∈ slots big e n, s.pl.len ≠ 0 → s.flip = decide (resolve big e0 ≠ resolve big e)
  | .leaf x d, h, s, hs, hl => by
    simp only [slots, List.mem_map] at hs
    obtain ⟨pl, hp, rfl⟩ := hs
    have he : d.id ≠ .empty := by
      intro he
      simp only [leafPlaces, List.mem_map] at hp
      obtain ⟨i, _, rfl⟩ := hp
      simp [he, TypeId.bytes] at hl
    simp only [val, he, if_false, AllOrder, false_or] at h
    have : resolve big d.endian = resolve big e0 := by
      rcases h with h | ⟨h, h'⟩
      · rw [h]
      · rw [h, h']; cases big <;> rfl
    simp only [flips, this]
  | .obj x es, h, s, hs, hl => flipE_of_order big e e0 m es h s hs hl
  | .lst x es, h, s, hs, hl => flipL_of_order big e e0 m es h s hs hl
theorem flipE_of_order (big : Bool) (e e0 : Endian) (m : Mem) : ∀ es : List (Str × Node), AllOrderE big e0 (valE m es) →
    ∀ s ∈ slotsE big e es, s.pl.len ≠ 0 → s.flip = decide (resolve big e0 ≠ resolve big e)
  | [], _, s, hs, _ => by simp [slotsE] at hs
  | (n, c) :: es, h, s, hs, hl => by
    simp only [slotsE, List.mem_append] at hs
    exact hs.elim (fun hs => flip_of_order big e e0 m c h.1 s hs hl) (fun hs => flipE_of_order big e e0 m es h.2 s hs hl)
theorem flipL_of_order (big : Bool) (e e0 : Endian) (m : Mem) : ∀ es : List Node, AllOrderL big e0 (valL m es) →
    ∀ s ∈ slotsL big e es, s.pl.len ≠ 0 → s.flip = decide (resolve big e0 ≠ resolve big e)
  | [], _, s, hs, _ => by simp [slotsL] at hs
  | c :: es, h, s, hs, hl => by
    simp only [slotsL, List.mem_append] at hs
    exact hs.elim (fun hs => flip_of_order big e e0 m c h.1 s hs hl) (fun hs => flipL_of_order big e e0 m es h.2 s hs hl)
end

theorem byte_of_bytesOf {m m' : Mem} {pl : Place} (h : bytesOf m' pl = bytesOf m pl) {b : Nat} {i : Int}
    (hb : pl.Has b i) : m'.byte b i = m.byte b i := by
  obtain ⟨p, hp, h1, h2, h3⟩ := hb
  have := congrArg (fun l => l[(i - (p.off + pl.off)).toNat]?) h
  simp only [bytesOf, List.getElem?_map] at this
  rw [List.getElem?_range (by omega)] at this
  simp only [Option.map_some, hp, Mem.byteAt, Option.some.injEq] at this
  rw [h1]
  have e : p.off + (pl.off + ((i - (p.off + pl.off)).toNat : Int)) = i := by omega
  rw [e] at this
  exact this

theorem resolve_resolve (big : Bool) (e : Endian) : resolve big (resolve big e) = resolve big e := by
  cases big <;> cases e <;> rfl

theorem endianSwap_back (big : Bool) (e e0 : Endian) (n : Node) (m : Mem) (hr : Readable m n) (hs : Separate n)
    (ho : AllOrder big e0 (val m n)) :
    ∃ m' n' m'' n'', endianSwap big e n m = .ok (m', n') ∧ endianSwap big e0 n' m' = .ok (m'', n'') ∧
      (∀ b i, m''.byte b i = m.byte b i) ∧ n'' = relabel (resolve big e0) n' ∧ n' = relabel (resolve big e) n := by
  obtain ⟨m', h1, h2, h3, h4⟩ := endianSwap_spec big e n m hr hs
  have hs' : Separate (relabel (resolve big e) n) := by unfold Separate; rw [places_relabel]; exact hs
  obtain ⟨m'', g1, g2, g3, g4⟩ := endianSwap_spec big e0 (relabel (resolve big e) n) m'
    (readable_relabel h2 _ n hr) hs'
  refine ⟨m', _, m'', _, h1, g1, ?_, rfl, rfl⟩
  have ho' : AllOrder big (resolve big e) (val m' (relabel (resolve big e) n)) := by
    rw [val_relabel big e n h3]; exact allOrder_swapVal big e _
  intro b i
  by_cases hb : ∃ pl ∈ places n, pl.Has b i
  · obtain ⟨pl, hp, hh⟩ := hb
    have hlen : pl.len ≠ 0 := by
      obtain ⟨p, _, _, h5, h6⟩ := hh; omega
    refine byte_of_bytesOf (pl := pl) ?_ hh
    rw [← slots_places big e n] at hp
    obtain ⟨s, hs1, rfl⟩ := List.mem_map.1 hp
    have hp2 : s.pl ∈ places (relabel (resolve big e) n) := by
      rw [places_relabel, ← slots_places big e n]; exact hp
    rw [← slots_places big e0] at hp2
    obtain ⟨t, ht1, ht2⟩ := List.mem_map.1 hp2
    have f1 := flip_of_order big e e0 m n ho s hs1 hlen
    have f2 := flip_of_order big e0 (resolve big e) m' _ ho' t ht1 (by rw [ht2]; exact hlen)
    rw [resolve_resolve] at f2
    have b1 := h3 s hs1
    have b2 := g3 t ht1
    rw [ht2, b1, f1, f2] at b2
    rw [b2]
    by_cases hc : resolve big e0 = resolve big e
    · simp [hc]
    · have hc' : resolve big e ≠ resolve big e0 := fun h => hc h.symm
      simp [hc, hc']
  · have hb' : ∀ pl ∈ places n, ¬ pl.Has b i := fun pl hp hh => hb ⟨pl, hp, hh⟩
    rw [g4 b i (by rw [places_relabel]; exact hb'), h4 b i hb']

end Node
end Conduit
