import Verif.Model.Array
import Verif.Spec.Array
import Verif.Lemmas.NodeSet
import Verif.Lemmas.NodeEndian
import Mathlib.Tactic.NormNum
import Mathlib.Tactic.Zify
namespace Conduit
open Spec Node

theorem machineNat_eq (big : Bool) (bs : List UInt8) :
    machineNat big bs = if big then bigNat bs else littleNat bs := by
  have h : ∀ l : List UInt8, l.foldr (fun b acc => b.toNat + 256 * acc) 0 = littleNat l := by
    intro l; induction l with
    | nil => rfl
    | cons b l ih => simp [littleNat, ih]
  unfold machineNat; rw [h]
  cases big
  · simp
  · simp [littleNat_reverse]

theorem littleNat_lt (l : List UInt8) : littleNat l < 256 ^ l.length := by
  induction l with
  | nil => simp [littleNat]
  | cons b l ih =>
    have := b.toNat_lt
    simp only [littleNat, List.length_cons, Nat.pow_succ]; omega

theorem machineNat_lt (big : Bool) (l : List UInt8) : machineNat big l < 256 ^ l.length := by
  have h : machineNat big l = littleNat (if big then l.reverse else l) := by
    rw [machineNat_eq]; cases big <;> simp [littleNat_reverse]
  rw [h]
  have := littleNat_lt (if big then l.reverse else l)
  cases big <;> simpa using this

/-- the integer type of an id matches the id's description -/
theorem intTy_spec {id : TypeId} {t : IntTy} (h : id.intTy = some t) :
    t.signed = isSigned id ∧ t.size = id.bytes ∧ t.width.card = 2 ^ (8 * id.bytes) ∧ id ≠ .empty ∧
      t.width.card = 256 ^ id.bytes := by
  cases id <;> simp [TypeId.intTy] at h <;> subst h <;> decide

theorem isInteger_iff (id : TypeId) : isInteger id = true ↔ ∃ t, id.intTy = some t := by
  cases id <;> simp [isInteger, TypeId.intTy]

theorem cast_pattern {id : TypeId} {t : IntTy} (h : id.intTy = some t) {n : Nat} (hn : n < 256 ^ id.bytes) :
    t.cast n = intValue (isSigned id) id.bytes n := by
  cases id <;> simp only [TypeId.intTy, Option.some.injEq, reduceCtorEq] at h <;> subst h <;>
    simp only [IntTy.cast, intValue, isSigned, TypeId.bytes, IntWidth.card, Bool.false_eq_true, false_and, true_and,
      if_false] at * <;> norm_num at * <;> omega

/-- reading element `i` of an integer leaf -/
theorem readInt_elem {big : Bool} {t : IntTy} {m : Mem} {x : Info} {d : DataType} (ht : d.id.intTy = some t)
    (ho : MachineOrder big d) {i : Nat} {v : Int} (hv : (ints big m x d)[i]? = some (some v)) :
    readInt big t m x.data (d.elementIndex i) = .ok v := by
  obtain ⟨h1, h2, h3, h4, h5⟩ := intTy_spec ht
  simp only [ints, elems, List.map_map, List.getElem?_map] at hv
  cases hi : (List.range d.n.toNat)[i]? with
  | none => rw [hi] at hv; simp at hv
  | some y =>
    have hy : y = i ∧ i < d.n.toNat := by
      have := List.getElem?_eq_some_iff.1 hi
      obtain ⟨a, b⟩ := this; rw [List.length_range] at a; simp at b; exact ⟨b.symm, a⟩
    obtain ⟨rfl, hlt⟩ := hy
    rw [hi] at hv
    simp only [Option.map_some, Option.some.injEq, Function.comp] at hv
    unfold number at hv
    rw [Option.map_map, Option.map_eq_some_iff] at hv
    obtain ⟨bs, hbs, hval⟩ := hv
    rw [allSome_eq] at hbs
    have hlen : bs.length = d.id.bytes := by
      have := congrArg List.length hbs; simpa using this.symm
    have hbyte : ∀ k : Nat, k < d.id.bytes → m.byteAt x.data (d.offset + d.stride * y + k) = bs[k]? := by
      intro k hk
      have := congrArg (fun l => l[k]?) hbs
      simp only [List.getElem?_map, List.getElem?_range hk, Option.map_some] at this
      have hk' : k < bs.length := by omega
      rw [List.getElem?_eq_getElem hk'] at this ⊢
      simpa using this
    have hpos : 0 < d.id.bytes := by
      cases hid : d.id <;> simp [hid, TypeId.intTy] at ht <;> decide
    cases hp : x.data with
    | none => exact absurd (hbyte 0 hpos) (by
      rw [hp, List.getElem?_eq_getElem (by omega)]; simp [Mem.byteAt])
    | some q =>
      rw [hp] at hbyte
      have hb' : ∀ k : Nat, k < t.size → m.byte q.blk (q.off + d.elementIndex y + k) = bs[k]? := by
        intro k hk
        rw [← hbyte k (by omega)]
        simp only [Mem.byteAt, DataType.elementIndex]; congr 1; omega
      obtain ⟨cs, hc1, hc2, hc3⟩ := Mem.load_ok (m := m) (q := q) (off := d.elementIndex y) (len := t.size) (by
        intro k hk; rw [hb' k hk, List.getElem?_eq_getElem (by omega)]; rfl)
      have hcb : cs = bs := by
        apply List.ext_getElem?
        intro k
        by_cases hk : k < t.size
        · rw [hc3 k hk, hb' k hk]
        · rw [List.getElem?_eq_none (by omega), List.getElem?_eq_none (by omega)]
      subst hcb
      unfold readInt
      rw [hc1, Res.bind_ok]
      congr 1
      rw [cast_pattern ht (by rw [← hlen]; exact machineNat_lt big cs), ← hval]
      simp only [Function.comp]
      congr 1
      rw [machineNat_eq]
      rcases ho with ho | ho <;> rw [ho]
      cases big <;> simp

theorem arrFold_spec {α : Type} {big : Bool} {t : IntTy} {m : Mem} {x : Info} {d : DataType} (ht : d.id.intTy = some t)
    (ho : MachineOrder big d) (f : α → Int → Res α) (vs : List Int) : ∀ (pre : List Int) (a : α),
    ints big m x d = (pre ++ vs).map some →
    arrFold big t m x d f vs.length pre.length a = vs.foldlM f a := by
  induction vs with
  | nil => intro pre a _; rfl
  | cons v vs ih =>
    intro pre a h
    have hv : (ints big m x d)[pre.length]? = some (some v) := by rw [h]; simp
    have he := readInt_elem ht ho hv
    have h' : ints big m x d = ((pre ++ [v]) ++ vs).map some := by rw [h]; simp
    have := fun a' => ih (pre ++ [v]) a' h'
    simp only [List.length_cons, arrFold, arrElement, he, Res.bind_ok, List.foldlM_cons]
    cases f a v with
    | ok a' => simp only [Res.bind_ok]; rw [← this a']; simp
    | error => rfl
    | ub => rfl

theorem ints_length {big : Bool} {m : Mem} {x : Info} {d : DataType} {vs : List Int}
    (h : ints big m x d = vs.map some) : d.n.toNat = vs.length := by
  have := congrArg List.length h
  simpa [ints, elems] using this

theorem ints_mem_holds {big : Bool} {m : Mem} {x : Info} {d : DataType} {t : IntTy} (ht : d.id.intTy = some t)
    (ho : MachineOrder big d) {vs : List Int} (h : ints big m x d = vs.map some) {v : Int} (hv : v ∈ vs) :
    t.minVal ≤ v ∧ v ≤ t.maxVal := by
  obtain ⟨i, hi, rfl⟩ := List.mem_iff_getElem.1 hv
  have he := readInt_elem ht ho (i := i) (v := vs[i]) (by rw [h]; simp [hi])
  unfold readInt at he
  rw [Res.bind_eq_ok] at he
  obtain ⟨bs, -, he⟩ := he
  injection he with he
  rw [← he]
  obtain ⟨s, w⟩ := t
  cases s <;> cases w <;> simp only [IntTy.cast, IntTy.minVal, IntTy.maxVal, IntWidth.card] <;> simp <;> omega

theorem lowBytes_length (k v : Nat) : (lowBytes k v).length = k := by
  induction k generalizing v with
  | zero => rfl
  | succ k ih => simp [lowBytes, ih]

theorem littleNat_lowBytes (k v : Nat) (h : v < 256 ^ k) : littleNat (lowBytes k v) = v := by
  induction k generalizing v with
  | zero => simp at h; simp [lowBytes, littleNat, h]
  | succ k ih =>
    have hd : v / 256 < 256 ^ k := by
      rw [Nat.pow_succ] at h; omega
    simp only [lowBytes, littleNat, ih _ hd]
    have : (UInt8.ofNat (v % 256)).toNat = v % 256 := by simp
    omega

theorem machineBytes_length (big : Bool) (t : IntTy) (v : Int) : (machineBytes big t v).length = t.size := by
  unfold machineBytes; cases big <;> simp [lowBytes_length]

/-- the bit pattern written for a value -/
theorem number_machineBytes {big : Bool} {d : DataType} {t : IntTy} (ht : d.id.intTy = some t) (ho : MachineOrder big d)
    (v : Int) : (number big d.endian ((machineBytes big t v).map some)).map (intValue (isSigned d.id) d.id.bytes) =
      some (t.cast v) := by
  obtain ⟨h1, h2, h3, h4, h5⟩ := intTy_spec ht
  have hpos : (0 : Int) < t.width.card := by obtain ⟨s, w⟩ := t; cases s <;> cases w <;> decide
  have hlt : (v % t.width.card).toNat < 256 ^ t.size := by
    have a := Int.emod_lt_of_pos v hpos
    have b := Int.emod_nonneg v (by omega : t.width.card ≠ 0)
    rw [h2]; zify; rw [← h5]; omega
  have hn : number big d.endian ((machineBytes big t v).map some) = some ((v % t.width.card).toNat) := by
    unfold number
    rw [(allSome_eq _ _).2 rfl, Option.map_some]
    congr 1
    have key : (if big then bigNat (machineBytes big t v) else littleNat (machineBytes big t v)) =
        (v % t.width.card).toNat := by
      unfold machineBytes
      cases big
      · simp only [Bool.false_eq_true, if_false]; exact littleNat_lowBytes _ _ hlt
      · simp only [if_true]; rw [bigNat_reverse]; exact littleNat_lowBytes _ _ hlt
    rcases ho with ho | ho <;> rw [ho]
    · exact key
    · cases big <;> simpa using key
  rw [hn, Option.map_some]
  congr 1
  have hlt' : (v % t.width.card).toNat < 256 ^ d.id.bytes := by rw [← h2]; exact hlt
  rw [← cast_pattern ht hlt']
  have hb := Int.emod_nonneg v (by omega : t.width.card ≠ 0)
  unfold IntTy.cast
  simp only [Int.toNat_of_nonneg hb, Int.emod_emod_of_dvd v (Int.dvd_refl _)]

/-- storing a value of the leaf's type in element `i` -/
theorem writeElem_spec {big : Bool} {m : Mem} {x : Info} {d : DataType} {t : IntTy} (ht : d.id.intTy = some t)
    (hr : Readable m (.leaf x d)) (hs : Separate (.leaf x d)) (ho : MachineOrder big d) (i : Nat) (hn : (i : Int) < d.n)
    (v : Int) :
    ∃ m', writeInt big t m x.data (d.elementIndex i) v = .ok m' ∧
      ints big m' x d = (ints big m x d).set i (some (t.cast v)) ∧ Readable m' (.leaf x d) ∧
      (∀ b j, ¬ Place.Has ⟨x.data, d.offset + d.stride * i, d.id.bytes⟩ b j → m'.byte b j = m.byte b j) := by
  obtain ⟨h1, h2, h3, h4, h5⟩ := intTy_spec ht
  have hpos : 0 < d.id.bytes := by
    cases hid : d.id <;> simp [hid, TypeId.intTy] at ht <;> decide
  obtain ⟨p, hp, -⟩ := readable_elem hr h4 hn hpos
  have hl : (machineBytes big t v).length = d.id.bytes := by rw [machineBytes_length, h2]
  obtain ⟨m', e1, e2, e3, e4⟩ := Mem.store_spec (m := m) (q := p) (off := d.elementIndex i) (xs := machineBytes big t v) (by
    intro k hk
    obtain ⟨p', hp', h⟩ := readable_elem hr h4 hn (k := k) (by omega)
    rw [hp] at hp'; injection hp' with hp'; subst hp'
    rw [show p.off + d.elementIndex i + (k : Int) = p.off + d.elementIndex 0 + d.stride * i + k by
      simp only [DataType.elementIndex, Int.mul_zero]; omega]
    exact h)
  have hout : ∀ b j, ¬ Place.Has ⟨x.data, d.offset + d.stride * i, d.id.bytes⟩ b j → m'.byte b j = m.byte b j := by
    intro b j hb
    rw [e4, if_neg]
    rintro ⟨a1, a2, a3⟩
    exact hb ⟨p, hp, a1, by simp only [DataType.elementIndex] at a2; simp; omega, by
      simp only [DataType.elementIndex] at a3; simp; omega⟩
  have hshape : Mem.SameShape m m' := ⟨e2, e3⟩
  refine ⟨m', by rw [writeInt, hp]; exact e1, ?_, ?_, hout⟩
  · apply List.ext_getElem?
    intro j
    rw [List.getElem?_set]
    by_cases hj : j < d.n.toNat
    · have hpl : ∀ m, (ints big m x d)[j]? = some ((number big d.endian (bytesOf m ⟨x.data, d.offset + d.stride * j, d.id.bytes⟩)).map
          (intValue (isSigned d.id) d.id.bytes)) := by
        intro m
        simp only [ints, elems_places, leafPlaces, List.getElem?_map, List.getElem?_range hj, Option.map_some]
      rw [hpl m']
      by_cases hij : i = j
      · subst hij
        rw [if_pos rfl, if_pos (by simp [ints, elems]; omega), ← number_machineBytes ht ho v]
        congr 3
        apply List.ext_getElem
        · simp [bytesOf, hl]
        · intro k hk1 hk2
          have hk : k < d.id.bytes := by simpa [bytesOf] using hk1
          simp only [bytesOf, List.getElem_map, List.getElem_range, Mem.byteAt, hp]
          rw [e4, if_pos ⟨rfl, by simp only [DataType.elementIndex]; omega, by simp only [DataType.elementIndex]; omega⟩]
          rw [show (p.off + (d.offset + d.stride * ↑i + ↑k) - (p.off + d.elementIndex ↑i)).toNat = k by
            simp only [DataType.elementIndex]; omega, List.getElem?_eq_getElem (by omega)]
      · rw [if_neg hij, hpl m]
        congr 3
        apply bytesOf_congr
        intro b q hq
        apply hout
        have hap : Place.Apart ⟨x.data, d.offset + d.stride * j, d.id.bytes⟩ ⟨x.data, d.offset + d.stride * i, d.id.bytes⟩ := by
          have hs' : (leafPlaces x d).Pairwise Place.Apart := hs
          rw [leafPlaces, List.pairwise_map, List.pairwise_iff_getElem] at hs'
          have sym : ∀ a b : Place, Place.Apart a b → Place.Apart b a := by
            intro a b hab
            unfold Place.Apart at *
            cases ha : a.p <;> cases hb : b.p <;> simp only [ha, hb] at hab ⊢
            rcases hab with h | h | h
            · exact .inl (fun e => h e.symm)
            · exact .inr (.inr h)
            · exact .inr (.inl h)
          rcases Nat.lt_or_gt_of_ne hij with hlt | hlt
          · have := hs' i j (by simp; omega) (by simp; omega) hlt
            simp only [List.getElem_range] at this; exact sym _ _ this
          · have := hs' j i (by simp; omega) (by simp; omega) hlt
            simp only [List.getElem_range] at this; exact this
        exact apart_has hap hq
    · rw [List.getElem?_eq_none (by simp [ints, elems]; omega), List.getElem?_eq_none (by simp [ints, elems]; omega),
        if_neg (by omega)]
  · refine ⟨hr.1, hr.2.1, hr.2.2.1, fun he => ?_⟩
    rw [elems_isSome]
    intro e k he' hk
    have := elems_isSome.1 (hr.2.2.2 he) e k he' hk
    unfold Mem.byteAt at this ⊢
    rw [hp] at this ⊢
    exact (hshape.isSome _ _).2 this

end Conduit
