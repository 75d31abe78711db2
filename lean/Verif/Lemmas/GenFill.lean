import Verif.Lemmas.GenNull
import Verif.Lemmas.Array
/-
A new compact leaf filled with given elements.
-/
namespace Conduit
open Spec Spec.Tree Schema Node Gen

theorem lowBytes_littleNat : ∀ (l : List UInt8) (k : Nat), l.length = k → lowBytes k (littleNat l) = l
  | [], k, h => by subst h; rfl
  | b :: l, k, h => by
    subst h
    have hb := b.toNat_lt
    have h1 : (b.toNat + 256 * littleNat l) % 256 = b.toNat := by omega
    have h2 : (b.toNat + 256 * littleNat l) / 256 = littleNat l := by omega
    rw [List.length_cons, lowBytes, littleNat, h1, h2, lowBytes_littleNat l _ rfl]
    simp

theorem machineNat_little (big : Bool) (l : List UInt8) : machineNat big l = littleNat (if big then l.reverse else l) := by
  rw [machineNat_eq]; cases big <;> simp [littleNat_reverse]

theorem pow_card (t : IntTy) : (t.width.card : Int) = ((256 ^ t.size : Nat) : Int) := by
  obtain ⟨s, w⟩ := t
  cases w <;> simp [IntWidth.card, IntTy.size]

/-- the object representation of the value with these bytes -/
theorem machineBytes_pattern (big : Bool) (t : IntTy) (l : List UInt8) (hl : l.length = t.size) (v : Int)
    (hv : v % t.width.card = (machineNat big l : Int)) : machineBytes big t v = l := by
  unfold machineBytes
  simp only
  rw [hv, Int.toNat_natCast, machineNat_little]
  cases big
  · simpa using lowBytes_littleNat l _ hl
  · have := lowBytes_littleNat l.reverse t.size (by simpa using hl)
    simp [this]

theorem cast_emod (t : IntTy) (v : Int) : t.cast v % t.width.card = v % t.width.card := by
  obtain ⟨s, w⟩ := t
  cases s <;> cases w <;> simp only [IntTy.cast, IntWidth.card] <;> simp <;> omega

theorem cast_range (t : IntTy) (v : Int) : -(2 ^ 63) ≤ t.cast v ∧ t.cast v < 2 ^ 64 ∧ (t.signed = true → t.cast v < 2 ^ 63) ∧
    (t.signed = false → 0 ≤ t.cast v) := by
  obtain ⟨s, w⟩ := t
  cases s <;> cases w <;> simp only [IntTy.cast, IntWidth.card] <;> simp <;> omega

theorem machineNat_emod (big : Bool) (t : IntTy) (l : List UInt8) (hl : l.length = t.size) :
    (machineNat big l : Int) % t.width.card = machineNat big l := by
  have := machineNat_lt big l
  rw [hl] at this
  rw [pow_card]
  exact Int.emod_eq_of_lt (by omega) (by omega)

/-- new block, all elements there -/
theorem fill_built (A : Nat → Prop) {d : DataType} (hd : DataId d.id) (ho : d.offset = 0) (hs : d.stride = d.id.bytes)
    {es : List (List UInt8)} (hn : d.n = es.length) (hl : ∀ x ∈ es, x.length = d.id.bytes) {m m' : Mem}
    (sh : Mem.SameShape (m.alloc (d.id.bytes * es.length)).1 m')
    (hold : ∀ b i, b ≠ m.length → m'.byte b i = (m.alloc (d.id.bytes * es.length)).1.byte b i)
    (hnew : ∀ (e k : Nat) (x : List UInt8), es[e]? = some x → k < d.id.bytes → m'.byte m.length ((d.id.bytes : Int) * e + k) = x[k]?) :
    Built A m m' (.leaf d.id d.endian (es.map (fun x => x.map some))) (.leaf ⟨some ⟨m.length, 0⟩, true⟩ d) := by
  have hel : elems m' (some ⟨m.length, 0⟩) d = es.map (fun x => x.map some) := by
    refine elems_eq hn hl ?_
    intro e k x he hk
    rw [← hnew e k x he hk]
    simp only [Mem.byteAt]
    congr 1
    rw [ho, hs]; simp
  have hlen : m'.length = m.length + 1 := by rw [sh.1]; simp [Mem.alloc]
  refine ⟨?_, ⟨hd.2.1, hd.2.2, by omega, fun _ => ?_⟩, ?_, ⟨by omega, ?_⟩, ⟨⟨by simp [CleanInfo], fun he => absurd he hd.1⟩, ⟨by simp [owned, ownPtr], ?_⟩, by simp [owned, ownPtr]⟩⟩
  · simp only [Spec.val]; rw [if_neg hd.1, hel]
  · simp only
    rw [hel]
    intro e he b hb
    obtain ⟨x, _, rfl⟩ := List.mem_map.1 he
    obtain ⟨y, _, rfl⟩ := List.mem_map.1 hb
    rfl
  · intro b hb
    simp only [Spec.blocks] at hb
    split at hb
    · simp at hb
    · simp at hb; omega
  · intro b hb _
    refine ⟨by rw [sh.2, Mem.size_alloc_old _ _ _ hb], fun i => ?_⟩
    rw [hold b i (by omega), Mem.byte_alloc_old _ _ _ _ hb]
  · intro p hp
    simp only [owned, ownPtr, if_true, Option.toList, List.mem_singleton] at hp
    subst hp
    exact ⟨rfl, live_iff.2 (by simp only; rw [sh.2]; simp [Mem.size, Mem.alloc])⟩

theorem alloc_has (m : Mem) (b n e k : Nat) (he : e < n) (hk : k < b) :
    ((m.alloc (b * n)).1.byte m.length ((b : Int) * e + k)).isSome := by
  rw [Mem.byte_alloc_new, if_pos]
  · rfl
  · have h1 : b * (e + 1) ≤ b * n := Nat.mul_le_mul_left _ he
    rw [Nat.mul_add] at h1
    rw [← Int.natCast_mul]
    omega

/-- element by element -/
theorem fill_elems (A : Nat → Prop) {d : DataType} (hd : DataId d.id) (ho : d.offset = 0) (hs : d.stride = d.id.bytes)
    {es : List (List UInt8)} (hn : d.n = es.length) (hl : ∀ x ∈ es, x.length = d.id.bytes) (m : Mem) :
    ∃ m', storeElems (some ⟨m.length, 0⟩) d.stride es 0 (m.alloc (d.id.bytes * es.length)).1 = .ok m' ∧
      Built A m m' (.leaf d.id d.endian (es.map (fun x => x.map some))) (.leaf ⟨some ⟨m.length, 0⟩, true⟩ d) := by
  obtain ⟨m', h1, h2, h3, h4⟩ := Mem.storeElems_spec ⟨m.length, 0⟩ d.id.bytes d.stride es (m.alloc (d.id.bytes * es.length)).1 0 hl
    (by
      intro e k he hk
      have := alloc_has m d.id.bytes es.length e k he hk
      rw [hs]; simpa using this)
    (by rw [hs]; exact Mem.apart_of_le (Int.le_refl _))
  refine ⟨m', h1, fill_built A hd ho hs hn hl h2 (fun b i hb => h3 b i (fun h => absurd h hb)) ?_⟩
  intro e k x he hk
  have := h4 e k x he hk
  rw [← this, hs]; simp

/-- in one run -/
theorem fill_run (A : Nat → Prop) {d : DataType} (hd : DataId d.id) (ho : d.offset = 0) (hs : d.stride = d.id.bytes)
    {es : List (List UInt8)} (hn : d.n = es.length) (hl : ∀ x ∈ es, x.length = d.id.bytes) (m : Mem) :
    ∃ m', (m.alloc (d.id.bytes * es.length)).1.store (some ⟨m.length, 0⟩) 0 es.flatten = .ok m' ∧
      Built A m m' (.leaf d.id d.endian (es.map (fun x => x.map some))) (.leaf ⟨some ⟨m.length, 0⟩, true⟩ d) := by
  obtain ⟨m', h1, h2, h3, h4⟩ := Mem.store_flatten_spec ⟨m.length, 0⟩ d.id.bytes es (m.alloc (d.id.bytes * es.length)).1 0 hl
    (by
      intro e k he hk
      have := alloc_has m d.id.bytes es.length e k he hk
      simpa using this)
  refine ⟨m', h1, fill_built A hd ho hs hn hl h2 (fun b i hb => h3 b i (fun h => absurd h hb)) ?_⟩
  intro e k x he hk
  have := h4 e k x he hk
  rw [← this]; simp

/-- the numbers of an array as bytes -/
def NumsBytes (L : Lib) (big : Bool) (t : TypeId) : List Num → List (List UInt8) → Prop
  | [], es => es = []
  | v :: vs, es => ∃ b bs, es = b :: bs ∧ v.bytes L big t = .ok b ∧ NumsBytes L big t vs bs

theorem setNums_eq {L : Lib} {big : Bool} {x : Info} {d : DataType} : ∀ {vs : List Num} {es : List (List UInt8)} {i : Nat} {m : Mem},
    NumsBytes L big d.id vs es → setNums L big x d vs i m = storeElems x.data d.stride es (d.elementIndex i) m
  | [], es, i, m, h => by
    obtain rfl : es = [] := h
    rfl
  | v :: vs, es, i, m, h => by
    obtain ⟨b, bs, rfl, h1, h2⟩ := h
    rw [setNums, h1, bind_ok, storeElems]
    have he : d.elementIndex (i + 1 : Nat) = d.elementIndex i + d.stride := by
      simp only [DataType.elementIndex, Int.natCast_add, Int.mul_add]; omega
    cases hm : m.store x.data (d.elementIndex i) b with
    | ok m1 => rw [bind_ok, bind_ok, setNums_eq h2, he]
    | error => rfl
    | ub => rfl

end Conduit
