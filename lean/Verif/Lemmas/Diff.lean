import Verif.Model.Diff
import Verif.Spec.Diff
import Verif.Lemmas.Array
import Verif.Lemmas.Float
import Verif.Lemmas.UpdateCompatible
namespace Conduit
open Spec Node Ieee

/-! ### elements as bytes -/

/-- the elements of a readable leaf, and that loading one gives it -/
theorem read_elems {m : Mem} {x : Info} {d : DataType} (h : Readable m (.leaf x d)) (he : d.id ≠ .empty) :
    ∃ bss : List (List UInt8), elems m x.data d = bss.map (·.map some) ∧ bss.length = d.n.toNat ∧
      ∀ (i : Nat) b, bss[i]? = some b → b.length = d.id.bytes ∧ m.load x.data (d.elementIndex i) d.id.bytes = .ok b := by
  obtain ⟨h1, h2, h3, h4⟩ := h
  have hs := h4 he
  rw [elems_isSome] at hs
  have hpos := bytes_pos he h1 h2
  have key : ∀ i : Nat, i < d.n.toNat → ∃ b : List UInt8, b.length = d.id.bytes ∧
      m.load x.data (d.elementIndex i) d.id.bytes = .ok b ∧
      (List.range d.id.bytes).map (fun (k : Nat) => m.byteAt x.data (d.offset + d.stride * i + k)) = b.map some := by
    intro i hi
    cases hx : x.data with
    | none => have := hs i 0 (by omega) hpos; rw [hx] at this; simp [Mem.byteAt] at this
    | some q =>
      obtain ⟨b, hb1, hb2, hb3⟩ := Mem.load_ok (m := m) (q := q) (off := d.elementIndex i) (len := d.id.bytes) (by
        intro k hk
        have := hs i k (by omega) hk
        rw [hx] at this
        simp only [Mem.byteAt, DataType.elementIndex] at this ⊢
        rwa [← Int.add_assoc] at this)
      refine ⟨b, hb2, hb1, ?_⟩
      apply List.ext_getElem?
      intro k
      by_cases hk : k < d.id.bytes
      · have := hb3 k hk
        simp only [List.getElem?_map, List.getElem?_range hk, Option.map_some]
        rw [List.getElem?_eq_getElem (by omega)] at this ⊢
        simp only [Option.map_some, Mem.byteAt]
        rw [this]
        simp only [DataType.elementIndex, Int.add_assoc]
      · rw [List.getElem?_eq_none (by simp; omega), List.getElem?_eq_none (by simp; omega)]
  refine ⟨(List.range d.n.toNat).map (fun (i : Nat) => match m.load x.data (d.elementIndex i) d.id.bytes with | .ok b => b | _ => []), ?_, by simp, ?_⟩
  · unfold elems
    rw [List.map_map]
    apply List.map_congr_left
    intro i hi
    obtain ⟨b, -, h5, h6⟩ := key i (List.mem_range.1 hi)
    simp only [Function.comp, h5]
    exact h6
  · intro i b hb
    simp only [List.getElem?_map, Option.map_eq_some_iff] at hb
    obtain ⟨j, hj, rfl⟩ := hb
    obtain ⟨hj', hj2⟩ := List.getElem?_eq_some_iff.1 hj
    rw [List.length_range] at hj'
    rw [List.getElem_range] at hj2; subst hj2
    obtain ⟨b, h5, h6, -⟩ := key i hj'
    rw [h6]; exact ⟨h5, rfl⟩

theorem map_some_inj {α : Type} {a b : List α} : a.map some = b.map some ↔ a = b :=
  ⟨fun h => (List.map_inj_right (fun _ _ h => Option.some.inj h)).1 h, fun h => h ▸ rfl⟩

theorem littleNat_inj : ∀ {a b : List UInt8}, a.length = b.length → littleNat a = littleNat b → a = b
  | [], [], _, _ => rfl
  | x :: a, y :: b, hl, h => by
    simp only [littleNat] at h
    have := x.toNat_lt
    have := y.toNat_lt
    have h1 : x.toNat = y.toNat := by omega
    have h2 : littleNat a = littleNat b := by omega
    rw [UInt8.toNat_inj.1 h1, littleNat_inj (by simpa using hl) h2]

theorem machineNat_inj {big : Bool} {a b : List UInt8} (hl : a.length = b.length)
    (h : machineNat big a = machineNat big b) : a = b := by
  have e : ∀ l : List UInt8, machineNat big l = littleNat (if big then l.reverse else l) := by
    intro l; rw [machineNat_eq]; cases big <;> simp [littleNat_reverse]
  rw [e, e] at h
  cases big
  · exact littleNat_inj hl (by simpa using h)
  · have := littleNat_inj (a := a.reverse) (b := b.reverse) (by simpa using hl) (by simpa using h)
    simpa using this

theorem intValue_inj {s : Bool} {k a b : Nat} (ha : a < 256 ^ k) (hb : b < 256 ^ k)
    (h : intValue s k a = intValue s k b) : a = b := by
  have e : (2 : Int) ^ (8 * k) = ((256 ^ k : Nat) : Int) := by
    rw [show (256 : Nat) = 2 ^ 8 by rfl, ← Nat.pow_mul]; simp
  have e' : (2 : Nat) ^ (8 * k) = 256 ^ k := by rw [show (256 : Nat) = 2 ^ 8 by rfl, ← Nat.pow_mul]
  unfold intValue at h
  rw [e, e'] at h
  split at h <;> split at h <;> omega

theorem realOf_bytes (big : Bool) (f : Fmt) (b : List UInt8) : realOf big f (b.map some) = decode f (machineNat big b) := by
  have : allSome (b.map some) = some b := by rw [allSome_eq]
  unfold realOf number
  rw [this]
  simp [machineNat_eq]

theorem fmt_eq (id : TypeId) : id.fmt = format id := by cases id <;> rfl

/-- what one step of the loop finds: no difference -/
theorem elemDiff_false {c : DiffCfg} {id : TypeId} {a b : List UInt8} (h1 : id ≠ .char8Str) (h2 : id ≠ .empty)
    (h3 : id ≠ .object) (h4 : id ≠ .list) (ha : a.length = id.bytes) (hb : b.length = id.bytes) :
    elemDiff c id a b = .ok false ↔ match format id with
      | some f => Near c.big c.eps f (a.map some) (b.map some)
      | none => a.map some = b.map some := by
  unfold elemDiff
  cases ht : id.intTy with
  | some t =>
    have hf : format id = none := by cases id <;> simp [TypeId.intTy] at ht <;> rfl
    rw [hf]
    simp only [map_some_inj]
    have hna : machineNat c.big a < 256 ^ id.bytes := by rw [← ha]; exact machineNat_lt _ _
    have hnb : machineNat c.big b < 256 ^ id.bytes := by rw [← hb]; exact machineNat_lt _ _
    constructor
    · intro h
      rw [Res.bind_eq_ok] at h
      obtain ⟨_, _, h⟩ := h
      simp only [Res.ok.injEq, decide_eq_false_iff_not, ne_eq, Decidable.not_not] at h
      rw [cast_pattern ht hna, cast_pattern ht hnb] at h
      exact machineNat_inj (by omega) (intValue_inj hna hnb h)
    · rintro rfl
      have hz : subInt t (t.cast (machineNat c.big a)) (t.cast (machineNat c.big a)) = .ok () := by
        unfold subInt
        rw [Int.sub_self, if_neg]
        rintro ⟨_, _, h⟩
        apply h
        obtain ⟨s, w⟩ := t
        cases s <;> cases w <;> decide
      rw [hz]; simp
  | none =>
    cases id <;> simp [TypeId.intTy] at * <;> simp [TypeId.fmt, format, Near, realOf_bytes]

/-- what one step of the loop finds: a difference or undefined behaviour -/
theorem elemDiff_ok {c : DiffCfg} {id : TypeId} {a b : List UInt8} (h1 : id ≠ .char8Str) (h2 : id ≠ .empty)
    (h3 : id ≠ .object) (h4 : id ≠ .list) : elemDiff c id a b = .ub ∨ ∃ r, elemDiff c id a b = .ok r := by
  unfold elemDiff
  cases ht : id.intTy with
  | some t =>
    simp only
    unfold subInt
    split
    · exact .inl rfl
    · exact .inr ⟨_, rfl⟩
  | none => cases id <;> simp [TypeId.intTy, TypeId.fmt] at *

theorem or_ok_false {x y : Res Bool} : (do let r ← x; let s ← y; .ok (r || s) : Res Bool) = .ok false ↔
    x = .ok false ∧ y = .ok false := by
  cases x with
  | ok r => cases y with
    | ok s => cases r <;> cases s <;> simp
    | error => simp
    | ub => simp
  | error => simp
  | ub => simp

/-- the loop over the elements -/
theorem elemsDiff_false {c : DiffCfg} {m : Mem} {x y : Info} {d e : DataType} (hid : d.id = e.id)
    (h1 : d.id ≠ .char8Str) (h2 : d.id ≠ .empty) (h3 : d.id ≠ .object) (h4 : d.id ≠ .list)
    {as bs : List (List UInt8)}
    (ha : ∀ (i : Nat) b, as[i]? = some b → b.length = d.id.bytes ∧ m.load x.data (d.elementIndex i) d.id.bytes = .ok b)
    (hb : ∀ (i : Nat) b, bs[i]? = some b → b.length = e.id.bytes ∧ m.load y.data (e.elementIndex i) e.id.bytes = .ok b) :
    ∀ (k i : Nat), i + k = as.length → as.length ≤ bs.length →
      (elemsDiff c m x d y e k i = .ok false ↔
        Pairs true (fun a b => match format d.id with
          | some f => Near c.big c.eps f a b
          | none => a = b) ((as.drop i).map (·.map some)) ((bs.drop i).map (·.map some)))
  | 0, i, hi, hl => by
    rw [List.drop_eq_nil_of_le (by omega)]
    simp [elemsDiff, Pairs]
  | k + 1, i, hi, hl => by
    have hia : i < as.length := by omega
    have hib : i < bs.length := by omega
    obtain ⟨la, la'⟩ := ha i as[i] (List.getElem?_eq_getElem hia)
    obtain ⟨lb, lb'⟩ := hb i bs[i] (List.getElem?_eq_getElem hib)
    rw [← hid] at lb lb'
    rw [List.drop_eq_getElem_cons hia, List.drop_eq_getElem_cons hib]
    simp only [List.map_cons, Pairs]
    rw [← elemsDiff_false hid h1 h2 h3 h4 ha hb k (i + 1) (by omega) hl]
    rw [elemsDiff, la', Res.bind_ok, lb', Res.bind_ok, or_ok_false, elemDiff_false h1 h2 h3 h4 la lb]

theorem pairs_pre {α : Type} {R : α → α → Prop} : ∀ {as bs : List α}, Pairs false R as bs ↔ Pairs true R as bs ∧ bs.length = as.length
  | [], [] => by simp [Pairs]
  | [], b :: bs => by simp [Pairs]
  | a :: as, [] => by simp [Pairs]
  | a :: as, b :: bs => by
    simp only [Pairs, pairs_pre (as := as) (bs := bs), List.length_cons, Nat.add_right_cancel_iff, and_assoc]

theorem pairs_length {α : Type} {R : α → α → Prop} : ∀ {as bs : List α}, Pairs true R as bs → as.length ≤ bs.length
  | [], _, _ => by simp
  | a :: as, [], h => h.elim
  | a :: as, b :: bs, h => by have := pairs_length h.2; simp; omega

/-! ### strings -/

theorem strstr_zero (t : List UInt8) : ∀ o : List UInt8, strstr t o = some 0 ↔ t <+: o
  | [] => by
    unfold strstr
    split
    · rename_i h; simp [h]
    · rename_i h; simp [h]
  | c :: o => by
    unfold strstr
    rw [← List.isPrefixOf_iff_prefix]
    split
    · rename_i h; simp [h]
    · rename_i h
      simp only [h, Option.map_eq_some_iff, Nat.add_eq_zero_iff, Nat.one_ne_zero, and_false, exists_false,
        Bool.false_eq_true]

theorem textDiff_false (compat : Bool) (t o : List UInt8) :
    textDiff compat t o = false ↔ if compat then t <+: o else t = o := by
  unfold textDiff
  cases compat
  · simp
  · simp only [if_true]
    split
    · rename_i h
      constructor
      · intro h'; cases h'
      · intro h'; have := h'.length_le; omega
    · simp [strstr_zero]

theorem loadChars_spec {m : Mem} {x : Info} {d : DataType} {as : List (List UInt8)}
    (ha : ∀ (i : Nat) b, as[i]? = some b → b.length = 1 ∧ m.load x.data (d.elementIndex i) 1 = .ok b) :
    ∀ (k i : Nat), i + k = as.length → loadChars m x d k i = .ok (as.drop i).flatten
  | 0, i, hi => by rw [List.drop_eq_nil_of_le (by omega)]; rfl
  | k + 1, i, hi => by
    have hia : i < as.length := by omega
    rw [loadChars, (ha i as[i] (List.getElem?_eq_getElem hia)).2, Res.bind_ok,
      loadChars_spec ha k (i + 1) (by omega), Res.bind_ok, List.drop_eq_getElem_cons hia, List.flatten_cons]

theorem takeWhile_append_zero {bs cs : List UInt8} (h : 0 ∈ bs) : (bs ++ cs).takeWhile (· ≠ 0) = bs.takeWhile (· ≠ 0) := by
  induction bs with
  | nil => simp at h
  | cons b bs ih =>
    simp only [List.cons_append, List.takeWhile_cons]
    by_cases hb : b = 0
    · simp [hb]
    · have : 0 ∈ bs := by
        rcases List.mem_cons.1 h with h | h
        · exact absurd h.symm hb
        · exact h
      simp only [hb, ne_eq, not_false_eq_true, decide_true, if_true]
      rw [← ih this]

theorem cText_append {bs cs : List UInt8} (h : 0 ∈ bs) : cText (bs ++ cs) = .ok (bs.takeWhile (· ≠ 0)) := by
  unfold cText
  rw [if_pos (by simp [h]), takeWhile_append_zero h]

/-- the text `diff` reads from a string leaf -/
theorem leafText_spec {m : Mem} {x : Info} {d : DataType} (hid : d.id = .char8Str) (hn : 0 < d.n)
    (hs : Strings m (.leaf x d)) {as : List (List UInt8)} (he : elems m x.data d = as.map (·.map some))
    (hl : as.length = d.n.toNat)
    (ha : ∀ (i : Nat) b, as[i]? = some b → b.length = 1 ∧ m.load x.data (d.elementIndex i) 1 = .ok b) :
    leafText m x d = .ok (as.flatten.takeWhile (· ≠ 0)) ∧ 0 ∈ as.flatten := by
  obtain ⟨s1, s2, s3, s4⟩ := hs hid
  have h0 : 0 ∈ as.flatten := by
    rcases s4 with s4 | s4
    · omega
    · rw [he, List.mem_map] at s4
      obtain ⟨b, hb, hb'⟩ := s4
      rw [List.mem_flatten]
      refine ⟨b, hb, ?_⟩
      have : b = [0] := by
        cases b with
        | nil => simp at hb'
        | cons c cs => simp at hb'; simp [hb']
      simp [this]
  refine ⟨?_, h0⟩
  unfold leafText
  by_cases hc : d.isCompact = true
  · rw [if_pos hc]
    simp only [DataType.isCompact, DataType.spannedBytes, DataType.bytesCompact, hid, TypeId.bytes, s1, Bool.and_eq_true,
      beq_iff_eq] at hc
    have hc' : d.offset + d.stride * (d.n - 1) + 1 = d.n := by have := hc.2; simpa using this
    have hm : 0 ≤ (d.stride - 1) * (d.n - 1) := Int.mul_nonneg (by omega) (by omega)
    have hm' : (d.stride - 1) * (d.n - 1) = d.stride * (d.n - 1) - (d.n - 1) := by rw [Int.sub_mul]; omega
    have hoff : d.offset = 0 := by omega
    have hz : (d.stride - 1) * (d.n - 1) = 0 := by omega
    have hst : d.n = 1 ∨ d.stride = 1 := by
      rcases Int.mul_eq_zero.1 hz with h | h <;> omega
    have hlen : 0 < as.length := by omega
    obtain ⟨l1, l2⟩ := ha 0 as[0] (List.getElem?_eq_getElem hlen)
    cases hx : x.data with
    | none => rw [hx] at l2; simp [Mem.load] at l2
    | some q =>
      simp only
      have hidx : ∀ i : Nat, i < as.length → d.elementIndex i = i := by
        intro i hi
        unfold DataType.elementIndex
        rcases hst with h | h
        · have : i = 0 := by omega
          subst this; simp [hoff]
        · rw [h, hoff]; omega
      have hi0 := hidx 0 hlen
      rw [hx] at l2
      simp only [Mem.load, Nat.one_ne_zero, if_false] at l2
      cases hb : m[q.blk]? with
      | none => rw [hb] at l2; simp at l2
      | some ob =>
        cases ob with
        | none => rw [hb] at l2; simp at l2
        | some blk =>
          rw [hb] at l2
          simp only at l2 ⊢
          simp only [Int.natCast_zero] at hi0 l2
          rw [hi0] at l2 ⊢
          have hq : 0 ≤ q.off := by
            split at l2
            · rename_i h; simp at h; omega
            · cases l2
          rw [if_neg (by omega)]
          have hpre : ∀ i : Nat, i < as.length → as[i]? = (blk.drop (q.off + 0).toNat)[i]?.map (fun b => [b]) := by
            intro i hi
            obtain ⟨r1, r2⟩ := ha i as[i] (List.getElem?_eq_getElem hi)
            rw [hx] at r2
            simp only [Mem.load, Nat.one_ne_zero, if_false, hb] at r2
            rw [hidx i hi] at r2
            split at r2
            · rename_i h
              injection r2 with r2
              rw [List.getElem?_eq_getElem hi, List.getElem?_drop]
              rw [← r2]
              have hi' : (q.off + 0).toNat + i < blk.length := by omega
              rw [show (q.off + (i : Int)).toNat = (q.off + 0).toNat + i by omega, List.drop_eq_getElem_cons hi',
                List.getElem?_eq_getElem hi']
              rfl
            · cases r2
          have hflat : as.flatten = (blk.drop (q.off + 0).toNat).take as.length := by
            have : as = ((blk.drop (q.off + 0).toNat).take as.length).map (fun b => [b]) := by
              apply List.ext_getElem?
              intro i
              by_cases hi : i < as.length
              · rw [hpre i hi, List.getElem?_map, List.getElem?_take_of_lt hi]
              · rw [List.getElem?_eq_none (by omega), List.getElem?_map, List.getElem?_take_eq_none (by omega)]; rfl
            have e := congrArg List.flatten this
            rw [e]
            generalize (blk.drop (q.off + 0).toNat).take as.length = l
            induction l with
            | nil => rfl
            | cons a l ih => simp [ih]
          have hsplit : blk.drop (q.off + 0).toNat = as.flatten ++ (blk.drop (q.off + 0).toNat).drop as.length := by
            rw [hflat, List.take_append_drop]
          rw [hsplit]
          exact cText_append h0
  · rw [if_neg hc, loadChars_spec ha d.n.toNat 0 (by omega), Res.bind_ok]
    have := cText_append (cs := []) h0
    simpa using this

theorem textOf_bytes {as : List (List UInt8)} (h : as ≠ []) :
    textOf (as.map (·.map some)) = some ((as.flatten.takeWhile (· ≠ 0)).map some) := by
  unfold textOf
  rw [if_neg (by simpa using h)]
  congr 1
  have : (as.map (·.map some)).flatten = as.flatten.map some := by
    simp [List.map_flatten]
  rw [this, List.takeWhile_map]
  congr 1
  congr 1
  funext b
  simp

theorem prefix_map_some {a b : List UInt8} : a.map some <+: b.map some ↔ a <+: b := by
  constructor
  · rintro ⟨t, ht⟩
    have hb : b = a ++ b.drop a.length := by
      have h1 := congrArg (List.take a.length) ht
      rw [List.take_left' (by simp), ← List.map_take, map_some_inj] at h1
      conv_lhs => rw [← List.take_append_drop a.length b]
      rw [← h1]
    exact ⟨_, hb.symm⟩
  · rintro ⟨t, rfl⟩; simp

theorem stringDiff_false {compat : Bool} {m : Mem} {x y : Info} {d e : DataType} (hd : d.id = .char8Str) (he : e.id = .char8Str)
    (rd : Readable m (.leaf x d)) (re : Readable m (.leaf y e)) (sd : Strings m (.leaf x d)) (se : Strings m (.leaf y e))
    (big : Bool) (eps : FVal) :
    (∃ r, stringDiff compat m x d y e = .ok r) ∧
    (stringDiff compat m x d y e = .ok false ↔ LeafSame compat big eps .char8Str (elems m x.data d) (elems m y.data e)) := by
  have hne1 : d.id ≠ .empty := by rw [hd]; decide
  have hne2 : e.id ≠ .empty := by rw [he]; decide
  obtain ⟨as, a1, a2, a3⟩ := read_elems rd hne1
  obtain ⟨bs, b1, b2, b3⟩ := read_elems re hne2
  have hn := rd.2.2.1
  have hm := re.2.2.1
  rw [hd] at a3; rw [he] at b3
  have ta := fun h => leafText_spec hd h sd a1 a2 a3
  have tb := fun h => leafText_spec he h se b1 b2 b3
  have hLS : LeafSame compat big eps .char8Str (elems m x.data d) (elems m y.data e) ↔
      match textOf (elems m x.data d), textOf (elems m y.data e) with
      | none, none => True
      | some t, some o => if compat then t <+: o else t = o
      | _, _ => False := by unfold LeafSame; rw [if_neg (by decide), if_pos rfl]; exact Iff.rfl
  unfold stringDiff
  rw [if_neg (by omega), hLS, a1, b1]
  by_cases h0 : d.n = 0
  · have has : as = [] := List.length_eq_zero_iff.1 (by omega)
    by_cases g0 : e.n = 0
    · have hbs : bs = [] := List.length_eq_zero_iff.1 (by omega)
      rw [if_pos ⟨h0, g0⟩]; simp [has, hbs, textOf]
    · have hbs : bs ≠ [] := by intro h; rw [h] at b2; simp at b2; omega
      rw [if_neg (by omega), if_pos h0, (tb (by omega)).1, Res.bind_ok, textOf_bytes hbs]
      simp [has, textOf]
  · have has : as ≠ [] := by intro h; rw [h] at a2; simp at a2; omega
    rw [if_neg (by omega), if_neg h0]
    by_cases g0 : e.n = 0
    · have hbs : bs = [] := List.length_eq_zero_iff.1 (by omega)
      rw [if_pos g0, (ta (by omega)).1, Res.bind_ok, textOf_bytes has]
      simp [hbs, textOf]
    · have hbs : bs ≠ [] := by intro h; rw [h] at b2; simp at b2; omega
      rw [if_neg g0, (ta (by omega)).1, Res.bind_ok, (tb (by omega)).1, Res.bind_ok, textOf_bytes has, textOf_bytes hbs]
      refine ⟨⟨_, rfl⟩, ?_⟩
      simp only [Res.ok.injEq, textDiff_false]
      cases compat
      · simp only [Bool.false_eq_true, if_false]; exact map_some_inj.symm
      · simp only [if_true]; exact prefix_map_some.symm

theorem arrayDiff_false {compat : Bool} {c : DiffCfg} {m : Mem} {x y : Info} {d e : DataType} (hid : d.id = e.id) (hne : d.id ≠ .empty)
    (rd : Readable m (.leaf x d)) (re : Readable m (.leaf y e)) (sd : Strings m (.leaf x d)) (se : Strings m (.leaf y e)) :
    arrayDiff compat c m x d y e = .ok false ↔
      LeafSame compat c.big c.eps d.id (elems m x.data d) (elems m y.data e) := by
  unfold arrayDiff
  by_cases hs : d.id = .char8Str
  · rw [if_pos hs, hs]
    exact (stringDiff_false hs (hid ▸ hs) rd re sd se c.big c.eps).2
  · rw [if_neg hs]
    obtain ⟨as, a1, a2, a3⟩ := read_elems rd hne
    obtain ⟨bs, b1, b2, b3⟩ := read_elems re (hid ▸ hne)
    have hn := rd.2.2.1
    have hm := re.2.2.1
    have h3 := rd.1
    have h4 := rd.2.1
    have hLS : LeafSame compat c.big c.eps d.id (elems m x.data d) (elems m y.data e) ↔
        Pairs compat (fun a b => match format d.id with
          | some f => Near c.big c.eps f a b
          | none => a = b) (as.map (·.map some)) (bs.map (·.map some)) := by
      unfold LeafSame
      rw [if_neg hne, if_neg hs, a1, b1]
      cases format d.id <;> rfl
    rw [hLS]
    have key := fun h => elemsDiff_false (c := c) hid hs hne h3 h4 a3 b3 d.n.toNat 0 (by omega) h
    rw [List.drop_zero, List.drop_zero] at key
    cases compat
    · simp only [Bool.false_eq_true, if_false]
      rw [pairs_pre]
      split
      · rename_i h
        constructor
        · intro h'; cases h'
        · rintro ⟨-, h'⟩; simp at h'; omega
      · rename_i h
        rw [key (by omega)]
        constructor
        · intro h'; exact ⟨h', by simp; omega⟩
        · exact fun h' => h'.1
    · simp only [if_true]
      split
      · rename_i h
        constructor
        · intro h'; cases h'
        · intro h'; have := pairs_length h'; simp at this; omega
      · rename_i h
        exact key (by omega)

end Conduit
