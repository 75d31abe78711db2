import Verif.Spec.PureJson
import Verif.Lemmas.NodeJson3
/-
Reading plain JSON (protocol json).
-/
namespace Conduit
open Spec Spec.Tree Schema Node Gen

theorem lowBytes_range : ∀ (k n : Nat), lowBytes k n = (List.range k).map (fun i => UInt8.ofNat (n / 256 ^ i))
  | 0, _ => rfl
  | k + 1, n => by
    have h0 : UInt8.ofNat (n % 256) = UInt8.ofNat n := by
      apply UInt8.toNat.inj; simp
    rw [lowBytes, lowBytes_range k, List.range_succ_eq_map]
    simp [h0, Nat.pow_succ', Nat.div_div_eq_div_mul]

theorem machineBytes_word (big : Bool) (t : IntTy) (ht : t.width = .w64) (v : Int) :
    (machineBytes big t v).map some = word big v ∧ (machineBytes big t v).length = 8 := by
  obtain ⟨s, w⟩ := t
  subst ht
  unfold machineBytes word
  simp only [IntTy.size, IntWidth.card, lowBytes_range]
  cases big <;> simp [List.map_reverse, Function.comp_def]

theorem numType_cases (L : Lib) (v : JV) :
    (∃ i, v = .int i ∧ numType L v = .int64) ∨ (intOf v = none ∧ (dblOf L v).isSome ∧ numType L v = .float64) ∨
    (intOf v = none ∧ dblOf L v = none ∧ numType L v = .empty) := by
  cases v with
  | int i => exact .inl ⟨i, rfl, rfl⟩
  | real t => exact .inr (.inl ⟨rfl, rfl, rfl⟩)
  | str s =>
    right
    by_cases hs : s = []
    · subst hs
      exact .inr ⟨rfl, by simp [dblOf], by simp [numType, stringIsDouble]⟩
    · cases hd : L.strtod s with
      | none => exact .inr ⟨rfl, by simp [dblOf, hd], by simp [numType, stringIsDouble, hd]⟩
      | some y => exact .inl ⟨rfl, by simp [dblOf, hs, hd], by simp [numType, stringIsDouble, hd, hs]⟩
  | null => exact .inr (.inr ⟨rfl, rfl, rfl⟩)
  | bool b => exact .inr (.inr ⟨rfl, rfl, rfl⟩)
  | arr vs => exact .inr (.inr ⟨rfl, rfl, rfl⟩)
  | obj vs => exact .inr (.inr ⟨rfl, rfl, rfl⟩)

theorem homLoop_float (L : Lib) : ∀ vs : List JV,
    homLoop L .float64 vs = if (allOf (dblOf L) vs).isSome then .float64 else .empty
  | [] => rfl
  | v :: vs => by
    have ih := homLoop_float L vs
    rw [homLoop, if_neg (by simp)]
    rcases numType_cases L v with ⟨i, rfl, h⟩ | ⟨h1, h2, h⟩ | ⟨h1, h2, h⟩
    · rw [h, if_neg (by decide), ih]
      simp only [allOf, dblOf]
      rcases Option.eq_none_or_eq_some (allOf (dblOf L) vs) with e | ⟨y', e⟩ <;> simp [e]
    · rw [h, if_neg (by decide), ih]
      obtain ⟨y, hy⟩ := Option.isSome_iff_exists.1 h2
      simp only [allOf, hy]
      rcases Option.eq_none_or_eq_some (allOf (dblOf L) vs) with e | ⟨y', e⟩ <;> simp [e]
    · rw [h, if_pos rfl]
      simp [allOf, h2]

theorem homLoop_int (L : Lib) : ∀ vs : List JV,
    homLoop L .int64 vs = if (allOf intOf vs).isSome then .int64 else if (allOf (dblOf L) vs).isSome then .float64 else .empty
  | [] => rfl
  | v :: vs => by
    have ih := homLoop_int L vs
    rw [homLoop]
    rcases numType_cases L v with ⟨i, rfl, h⟩ | ⟨h1, h2, h⟩ | ⟨h1, h2, h⟩
    · rw [h, if_neg (by decide), if_neg (by decide), ih]
      simp only [allOf, dblOf, intOf]
      rcases Option.eq_none_or_eq_some (allOf (dblOf L) vs) with e | ⟨y', e⟩ <;>
        rcases Option.eq_none_or_eq_some (allOf intOf vs) with e' | ⟨y'', e'⟩ <;> simp [e, e']
    · rw [h, if_pos (by decide), homLoop_float]
      obtain ⟨y, hy⟩ := Option.isSome_iff_exists.1 h2
      simp only [allOf, hy, h1]
      rcases Option.eq_none_or_eq_some (allOf (dblOf L) vs) with e | ⟨y', e⟩ <;> simp [e]
    · rw [h, if_neg (by decide), if_pos rfl]
      simp [allOf, h2, h1]

theorem homType_spec (L : Lib) (vs : List JV) :
    homType L vs = match allOf intOf vs, allOf (dblOf L) vs with
      | some (_ :: _), _ => .int64
      | _, some (_ :: _) => .float64
      | _, _ => .empty := by
  cases vs with
  | nil => rfl
  | cons v vs =>
    rw [homType]
    rcases numType_cases L v with ⟨i, rfl, h⟩ | ⟨h1, h2, h⟩ | ⟨h1, h2, h⟩
    · rw [h, if_neg (by decide), homLoop_int]
      simp only [allOf, dblOf, intOf]
      rcases Option.eq_none_or_eq_some (allOf (dblOf L) vs) with e | ⟨y', e⟩ <;>
        rcases Option.eq_none_or_eq_some (allOf intOf vs) with e' | ⟨y'', e'⟩ <;> simp [e, e']
    · rw [h, if_neg (by decide), homLoop_float]
      obtain ⟨y, hy⟩ := Option.isSome_iff_exists.1 h2
      simp only [allOf, hy, h1]
      rcases Option.eq_none_or_eq_some (allOf (dblOf L) vs) with e | ⟨y', e⟩ <;> simp [e]
    · rw [h, if_pos rfl]
      simp [allOf, h2, h1]

theorem getAll_of (L : Lib) (big : Bool) : ∀ (vs : List JV) (is : List Int), allOf intOf vs = some is → (∀ i ∈ is, i < 2 ^ 63) →
    ∃ nums, getAll getInt64 vs = .ok nums ∧ NumsBytes L big .int64 nums (is.map (machineBytes big ⟨true, .w64⟩)) ∧ is.length = vs.length
  | [], is, h, _ => by
    obtain rfl : is = [] := by simpa [allOf] using h.symm
    exact ⟨[], rfl, rfl, rfl⟩
  | v :: vs, is, h, hlt => by
    simp only [allOf] at h
    split at h
    · rename_i i is' hi his
      cases h
      obtain ⟨nums, h1, h2, h3⟩ := getAll_of L big vs is' his (fun i hi => hlt i (by simp [hi]))
      obtain ⟨j, rfl⟩ : ∃ j, v = .int j := by cases v <;> simp [intOf] at hi; exact ⟨_, rfl⟩
      obtain rfl : j = i := by simpa [intOf] using hi
      refine ⟨.int j :: nums, by rw [getAll, getInt64, if_pos (hlt j (by simp)), bind_ok, h1, bind_ok], ⟨_, _, rfl, ?_, h2⟩, by simp [h3]⟩
      simp only [Num.bytes, TypeId.intTy]
      have : machineBytes big ⟨true, .w64⟩ ((⟨true, .w64⟩ : IntTy).cast j) = machineBytes big ⟨true, .w64⟩ j := by
        unfold machineBytes
        rw [cast_emod]
      rw [this]
    · cases h

theorem getDoubles_of (L : Lib) (big : Bool) : ∀ (vs : List JV) (bs : List Nat), allOf (dblOf L) vs = some bs →
    ∃ nums, getDoubles L vs = .ok nums ∧ NumsBytes L big .float64 nums (bs.map (fun b : Nat => machineBytes big bits64 b)) ∧ bs.length = vs.length
  | [], is, h => by
    obtain rfl : is = [] := by simpa [allOf] using h.symm
    exact ⟨[], rfl, rfl, rfl⟩
  | v :: vs, bs, h => by
    simp only [allOf] at h
    split at h
    · rename_i b bs' hb hbs
      cases h
      obtain ⟨nums, h1, h2, h3⟩ := getDoubles_of L big vs bs' hbs
      refine ⟨.dbl b :: nums, ?_, ⟨_, _, rfl, ?_, h2⟩, by simp [h3]⟩
      · cases v <;> simp [dblOf] at hb <;> simp [getDoubles, h1, hb]
      · rfl
    · cases h

theorem fresh_init {t : TypeId} (ht : DataId t) (x : Info) (k : Nat) (md : Mem) :
    (Node.leaf x {}).init (DataType.ofId t k) md =
      .ok ((md.alloc (t.bytes * k)).1, .leaf ⟨some ⟨md.length, 0⟩, true⟩ (DataType.ofId t k)) := by
  have hsp : (DataType.ofId t k).spannedBytes = ((t.bytes * k : Nat) : Int) := by
    simp only [DataType.spannedBytes, DataType.ofId, Int.mul_sub]
    rw [Int.natCast_mul]; omega
  rw [init_empty_data x _ md ht (by omega), hsp, Int.toNat_natCast]

theorem fresh_elems {t : TypeId} (ht : DataId t) (es : List (List UInt8)) (hl : ∀ b ∈ es, b.length = t.bytes) (md : Mem) :
    ∃ m', storeElems (some ⟨md.length, 0⟩) t.bytes es 0 (md.alloc (t.bytes * es.length)).1 = .ok m' ∧
      Built (fun _ => False) md m' (.leaf t .default (es.map (fun b => b.map some))) (.leaf ⟨some ⟨md.length, 0⟩, true⟩ (DataType.ofId t es.length)) :=
  fill_elems (fun _ => False) (d := DataType.ofId t es.length) ht rfl rfl rfl hl md

theorem fresh_run {t : TypeId} (ht : DataId t) (es : List (List UInt8)) (hl : ∀ b ∈ es, b.length = t.bytes) (md : Mem) :
    ∃ m', (md.alloc (t.bytes * es.length)).1.store (some ⟨md.length, 0⟩) 0 es.flatten = .ok m' ∧
      Built (fun _ => False) md m' (.leaf t .default (es.map (fun b => b.map some))) (.leaf ⟨some ⟨md.length, 0⟩, true⟩ (DataType.ofId t es.length)) :=
  fill_run (fun _ => False) (d := DataType.ofId t es.length) ht rfl rfl rfl hl md

theorem fresh_scalar {t : TypeId} (ht : DataId t) (x : Info) (b : List UInt8) (hl : b.length = t.bytes) (md : Mem) :
    ∃ m' n, (Node.leaf x {}).setScalar t b md = .ok (m', n) ∧ Built (fun _ => False) md m' (.leaf t .default [b.map some]) n := by
  obtain ⟨m', h1, h2⟩ := fresh_run ht [b] (by simpa using hl) md
  refine ⟨m', _, ?_, h2⟩
  have hi := fresh_init ht x 1 md
  simp only [List.flatten_cons, List.flatten_nil, List.append_nil, List.length_singleton] at h1
  rw [setScalar]
  show ((Node.leaf x {}).init (DataType.ofId t (1 : Nat)) md >>= _) = _
  rw [hi, bind_ok]
  show ((md.alloc (t.bytes * 1)).1.store (some ⟨md.length, 0⟩) (DataType.elementIndex (DataType.ofId t 1) 0) b >>= _) = _
  rw [show DataType.elementIndex (DataType.ofId t 1) 0 = 0 by simp [DataType.elementIndex, DataType.ofId], h1, bind_ok]
  rfl

theorem fresh_string (x : Info) (s : List UInt8) (md : Mem) :
    ∃ m' n, (Node.leaf x {}).setString s md = .ok (m', n) ∧
      Built (fun _ => False) md m' (.leaf .char8Str .default ((s ++ [0]).map (fun b => [some b]))) n := by
  have ht : DataId .char8Str := by unfold DataId; decide
  obtain ⟨m', h1, h2⟩ := fresh_run ht ((s ++ [0]).map (fun b => [b])) (stringElems s) md
  rw [singles_flatten] at h1
  refine ⟨m', .leaf ⟨some ⟨md.length, 0⟩, true⟩ (DataType.ofId .char8Str ((s ++ [0]).map (fun b => [b])).length), ?_, by simpa [Function.comp_def] using h2⟩
  have hi := fresh_init ht x (s ++ [0]).length md
  rw [List.length_map] at h1 ⊢
  unfold setString
  dsimp only
  rw [hi, bind_ok]
  show ((md.alloc _).1.store (some ⟨md.length, 0⟩) (DataType.elementIndex (DataType.ofId .char8Str _) 0) (s ++ [0]) >>= _) = _
  rw [show ∀ k, DataType.elementIndex (DataType.ofId .char8Str k) 0 = 0 by intro k; simp [DataType.elementIndex, DataType.ofId], h1, bind_ok]

def PureClaim (L : Lib) (big : Bool) (v : JV) : Prop :=
  ∀ x md, x.alloced = false → ∃ m' n, walkP L big v x md = .ok (m', n) ∧ Built (fun _ => False) md m' (pureVal L big v) n

mutual
theorem pure_claim (L : Lib) (big : Bool) : ∀ v : JV, PureOK v → PureClaim L big v
  | .null, _, x, md, hx => by
    refine ⟨md, .leaf x {}, ?_, ?_⟩
    · rw [walkP]
      simp [reset, releaseMem, freeOwn, releasedInfo, info, dtype, hx]
    · refine ⟨rfl, ⟨by decide, by decide, by decide, fun h => absurd rfl h⟩, by simp [Spec.blocks], frame_refl md,
        ⟨⟨by simp [CleanInfo, hx], fun _ => hx⟩, ?_, ?_⟩⟩
      · simpa [owned, ownPtr, hx] using good_nil md
      · simp [owned, ownPtr, hx]
  | .bool b, _, x, md, _ => by
    obtain ⟨m', n, h1, h2⟩ := fresh_scalar (t := .uint8) (by unfold DataId; decide) x [if b then 1 else 0] rfl md
    exact ⟨m', n, by rw [walkP]; exact h1, h2⟩
  | .int i, _, x, md, _ => by
    by_cases hi : i < 2 ^ 63
    · obtain ⟨w1, w2⟩ := machineBytes_word big ⟨true, .w64⟩ rfl i
      obtain ⟨m', n, h1, h2⟩ := fresh_scalar (t := .int64) (by unfold DataId; decide) x _ w2 md
      rw [w1] at h2
      exact ⟨m', n, by rw [walkP, if_pos hi]; exact h1, by rw [pureVal, if_pos hi]; exact h2⟩
    · obtain ⟨w1, w2⟩ := machineBytes_word big ⟨false, .w64⟩ rfl i
      obtain ⟨m', n, h1, h2⟩ := fresh_scalar (t := .uint64) (by unfold DataId; decide) x _ w2 md
      rw [w1] at h2
      exact ⟨m', n, by rw [walkP, if_neg hi]; exact h1, by rw [pureVal, if_neg hi]; exact h2⟩
  | .real t, _, x, md, _ => by
    obtain ⟨w1, w2⟩ := machineBytes_word big bits64 rfl (L.double (.real t))
    obtain ⟨m', n, h1, h2⟩ := fresh_scalar (t := .float64) (by unfold DataId; decide) x _ w2 md
    rw [w1] at h2
    exact ⟨m', n, by rw [walkP]; exact h1, h2⟩
  | .str s, _, x, md, _ => by
    obtain ⟨m', n, h1, h2⟩ := fresh_string x (s.map charByte) md
    exact ⟨m', n, by rw [walkP]; exact h1, h2⟩
  | .arr vs, hok, x, md, hx => by
    have hh := homType_spec L vs
    obtain ⟨hlt, hvs⟩ := hok
    rw [walkP, pureVal]
    split at hh
    · rename_i i is hi
      rw [hh, if_pos rfl, hi]
      obtain ⟨nums, g1, g2, g3⟩ := getAll_of L big vs _ hi (hlt _ hi)
      have ht : DataId .int64 := by unfold DataId; decide
      have hw := fun i => machineBytes_word big ⟨true, .w64⟩ rfl i
      obtain ⟨m', h1, h2⟩ := fresh_elems ht ((i :: is).map (machineBytes big ⟨true, .w64⟩))
        (by intro b hb; obtain ⟨j, _, rfl⟩ := List.mem_map.1 hb; exact (hw j).2) md
      have hv : ((i :: is).map (machineBytes big ⟨true, .w64⟩)).map (fun b => b.map some) = (i :: is).map (word big) := by
        rw [List.map_map]
        exact List.map_congr_left (fun j _ => (hw j).1)
      rw [hv] at h2
      refine ⟨m', _, ?_, h2⟩
      rw [List.length_map] at h1 ⊢
      rw [← g3, fresh_init ht, bind_ok, g1, bind_ok]
      show (setNums L big ⟨some ⟨md.length, 0⟩, true⟩ (DataType.ofId .int64 (i :: is).length) nums 0 _ >>= _) = _
      rw [setNums_eq g2]
      rw [show DataType.elementIndex (DataType.ofId .int64 (i :: is).length) (0 : Nat) = 0 by simp [DataType.elementIndex, DataType.ofId]]
      show (storeElems (some ⟨md.length, 0⟩) _ _ 0 _ >>= _) = _
      rw [show (DataType.ofId .int64 (i :: is).length).stride = ((TypeId.int64.bytes : Nat) : Int) from rfl, h1, bind_ok]
    · rename_i b bs hb hni
      rw [hh, if_neg (by decide), if_pos rfl, hb]
      obtain ⟨nums, g1, g2, g3⟩ := getDoubles_of L big vs _ hb
      have ht : DataId .float64 := by unfold DataId; decide
      have hw := fun i : Nat => machineBytes_word big bits64 rfl i
      obtain ⟨m', h1, h2⟩ := fresh_elems ht ((b :: bs).map (fun b : Nat => machineBytes big bits64 b))
        (by intro b hb; obtain ⟨j, _, rfl⟩ := List.mem_map.1 hb; exact (hw j).2) md
      have hv : ((b :: bs).map (fun b : Nat => machineBytes big bits64 b)).map (fun b => b.map some) = (b :: bs).map (fun b : Nat => word big b) := by
        rw [List.map_map]
        exact List.map_congr_left (fun j _ => (hw j).1)
      rw [hv] at h2
      refine ⟨m', .leaf ⟨some ⟨md.length, 0⟩, true⟩ (DataType.ofId .float64 (((b :: bs).map (fun b : Nat => machineBytes big bits64 b)).length)), ?_, ?_⟩
      · rw [List.length_map] at h1 ⊢
        rw [← g3, fresh_init ht, bind_ok, g1, bind_ok]
        show (setNums L big ⟨some ⟨md.length, 0⟩, true⟩ (DataType.ofId .float64 (b :: bs).length) nums 0 _ >>= _) = _
        rw [setNums_eq g2]
        rw [show DataType.elementIndex (DataType.ofId .float64 (b :: bs).length) (0 : Nat) = 0 by simp [DataType.elementIndex, DataType.ofId]]
        show (storeElems (some ⟨md.length, 0⟩) _ _ 0 _ >>= _) = _
        rw [show (DataType.ofId .float64 (b :: bs).length).stride = ((TypeId.float64.bytes : Nat) : Int) from rfl, h1, bind_ok]
      · split
        · rename_i h'; exact absurd h' (hni _ _)
        · rename_i h' _; cases h'; exact h2
        · rename_i _ h'; exact absurd rfl (h' _ _)
    · rename_i h1 h2
      rw [hh, if_neg (by decide), if_neg (by decide)]
      obtain ⟨m', ns, g1, g2⟩ := pure_claimL L big vs hvs md
      refine ⟨m', .lst x ns, by rw [g1]; rfl, ?_⟩
      split
      · rename_i h'; exact absurd h' (h1 _ _)
      · rename_i h' _; exact absurd h' (h2 _ _)
      · exact g2.lst x hx
  | .obj ms, hok, x, md, hx => by
    obtain ⟨m', ns, g1, g2⟩ := pure_claimM L big ms hok.2 [] md (by simpa using hok.1)
    exact ⟨m', .obj x ns, by rw [walkP, g1]; rfl, g2.obj x hx⟩
theorem pure_claimL (L : Lib) (big : Bool) : ∀ vs : List JV, PureOKL vs → ∀ md,
    ∃ m' ns, walkPL L big vs md = .ok (m', ns) ∧ BuiltL (fun _ => False) md m' (pureValL L big vs) ns
  | [], _, md => ⟨md, [], rfl, BuiltL.nil _ md⟩
  | v :: vs, h, md => by
    obtain ⟨m1, c, h1, h2⟩ := pure_claim L big v h.1 {} md rfl
    obtain ⟨m2, cs, h3, h4⟩ := pure_claimL L big vs h.2 m1
    exact ⟨m2, c :: cs, by rw [walkPL, h1, bind_ok, h3, bind_ok], BuiltL.cons h2 h4⟩
theorem pure_claimM (L : Lib) (big : Bool) : ∀ ms : List (Str × JV), PureOKM ms → ∀ (es : List (Str × Node)) md,
    (es.map (·.1) ++ ms.map (·.1)).Nodup →
    ∃ m' ns, walkPM L big ms es md = .ok (m', es ++ ns) ∧ BuiltE (fun _ => False) md m' (pureValM L big ms) ns
  | [], _, es, md, _ => ⟨md, [], by simp [walkPM], BuiltE.nil _ md⟩
  | (n, v) :: ms, h, es, md, hn => by
    have hni : n ∉ es.map (·.1) := by
      intro hi
      rw [List.nodup_append] at hn
      exact hn.2.2 n hi n (by simp) rfl
    obtain ⟨m1, c, h1, h2⟩ := pure_claim L big v h.1 {} md rfl
    obtain ⟨m2, cs, h3, h4⟩ := pure_claimM L big ms h.2 (es ++ [(n, c)]) m1 (by simpa using hn)
    refine ⟨m2, (n, c) :: cs, ?_, BuiltE.cons n h2 h4⟩
    rw [walkPM, if_neg hni, h1, bind_ok, h3]
    simp
end

end Conduit
