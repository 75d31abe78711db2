import Verif.Model.ListOf
import Verif.Lemmas.PlainMsg2
import Verif.Lemmas.Gather
namespace Conduit
namespace Relay
open Spec Spec.Tree Schema Node

theorem flatL_append (a b : List Val) : flatL (a ++ b) = flatL a ++ flatL b := by
  induction a with
  | nil => rfl
  | cons x a ih => rw [List.cons_append, flatL, flatL, ih, List.append_assoc]

theorem valL_map (m : Mem) (l : List Node) : valL m l = l.map (val m) := by
  induction l with
  | nil => rfl
  | cons x l ih => rw [valL, ih, List.map_cons]

theorem schemaL_map (l : List Node) : schemaL l = l.map Node.schema := by
  induction l with
  | nil => rfl
  | cons x l ih => rw [schemaL, ih, List.map_cons]

theorem listEntries_succ (p : Option Ptr) (s : Schema) (k : Nat) :
    listEntries p s (k + 1) = listEntries p s k ++ [walk (p.map fun q => ⟨q.blk, q.off + k * s.totalBytesCompact⟩) false s] := by
  simp [listEntries, List.range_succ]

theorem schema_entries (p : Option Ptr) (s : Schema) (k : Nat) : schemaL (listEntries p s k) = List.replicate k s := by
  rw [schemaL_map, listEntries, List.map_map]
  apply List.ext_getElem?
  intro i
  simp only [List.getElem?_map, List.getElem?_replicate]
  by_cases h : i < k
  · rw [List.getElem?_range h, if_pos h]; simp [schema_walk]
  · rw [List.getElem?_eq_none (by simp; omega), if_neg h]; rfl

/-- the bytes of the entries, where they are -/
theorem flat_entries (m : Mem) (q : Ptr) (s : Schema) (T : Nat) (hc : CountsOK s) (hT : totalBytesCompact s = T) : ∀ k : Nat,
    flatL (valL m (listEntries (some q) s.compactTo k)) = (List.range (k * T)).map fun (j : Nat) => m.byte q.blk (q.off + j)
  | 0 => by simp [listEntries, valL, flatL]
  | k + 1 => by
    rw [listEntries_succ, valL_map, List.map_append, ← valL_map, flatL_append, flat_entries m q s T hc hT k]
    have h := flat_walk_compact m ((some q).map fun q => ⟨q.blk, q.off + k * totalBytesCompact s.compactTo⟩) false s 0 hc
    simp only [List.map_cons, List.map_nil, flatL, List.append_nil]
    rw [show s.compactTo = compactAt s 0 from rfl] at h ⊢
    rw [h, total_compactAt, hT, Nat.succ_mul, List.range_add, List.map_append, Int.toNat_natCast]
    congr 1
    unfold Spec.run
    simp only [Option.map_some, List.map_map]
    apply List.map_congr_left
    intro j _
    simp only [Mem.byteAt, Function.comp]
    congr 1
    push_cast
    omega

theorem owned_entries (p : Option Ptr) (s : Schema) : ∀ k : Nat, ownedL (listEntries p s k) = []
  | k => by
    unfold listEntries
    generalize List.range k = l
    induction l with
    | nil => rfl
    | cons a l ih => rw [List.map_cons, ownedL, owned_walk_false, ih]; rfl

theorem blankSL_replicate (s : Schema) (k : Nat) : blankSL (List.replicate k s) = List.replicate k (blankS s) := by
  induction k with
  | zero => rfl
  | succ k ih => rw [List.replicate_succ, blankSL, ih, List.replicate_succ]

theorem leavesL_replicate {s : Schema} {k : Nat} {d : DataType} (h : d ∈ leavesL (List.replicate k s)) : d ∈ s.leaves := by
  induction k with
  | zero => simp [leavesL] at h
  | succ k ih =>
    rw [List.replicate_succ, leavesL, List.mem_append] at h
    exact h.elim id ih

theorem total_replicate (s : Schema) (k : Nat) : totalBytesCompactL (List.replicate k s) = k * totalBytesCompact s := by
  induction k with
  | zero => simp [totalBytesCompactL]
  | succ k ih =>
    rw [List.replicate_succ, totalBytesCompactL, ih]
    push_cast
    rw [Int.add_mul]; omega

/-- a list of entries can be read where its bytes exist -/
theorem readable_entries {m : Mem} {q : Ptr} {s : Schema} {T k : Nat} {x : Info} (hl : ∀ d ∈ s.leaves, LeafOK d)
    (hT : totalBytesCompact s = T) (hb : ∀ j : Nat, j < k * T → (m.byte q.blk (q.off + j)).isSome) :
    Readable m (.lst x (listEntries (some q) s.compactTo k)) := by
  apply readable_of_flat
  · intro d hd
    simp only [schema, leaves, schema_entries] at hd
    exact leavesOK_compactAt s 0 hl d (leavesL_replicate hd)
  · intro b hm
    rw [val, flat, flat_entries m q s T (fun d hd => (hl d hd).1) hT] at hm
    obtain ⟨j, h1, rfl⟩ := List.mem_map.1 hm
    exact hb j (List.mem_range.1 h1)

theorem listOf_ok {s : Schema} {T : Nat} (hT : totalBytesCompact s = T) (k : Nat) {dest : Node} {m : Mem}
    (hd : GoodOwners m (owned dest)) :
    ∃ m1, dest.releaseMem m = .ok m1 ∧ m1.length = m.length ∧ (∀ b, b ∉ (owned dest).map Ptr.blk → m1[b]? = m[b]?) ∧
      listOf s k dest m = .ok ((m1.alloc (k * T)).1,
        .lst ⟨some ⟨m.length, 0⟩, true⟩ (listEntries (some ⟨m.length, 0⟩) s.compactTo k)) := by
  obtain ⟨m1, a1, a2⟩ := releaseMem_spec dest m hd
  refine ⟨m1, a1, a2.1, a2.2, ?_⟩
  unfold listOf Node.reset
  rw [a1, bind_ok, bind_ok]
  simp only
  rw [show totalBytesCompact s.compactTo = (T : Int) by rw [Schema.compactTo, total_compactAt, hT], allocate,
    if_neg (by have := Int.mul_nonneg (Int.natCast_nonneg T) (Int.natCast_nonneg k); omega),
    show ((T : Int) * (k : Int)).toNat = k * T by rw [← Int.natCast_mul, Int.toNat_natCast, Nat.mul_comm], ← a2.1]
  rfl

theorem starts_equal (T : Nat) : ∀ (xs : List (List UInt8)) (a : Nat), (∀ x ∈ xs, x.length = T) →
    (List.range' a xs.length).map (fun (i : Nat) => (i : Int) * T) = starts (a * T) xs
  | [], _, _ => rfl
  | x :: xs, a, h => by
    rw [List.length_cons, List.range'_succ, List.map_cons, starts_equal T xs (a + 1) (fun y hy => h y (by simp [hy])), starts, h x (by simp)]
    congr 2
    push_cast
    rw [Int.add_mul]; omega

theorem flatten_length {T : Nat} : ∀ xs : List (List UInt8), (∀ x ∈ xs, x.length = T) → xs.flatten.length = xs.length * T
  | [], _ => by simp
  | x :: xs, h => by
    rw [List.flatten_cons, List.length_append, flatten_length xs (fun y hy => h y (by simp [hy])), h x (by simp), List.length_cons,
      Nat.succ_mul, Nat.add_comm]

/-- what the receiver of `gather` and `all_gather` gets -/
theorem gatherList_ok {own : Node} {mo : Mem} (hr : Readable mo own) (h2 : totalBytesCompact own.schema < 2 ^ 31)
    {parts : List (List UInt8)} (hp : ∀ x ∈ parts, (x.length : Int) = totalBytesCompact own.schema) {dest : Node} {m : Mem}
    (hd : GoodOwners m (owned dest)) :
    ∃ m' n', gatherList own parts dest m = .ok (m', n') ∧ flat (val m' n') = parts.flatten.map some ∧
      blank (val m' n') = .lst (List.replicate parts.length (blank (val mo own))) ∧
      Readable m' n' ∧ owned n' = [⟨m.length, 0⟩] ∧ GoodOwners m' (owned n') ∧
      (∀ b, b < m.length → b ∉ (owned dest).map Ptr.blk → ∀ i, m'.byte b i = m.byte b i) := by
  have hl := readable_leaves own hr
  have hc : CountsOK own.schema := fun d h => (hl d h).1
  obtain ⟨T, hT⟩ := Int.eq_ofNat_of_zero_le (total_nonneg _ hc)
  have hT' : totalBytesCompact own.schema = (T : Int) := hT
  have hp' : ∀ x ∈ parts, x.length = T := fun x hx => by have := hp x hx; omega
  have hTc : totalBytesCompact own.schema.compactTo = (T : Int) := by rw [Schema.compactTo, total_compactAt, hT']
  have hidem : own.schema.compactTo.compactTo = own.schema.compactTo := compactAt_idem _ _ _
  obtain ⟨m1, a1, a2, a3, a4⟩ := listOf_ok hTc parts.length hd
  rw [hidem] at a4
  have hlen := flatten_length parts hp'
  obtain ⟨m2, g1, g2, g3, g4⟩ := gatherv_spec ⟨m.length, 0⟩ parts 0 (m1.alloc (parts.length * T)).1 (by
    intro k hk
    show ((m1.alloc (parts.length * T)).1.byte m.length (0 + 0 + k)).isSome
    rw [← a2, Mem.byte_alloc_new, if_pos (by omega)]; rfl)
  have hbyte : ∀ i : Nat, i < parts.flatten.length → m2.byte m.length (0 + i) = parts.flatten[i]? := by
    intro i hi
    rw [g4, if_pos ⟨rfl, by simp, by show (0 : Int) + i < 0 + 0 + _; omega⟩]
    simp
  refine ⟨m2, .lst ⟨some ⟨m.length, 0⟩, true⟩ (listEntries (some ⟨m.length, 0⟩) own.schema.compactTo parts.length), ?_, ?_, ?_, ?_, ?_, ?_, ?_⟩
  · unfold gatherList
    rw [a4, bind_ok, hT', castInt_small (by omega) (by omega), if_neg (by
      rw [Bool.not_eq_true, List.any_eq_false]
      intro x hx
      simp [hp' x hx])]
    have := starts_equal T parts 0 hp'
    rw [← List.range_eq_range', show ((0 : Nat) : Int) * T = 0 by simp] at this
    rw [this]
    show (gatherv (some ⟨m.length, 0⟩) _ _ >>= _) = _
    rw [g1, bind_ok]
  · rw [val, flat, flat_entries m2 ⟨m.length, 0⟩ own.schema T hc hT', ← hlen]
    apply List.ext_getElem?
    intro i
    simp only [List.getElem?_map]
    by_cases hi : i < parts.flatten.length
    · rw [List.getElem?_range hi, Option.map_some, hbyte i hi, List.getElem?_eq_getElem hi]; rfl
    · rw [List.getElem?_eq_none (by rw [List.length_range]; omega), List.getElem?_eq_none (by omega)]; rfl
  · rw [blank_val, blank_val, schema, schema_entries, blankS, blankSL_replicate, Schema.compactTo, blankS_compactAt]
  · refine readable_entries hl hT' ?_
    intro j hj
    show (m2.byte m.length (0 + j)).isSome
    rw [hbyte j (by omega), List.getElem?_eq_getElem (by omega)]; rfl
  · rw [owned, owned_entries]; simp [ownPtr]
  · rw [owned, owned_entries]
    refine ⟨by simp [ownPtr], fun p hp => ?_⟩
    simp only [ownPtr, if_true, List.append_nil, Option.toList, List.mem_singleton] at hp
    subst hp
    refine ⟨rfl, live_iff.2 ?_⟩
    rw [g3, ← a2]
    simp [Mem.size, Mem.alloc]
  · intro b hb hb' i
    rw [g4, if_neg (by simp only; omega), Mem.byte_alloc_old _ _ _ _ (by omega)]
    unfold Mem.byte
    rw [a3 b hb']

theorem load_shift {m : Mem} {q q' : Ptr} {o : Int} (h1 : q.blk = q'.blk) (h2 : q.off + o = q'.off) (len : Nat) :
    m.load (some q) o len = m.load (some q') 0 len := by
  unfold Mem.load
  simp only [h1, h2, Int.add_zero]

/-- `gather` sends what `send` sends, if a node that is sent from its own memory begins at its data pointer -/
theorem gatherData_eq {base : Nat → Int} {n : Node} {m : Mem} (hs : ∀ p o, ownData base n = some (p, o) →
      ∃ q q' : Ptr, p = some q ∧ n.info.data = some q' ∧ q.blk = q'.blk ∧ q.off + o = q'.off) :
    gatherData base n m = plainSend base n m := by
  unfold gatherData plainSend
  cases ho : ownData base n with
  | some x =>
    obtain ⟨p, o⟩ := x
    obtain ⟨q, q', rfl, h2, h3, h4⟩ := hs _ _ ho
    simp only
    rw [bind_ok, bind_ok, h2]
    simp only
    split
    · rfl
    · rw [load_shift h3 h4]
  | none =>
    simp only
    cases compactTo n new m with
    | ok c => rw [bind_ok, bind_ok, bind_ok, bind_ok]
    | error => rfl
    | ub => rfl

end Relay
end Conduit
