import Verif.Lemmas.Csv4
/-
Lemmas about the rows of a table that is read (C47).
-/
namespace Conduit
open Spec Node Heap CsvFile HT

/-- one piece of a block written -/
theorem splice_get {bytes xs : List UInt8} {w i k n : Nat} (hx : xs.length = w) (hl : bytes.length = w * n) (hi : i < n) (hk : k < n) :
    ((bytes.take (w * i) ++ xs ++ bytes.drop (w * i + w)).drop (w * k)).take w =
      if k = i then xs else (bytes.drop (w * k)).take w := by
  have h1 : w * i + w ≤ w * n := by rw [← Nat.mul_succ]; exact Nat.mul_le_mul_left w hi
  have h2 : w * k + w ≤ w * n := by rw [← Nat.mul_succ]; exact Nat.mul_le_mul_left w hk
  have ht : (bytes.take (w * i)).length = w * i := by rw [List.length_take]; omega
  by_cases e : k = i
  · subst e
    rw [if_pos rfl, List.append_assoc, List.drop_append_of_le_length (by omega), List.drop_of_length_le (by omega), List.nil_append,
      List.take_append_of_le_length (by omega), List.take_of_length_le (by omega)]
  · rw [if_neg e]
    rcases Nat.lt_or_gt_of_ne e with hlt | hgt
    · have h3 : w * k + w ≤ w * i := by rw [← Nat.mul_succ]; exact Nat.mul_le_mul_left w hlt
      rw [List.append_assoc, List.drop_append_of_le_length (by omega), List.take_append_of_le_length (by rw [List.length_drop]; omega),
        List.drop_take, List.take_take, Nat.min_eq_left (by omega)]
    · have h3 : w * i + w ≤ w * k := by rw [← Nat.mul_succ]; exact Nat.mul_le_mul_left w hgt
      have hlen : (bytes.take (w * i) ++ xs).length = w * i + w := by rw [List.length_append, ht, hx]
      rw [List.drop_append, List.drop_of_length_le (by omega), List.nil_append, hlen, List.drop_drop]
      congr 2
      omega

/-- the blocks of the columns hold these values -/
structure Vals (w n : Nat) (m : Mem) (bs : List Nat) (vals : Nat → Nat → List UInt8) : Prop where
  nodup : bs.Nodup
  val : ∀ j b, bs[j]? = some b → ∃ bytes, m[b]? = some (some bytes) ∧ bytes.length = w * n ∧ ∀ i, i < n → (bytes.drop (w * i)).take w = vals j i

theorem Zeroed.vals {d : DataType} {m : Mem} {bs : List Nat} (z : Zeroed d m bs) {w n : Nat} (hd : d.spannedBytes.toNat = w * n) :
    Vals w n m bs (fun _ _ => List.replicate w 0) := by
  refine ⟨z.nodup, fun j b hb => ⟨_, z.zero b (List.mem_of_getElem? hb), by simp [hd], fun i hi => ?_⟩⟩
  have h1 : w * i + w ≤ w * n := by rw [← Nat.mul_succ]; exact Nat.mul_le_mul_left w hi
  rw [hd, List.drop_replicate, List.take_replicate, Nat.min_eq_left (by omega)]

theorem Vals.store {w n : Nat} {m : Mem} {bs : List Nat} {vals : Nat → Nat → List UInt8} (v : Vals w n m bs vals) (hw : 0 < w) {j b i : Nat}
    (hb : bs[j]? = some b) (hi : i < n) {xs : List UInt8} (hx : xs.length = w) {off : Int} (ho : off = ((w * i : Nat) : Int)) :
    ∃ m', m.store (some ⟨b, 0⟩) off xs = .ok m' ∧ Vals w n m' bs (fun j' i' => if j' = j ∧ i' = i then xs else vals j' i') := by
  obtain ⟨bytes, hm, hl, hv⟩ := v.val j b hb
  have h1 : w * i + w ≤ w * n := by rw [← Nat.mul_succ]; exact Nat.mul_le_mul_left w hi
  refine ⟨m.set b (some (bytes.take (w * i) ++ xs ++ bytes.drop (w * i + w))), ?_, v.nodup, fun j' b' hb' => ?_⟩
  · unfold Mem.store
    rw [if_neg (by omega)]
    simp only [hm]
    have hz : (((0 : Int) + off).toNat) = w * i := by omega
    rw [hz, if_pos ⟨by omega, by omega⟩, hx]
  · by_cases e : j' = j
    · subst e
      rw [hb] at hb'
      injection hb' with hb'
      subst hb'
      refine ⟨bytes.take (w * i) ++ xs ++ bytes.drop (w * i + w), ?_, ?_, fun k hk => ?_⟩
      · rw [List.getElem?_set_self (List.getElem?_eq_some_iff.1 hm).1]
      · simp only [List.length_append, List.length_take, List.length_drop]; omega
      · rw [splice_get hx hl hi hk]
        by_cases e : k = i
        · rw [if_pos e, if_pos ⟨rfl, e⟩]
        · rw [if_neg e, if_neg (by tauto)]; exact hv k hk
    · have hne : b ≠ b' := by
        rintro rfl
        obtain ⟨h1, e1⟩ := List.getElem?_eq_some_iff.1 hb
        obtain ⟨h2, e2⟩ := List.getElem?_eq_some_iff.1 hb'
        exact e ((v.nodup.getElem_inj_iff).1 (e2.trans e1.symm))
      obtain ⟨bytes', hm', hl', hv'⟩ := v.val j' b' hb'
      refine ⟨bytes', by rw [List.getElem?_set_ne hne]; exact hm', hl', fun k hk => ?_⟩
      rw [if_neg (by tauto)]; exact hv' k hk

section
variable {L : Prop} {pn ps : Option Nat} {own : Bool}

/-- one entry -/
theorem readCell_spec {Lb : Csv.Lib} {f64 : Bool} (snd : Sound Lb f64) {h : Heap} {T : HT} (g : Good h L pn ps own T) {names : List Str}
    (hpl : ∀ n ∈ names, Plain n) {n : Nat} {bs : List Nat} (c : Cols (DataType.ofId (typeId f64) n) T (names.map parts) bs)
    {vals : Nat → Nat → List UInt8} (v : Vals (width f64) n h.mem bs vals) {row j : Nat} (hrow : row < n) (e : Str) :
    if j < names.length then match Lb.num f64 e with
      | none => Csv.readCell Lb f64 names T.nid row j h e = .error
      | some bytes => ∃ m, Csv.readCell Lb f64 names T.nid row j h e = .ok (h.withMem m) ∧ Good (h.withMem m) L pn ps own T ∧
          HT.Step h T (h.withMem m) T ∧ Vals (width f64) n m bs (fun j' i' => if j' = j ∧ i' = row then bytes else vals j' i')
    else j = names.length → Csv.readCell Lb f64 names T.nid row j h e = .ub := by
  by_cases hj : j < names.length
  · rw [if_pos hj]
    have hname : names[j]? = some names[j] := List.getElem?_eq_getElem hj
    have hmem : names[j] ∈ names := List.getElem_mem hj
    obtain ⟨D, b, hb, hf, hc⟩ := c.col j (parts names[j]) (by rw [List.getElem?_map, hname]; rfl)
    have hfe := fetch_found (parts names[j]) T pn ps own D g (parts_ne_nil _) (parts_part (hpl _ hmem)) hf
    rw [slashed_parts] at hfe
    obtain ⟨pn', ps', own', gD⟩ := g.find hf
    obtain ⟨dn, dsn, rfl⟩ := hc
    obtain ⟨q, hq, _⟩ := gD.get
    have hcell : Csv.readCell Lb f64 names T.nid row j h e = (match Lb.num f64 e with
      | none => .error
      | some bytes => do
        let m ← h.mem.store (some ⟨b, 0⟩) ((DataType.ofId (typeId f64) n).elementIndex row) bytes
        .ok { h with mem := m }) := by
      unfold Csv.readCell
      rw [if_neg (by omega)]
      simp only [Res.ofIdx, hname, Res.bind_ok, hfe]
      rw [show getN h (HT.mk dn dsn ⟨some ⟨b, 0⟩, true⟩ (.leaf (DataType.ofId (typeId f64) n)) []).nid = _ from getN_some hq,
        show dtypeN h (HT.mk dn dsn ⟨some ⟨b, 0⟩, true⟩ (.leaf (DataType.ofId (typeId f64) n)) []).nid = _ from dtypeN_spec gD]
      rfl
    rw [hcell]
    cases hn : Lb.num f64 e with
    | none => rfl
    | some bytes =>
      simp only
      obtain ⟨m', e1, v1⟩ := v.store (xs := bytes) (by unfold width; split <;> decide) hb hrow (snd e bytes hn)
        (off := (DataType.ofId (typeId f64) n).elementIndex row) (by cases f64 <;> simp [DataType.elementIndex, DataType.ofId, typeId, width, TypeId.bytes] <;> omega)
      have sb := SameB.store e1
      exact ⟨m', by rw [e1]; rfl, g.mem sb, Step.mem g.bounded sb, v1⟩
  · rw [if_neg hj]
    rintro rfl
    unfold Csv.readCell
    rw [if_neg (by omega)]
    simp only [Res.ofIdx, List.getElem?_eq_none (Nat.le_refl _)]
    rfl

/-- the values after the entries of a row from column `j` on -/
def rowVals (Lb : Csv.Lib) (f64 : Bool) (row : Nat) (j : Nat) (es : List Str) (vals : Nat → Nat → List UInt8) : Nat → Nat → List UInt8 :=
  fun j' i' => if i' = row ∧ j ≤ j' then (match es[j' - j]? with
    | some e => (Lb.num f64 e).getD []
    | none => vals j' i') else vals j' i'

theorem Vals.congr {w n : Nat} {m : Mem} {bs : List Nat} {vals vals' : Nat → Nat → List UInt8} (v : Vals w n m bs vals)
    (h : ∀ j i, i < n → vals' j i = vals j i) : Vals w n m bs vals' :=
  ⟨v.nodup, fun j b hb => by
    obtain ⟨bytes, h1, h2, h3⟩ := v.val j b hb
    exact ⟨bytes, h1, h2, fun i hi => (h3 i hi).trans (h j i hi).symm⟩⟩

/-- one row -/
theorem rowFold_spec {Lb : Csv.Lib} {f64 : Bool} (snd : Sound Lb f64) {T : HT} {names : List Str}
    (hpl : ∀ n ∈ names, Plain n) {n : Nat} {bs : List Nat} (c : Cols (DataType.ofId (typeId f64) n) T (names.map parts) bs) {row : Nat} (hrow : row < n) :
    ∀ (es : List Str) (j : Nat) (h : Heap) (vals : Nat → Nat → List UInt8), j ≤ names.length → Good h L pn ps own T → Vals (width f64) n h.mem bs vals →
    match checkRow Lb f64 names.length j es with
    | .ok _ => ∃ m, Csv.rowFold Lb f64 names T.nid row j h es = .ok (h.withMem m) ∧ Good (h.withMem m) L pn ps own T ∧
        HT.Step h T (h.withMem m) T ∧ Vals (width f64) n m bs (rowVals Lb f64 row j es vals)
    | .error => Csv.rowFold Lb f64 names T.nid row j h es = .error
    | .ub => Csv.rowFold Lb f64 names T.nid row j h es = .ub
  | [], j, h, vals, _, g, v => by
    refine ⟨h.mem, rfl, g, HT.Step.refl _ g.bounded, v.congr fun j' i' _ => ?_⟩
    unfold rowVals
    split <;> simp
  | e :: es, j, h, vals, hj, g, v => by
    have hc := readCell_spec snd g hpl c v hrow (j := j) e
    simp only [checkRow, Csv.rowFold]
    by_cases hlt : j < names.length
    · rw [if_pos hlt] at hc ⊢
      cases hn : Lb.num f64 e with
      | none =>
        rw [hn] at hc
        simp only [Option.isSome_none, Bool.false_eq_true, if_false]
        simp only at hc
        rw [hc]; rfl
      | some bytes =>
        rw [hn] at hc
        obtain ⟨m, e1, g1, s1, v1⟩ := hc
        simp only [Option.isSome_some, if_true]
        rw [e1]
        simp only [Res.bind_ok]
        have ih := rowFold_spec snd hpl c hrow es (j + 1) (h.withMem m) _ hlt g1 v1
        cases hk : checkRow Lb f64 names.length (j + 1) es with
        | error => rw [hk] at ih; exact ih
        | ub => rw [hk] at ih; exact ih
        | ok u =>
          rw [hk] at ih
          obtain ⟨m2, e2, g2, s2, v2⟩ := ih
          refine ⟨m2, e2, g2, s1.trans s2, v2.congr fun j' i' _ => ?_⟩
          unfold rowVals
          by_cases hi : i' = row
          · subst hi
            by_cases h1 : j' = j
            · subst h1
              simp [hn]
            · by_cases h2 : j ≤ j'
              · obtain ⟨k, rfl⟩ : ∃ k, j' = j + 1 + k := ⟨j' - (j + 1), by omega⟩
                have a1 : j + 1 + k - j = k + 1 := by omega
                have a2 : j + 1 + k - (j + 1) = k := by omega
                simp only [a1, a2, List.getElem?_cons_succ, true_and, and_true, h1, if_false, h2, if_true, show j + 1 ≤ j + 1 + k by omega]
              · simp only [h1, h2, show ¬ j + 1 ≤ j' by omega, and_false, and_true, if_false, false_and]
          · simp [hi]
    · rw [if_neg hlt] at hc ⊢
      rw [hc (by omega)]
      rfl

/-- the values after rows from number `row` on -/
def allVals (Lb : Csv.Lib) (f64 : Bool) : Nat → List Str → (Nat → Nat → List UInt8) → Nat → Nat → List UInt8
  | _, [], vals => vals
  | row, line :: rows, vals => allVals Lb f64 (row + 1) rows (rowVals Lb f64 row 0 (entries line) vals)

theorem allVals_old {Lb : Csv.Lib} {f64 : Bool} : ∀ (rows : List Str) (row : Nat) (vals : Nat → Nat → List UInt8) (j i : Nat), i < row →
    allVals Lb f64 row rows vals j i = vals j i
  | [], _, _, _, _, _ => rfl
  | line :: rows, row, vals, j, i, hi => by
    rw [allVals, allVals_old rows (row + 1) _ j i (by omega)]
    unfold rowVals
    rw [if_neg (by omega)]

theorem allVals_get {Lb : Csv.Lib} {f64 : Bool} : ∀ (rows : List Str) (row : Nat) (vals : Nat → Nat → List UInt8) (j i : Nat) (line : Str),
    rows[i]? = some line → allVals Lb f64 row rows vals j (row + i) = rowVals Lb f64 (row + i) 0 (entries line) vals j (row + i)
  | [], _, _, _, _, _, h => by simp at h
  | l :: rows, row, vals, j, 0, line, h => by
    simp only [List.getElem?_cons_zero, Option.some.injEq] at h
    subst h
    rw [allVals, allVals_old rows (row + 1) _ j (row + 0) (by omega)]
    rfl
  | l :: rows, row, vals, j, i + 1, line, h => by
    simp only [List.getElem?_cons_succ] at h
    have e : row + (i + 1) = row + 1 + i := by omega
    rw [allVals, e, allVals_get rows (row + 1) _ j i line h]
    unfold rowVals
    rw [if_neg (show ¬ (row + 1 + i = row ∧ 0 ≤ j) by omega)]

theorem readData_spec {Lb : Csv.Lib} {f64 : Bool} (snd : Sound Lb f64) {T : HT} {names : List Str}
    (hpl : ∀ n ∈ names, Plain n) {n : Nat} {bs : List Nat} (c : Cols (DataType.ofId (typeId f64) n) T (names.map parts) bs) :
    ∀ (rows : List Str) (row : Nat) (h : Heap) (vals : Nat → Nat → List UInt8), row + rows.length = n → Good h L pn ps own T →
    Vals (width f64) n h.mem bs vals →
    match check Lb f64 names.length rows with
    | .ok _ => ∃ m, Csv.readData Lb f64 names T.nid row h rows = .ok (h.withMem m) ∧ Good (h.withMem m) L pn ps own T ∧
        HT.Step h T (h.withMem m) T ∧ Vals (width f64) n m bs (allVals Lb f64 row rows vals)
    | .error => Csv.readData Lb f64 names T.nid row h rows = .error
    | .ub => Csv.readData Lb f64 names T.nid row h rows = .ub
  | [], row, h, vals, _, g, v => ⟨h.mem, rfl, g, HT.Step.refl _ g.bounded, v⟩
  | line :: rows, row, h, vals, hn, g, v => by
    simp only [List.length_cons] at hn
    have hr := rowFold_spec snd hpl c (row := row) (by omega) (entries line) 0 h vals (Nat.zero_le _) g v
    rw [← Csv.readRow_eq] at hr
    simp only [check, Csv.readData]
    cases hk : checkRow Lb f64 names.length 0 (entries line) with
    | error => rw [hk] at hr; simp only at hr; rw [hr]; rfl
    | ub => rw [hk] at hr; simp only at hr; rw [hr]; rfl
    | ok u =>
      rw [hk] at hr
      obtain ⟨m, e1, g1, s1, v1⟩ := hr
      rw [e1]
      simp only [Res.bind_ok]
      have ih := readData_spec snd hpl c rows (row + 1) (h.withMem m) _ (by omega) g1 v1
      cases hk : check Lb f64 names.length rows with
      | error => rw [hk] at ih; exact ih
      | ub => rw [hk] at ih; exact ih
      | ok u =>
        rw [hk] at ih
        obtain ⟨m2, e2, g2, s2, v2⟩ := ih
        exact ⟨m2, e2, g2, s1.trans s2, v2⟩

/-- the columns found in the heap -/
theorem holds_of {Lb : Csv.Lib} {f64 : Bool} {h : Heap} {T : HT} (g : Good h L pn ps own T) {names rows : List Str} (hne : names ≠ []) {bs : List Nat}
    (c : Cols (DataType.ofId (typeId f64) rows.length) T (names.map parts) bs)
    (v : Vals (width f64) rows.length h.mem bs (allVals Lb f64 0 rows (fun _ _ => List.replicate (width f64) 0))) :
    Holds Lb f64 names rows h T.nid := by
  constructor
  · rw [g.kindOf, c.top (by simpa using hne)]
  · intro j name hj
    obtain ⟨D, b, hb, hf, hc⟩ := c.col j (parts name) (by rw [List.getElem?_map, hj]; rfl)
    obtain ⟨pn', ps', own', gD⟩ := g.find hf
    refine ⟨D.nid, by rw [g.follow, hf]; rfl, ?_, fun i row hi => ?_⟩
    · obtain ⟨n, s, rfl⟩ := hc
      rw [gD.kindOf]; rfl
    · obtain ⟨bytes, h1, h2, h3⟩ := v.val j b hb
      have hil := (List.getElem?_eq_some_iff.1 hi).1
      have hval := h3 i hil
      have := allVals_get rows 0 (fun _ _ => List.replicate (width f64) 0) j i row hi (Lb := Lb) (f64 := f64)
      rw [Nat.zero_add] at this
      rw [this] at hval
      have hcell : rowVals Lb f64 i 0 (entries row) (fun _ _ => List.replicate (width f64) 0) j i = cell Lb f64 row j := by
        unfold rowVals cell
        rw [if_pos ⟨rfl, Nat.zero_le _⟩, Nat.sub_zero]
        cases (entries row)[j]? <;> rfl
      rw [hcell] at hval
      obtain ⟨n, s, rfl⟩ := hc
      obtain ⟨q, hq, _⟩ := gD.get
      have hw : width f64 * i + width f64 ≤ width f64 * rows.length := by
        rw [← Nat.mul_succ]; exact Nat.mul_le_mul_left _ hil
      have hk := gD.kindOf
      unfold Heap.elem
      simp only [HT.nid, HT.kind] at hk ⊢
      rw [hq, hk]
      simp only [Mem.load]
      have hb : (DataType.ofId (typeId f64) rows.length).id.bytes = width f64 := by cases f64 <;> rfl
      have hz : ((0 : Int) + (DataType.ofId (typeId f64) rows.length).elementIndex i).toNat = width f64 * i ∧
          0 ≤ (0 : Int) + (DataType.ofId (typeId f64) rows.length).elementIndex i := by
        cases f64 <;> simp [DataType.elementIndex, DataType.ofId, typeId, width, TypeId.bytes] <;> omega
      rw [hb, if_neg (by unfold width; split <;> decide), h1]
      simp only
      rw [hz.1, if_pos ⟨hz.2, by omega⟩, hval]
  · intro p cc d hf hk
    rw [g.follow] at hf
    cases hx : HT.find p T with
    | none => rw [hx] at hf; cases hf
    | some D =>
      rw [hx] at hf
      injection hf with hf
      subst hf
      obtain ⟨pn', ps', own', gD⟩ := g.find hx
      rw [gD.kindOf] at hk
      injection hk with hk
      rcases c.only p D hx with ⟨l, ho⟩ | ⟨j, b, hj, _, _⟩ | ⟨h1, _, _⟩
      · rw [ho] at hk; cases hk
      · rw [List.getElem?_map, Option.map_eq_some_iff] at hj
        obtain ⟨name, hn, rfl⟩ := hj
        exact ⟨name, List.mem_of_getElem? hn, rfl⟩
      · exact absurd (List.map_eq_nil_iff.1 h1) hne

/-- the node for the values -/
theorem values_node {h : Heap} {n s : Nat} {x : Info} (g : Good h L pn ps own (HT.mk n s x (.leaf {}) [])) {a : Str} (ha : Part a) :
    ∃ h' T' C, fetchN h n a = .ok (h', some C.nid) ∧ Good h' L pn ps own T' ∧ HT.Step h (HT.mk n s x (.leaf {}) []) h' T' ∧
      HT.find [a] T' = some C ∧ Fresh C := by
  rcases initN_spec g { id := .object } (fun hh => by cases hh) with ⟨hc, _⟩ | ⟨hc, h1, x1, e1, g1, s1⟩
  · cases hc
  · obtain ⟨h2, T2, C, e2, g2, s2, _, c2, k2, alt⟩ := add_make g1 (.inl ⟨_, rfl⟩) a
    have hfe := fetchN_init (p := []) (dtypeN_spec g) (by rw [if_neg (by decide)]; exact e1) ha (by simp) e2
    rw [if_pos rfl] at hfe
    refine ⟨h2, T2, C, hfe, g2, s1.trans s2, c2, ?_⟩
    rcases alt with ⟨x1, _⟩ | ⟨_, x2, _⟩
    · exact absurd (find_objNil rfl x1).1 (by simp)
    · exact x2

end
end Conduit
