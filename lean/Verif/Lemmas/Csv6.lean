import Verif.Lemmas.Csv5
/-
Lemmas about whole files that are read (C47).
-/
namespace Conduit
open Spec Node Heap CsvFile HT

theorem checkRow_ok {L : Csv.Lib} {f64 : Bool} {k : Nat} : ∀ (es : List Str) (j : Nat), j ≤ k →
    (checkRow L f64 k j es = .ok () ↔ j + es.length ≤ k ∧ ∀ e ∈ es, (L.num f64 e).isSome)
  | [], j, hj => by simp [checkRow, hj]
  | e :: es, j, hj => by
    rw [checkRow]
    by_cases hlt : j < k
    · rw [if_pos hlt]
      by_cases hn : (L.num f64 e).isSome
      · rw [if_pos hn, checkRow_ok es (j + 1) hlt]
        simp only [List.length_cons, List.mem_cons, forall_eq_or_imp, hn, true_and]
        rw [Nat.add_assoc, Nat.add_comm 1]
      · rw [if_neg hn]
        simp [hn]
    · rw [if_neg hlt]
      constructor
      · intro h; cases h
      · rintro ⟨h, _⟩
        simp only [List.length_cons] at h
        omega

/-- nothing is wrong exactly when all rows fit -/
theorem check_ok {L : Csv.Lib} {f64 : Bool} {k : Nat} : ∀ (rows : List Str), check L f64 k rows = .ok () ↔ ∀ row ∈ rows, RowOK L f64 k row
  | [] => by simp [check]
  | row :: rows => by
    have h1 := checkRow_ok (L := L) (f64 := f64) (k := k) (entries row) 0 (Nat.zero_le _)
    rw [check, Res.bind_eq_ok]
    simp only [List.mem_cons, forall_eq_or_imp, ← check_ok rows]
    constructor
    · rintro ⟨⟨⟩, h2, h3⟩
      rw [h1, Nat.zero_add] at h2
      exact ⟨h2, h3⟩
    · rintro ⟨h2, h3⟩
      exact ⟨(), h1.2 (by rw [Nat.zero_add]; exact h2), h3⟩

theorem ofId_float_nonneg (f64 : Bool) (n : Nat) : 0 ≤ (DataType.ofId (typeId f64) n).spannedBytes ∧
    (DataType.ofId (typeId f64) n).spannedBytes.toNat = width f64 * n := by
  rw [spanned_ofId]
  cases f64 <;> simp [typeId, width, TypeId.bytes] <;> omega

namespace Inv
variable {L : Prop} {U : List Nat} {h : Heap} {F : List HT}

/-- a file with a header -/
theorem readTable (v : Inv L U h F) {t : Nat} (ht : (h.nodes t).isSome) (Lb : Csv.Lib) (f64 : Bool) (snd : Sound Lb f64) {text hd : Str}
    {rows : List Str} (hl : lines text = hd :: rows) (hg : GoodNames (CsvFile.names hd)) (hn : ∃ n ∈ CsvFile.names hd, ¬ IsNumber Lb n) :
    match check Lb f64 (CsvFile.names hd).length rows with
    | .ok _ => ∃ h' w F', Csv.readTable Lb f64 h t text = .ok h' ∧ Inv L U h' F' ∧ F'.map nid = F.map nid ∧
        h'.follow t [chars! "values"] = some w ∧ Holds Lb f64 (CsvFile.names hd) rows h' w
    | .error => Csv.readTable Lb f64 h t text = .error
    | .ub => Csv.readTable Lb f64 h t text = .ub := by
  obtain ⟨s, x, k, cs, pn, ps, own, g, lift⟩ := v.sub' ht
  obtain ⟨h1, x1, e1, _, g1, s1⟩ := resetN_spec g
  have hva : Part (chars! "values") := by unfold Part; decide
  obtain ⟨h2, T2, C, e2, g2, s2, f2, fr⟩ := values_node g1 hva
  have hne := Csv.names_ne_nil hd
  obtain ⟨pn', ps', own', gC, H⟩ := graft [chars! "values"] T2 pn ps own C g2 f2
  obtain ⟨h3, C3, bs, e3, g3, s3, c3, z3⟩ := addColumns_make (d := DataType.ofId (typeId f64) rows.length) (by cases f64 <;> simp [typeId, DataType.ofId])
    (ofId_float_nonneg f64 _).1 (v := C.nid) (CsvFile.names hd) h2 C [] [] gC rfl (Cols.start fr) ⟨by simp, by simp⟩ hg.1 (by simp) hg.2
  rw [List.nil_append] at c3
  have hv := z3.vals (ofId_float_nonneg f64 rows.length).2
  have hr := readData_spec snd hg.1 c3 rows 0 h3 _ (by omega) g3 hv
  have hread : Csv.readTable Lb f64 h t text = Csv.readData Lb f64 (CsvFile.names hd) C3.nid 0 h3 rows := by
    unfold Csv.readTable
    rw [e1]
    simp only [Res.bind_ok]
    rw [Csv.getlines_eq, hl]
    simp only
    rw [Csv.readColumnNames_eq Lb hd hn]
    simp only
    rw [if_neg hne, e2]
    simp only [Res.bind_ok]
    unfold Csv.addColumns
    rw [if_neg hne]
    have e3' : (CsvFile.names hd).foldlM (fun g name => do
          let r ← Csv.addColumn g C.nid name
          r.1.initN r.2 (DataType.ofId (if f64 = true then TypeId.float64 else TypeId.float32) rows.length)) h2 = .ok h3 := e3
    rw [e3']
    simp only [Res.bind_ok]
    rw [s3.nid]
  rw [hread]
  cases hk : check Lb f64 (CsvFile.names hd).length rows with
  | error => rw [hk] at hr; exact hr
  | ub => rw [hk] at hr; exact hr
  | ok u =>
    rw [hk] at hr
    obtain ⟨m, e4, g4, s4, v4⟩ := hr
    obtain ⟨T5, g5, s5, _, _, r5, _⟩ := H _ _ g4 (s3.trans s4)
    obtain ⟨F', v', hF⟩ := lift _ _ g5 ((s1.trans s2).trans s5)
    have hf5 : HT.find [chars! "values"] T5 = some C3 := r5 []
    have hT5 : T5.nid = t := s5.nid.trans (s2.nid.trans s1.nid)
    refine ⟨_, C3.nid, F', e4, v', hF, ?_, holds_of g4 hne c3 v4⟩
    rw [← hT5, g5.follow, hf5]
    rfl

/-- a file whose first line has only numbers -/
theorem readTable_numbers (v : Inv L U h F) {t : Nat} (ht : (h.nodes t).isSome) (Lb : Csv.Lib) (f64 : Bool) {text hd : Str}
    {rows : List Str} (hl : lines text = hd :: rows) (hn : ∀ n ∈ CsvFile.names hd, IsNumber Lb n) : Csv.readTable Lb f64 h t text = .ub := by
  obtain ⟨s, x, k, cs, pn, ps, own, g, lift⟩ := v.sub' ht
  obtain ⟨h1, x1, e1, _, g1, s1⟩ := resetN_spec g
  have hva : Part (chars! "values") := by unfold Part; decide
  obtain ⟨h2, T2, C, e2, g2, s2, f2, fr⟩ := values_node g1 hva
  unfold Csv.readTable
  rw [e1]
  simp only [Res.bind_ok]
  rw [Csv.getlines_eq, hl]
  simp only
  rw [Csv.readColumnNames_numbers Lb hd hn]
  simp only [if_true]
  rw [e2]
  simp only [Res.bind_ok, Csv.addColumns, if_true, Csv.addUnnamed, Csv.readData]
  rw [Csv.readRow_eq]
  have hne := Csv.entries_ne_nil hd
  cases he : entries hd with
  | nil => exact absurd he hne
  | cons a es =>
    simp only [Csv.rowFold, Csv.readCell]
    rfl

end Inv
end Conduit
