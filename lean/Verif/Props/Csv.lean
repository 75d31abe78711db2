import Verif.Lemmas.Csv8
import Verif.Props.NodeSync
/-
C47: CSV files read and written.  C65: the check of tables.
-/
namespace Conduit
open Spec Node Heap CsvFile Table

namespace CsvEx

/-- the value of decimal digits after blanks -/
def digits (s : Str) : Option Nat :=
  let d := s.dropWhile (· == ' ')
  if d ≠ [] ∧ d.all Char.isDigit then some (d.foldl (fun v c => v * 10 + (c.toNat - 48)) 0) else none

/-- numbers up to 255, kept in the first byte -/
def lib : Csv.Lib where
  stodLen s := (digits s).map fun _ => s.length
  num f64 s := (digits s).map fun v => UInt8.ofNat v :: List.replicate (width f64 - 1) 0
  text _ b := (Nat.repr (b.headD 0).toNat).toList

theorem lib_sound (f64 : Bool) : Sound lib f64 := by
  intro s b h
  simp only [lib, Option.map_eq_some_iff] at h
  obtain ⟨v, _, rfl⟩ := h
  cases f64 <;> rfl

theorem lib_prints (f64 : Bool) : Prints lib f64 := by
  have key : ∀ n < 256, ',' ∉ (Nat.repr n).toList ∧ '\n' ∉ (Nat.repr n).toList ∧ (digits (Nat.repr n).toList).isSome ∧
      digits (' ' :: (Nat.repr n).toList) = digits (Nat.repr n).toList := by decide +kernel
  intro id bytes _ _
  obtain ⟨h1, h2, h3, h4⟩ := key (bytes.headD 0).toNat (bytes.headD 0).toNat_lt
  refine ⟨h1, h2, ?_, ?_⟩
  · simp only [lib, Option.isSome_map]; exact h3
  · simp only [lib, h4]

/-- a heap with one node, which has been given other values before -/
def ops : List Op := [.new, .fetch 0 (chars! "x/y"), .setScalar 2 .int8 [9]]
def heap : Heap := (SyncEx.walk ops [] init).2
theorem hist : History [] init ops (SyncEx.walk ops [] init).1 heap := by
  refine SyncEx.hist _ _ _ ⟨trivial, ?_, trivial, ?_, trivial, ?_, trivial⟩ <;> decide +kernel

/-- three columns in two objects; the second row ends early -/
def file : Str := chars! "a/x, b ,a/y\n1,2,3\n4,5\n"
theorem file_lines : lines file = [chars! "a/x, b ,a/y", chars! "1,2,3", chars! "4,5"] := by decide +kernel
theorem file_names : names (chars! "a/x, b ,a/y") = [chars! "a/x", chars! "b", chars! "a/y"] := by decide +kernel

instance (n : Str) : Decidable (Plain n) := by unfold Plain; infer_instance
instance (l : List Str) : Decidable (GoodNames l) := by unfold GoodNames; infer_instance
instance (L : Csv.Lib) (s : Str) : Decidable (IsNumber L s) := by unfold IsNumber; infer_instance

theorem file_good : GoodNames (names (chars! "a/x, b ,a/y")) := by rw [file_names]; decide +kernel

end CsvEx

/-- **C47**, reading, for every file whose header names columns (no name empty or "..", no column on the way to another) and every heap
    that calls lead to.  The rows are read as far as they are right: if the first thing wrong is an entry that is not a number the call
    ends with an error; if it is an entry after the last column it reads outside the column list (`ub`: the property fails there).
    If nothing is wrong the table has exactly the columns of the header, each with one element for each row, the number the entry says, and
    0 where the row has ended; the nodes and schemas stay in lockstep and own their memory.
    Missing for the full claim: it is false for long rows and for files without a header (below). -/
theorem C47_read_partial {ops : List Op} {U : List Nat} {h : Heap} (H : History [] init ops U h) {t : Nat} (ht : (h.nodes t).isSome)
    (L : Csv.Lib) (f64 : Bool) (snd : Sound L f64) {text hd : Str} {rows : List Str} (hl : lines text = hd :: rows)
    (hg : GoodNames (names hd)) (hn : ∃ n ∈ names hd, ¬ IsNumber L n) :
    match check L f64 (names hd).length rows with
    | .ok _ => ∃ h' w, Csv.readTable L f64 h t text = .ok h' ∧ h'.follow t [chars! "values"] = some w ∧
        Holds L f64 (names hd) rows h' w ∧ Lockstep h' ∧ Heap.Disjoint h' ∧ Blocks h' U
    | .error => Csv.readTable L f64 h t text = .error
    | .ub => Csv.readTable L f64 h t text = .ub := by
  obtain ⟨F, v⟩ := H.inv Inv.init
  have := v.readTable ht L f64 snd hl hg hn
  cases hc : check L f64 (names hd).length rows with
  | error => rw [hc] at this; exact this
  | ub => rw [hc] at this; exact this
  | ok u =>
    rw [hc] at this
    obtain ⟨h', w, F', e, v', _, hf, hh⟩ := this
    exact ⟨h', w, e, hf, hh, v'.lockstep, v'.disjoint, v'.blocks⟩

/-- nothing is wrong exactly when no row is longer than the header and all entries are numbers -/
theorem C47_check (L : Csv.Lib) (f64 : Bool) (k : Nat) (rows : List Str) :
    check L f64 k rows = .ok () ↔ ∀ row ∈ rows, (entries row).length ≤ k ∧ ∀ e ∈ entries row, (L.num f64 e).isSome :=
  check_ok rows

/-- the example file is read, over what the node had before -/
example : ∃ h' w, Csv.readTable CsvEx.lib true CsvEx.heap 0 CsvEx.file = .ok h' ∧ h'.follow 0 [chars! "values"] = some w ∧
    Holds CsvEx.lib true [chars! "a/x", chars! "b", chars! "a/y"] [chars! "1,2,3", chars! "4,5"] h' w := by
  have := C47_read_partial CsvEx.hist (t := 0) (by decide +kernel) CsvEx.lib true (CsvEx.lib_sound _) CsvEx.file_lines CsvEx.file_good
    (by rw [CsvEx.file_names]; exact ⟨chars! "b", by decide, by decide +kernel⟩)
  rw [CsvEx.file_names] at this
  have hc : check CsvEx.lib true ([chars! "a/x", chars! "b", chars! "a/y"] : List Str).length [chars! "1,2,3", chars! "4,5"] = .ok () :=
    (C47_check _ _ _ _).2 (by decide +kernel)
  rw [hc] at this
  obtain ⟨h', w, e, hf, hh, _⟩ := this
  exact ⟨h', w, e, hf, hh⟩

/-- **C47** fails for every file with a row that is longer than the header, when nothing before that row is wrong. -/
theorem C47_long_row_false {ops : List Op} {U : List Nat} {h : Heap} (H : History [] init ops U h) {t : Nat} (ht : (h.nodes t).isSome)
    (L : Csv.Lib) (f64 : Bool) (snd : Sound L f64) {text hd : Str} {good bad : List Str} {row : Str} (hl : lines text = hd :: (good ++ row :: bad))
    (hg : GoodNames (names hd)) (hn : ∃ n ∈ names hd, ¬ IsNumber L n) (hgood : ∀ r ∈ good, RowOK L f64 (names hd).length r)
    (hlong : (names hd).length < (entries row).length) (hrow : ∀ e ∈ entries row, (L.num f64 e).isSome) :
    Csv.readTable L f64 h t text = .ub := by
  have := C47_read_partial H ht L f64 snd hl hg hn
  have hub : ∀ (es : List Str) (j : Nat), j ≤ (names hd).length → (∀ e ∈ es, (L.num f64 e).isSome) → (names hd).length < j + es.length →
      checkRow L f64 (names hd).length j es = .ub := by
    intro es
    induction es with
    | nil => intro j hj _ hlt; simp at hlt; omega
    | cons e es ih =>
      intro j hj he hlt
      rw [checkRow]
      by_cases h1 : j < (names hd).length
      · rw [if_pos h1, if_pos (he e (by simp))]
        exact ih (j + 1) h1 (fun x hx => he x (by simp [hx])) (by simp at hlt; omega)
      · rw [if_neg h1]
  have hc : ∀ good : List Str, (∀ r ∈ good, RowOK L f64 (names hd).length r) → check L f64 (names hd).length (good ++ row :: bad) = .ub := by
    intro good
    induction good with
    | nil =>
      intro _
      rw [List.nil_append, check, hub _ 0 (Nat.zero_le _) hrow (by omega)]
      rfl
    | cons g good ih =>
      intro hg
      have h1 : checkRow L f64 (names hd).length 0 (entries g) = .ok () := by
        rw [checkRow_ok _ _ (Nat.zero_le _)]
        have := hg g (by simp)
        exact ⟨by rw [Nat.zero_add]; exact this.1, this.2⟩
      rw [List.cons_append, check, h1, Res.bind_ok]
      exact ih (fun r hr => hg r (by simp [hr]))
  rw [hc good hgood] at this
  exact this

/-- one entry too many -/
example : Csv.readTable CsvEx.lib false CsvEx.heap 0 (chars! "a,b\n1,2\n3,4,5\n") = .ub :=
  C47_long_row_false CsvEx.hist (by decide +kernel) CsvEx.lib false (CsvEx.lib_sound _) (hd := chars! "a,b") (good := [chars! "1,2"])
    (row := chars! "3,4,5") (bad := []) (by decide +kernel) (by decide +kernel) ⟨chars! "a", by decide +kernel, by decide +kernel⟩
    (by unfold RowOK; decide +kernel) (by decide +kernel) (by decide +kernel)

/-- **C47** fails for every file whose first line has only numbers: the number of columns is lost and the first entry
    is stored outside the empty column list. -/
theorem C47_no_header_false {ops : List Op} {U : List Nat} {h : Heap} (H : History [] init ops U h) {t : Nat} (ht : (h.nodes t).isSome)
    (L : Csv.Lib) (f64 : Bool) {text hd : Str} {rows : List Str} (hl : lines text = hd :: rows) (hn : ∀ n ∈ names hd, IsNumber L n) :
    Csv.readTable L f64 h t text = .ub := by
  obtain ⟨F, v⟩ := H.inv Inv.init
  exact v.readTable_numbers ht L f64 hl hn

example : Csv.readTable CsvEx.lib true CsvEx.heap 0 (chars! "1,2\n3,4\n") = .ub :=
  C47_no_header_false CsvEx.hist (by decide +kernel) CsvEx.lib true (hd := chars! "1,2") (rows := [chars! "3,4"]) (by decide +kernel) (by decide +kernel)

/-- a header with a comma at its end is undone by its last name: the values become a list, then an object without memory -/
theorem C47_trailing_comma_false : Csv.readTable CsvEx.lib true CsvEx.heap 0 (chars! "a,b,\n1,2,3\n") = .ub := by
  have : (match Csv.readTable CsvEx.lib true CsvEx.heap 0 (chars! "a,b,\n1,2,3\n") with | .ub => true | _ => false) = true := by decide +kernel
  split at this
  · assumption
  · cases this

/-- **C47**, written and read back: if `write_csv` writes a table (columns of numbers, or of components that are numbers; names without comma,
    slash, newline, and without blanks at the ends; not all names numbers), then `read_csv` of the file gives exactly these
    columns and components, with the same number of elements, and the number that each element's text says.
    Missing for the full claim: it is false for other names and tables without columns (below); what the text of a number says
    belongs to the C++ library. -/
theorem C47_roundtrip_partial {ops : List Op} {U : List Nat} {h : Heap} (H : History [] init ops U h) {t : Nat} (ht : (h.nodes t).isSome)
    (L : Csv.Lib) (f64 : Bool) (snd : Sound L f64) (pr : Prints L f64) {m : Mem} {values : Node} (w : Writable values) {text : Str}
    (hw : Csv.writeCsv L m values = .ok text) (hn : ∃ a ∈ arrays values, ¬ IsNumber L (slashed a.1)) :
    ∃ h' v, Csv.readTable L f64 h t text = .ok h' ∧ h'.follow t [chars! "values"] = some v ∧ ReadBack L f64 m values h' v ∧
      Lockstep h' ∧ Heap.Disjoint h' ∧ Blocks h' U := by
  obtain ⟨a, ha, hna⟩ := hn
  have hne : arrays values ≠ [] := List.ne_nil_of_mem ha
  obtain ⟨hd, rs, h1, h2, h3, h4⟩ := writeCsv_lines pr w hw hne
  have hg := (arrays_names w).1
  have := C47_read_partial H ht L f64 snd h1 (by rw [h2]; exact hg) ⟨slashed a.1, by rw [h2]; exact List.mem_map_of_mem (f := fun a : List Str × Node => slashed a.1) ha, hna⟩
  have hc : check L f64 (names hd).length rs = .ok () := by
    rw [C47_check]
    intro row hr
    obtain ⟨i, hi, rfl⟩ := List.getElem_of_mem hr
    obtain ⟨h5, h6⟩ := h4 i rs[i] (List.getElem?_eq_getElem hi)
    refine ⟨by rw [h5, h2]; simp, fun e he => ?_⟩
    obtain ⟨j, hj, rfl⟩ := List.getElem_of_mem he
    have hja : j < (arrays values).length := by omega
    obtain ⟨old, e, _, h7, _, h8⟩ := h6 j _ (List.getElem?_eq_getElem hja)
    rw [List.getElem?_eq_getElem hj] at h7
    injection h7 with h7
    rw [h7]; exact h8
  rw [hc] at this
  obtain ⟨h', v, e, hf, hh, r⟩ := this
  exact ⟨h', v, e, hf, readBack_of w h2 h3 h4 hh, r⟩

namespace CsvEx

/-- two rows: an array, and two components stored one after the other in each row -/
def mem : Mem := [some [7, 8], some [1, 0, 2, 0, 3, 0, 4, 0]]
def leaf (b : Nat) (d : DataType) : Node := .leaf ⟨some ⟨b, 0⟩, false⟩ d
def values : Node := .obj {} [
  (chars! "t", leaf 0 (DataType.ofId .uint8 2)),
  (chars! "p q", .obj {} [(chars! "x", leaf 1 ⟨.int16, 2, 0, 4, 2, .default⟩), (chars! "y", leaf 1 ⟨.int16, 2, 2, 4, 2, .default⟩)])]

theorem values_text : Csv.writeCsv lib mem values = .ok (chars! "t, p q/x, p q/y\n7, 1, 2\n8, 3, 4\n") := by
  have : (match Csv.writeCsv lib mem values with | .ok s => decide (s = chars! "t, p q/x, p q/y\n7, 1, 2\n8, 3, 4\n") | _ => false) = true := by decide +kernel
  split at this
  · rename_i s e
    rw [e, of_decide_eq_true this]
  · cases this

def nameOK (s : Str) : Bool :=
  s ≠ ['.', '.'] && s.all (fun c => c ≠ ',' && c ≠ '/' && c ≠ '\n') &&
    (match s.head? with | some c => !Csv.blanks.contains c | none => false) && (match s.getLast? with | some c => !Csv.blanks.contains c | none => false)
theorem nameOK_ok {s : Str} (h : nameOK s = true) : NameOK s := by
  simp only [nameOK, Bool.and_eq_true, decide_eq_true_eq, List.all_eq_true] at h
  obtain ⟨⟨⟨h1, h2⟩, h3⟩, h4⟩ := h
  refine ⟨h1, fun c hc => ⟨(h2 c hc).1.1, (h2 c hc).1.2, (h2 c hc).2⟩, ?_, ?_⟩
  · cases hh : s.head? with
    | none => rw [hh] at h3; cases h3
    | some c => rw [hh] at h3; exact ⟨c, rfl, by simpa using h3⟩
  · cases hh : s.getLast? with
    | none => rw [hh] at h4; cases h4
    | some c => rw [hh] at h4; exact ⟨c, rfl, by simpa using h4⟩

theorem values_writable : Writable values := by
  constructor
  · refine ⟨rfl, ?_, ?_⟩
    · intro c hc
      simp only [values, children, List.mem_cons, List.not_mem_nil, or_false] at hc
      rcases hc with rfl | rfl
      · show (DataType.ofId .uint8 2).id ≠ .empty
        decide
      · refine ⟨⟨.inl rfl, ?_, ?_⟩, by simp [children]⟩
        · intro d hd
          simp only [children, List.map_cons, List.map_nil, List.mem_cons, List.not_mem_nil, or_false] at hd
          rcases hd with rfl | rfl <;> rfl
        · intro d hd e he
          simp only [children, List.map_cons, List.map_nil, List.mem_cons, List.not_mem_nil, or_false] at hd he
          rcases hd with rfl | rfl <;> rcases he with rfl | rfl <;> rfl
    · intro c hc d hd
      simp only [values, children, List.mem_cons, List.not_mem_nil, or_false] at hc hd
      rcases hc with rfl | rfl <;> rcases hd with rfl | rfl <;> rfl
  · intro c hc
    simp only [values, children, List.mem_cons, List.not_mem_nil, or_false] at hc
    rcases hc with rfl | rfl
    · exact ⟨nameOK_ok (by decide), fun k hk => by cases hk⟩
    · refine ⟨nameOK_ok (by decide), fun k hk => ?_⟩
      simp only [children, List.mem_cons, List.not_mem_nil, or_false] at hk
      rcases hk with rfl | rfl <;> exact nameOK_ok (by decide)
  · decide
  · intro c hc
    simp only [values, children, List.mem_cons, List.not_mem_nil, or_false] at hc
    rcases hc with rfl | rfl <;> decide
  · intro a ha
    simp only [values, arrays, children, arraysOf, leaf, List.flatMap_cons, List.flatMap_nil, List.map_cons, List.map_nil, List.append_nil,
      List.cons_append, List.nil_append, List.mem_cons, List.not_mem_nil, or_false] at ha
    rcases ha with rfl | rfl | rfl <;> rfl

end CsvEx

example : ∃ h' v, Csv.readTable CsvEx.lib true CsvEx.heap 0 (chars! "t, p q/x, p q/y\n7, 1, 2\n8, 3, 4\n") = .ok h' ∧
    h'.follow 0 [chars! "values"] = some v ∧ ReadBack CsvEx.lib true CsvEx.mem CsvEx.values h' v := by
  obtain ⟨h', v, e, hf, hh, _⟩ := C47_roundtrip_partial CsvEx.hist (t := 0) (by decide +kernel) CsvEx.lib true (CsvEx.lib_sound _) (CsvEx.lib_prints _)
    CsvEx.values_writable CsvEx.values_text ⟨([chars! "t"], _), by exact List.mem_cons_self, by decide +kernel⟩
  exact ⟨h', v, e, hf, hh⟩

/-- a table without columns is written, and its file cannot be read -/
theorem C47_no_columns_false {ops : List Op} {U : List Nat} {h : Heap} (H : History [] init ops U h) {t : Nat} (ht : (h.nodes t).isSome)
    (L : Csv.Lib) (f64 : Bool) (he : L.stodLen [] = none) (m : Mem) (x : Info) :
    Csv.writeCsv L m (.obj x []) = .ok ['\n'] ∧ Csv.readTable L f64 h t ['\n'] = .ub := by
  refine ⟨rfl, C47_no_header_false H ht L f64 (hd := []) (rows := []) (by decide) ?_⟩
  intro n hn
  have : n = [] := by
    have e : names [] = [[]] := by decide
    rw [e] at hn
    simpa using hn
  subst this
  unfold IsNumber
  rw [he]
  rfl

/-- a column whose name is a number is written, and its file cannot be read -/
theorem C47_number_name_false :
    Csv.writeCsv CsvEx.lib CsvEx.mem (.obj {} [(chars! "2024", CsvEx.leaf 0 (DataType.ofId .uint8 2))]) = .ok (chars! "2024\n7\n8\n") ∧
    Csv.readTable CsvEx.lib true CsvEx.heap 0 (chars! "2024\n7\n8\n") = .ub := by
  constructor
  · have : (match Csv.writeCsv CsvEx.lib CsvEx.mem (.obj {} [(chars! "2024", CsvEx.leaf 0 (DataType.ofId .uint8 2))]) with
      | .ok s => decide (s = chars! "2024\n7\n8\n") | _ => false) = true := by decide +kernel
    split at this
    · rename_i s e
      rw [e, of_decide_eq_true this]
    · cases this
  · exact C47_no_header_false CsvEx.hist (by decide +kernel) CsvEx.lib true (hd := chars! "2024") (rows := [chars! "7", chars! "8"])
      (by decide +kernel) (by decide +kernel)

/-- a comma in a name: one column is written, two are read, the second without values -/
theorem C47_comma_name_false :
    Csv.writeCsv CsvEx.lib CsvEx.mem (.obj {} [(chars! "a,b", CsvEx.leaf 0 (DataType.ofId .uint8 2))]) = .ok (chars! "a,b\n7\n8\n") ∧
    ∃ h' v, Csv.readTable CsvEx.lib true CsvEx.heap 0 (chars! "a,b\n7\n8\n") = .ok h' ∧ h'.follow 0 [chars! "values"] = some v ∧
      Holds CsvEx.lib true [chars! "a", chars! "b"] [chars! "7", chars! "8"] h' v := by
  constructor
  · have : (match Csv.writeCsv CsvEx.lib CsvEx.mem (.obj {} [(chars! "a,b", CsvEx.leaf 0 (DataType.ofId .uint8 2))]) with
      | .ok s => decide (s = chars! "a,b\n7\n8\n") | _ => false) = true := by decide +kernel
    split at this
    · rename_i s e
      rw [e, of_decide_eq_true this]
    · cases this
  · have hl : lines (chars! "a,b\n7\n8\n") = chars! "a,b" :: [chars! "7", chars! "8"] := by decide +kernel
    have hn : names (chars! "a,b") = [chars! "a", chars! "b"] := by decide +kernel
    have := C47_read_partial CsvEx.hist (t := 0) (by decide +kernel) CsvEx.lib true (CsvEx.lib_sound _) hl (by rw [hn]; decide +kernel)
      (by rw [hn]; exact ⟨chars! "a", by decide, by decide +kernel⟩)
    rw [hn] at this
    have hc : check CsvEx.lib true ([chars! "a", chars! "b"] : List Str).length [chars! "7", chars! "8"] = .ok () :=
      (C47_check _ _ _ _).2 (by decide +kernel)
    rw [hc] at this
    obtain ⟨h', w, e, hf, hh, _⟩ := this
    exact ⟨h', w, e, hf, hh⟩

/-- the bytes of a big endian column are written as if they were little endian: the number 1 as 256 (here: its first byte) -/
theorem C47_endian_false :
    (Csv.writeCsv CsvEx.lib [some [0, 1]] (.obj {} [(chars! "a", CsvEx.leaf 0 { DataType.ofId .int16 1 with endian := .big })])).good = true ∧
    Csv.writeCsv CsvEx.lib [some [0, 1]] (.obj {} [(chars! "a", CsvEx.leaf 0 { DataType.ofId .int16 1 with endian := .big })]) =
      Csv.writeCsv CsvEx.lib [some [0, 1]] (.obj {} [(chars! "a", CsvEx.leaf 0 (DataType.ofId .int16 1))]) :=
  ⟨by decide +kernel, rfl⟩

/-! ### C65 -/

/-- **C65**: for values none of whose columns is an object or list without components, `table::verify` gives a verdict,
    and a table that it accepts has columns of one length: arrays, or components that are arrays of numbers.  A table of such columns is accepted.
    Where the two differ: components of length 0 before others (`C53_exact`). -/
theorem C65_verify (values : Node) (h : ∀ c ∈ children values, isTree c.2 = true → children c.2 ≠ []) :
    ∃ b, Csv.verifyValues values = .ok b ∧ (Valid values → b = true) ∧
      (b = true → (∀ c ∈ children values, ∀ k ∈ children c.2, k.2.dtype.n ≠ 0) → Valid values) ∧
      (b = true → isTree values = true ∧ ∀ c ∈ children values, ∀ d ∈ children values, rows c.2 = rows d.2) := by
  obtain ⟨b, e, hb⟩ := Csv.verifyValues_eq values h
  refine ⟨b, e, fun hv => ?_, fun ht hnz => ?_, fun ht => ⟨(hb.1 ht).1, (hb.1 ht).2.2⟩⟩
  · rw [hb]
    refine ⟨hv.1, fun c hc => ?_, hv.2.2⟩
    have := hv.2.1 c hc
    unfold ColumnOK at this
    unfold Csv.Accepts
    split
    · rename_i ht
      rw [if_pos ht] at this
      rw [MCArray.C53_exact]
      refine ⟨this.1.1, this.1.2.1, fun d hd e he => ?_⟩
      exact this.1.2.2 d ((List.dropWhile_sublist _).subset hd) e ((List.dropWhile_sublist _).subset he)
    · rename_i ht
      rw [if_neg ht] at this
      exact this
  · obtain ⟨h1, h2, h3⟩ := hb.1 ht
    refine ⟨h1, fun c hc => ?_, h3⟩
    have := h2 c hc
    unfold Csv.Accepts at this
    unfold ColumnOK
    split
    · rename_i ht
      rw [if_pos ht, MCArray.C53_exact] at this
      refine ⟨⟨this.1, this.2.1, ?_⟩, h c hc ht⟩
      have hdw : ((children c.2).map (fun e => e.2.dtype)).dropWhile (fun d => d.n == 0) = (children c.2).map (fun e => e.2.dtype) := by
        have hz := hnz c hc
        cases hch : children c.2 with
        | nil => rfl
        | cons k ks =>
          rw [hch] at hz
          rw [List.map_cons, List.dropWhile_cons_of_neg]
          simpa using hz k (by simp)
      rw [hdw] at this
      exact this.2.2
    · rename_i ht
      rw [if_neg ht] at this
      exact this

example : Csv.verifyValues CsvEx.values = .ok true := by
  obtain ⟨b, e, h1, _⟩ := C65_verify CsvEx.values (by
    intro c hc
    simp only [CsvEx.values, children, List.mem_cons, List.not_mem_nil, or_false] at hc
    rcases hc with rfl | rfl
    · intro h; cases h
    · intro _; simp [children])
  rw [e, h1 CsvEx.values_writable.valid]
/-- columns of different lengths are rejected -/
example : Csv.verifyValues (.obj {} [(['a'], CsvEx.leaf 0 (DataType.ofId .uint8 2)), (['b'], CsvEx.leaf 0 (DataType.ofId .uint8 1))]) = .ok false := rfl

/-- **C65** fails on a column without components: its first component is read, in whatever table it is the first
    column of. -/
theorem C65_empty_column_false (x y : Info) (name : Str) (es : List (Str × Node)) :
    Csv.verifyValues (.obj x ((name, .obj y []) :: es)) = .ub ∧ Csv.verifyValues (.obj x ((name, .lst y []) :: es)) = .ub := ⟨rfl, rfl⟩

/-- and it accepts components of different lengths when the first has none; `write_csv` then writes no row of the others -/
theorem C65_zero_length_false :
    Csv.verifyValues (.obj {} [(['a'], .obj {} [(['x'], CsvEx.leaf 0 (DataType.ofId .uint8 0)), (['y'], CsvEx.leaf 0 (DataType.ofId .uint8 2))])]) = .ok true ∧
    Csv.writeCsv CsvEx.lib CsvEx.mem (.obj {} [(['a'], .obj {} [(['x'], CsvEx.leaf 0 (DataType.ofId .uint8 0)), (['y'], CsvEx.leaf 0 (DataType.ofId .uint8 2))])]) =
      .ok (chars! "a/x, a/y\n") ∧
    ¬ Valid (.obj {} [(['a'], .obj {} [(['x'], CsvEx.leaf 0 (DataType.ofId .uint8 0)), (['y'], CsvEx.leaf 0 (DataType.ofId .uint8 2))])]) := by
  refine ⟨rfl, rfl, ?_⟩
  intro hv
  have := hv.2.1 _ (List.mem_cons_self)
  have h1 := this.1.2.2 (DataType.ofId .uint8 0) (by simp [children, CsvEx.leaf, Node.dtype]) (DataType.ofId .uint8 2)
    (by simp [children, CsvEx.leaf, Node.dtype])
  cases h1

end Conduit
