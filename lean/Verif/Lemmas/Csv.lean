import Verif.Spec.Csv
import Verif.Lemmas.Str
/-
Lemmas about the text of CSV files (C47).
-/
namespace Conduit.Csv
open CsvFile

theorem find_split {c : Char} {s : Str} {i : Nat} (h : find c s = some i) :
    s = s.take i ++ c :: s.drop (i + 1) ∧ c ∉ s.take i := by
  have hm : c ∈ s := by
    unfold find at h
    obtain ⟨hl, h1, _⟩ := List.findIdx?_eq_some_iff_getElem.1 h
    simp at h1
    exact h1 ▸ List.getElem_mem hl
  obtain ⟨a, b, rfl, ha⟩ := exists_first hm
  rw [find_append ha] at h
  injection h with h
  subst h
  simp [ha]

theorem find_lt {c : Char} {s : Str} {i : Nat} (h : find c s = some i) : (s.drop (i + 1)).length < s.length := by
  obtain ⟨hl, _⟩ := List.findIdx?_eq_some_iff_getElem.1 h
  rw [List.length_drop]
  omega

theorem find_eq_none {c : Char} {s : Str} (h : find c s = none) : c ∉ s := by
  intro hm
  obtain ⟨a, b, rfl, ha⟩ := exists_first hm
  rw [find_append ha] at h
  cases h

theorem cells_eq (sep : Char) (s : Str) : cells sep s = s.splitOn sep := by
  rw [cells]
  split
  · rename_i h
    rw [List.splitOn_eq_singleton (find_eq_none h)]
  · rename_i i h
    have hlt := find_lt h
    obtain ⟨e, hn⟩ := find_split h
    rw [cells_eq sep (s.drop (i + 1))]
    refine Eq.trans ?_ (congrArg (List.splitOn sep) e).symm
    rw [List.splitOn_append_cons_self, List.splitOn_eq_singleton hn]
    rfl
termination_by s.length
decreasing_by assumption

theorem lines_append {a b : Str} (h : '\n' ∉ a) : lines (a ++ '\n' :: b) = a :: lines b := by
  unfold lines
  rw [List.splitOn_append_cons_self, List.splitOn_eq_singleton h]
  have hne := List.splitOn_ne_nil '\n' b
  generalize b.splitOn '\n' = l at hne
  cases l with
  | nil => exact absurd rfl hne
  | cons x l => simp only [List.singleton_append, List.getLast?_cons_cons, List.dropLast_cons_cons]; split <;> rfl

theorem lines_nil : lines [] = [] := rfl

theorem lines_single {a : Str} (h : '\n' ∉ a) (hne : a ≠ []) : lines a = [a] := by
  unfold lines
  rw [List.splitOn_eq_singleton h]
  simp [hne]

theorem getlines_eq (s : Str) : getlines s = lines s := by
  rw [getlines]
  split
  · rename_i h; rw [h]; rfl
  · split
    · rename_i hne h
      rw [lines_single (find_eq_none h) hne]
    · rename_i i h
      have hlt := find_lt h
      obtain ⟨e, hn⟩ := find_split h
      rw [getlines_eq (s.drop (i + 1))]
      exact ((congrArg lines e).trans (lines_append hn)).symm
termination_by s.length
decreasing_by assumption

theorem entries_append {a b : Str} (h : ',' ∉ a) : entries (a ++ ',' :: b) = a :: entries b := by
  unfold entries
  rw [List.splitOn_append_cons_self, List.splitOn_eq_singleton h]; rfl

theorem entries_ne_nil (s : Str) : entries s ≠ [] := List.splitOn_ne_nil _ _

/-- one row, entry after entry -/
def rowFold (L : Lib) (f64 : Bool) (names : List Str) (v row : Nat) : Nat → Heap → List Str → Res Heap
  | _, h, [] => .ok h
  | j, h, e :: es => do
    let h1 ← readCell L f64 names v row j h e
    rowFold L f64 names v row (j + 1) h1 es

theorem readRow_eq (L : Lib) (f64 : Bool) (names : List Str) (v row : Nat) (s : Str) : ∀ (j : Nat) (h : Heap),
    readRow L f64 names v row j h s = rowFold L f64 names v row j h (entries s) := by
  intro j h
  rw [readRow]
  split
  · rename_i hf
    unfold entries
    rw [List.splitOn_eq_singleton (find_eq_none hf)]
    simp only [rowFold]
    cases readCell L f64 names v row j h s <;> rfl
  · rename_i i hf
    have hlt := find_lt hf
    obtain ⟨e, hn⟩ := find_split hf
    have key : entries s = s.take i :: entries (s.drop (i + 1)) :=
      (congrArg entries e).trans (entries_append hn)
    rw [key, rowFold]
    congr 1
    funext h1
    exact readRow_eq L f64 names v row (s.drop (i + 1)) (j + 1) h1
termination_by s.length
decreasing_by assumption

theorem readColumnNames_eq (L : Lib) (line : Str) (h : ∃ n ∈ names line, ¬ IsNumber L n) :
    readColumnNames L line = (names line, (names line).length) := by
  unfold readColumnNames
  rw [cells_eq]
  have : ¬ (((line.splitOn ',').map (fun s => trimString s blanks)).all (fun n => (L.stodLen n).getD 0 == n.length)) = true := by
    rw [List.all_eq_true]
    intro ha
    obtain ⟨n, hn, hx⟩ := h
    exact hx (by unfold IsNumber; simpa using ha n hn)
  simp only
  rw [if_neg this]
  rfl

theorem readColumnNames_numbers (L : Lib) (line : Str) (h : ∀ n ∈ names line, IsNumber L n) :
    readColumnNames L line = ([], 0) := by
  unfold readColumnNames
  rw [cells_eq]
  have : (((line.splitOn ',').map (fun s => trimString s blanks)).all (fun n => (L.stodLen n).getD 0 == n.length)) = true := by
    rw [List.all_eq_true]
    intro n hn
    have := h n hn
    unfold IsNumber at this
    simpa using this
  simp only
  rw [if_pos this]
  rfl

theorem names_ne_nil (line : Str) : names line ≠ [] := by
  unfold names
  simpa using entries_ne_nil line

end Conduit.Csv
