import Verif.Model.Csv
import Verif.Spec.NodeHistory
/-
What a CSV file says (C47): lines, entries, columns.
-/
namespace Conduit
open Spec

namespace CsvFile

/-- the lines of a text: what is between the newlines, and what is after the last one unless that is nothing -/
def lines (s : Str) : List Str :=
  let l := s.splitOn '\n'
  if l.getLast? = some [] then l.dropLast else l

/-- the entries of a line -/
def entries (line : Str) : List Str := line.splitOn ','

/-- the names in a header -/
def names (line : Str) : List Str := (entries line).map (fun s => trimString s Csv.blanks)

/-- the names on the path to a column: "a/x" is the component "x" of "a" -/
def parts (name : Str) : List Str := name.splitOn '/'

/-- a column name that names a place: no empty part, no ".." -/
def Plain (name : Str) : Prop := ∀ a ∈ parts name, a ≠ [] ∧ a ≠ ['.', '.']

/-- The names of a header that makes columns: they name places, no two the same, and none a part of the way to another. -/
def GoodNames (names : List Str) : Prop :=
  (∀ n ∈ names, Plain n) ∧ names.Pairwise (fun a b => ¬ parts a <+: parts b ∧ ¬ parts b <+: parts a)

/-- the first parts of the paths, each once, in the order they appear -/
def firsts : List (List Str) → List Str → List Str
  | [], acc => acc
  | p :: ps, acc => firsts ps (match p.head? with
    | some a => if a ∈ acc then acc else acc ++ [a]
    | none => acc)

/-- a text that `stod` reads to its end -/
def IsNumber (L : Csv.Lib) (s : Str) : Prop := (L.stodLen s).getD 0 = s.length

/-- the number of bytes of a float or double -/
def width (f64 : Bool) : Nat := if f64 then 8 else 4
def typeId (f64 : Bool) : TypeId := if f64 then .float64 else .float32

/-- `stof` and `stod` give values of their types -/
def Sound (L : Csv.Lib) (f64 : Bool) : Prop := ∀ s b, L.num f64 s = some b → b.length = width f64

/-- a row that fits: no more entries than columns, all of them numbers -/
def RowOK (L : Csv.Lib) (f64 : Bool) (ncols : Nat) (line : Str) : Prop :=
  (entries line).length ≤ ncols ∧ ∀ e ∈ entries line, (L.num f64 e).isSome

/-- what is wrong with the entries of a row from column `j` on, in the order of the entries: an entry that is not a number
    is an error; there is no place for an entry after the last column -/
def checkRow (L : Csv.Lib) (f64 : Bool) (ncols : Nat) : Nat → List Str → Res Unit
  | _, [] => .ok ()
  | j, e :: es =>
    if j < ncols then (if (L.num f64 e).isSome then checkRow L f64 ncols (j + 1) es else .error) else .ub

/-- what is wrong with the rows, in their order -/
def check (L : Csv.Lib) (f64 : Bool) (ncols : Nat) : List Str → Res Unit
  | [] => .ok ()
  | row :: rows => do
    checkRow L f64 ncols 0 (entries row)
    check L f64 ncols rows

/-- the value of column `j` in a row; 0 where the row has ended -/
def cell (L : Csv.Lib) (f64 : Bool) (line : Str) (j : Nat) : List UInt8 :=
  match (entries line)[j]? with
  | some e => (L.num f64 e).getD []
  | none => List.replicate (width f64) 0

end CsvFile

namespace Heap
/-- what the schema of a node says -/
def kindOf (h : Heap) (n : Nat) : Option Kind :=
  match h.nodes n with
  | some o => (h.schemas o.schema).map (·.kind)
  | none => none

/-- the child of a node with this name -/
def kid (h : Heap) (n : Nat) (name : Str) : Option Nat :=
  match h.nodes n, h.kindOf n with
  | some o, some (.obj names) => match names.findIdx? (· == name) with
    | some i => o.children[i]?
    | none => none
  | _, _ => none

/-- the node at the end of a path of names -/
def follow (h : Heap) : Nat → List Str → Option Nat
  | n, [] => some n
  | n, a :: p => match h.kid n a with
    | some c => follow h c p
    | none => none

/-- element `i` of a leaf -/
def elem (h : Heap) (n i : Nat) : Res (List UInt8) :=
  match h.nodes n, h.kindOf n with
  | some o, some (.leaf d) => h.mem.load o.info.data (d.elementIndex i) d.id.bytes
  | _, _ => .ub
end Heap

/-- The node `v` holds the columns `names`, with the values of `rows`, and nothing else. -/
structure CsvFile.Holds (L : Csv.Lib) (f64 : Bool) (names : List Str) (rows : List Str) (h : Heap) (v : Nat) : Prop where
  top : h.kindOf v = some (.obj (firsts (names.map parts) []))
  column : ∀ j name, names[j]? = some name → ∃ c, h.follow v (parts name) = some c ∧
    h.kindOf c = some (.leaf (DataType.ofId (typeId f64) rows.length)) ∧
    ∀ i row, rows[i]? = some row → h.elem c i = .ok (cell L f64 row j)
  only : ∀ p c d, h.follow v p = some c → h.kindOf c = some (.leaf d) → ∃ name ∈ names, p = parts name

end Conduit
