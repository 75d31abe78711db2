import Verif.Spec.Csv
import Verif.Props.Mcarray
/-
What a blueprint table is, and when its CSV file can be read back (C47, C65).
-/
namespace Conduit
open Spec

namespace Table

/-- children with their names; the children of a list are named by their position -/
def children : Node → List (Str × Node)
  | .leaf _ _ => []
  | .obj _ es => es
  | .lst _ cs => cs.zipIdx.map (fun e => ('[' :: (toString e.2).toList ++ [']'], e.1))

def isTree (c : Node) : Bool := c.dtype.id == .object || c.dtype.id == .list

/-- An array of numbers, strings, … ; or components that are arrays of numbers of the same length. -/
def ColumnOK (c : Node) : Prop :=
  if isTree c then MCArray.EqualComponents c.dtype.id ((children c).map (·.2.dtype)) ∧ children c ≠ []
  else c.dtype.id ≠ .empty

/-- the number of rows of a column -/
def rows (c : Node) : Int :=
  match children c with
  | [] => c.dtype.n
  | (_, k) :: _ => k.dtype.n

/-- A table: the values are an object or a list of columns with the same number of rows. -/
def Valid (values : Node) : Prop :=
  isTree values = true ∧ (∀ c ∈ children values, ColumnOK c.2) ∧ ∀ c ∈ children values, ∀ d ∈ children values, rows c.2 = rows d.2

/-- the arrays of a table with the paths to them; a column of one component is the component -/
def arraysOf (col : Str × Node) : List (List Str × Node) :=
  match children col.2 with
  | [] => [([col.1], col.2)]
  | [k] => [([col.1], k.2)]
  | k :: l :: ks => (k :: l :: ks).map (fun e => ([col.1, e.1], e.2))
def arrays (values : Node) : List (List Str × Node) := (children values).flatMap arraysOf

/-- the last character -/
def NameOK (s : Str) : Prop :=
  s ≠ ['.', '.'] ∧ (∀ c ∈ s, c ≠ ',' ∧ c ≠ '/' ∧ c ≠ '\n') ∧ (∃ c, s.head? = some c ∧ c ∉ Csv.blanks) ∧ ∃ c, s.getLast? = some c ∧ c ∉ Csv.blanks

/-- A table whose names can be written in a header, and whose arrays are numbers. -/
structure Writable (values : Node) : Prop where
  valid : Valid values
  name : ∀ c ∈ children values, NameOK c.1 ∧ ∀ k ∈ children c.2, NameOK k.1
  nodup : ((children values).map (·.1)).Nodup
  nodupC : ∀ c ∈ children values, ((children c.2).map (·.1)).Nodup
  number : ∀ a ∈ arrays values, MCArray.isNumber a.2.dtype.id = true

/-- The text of a number can be read, also after a blank, and has no comma and no newline. -/
def Prints (L : Csv.Lib) (f64 : Bool) : Prop :=
  ∀ id bytes, MCArray.isNumber id = true → bytes.length = id.bytes → ',' ∉ L.text id bytes ∧ '\n' ∉ L.text id bytes ∧
    (L.num f64 (L.text id bytes)).isSome ∧ L.num f64 (' ' :: L.text id bytes) = L.num f64 (L.text id bytes)

/-- The node `v` holds the arrays of `values`, with the numbers that their texts say, and nothing else. -/
structure ReadBack (L : Csv.Lib) (f64 : Bool) (m : Mem) (values : Node) (h : Heap) (v : Nat) : Prop where
  top : h.kindOf v = some (.obj ((children values).map (·.1)))
  array : ∀ a ∈ arrays values, ∃ c, h.follow v a.1 = some c ∧
    h.kindOf c = some (.leaf (DataType.ofId (CsvFile.typeId f64) (a.2.dtype.n.toNat : Int))) ∧
    ∀ i : Nat, i < a.2.dtype.n.toNat → ∃ old new, m.load a.2.info.data (a.2.dtype.elementIndex i) a.2.dtype.id.bytes = .ok old ∧
      L.num f64 (L.text a.2.dtype.id old) = some new ∧ h.elem c i = .ok new
  only : ∀ p c d, h.follow v p = some c → h.kindOf c = some (.leaf d) → ∃ a ∈ arrays values, p = a.1

end Table
end Conduit
