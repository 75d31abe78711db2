import Verif.Model.NodeSync
import Verif.Model.Mcarray
import Verif.Model.GenNode
/-
Reading and writing CSV files, and the check of tables.
Source: /repo/src/libs/relay/conduit_relay_io_csv.cpp, /repo/src/libs/blueprint/conduit_blueprint_table.cpp
Simplifications: a file is its text, files that cannot be opened and the directories of `write_multiple_tables` /
`read_many_tables` are not modelled; the `info` node of `verify` is not modelled.  The number functions of the C++
library are parameters.
-/
namespace Conduit.Csv
open Heap

/-- What the code asks of the C++ library. -/
structure Lib where
  /-- `std::stod(s, &idx)`: `idx`, the number of characters read; `none`: it throws -/
  stodLen : Str → Option Nat
  /-- `std::stof(s)` (`false`) and `std::stod(s)` (`true`): the bytes of the value; `none`: it throws -/
  num : Bool → Str → Option (List UInt8)
  /-- `stream << value` for a number of the type with these bytes -/
  text : TypeId → List UInt8 → Str

/-- `std::getline` until it fails: a line ends at a newline or at the end of the file. -/
def getlines (s : Str) : List Str :=
  if s = [] then []
  else match h : find '\n' s with
    | none => [s]
    | some i => s.take i :: getlines (s.drop (i + 1))
termination_by s.length
decreasing_by
  obtain ⟨hl, _⟩ := List.findIdx?_eq_some_iff_getElem.1 h
  rw [List.length_drop]
  omega

/-- The loops of conduit_relay_io_csv.cpp:281-294: the pieces between the separators. -/
def cells (sep : Char) (s : Str) : List Str :=
  match h : find sep s with
  | none => [s]
  | some i => s.take i :: cells sep (s.drop (i + 1))
termination_by s.length
decreasing_by
  obtain ⟨hl, _⟩ := List.findIdx?_eq_some_iff_getElem.1 h
  rw [List.length_drop]
  omega

/-- conduit_utils.hpp:359-360: what `trim_string` removes by default -/
def blanks : Str := [' ', '\t', '\n', '\r', '\x0c', '\x0b']

/-- conduit_relay_io_csv.cpp:276-323 `read_column_names`: the names and the number of columns it returns. -/
def readColumnNames (L : Lib) (line : Str) : List Str × Nat :=
  let names := (cells ',' line).map (fun s => trimString s blanks)
  let names := if names.all (fun n => (L.stodLen n).getD 0 == n.length) then [] else names
  (names, names.length)

/-- conduit_relay_io_csv.cpp:220-244 `add_column`. -/
def addColumn (h : Heap) (v : Nat) (name : Str) : Res (Heap × Nat) :=
  if name = [] then h.appendN v
  else match rfind '/' name with
    | some k => do
      let r ← h.fetchN v (name.take k)
      match r.2 with
      | none => .error
      | some b => r.1.addChildN b (name.drop (k + 1))
    | none => h.addChildN v name

/-- conduit_schema.cpp:1156-1210 `name()` of the child `i` of a list -/
def listName (i : Nat) : Str := '[' :: (toString i).toList ++ [']']

/-- conduit_relay_io_csv.cpp:253-258: unnamed columns. -/
def addUnnamed (d : DataType) (v : Nat) : Nat → Heap → List Str → Res (Heap × List Str)
  | 0, h, acc => .ok (h, acc)
  | k + 1, h, acc => do
    let r ← addColumn h v []
    let h1 ← r.1.initN r.2 d
    let o ← h1.getN v
    addUnnamed d v k h1 (acc ++ [listName (o.children.length - 1)])

/-- conduit_relay_io_csv.cpp:247-268 `add_columns`: the heap and `col_names`. -/
def addColumns (h : Heap) (v : Nat) (names : List Str) (ncols : Nat) (d : DataType) : Res (Heap × List Str) :=
  if names = [] then addUnnamed d v ncols h []
  else do
    let h1 ← names.foldlM (fun g name => do
      let r ← addColumn g v name
      r.1.initN r.2 d) h
    .ok (h1, names)

/-- conduit_relay_io_csv.cpp:346-384 (and 392-430): one entry of a row.  `*d = std::stof(data)` throws before it
    writes. -/
def readCell (L : Lib) (f64 : Bool) (names : List Str) (v row icol : Nat) (h : Heap) (data : Str) : Res Heap :=
  if icol > names.length then .error
  else do
    let name ← Res.ofIdx names icol
    let r ← h.fetchN v name
    match r.2 with
    | none => .error
    | some n => do
      let o ← r.1.getN n
      let d ← r.1.dtypeN n
      match L.num f64 data with
      | none => .error
      | some bytes => do
        let m ← r.1.mem.store o.info.data (d.elementIndex row) bytes
        .ok { r.1 with mem := m }

/-- conduit_relay_io_csv.cpp:340-430: one row. -/
def readRow (L : Lib) (f64 : Bool) (names : List Str) (v row : Nat) (icol : Nat) (h : Heap) (line : Str) : Res Heap :=
  match hf : find ',' line with
  | none => readCell L f64 names v row icol h line
  | some i => do
    let h1 ← readCell L f64 names v row icol h (line.take i)
    readRow L f64 names v row (icol + 1) h1 (line.drop (i + 1))
termination_by line.length
decreasing_by
  obtain ⟨hl, _⟩ := List.findIdx?_eq_some_iff_getElem.1 hf
  rw [List.length_drop]
  omega

/-- conduit_relay_io_csv.cpp:326-433 `read_csv_data`: the rows from number `row` on. -/
def readData (L : Lib) (f64 : Bool) (names : List Str) (v : Nat) : Nat → Heap → List Str → Res Heap
  | _, h, [] => .ok h
  | row, h, line :: rest => do
    let h1 ← readRow L f64 names v row 0 h line
    readData L f64 names v (row + 1) h1 rest

/-- conduit_relay_io_csv.cpp:436-499 `read_single_table`.  The rows start again at the first line when there are no
    column names.  (A file that ends in its first line: `tellg` gives -1 and no row is read.) -/
def readTable (L : Lib) (f64 : Bool) (h : Heap) (t : Nat) (text : Str) : Res Heap := do
  let h1 ← h.resetN t
  match getlines text with
  | [] => .error
  | first :: rest => do
    let r := readColumnNames L first
    let data := if r.1 = [] then first :: rest else rest
    let d := DataType.ofId (if f64 then .float64 else .float32) data.length
    let q ← h1.fetchN t (chars! "values")
    match q.2 with
    | none => .error
    | some v => do
      let a ← addColumns q.1 v r.1 r.2 d
      readData L f64 a.2 v 0 a.1 data

/-! ### Writing -/

/-- conduit_schema.cpp:1156-1210 `name()` of the child of an object -/
def objName (name : Str) : Str := if '/' ∈ name then '{' :: name ++ ['}'] else name

/-- the children of a node with their `name()` -/
def kids : Node → List (Str × Node)
  | .leaf _ _ => []
  | .obj _ es => es.map (fun e => (objName e.1, e.2))
  | .lst _ cs => cs.zipIdx.map (fun e => (listName e.2, e.1))

/-- pieces with `", "` between them -/
def joinSep : List Str → Str
  | [] => []
  | [s] => s
  | s :: t :: rest => s ++ ',' :: ' ' :: joinSep (t :: rest)

/-- conduit_relay_io_csv.cpp:79-94: the names of one column. -/
def colHeader (base : Str) (value : Node) : Str :=
  if (kids value).length > 1 then joinSep ((kids value).map (fun c => base ++ '/' :: c.1)) else base

/-- conduit_relay_io_csv.cpp:73-99 `write_header`. -/
def header (values : Node) : Str := joinSep ((kids values).map (fun c => colHeader c.1 c.2)) ++ ['\n']

/-- conduit_relay_io_csv.cpp:102-125 `write_element` for element `row` of a leaf, read through
    `set_external(DataType(id, 1), element_ptr(row))`: the byte order of the leaf's type is ignored.  Other types than
    numbers and strings write nothing. -/
def elemText (L : Lib) (m : Mem) (c : Node) (row : Nat) : Res Str :=
  if MCArray.isNumber c.dtype.id then
    (m.load c.info.data (c.dtype.elementIndex row) c.dtype.id.bytes).map' (L.text c.dtype.id)
  else if c.dtype.id = .char8Str then
    (Node.asString (c.info) { (DataType.ofId .char8Str 1) with offset := c.dtype.elementIndex row } m).map' (·.map byteChar)
  else .ok []

/-- texts of several elements with `", "` between them -/
def joinRes : List (Res Str) → Res Str
  | [] => .ok []
  | [t] => t
  | t :: u :: rest => do
    let a ← t
    let b ← joinRes (u :: rest)
    .ok (a ++ ',' :: ' ' :: b)

/-- conduit_relay_io_csv.cpp:152-170: the entries of one column in one row. -/
def colText (L : Lib) (m : Mem) (value : Node) (row : Nat) : Res Str :=
  if (kids value).length > 0 then joinRes ((kids value).map (fun c => elemText L m c.2 row))
  else elemText L m value row

/-- conduit_relay_io_csv.cpp:148-175: `k` rows from number `row` on. -/
def rowsText (L : Lib) (m : Mem) (values : Node) : (k row : Nat) → Res Str
  | 0, _ => .ok []
  | k + 1, row => do
    let t ← joinRes ((kids values).map (fun c => colText L m c.2 row))
    let ts ← rowsText L m values k (row + 1)
    .ok (t ++ '\n' :: ts)

/-- conduit_relay_io_csv.cpp:56-70 `get_nrows`. -/
def nrows (values : Node) : Int :=
  match kids values with
  | [] => 0
  | (_, ref) :: _ => match kids ref with
    | [] => ref.dtype.n
    | (_, c) :: _ => c.dtype.n

/-- conduit_relay_io_csv.cpp:128-176 `write_row_based`. -/
def writeValues (L : Lib) (m : Mem) (values : Node) : Res Str := do
  let ts ← rowsText L m values (nrows values).toNat 0
  .ok (header values ++ ts)

/-! ### `blueprint::table::verify` -/

/-- conduit_blueprint_table.cpp:31-96 `verify_table_values`: the columns that are left, `num_rows`, `first_column`, `res`.
    `n_col[0]` of a column without components is undefined. -/
def verifyCols : List Node → (numRows : Int) → (first res : Bool) → Res Bool
  | [], _, _, res => .ok res
  | c :: rest, numRows, first, res => do
    let isTree := c.dtype.id == .object || c.dtype.id == .list
    let r ← (if isTree then
        let ok := MCArray.verify c.dtype.id ((kids c).map (·.2.dtype))
        (if res then do
          let k ← Res.ofIdx (kids c) 0
          .ok (ok, k.2.dtype.n)
        else .ok (ok, 0))
      else if c.dtype.id == .empty then .ok (false, 0)
      else .ok (true, c.dtype.n) : Res (Bool × Int))
    if r.1 then
      let numRows := if first then r.2 else numRows
      verifyCols rest numRows false (res && numRows == r.2)
    else verifyCols rest numRows false false

/-- conduit_blueprint_table.cpp:99-130 `verify_single_table`, from the values on. -/
def verifyValues (values : Node) : Res Bool :=
  if values.dtype.id ≠ .object ∧ values.dtype.id ≠ .list then .ok false
  else verifyCols ((kids values).map (·.2)) 0 true true

/-- conduit_relay_io_csv.cpp:610-633 `write_csv` for a table with this `values`. -/
def writeCsv (L : Lib) (m : Mem) (values : Node) : Res Str := do
  let ok ← verifyValues values
  if ok then writeValues L m values else .error

end Conduit.Csv
