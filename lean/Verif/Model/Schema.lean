import Verif.Model.Res
import Verif.Model.SchemaRaw
import Verif.Spec.Tree
/-
Layout queries and comparisons of conduit::Schema.
Source: /repo/src/libs/conduit/conduit_schema.cpp
The tree type is the association-list form of the schema; theorem
C11_history_refines_ordered_map shows that the index tables of the code always
represent such a tree.
-/
set_option linter.unusedVariables false
namespace Conduit
open Spec

/-- A schema: leaf with a data type, object with ordered named children, list. -/
abbrev Schema := Spec.Tree

namespace Schema
open Spec.Tree

mutual
/-- conduit_schema.cpp:222-241 `total_strided_bytes`. -/
def totalStridedBytes : Schema → Int
  | .leaf d => if d.id = .empty then 0 else d.stridedBytes
  | .obj es => totalStridedBytesE es
  | .lst cs => totalStridedBytesL cs
def totalStridedBytesE : List (Str × Schema) → Int
  | [] => 0
  | (_, c) :: es => totalStridedBytes c + totalStridedBytesE es
def totalStridedBytesL : List Schema → Int
  | [] => 0
  | c :: cs => totalStridedBytes c + totalStridedBytesL cs
end

mutual
/-- conduit_schema.cpp:244-263 `total_bytes_compact`. -/
def totalBytesCompact : Schema → Int
  | .leaf d => if d.id = .empty then 0 else d.bytesCompact
  | .obj es => totalBytesCompactE es
  | .lst cs => totalBytesCompactL cs
def totalBytesCompactE : List (Str × Schema) → Int
  | [] => 0
  | (_, c) :: es => totalBytesCompact c + totalBytesCompactE es
def totalBytesCompactL : List Schema → Int
  | [] => 0
  | c :: cs => totalBytesCompact c + totalBytesCompactL cs
end

/-- conduit_schema.cpp:266-270 `is_compact`. -/
def isCompact (s : Schema) : Bool := totalBytesCompact s == totalStridedBytes s

mutual
/-- conduit_schema.cpp:273-299 `spanned_bytes`: maximum over the children,
    starting from 0. -/
def spannedBytes : Schema → Int
  | .leaf d => d.spannedBytes
  | .obj es => spannedBytesE 0 es
  | .lst cs => spannedBytesL 0 cs
def spannedBytesE (res : Int) : List (Str × Schema) → Int
  | [] => res
  | (_, c) :: es => spannedBytesE (if spannedBytes c > res then spannedBytes c else res) es
def spannedBytesL (res : Int) : List Schema → Int
  | [] => res
  | c :: cs => spannedBytesL (if spannedBytes c > res then spannedBytes c else res) cs
end

mutual
/-- conduit_schema.cpp:1472-1507 `compact_to(dest, curr_offset)` on an empty
    destination: the schema it becomes. -/
def compactAt : Schema → Int → Schema
  | .leaf d, off => if d.id = .empty then .leaf {} else .leaf { d.compactTo with offset := off }
  | .obj es, off => .obj (compactAtE es off)
  | .lst cs, off => .lst (compactAtL cs off)
def compactAtE : List (Str × Schema) → Int → List (Str × Schema)
  | [], _ => []
  | (n, c) :: es, off =>
    (n, compactAt c off) :: compactAtE es (off + totalBytesCompact (compactAt c off))
def compactAtL : List Schema → Int → List Schema
  | [], _ => []
  | c :: cs, off => compactAt c off :: compactAtL cs (off + totalBytesCompact (compactAt c off))
end

/-- conduit_schema.cpp:442-447 `compact_to(dest)`: reset, then offset 0. -/
def compactTo (s : Schema) : Schema := compactAt s 0

/-- conduit_schema.cpp:1259-1300 `has_path` on the association list form (see
    `hasPath_refines` for the tie to the table form). -/
def hasPath (s : Schema) (path : Str) : Bool :=
  match s with
  | .obj es =>
    match es.lookup (splitPath (RSchema.cullSlash path)).1 with
    | none => false
    | some ch =>
      if hn : (splitPath (RSchema.cullSlash path)).2 = [] then true
      else hasPath ch (splitPath (RSchema.cullSlash path)).2
  | _ => false
termination_by path.length
decreasing_by
  have h1 := RSchema.split_next_lt hn
  have h2 : (RSchema.cullSlash path).length ≤ path.length := by
    cases path with
    | nil => simp [RSchema.cullSlash]
    | cons c r => rw [RSchema.cullSlash]; split <;> simp
  omega

theorem sizeOf_lookup {es : List (Str × Schema)} {n : Str} {c : Schema} (h : es.lookup n = some c) :
    sizeOf c < sizeOf es := by
  induction es with
  | nil => simp at h
  | cons e es ih =>
    obtain ⟨k, x⟩ := e
    rw [List.lookup_cons] at h
    by_cases hk : (n == k) = true
    · simp only [hk] at h; injection h with h; subst h; simp; omega
    · have : (n == k) = false := by simpa using hk
      simp only [this] at h
      have := ih h
      simp; omega

theorem sizeOf_mem {es : List (Str × Schema)} {e : Str × Schema} (h : e ∈ es) : sizeOf e.2 < sizeOf es := by
  have := List.sizeOf_lt_of_mem h
  obtain ⟨k, x⟩ := e
  simp at this ⊢; omega

/-- A loop `for(...; itr != end && res; ...) res = f(...)`: stops at the first
    false, or at the first exception. -/
def allM {α : Type} (f : α → Res Bool) : List α → Res Bool
  | [] => .ok true
  | x :: xs => match f x with
    | .ok true => allM f xs
    | r => r

/-- conduit_schema.cpp:361-431 `equals`.  `child(name)` throws when the name is
    no child (possible after `has_path(name)` when the name contains '/').
    Simplification: the loops run in the order of the children, not of the
    sorted name table; this can only decide whether an exception or `false`
    comes first. -/
def equals (a b : Schema) : Res Bool :=
  match a, b with
  | .obj ea, .obj eb =>
    match allM (fun (e : { e // e ∈ eb }) =>
        if hasPath (.obj ea) e.1.1 then
          match h : ea.lookup e.1.1 with
          | none => .error
          | some c => equals e.1.2 c
        else .ok false) eb.attach with
    | .ok true =>
      allM (fun (e : { e // e ∈ ea }) =>
        if hasPath (.obj eb) e.1.1 then
          match h : eb.lookup e.1.1 with
          | none => .error
          | some c => equals e.1.2 c
        else .ok false) ea.attach
    | r => r
  | .lst ca, .lst cb =>
    if ca.length ≠ cb.length then .ok false
    else allM (fun (i : { i : Nat // i < ca.length ∧ i < cb.length }) => equals (ca[i.1]'i.2.1) (cb[i.1]'i.2.2))
      ((List.range cb.length).filterMap fun i =>
        if h : i < ca.length ∧ i < cb.length then some ⟨i, h⟩ else none)
  | .leaf d, .leaf e => .ok (d.equals e)
  | _, _ => .ok false
termination_by sizeOf a + sizeOf b
decreasing_by
  · have h1 := sizeOf_lookup h
    have h2 := sizeOf_mem e.2
    simp at h1 h2 ⊢; omega
  · have h1 := sizeOf_lookup h
    have h2 := sizeOf_mem e.2
    simp at h1 h2 ⊢; omega
  · have h1 := List.sizeOf_lt_of_mem (List.getElem_mem i.2.1)
    have h2 := List.sizeOf_lt_of_mem (List.getElem_mem i.2.2)
    simp at h1 h2 ⊢; omega

/-- conduit_schema.cpp:303-358 `compatible` (same simplification as `equals`). -/
def compatible (a b : Schema) : Res Bool :=
  match a, b with
  | .obj ea, .obj eb =>
    allM (fun (e : { e // e ∈ eb }) =>
        if hasPath (.obj ea) e.1.1 then
          match h : ea.lookup e.1.1 with
          | none => .error
          | some c => compatible c e.1.2
        else .ok true) eb.attach
  | .lst ca, .lst cb =>
    if ca.length < cb.length then .ok false
    else allM (fun (i : { i : Nat // i < ca.length ∧ i < cb.length }) => compatible (ca[i.1]'i.2.1) (cb[i.1]'i.2.2))
      ((List.range cb.length).filterMap fun i =>
        if h : i < ca.length ∧ i < cb.length then some ⟨i, h⟩ else none)
  | .leaf d, .leaf e => .ok (if d.id = e.id then d.compatible e else false)
  | _, _ => .ok false
termination_by sizeOf a + sizeOf b
decreasing_by
  · have h1 := sizeOf_lookup h
    have h2 := sizeOf_mem e.2
    simp at h1 h2 ⊢; omega
  · have h1 := List.sizeOf_lt_of_mem (List.getElem_mem i.2.1)
    have h2 := List.sizeOf_lt_of_mem (List.getElem_mem i.2.2)
    simp at h1 h2 ⊢; omega

end Schema
end Conduit
