import Verif.Model.Schema
import Verif.Model.NodeEndian
import Verif.Spec.Endian
/-
C20: what survives the trip of a schema through its JSON text.
-/
namespace Conduit.Spec
open Conduit

/-- A name that needs no escaping in a JSON string literal. -/
def CleanName (n : Str) : Prop := ∀ c ∈ n, c ≠ '"' ∧ c ≠ '\\' ∧ 0x20 ≤ c.toNat

/-- a value of `index_t` that is not negative -/
def Index (i : Int) : Prop := 0 ≤ i ∧ i < 2 ^ 63

mutual
/-- Schemas whose JSON text can be read: names need no escaping, are distinct in each
    object and are not `dtype`; the layout fields of the leaves are not negative. -/
def Printable : Schema → Prop
  | .leaf d => d.id ≠ .object ∧ d.id ≠ .list ∧
      (d.id ≠ .empty → Index d.n ∧ Index d.offset ∧ Index d.stride ∧ Index d.ele)
  | .obj es => (es.map (·.1)).Nodup ∧ PrintableE es
  | .lst cs => PrintableL cs
def PrintableE : List (Str × Schema) → Prop
  | [] => True
  | (n, c) :: es => CleanName n ∧ n ≠ chars! "dtype" ∧ Printable c ∧ PrintableE es
def PrintableL : List Schema → Prop
  | [] => True
  | c :: cs => Printable c ∧ PrintableL cs
end

mutual
/-- The schema up to what the JSON text does not keep: an empty leaf has no layout
    fields, and the default byte order becomes the machine's. -/
def jsonForm (big : Bool) : Schema → Schema
  | .leaf d => if d.id = .empty then .leaf {} else .leaf { d with endian := Node.resolve big d.endian }
  | .obj es => .obj (jsonFormE big es)
  | .lst cs => .lst (jsonFormL big cs)
def jsonFormE (big : Bool) : List (Str × Schema) → List (Str × Schema)
  | [] => []
  | (n, c) :: es => (n, jsonForm big c) :: jsonFormE big es
def jsonFormL (big : Bool) : List Schema → List Schema
  | [] => []
  | c :: cs => jsonForm big c :: jsonFormL big cs
end

mutual
/-- The schema that is read back, `off` bytes after the start: an empty leaf is placed
    there with one element, all other leaves keep their fields. -/
def readBack (big : Bool) : Schema → Int → Schema
  | .leaf d, off =>
    if d.id = .empty then .leaf { id := .empty, n := 1, offset := off }
    else .leaf { d with endian := Node.resolve big d.endian }
  | .obj es, off => .obj (readBackE big es off)
  | .lst cs, off => .lst (readBackL big cs off)
def readBackE (big : Bool) : List (Str × Schema) → Int → List (Str × Schema)
  | [], _ => []
  | (n, c) :: es, off => (n, readBack big c off) :: readBackE big es (off + (readBack big c off).totalStridedBytes)
def readBackL (big : Bool) : List Schema → Int → List Schema
  | [], _ => []
  | c :: cs, off => readBack big c off :: readBackL big cs (off + (readBack big c off).totalStridedBytes)
end

mutual
/-- Every leaf has a type and a byte order of its own. -/
def Definite : Schema → Prop
  | .leaf d => d.id ≠ .empty ∧ d.endian ≠ .default
  | .obj es => DefiniteE es
  | .lst cs => DefiniteL cs
def DefiniteE : List (Str × Schema) → Prop
  | [] => True
  | (_, c) :: es => Definite c ∧ DefiniteE es
def DefiniteL : List Schema → Prop
  | [] => True
  | c :: cs => Definite c ∧ DefiniteL cs
end

mutual
/-- The names of a tree can be written to JSON and read back. -/
def NamesOK : Schema → Prop
  | .leaf _ => True
  | .obj es => (es.map (·.1)).Nodup ∧ NamesOKE es
  | .lst cs => NamesOKL cs
def NamesOKE : List (Str × Schema) → Prop
  | [] => True
  | (n, c) :: es => CleanName n ∧ n ≠ chars! "dtype" ∧ NamesOK c ∧ NamesOKE es
def NamesOKL : List Schema → Prop
  | [] => True
  | c :: cs => NamesOK c ∧ NamesOKL cs
end

mutual
/-- The same value with the default byte order named: it is the machine's. -/
def named (big : Bool) : Val → Val
  | .leaf id e es => if id = .empty then .leaf id e es else .leaf id (Node.resolve big e) es
  | .obj es => .obj (namedE big es)
  | .lst cs => .lst (namedL big cs)
def namedE (big : Bool) : List (Str × Val) → List (Str × Val)
  | [] => []
  | (n, c) :: es => (n, named big c) :: namedE big es
def namedL (big : Bool) : List Val → List Val
  | [] => []
  | c :: cs => named big c :: namedL big cs
end

end Conduit.Spec
