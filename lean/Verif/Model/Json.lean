import Verif.Model.JsonStr
/-
Model of the builtin rapidjson reader (default flags) as conduit uses it.
Source: /repo/src/thirdparty_builtin/rapidjson/include/rapidjson/reader.h
-/
namespace Conduit

/-- A JSON value (rapidjson `Value`).  `int`: a number the reader stores as an
    integer (int, unsigned, int64 or uint64); `real`: any other number, kept as its
    text (its double value is not modelled). -/
inductive JV where
  | null
  | bool (b : Bool)
  | int (i : Int)
  | real (text : Str)
  | str (s : Str)
  | arr (vs : List JV)
  | obj (ms : List (Str × JV))

namespace JV

/-- reader.h:251-258 `SkipWhitespace`. -/
def isWs (c : Char) : Bool := c == ' ' || c == '\n' || c == '\r' || c == '\t'
def skipWs (s : Str) : Str := s.dropWhile isWs

/-- decimal digits, as a number -/
def digitsVal (ds : Str) : Nat := Nat.ofDigitChars 10 ds 0

/-- reader.h:842-844: the digits of the integer part: a single 0, or a run of digits
    that does not start with 0. -/
def intDigits (s : Str) : Str :=
  match s with
  | '0' :: _ => ['0']
  | _ => s.takeWhile Char.isDigit

/-- reader.h:921-961: the fraction: a point and at least one digit.  `none`: error. -/
def fracText (s : Str) : Option Str :=
  match s with
  | '.' :: r => if (r.takeWhile Char.isDigit).isEmpty then none else some ('.' :: r.takeWhile Char.isDigit)
  | _ => some []

/-- reader.h:966-1003: the exponent. `none`: error. -/
def expText (s : Str) : Option Str :=
  match s with
  | [] => some []
  | c :: r =>
    if c = 'e' ∨ c = 'E' then
      let sign := match r with
        | '+' :: _ => ['+']
        | '-' :: _ => ['-']
        | _ => []
      let ds := (r.drop sign.length).takeWhile Char.isDigit
      if ds.isEmpty then none else some (c :: sign ++ ds)
    else some []

/-- reader.h:829-1041 `ParseNumber`: value and rest.  Integers that fit 64 bits are kept
    exactly, all other numbers as text.  Simplification: the error "number too
    big" of a double above the range is not modelled. -/
def parseNumber (s : Str) : Option (JV × Str) :=
  let neg : Bool := s.head? == some '-'
  let s1 := if neg then s.drop 1 else s
  let ds := intDigits s1
  if ds.isEmpty then none
  else
    let s2 := s1.drop ds.length
    match fracText s2 with
    | none => none
    | some f =>
      match expText (s2.drop f.length) with
      | none => none
      | some e =>
        let rest := (s2.drop f.length).drop e.length
        let v : Int := if neg then -(digitsVal ds : Int) else digitsVal ds
        if f.isEmpty && e.isEmpty && decide (-(2 ^ 63) ≤ v) && decide (v < 2 ^ 64) then some (.int v, rest)
        else some (.real (s.take (s.length - rest.length)), rest)

mutual
/-- reader.h:1044-1058 `ParseValue` (609-645 for the keywords).  The first argument
    bounds the recursion depth; `parseDoc` passes enough. -/
def parseValue : Nat → Str → Option (JV × Str)
  | 0, _ => none
  | k + 1, s =>
    match s with
    | 'n' :: 'u' :: 'l' :: 'l' :: r => some (.null, r)
    | 't' :: 'r' :: 'u' :: 'e' :: r => some (.bool true, r)
    | 'f' :: 'a' :: 'l' :: 's' :: 'e' :: r => some (.bool false, r)
    | '"' :: r => (rjString r).map (fun p => (.str p.1, p.2))
    | '{' :: r =>
      match skipWs r with
      | '}' :: r' => some (.obj [], r')
      | r' => (parseMembers k r').map (fun p => (.obj p.1, p.2))
    | '[' :: r =>
      match skipWs r with
      | ']' :: r' => some (.arr [], r')
      | r' => (parseElems k r').map (fun p => (.arr p.1, p.2))
    | _ => parseNumber s
/-- reader.h:524-561: the members of an object, after the opening bracket. -/
def parseMembers : Nat → Str → Option (List (Str × JV) × Str)
  | 0, _ => none
  | k + 1, s =>
    match s with
    | '"' :: r =>
      match rjString r with
      | none => none
      | some (name, r1) =>
        match skipWs r1 with
        | ':' :: r2 =>
          match parseValue k (skipWs r2) with
          | none => none
          | some (v, r3) =>
            match skipWs r3 with
            | ',' :: r4 => (parseMembers k (skipWs r4)).map (fun p => ((name, v) :: p.1, p.2))
            | '}' :: r4 => some ([(name, v)], r4)
            | _ => none
        | _ => none
    | _ => none
/-- reader.h:584-605: the elements of an array, after the opening bracket. -/
def parseElems : Nat → Str → Option (List JV × Str)
  | 0, _ => none
  | k + 1, s =>
    match parseValue k s with
    | none => none
    | some (v, r3) =>
      match skipWs r3 with
      | ',' :: r4 => (parseElems k (skipWs r4)).map (fun p => (v :: p.1, p.2))
      | ']' :: r4 => some ([v], r4)
      | _ => none
end

/-- reader.h:398-428 `Parse` of a C string (the text ends at the first NUL): one value,
    white space around it.  `none`: `HasParseError()`. -/
def parseDoc (text : Str) : Option JV :=
  let s := text.takeWhile (· ≠ '\x00')
  match parseValue (s.length + 1) (skipWs s) with
  | none => none
  | some (v, r) => if (skipWs r).isEmpty then some v else none

/-- document.h `FindMember` / `operator[]` / `HasMember`: the first member of that name. -/
def member (v : JV) (name : Str) : Option JV :=
  match v with
  | .obj ms => ms.lookup name
  | _ => none

end JV

/-- `os << n` for a 64-bit integer: decimal digits with an optional minus sign. -/
def intText (i : Int) : Str :=
  if i < 0 then '-' :: Nat.toDigits 10 i.natAbs else Nat.toDigits 10 i.toNat

end Conduit
