import Verif.Model.JsonStr
/-
Specification vocabulary for C03 / C04: a JSON document as a sequence of
lexical pieces.  Independent of the sanitizer.
-/
namespace Conduit.Spec
open Conduit

/-- Segments of a text between separators (empty ones included); spec for
    the vector form of `split_string`. -/
def segments (sep : Char) : Str → List Str
  | [] => [[]]
  | c :: cs =>
    if c = sep then [] :: segments sep cs
    else ((c :: (segments sep cs).headD []) :: (segments sep cs).tail)

/-- Lexical pieces of a JSON text. -/
inductive Piece where
  /-- a string literal with the given raw body (text between the quotes) -/
  | lit (body : Str)
  /-- one other character: bracket, comma, colon, white space, digit, sign,
      dot, or the `e`/`E` of a number -/
  | sym (c : Char)
  /-- `true`, `false` or `null` -/
  | kw (w : Str)
  /-- a bare word (not JSON; conduit's relaxed syntax) -/
  | ident (w : Str)
  /-- a `//` comment with its text, up to and including the newline (not JSON;
      conduit's relaxed syntax) -/
  | comment (t : Str)

def Piece.text : Piece → Str
  | .lit b => '"' :: b ++ ['"']
  | .sym c => [c]
  | .kw w => w
  | .ident w => w
  | .comment t => '/' :: '/' :: t ++ ['\n']

/-- the document text -/
def render (ps : List Piece) : Str := ps.flatMap Piece.text

/-- the piece in standard JSON: bare words quoted, comments dropped, everything
    else as it is -/
def Piece.json : Piece → Str
  | .ident w => '"' :: w ++ ['"']
  | .comment _ => []
  | p => p.text

def renderJson (ps : List Piece) : Str := ps.flatMap Piece.json

/-- the piece is standard JSON -/
def Piece.standard : Piece → Bool
  | .ident _ => false
  | .comment _ => false
  | _ => true

/-- a valid string literal: the JSON reader consumes exactly this body -/
def ValidBody (b : Str) : Prop := ∃ v, rjString (b ++ ['"']) = some (v, [])

/-- Well formed piece sequence.  `prev` is the character before it.
    * a literal is valid, is not the very first thing in the document, and its
      value does not end with a backslash (these two exclusions are the cases
      where `json_sanitize` is wrong);
    * a symbol is not a quote, slash or backslash, and a letter or underscore
      only occurs as the exponent of a number (after a digit or a dot);
    * a keyword is one of the three, is not the first or last thing, and does
      not touch a digit or a letter;
    * a bare word starts with a letter or underscore, continues with letters,
      underscores and digits, is no keyword, and is placed like a keyword;
    * a comment holds no quote and no newline. -/
def DocOK : Option Char → List Piece → Prop
  | _, [] => True
  | prev, .lit b :: ps =>
      prev ≠ none ∧ ValidBody b ∧ b.getLast? ≠ some '\\' ∧ DocOK (some '"') ps
  | prev, .sym c :: ps =>
      c ≠ '"' ∧ c ≠ '/' ∧ c ≠ '\\' ∧
      (checkWordChar c = true → ∃ p, prev = some p ∧ (checkNumChar p = true ∨ p = '.')) ∧
      DocOK (some c) ps
  | prev, .kw w :: ps =>
      w ∈ ["true".toList, "false".toList, "null".toList] ∧
      (∃ p, prev = some p ∧ checkNumChar p = false ∧ p ≠ '.') ∧
      (∃ c ps', ps = .sym c :: ps' ∧ checkWordChar c = false ∧ checkNumChar c = false) ∧
      DocOK (some 'e') ps
  | prev, .ident w :: ps =>
      w ∉ ["true".toList, "false".toList, "null".toList] ∧
      (∃ a as, w = a :: as ∧ checkWordChar a = true ∧ ∀ b ∈ as, checkWordChar b = true ∨ checkNumChar b = true) ∧
      (∃ p, prev = some p ∧ checkNumChar p = false ∧ p ≠ '.') ∧
      (∃ c ps', ps = .sym c :: ps' ∧ checkWordChar c = false ∧ checkNumChar c = false) ∧
      DocOK (some 'e') ps
  | _, .comment t :: ps => '"' ∉ t ∧ '\n' ∉ t ∧ DocOK (some '\n') ps

end Conduit.Spec
