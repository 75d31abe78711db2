import Verif.Model.Json
/-
What it means for a text to be a JSON text of a value (specification, independent of
the reader's recursion): any amount of white space between the tokens.
-/
namespace Conduit.Spec
open Conduit

/-- only white space -/
def WS (w : Str) : Prop := ∀ c ∈ w, JV.isWs c = true

/-- a number with a fraction or an exponent: sign, integer part, fraction, exponent -/
def RealText (t : Str) : Prop :=
  ∃ (sg f e : Str) (n : Nat), t = sg ++ (Nat.toDigits 10 n ++ (f ++ e)) ∧ (sg = [] ∨ sg = ['-']) ∧
    (f = [] ∨ ∃ ds, ds ≠ [] ∧ (∀ c ∈ ds, c.isDigit = true) ∧ f = '.' :: ds) ∧
    (e = [] ∨ ∃ es ds, ds ≠ [] ∧ (∀ c ∈ ds, c.isDigit = true) ∧ (es = ['+'] ∨ es = ['-'] ∨ es = []) ∧ e = 'e' :: (es ++ ds)) ∧
    (f ≠ [] ∨ e ≠ [])

mutual
/-- `t` is a JSON text of the value, without white space around it. -/
def Rep : JV → Str → Prop
  | .null, t => t = chars! "null"
  | .bool b, t => t = if b then chars! "true" else chars! "false"
  | .int i, t => -(2 ^ 63) ≤ i ∧ i < 2 ^ 64 ∧ t = intText i
  | .real u, t => t = u ∧ RealText u
  | .str s, t => ∃ b, rjString (b ++ ['"']) = some (s, []) ∧ t = '"' :: (b ++ ['"'])
  | .arr vs, t => ∃ w body, WS w ∧ RepL vs body ∧ t = '[' :: (w ++ (body ++ [']']))
  | .obj ms, t => ∃ w body, WS w ∧ RepM ms body ∧ t = '{' :: (w ++ (body ++ ['}']))
def RepL : List JV → Str → Prop
  | [], t => t = []
  | v :: vs, t => ∃ tv w, Rep v tv ∧ WS w ∧
      ((vs = [] ∧ t = tv ++ w) ∨
       (vs ≠ [] ∧ ∃ w' t', WS w' ∧ RepL vs t' ∧ t = tv ++ (w ++ ',' :: (w' ++ t'))))
def RepM : List (Str × JV) → Str → Prop
  | [], t => t = []
  | (n, v) :: ms, t => ∃ b w1 w2 tv w, rjString (b ++ ['"']) = some (n, []) ∧ WS w1 ∧ WS w2 ∧ Rep v tv ∧ WS w ∧
      ((ms = [] ∧ t = '"' :: (b ++ '"' :: (w1 ++ ':' :: (w2 ++ (tv ++ w))))) ∨
       (ms ≠ [] ∧ ∃ w' t', WS w' ∧ RepM ms t' ∧
          t = '"' :: (b ++ '"' :: (w1 ++ ':' :: (w2 ++ (tv ++ (w ++ ',' :: (w' ++ t'))))))))
end

mutual
/-- No string of the value, and no name, ends with a backslash. -/
def Tame : JV → Prop
  | .str s => s.getLast? ≠ some '\\'
  | .arr vs => TameL vs
  | .obj ms => TameM ms
  | .null => True
  | .bool _ => True
  | .int _ => True
  | .real _ => True
def TameL : List JV → Prop
  | [] => True
  | v :: vs => Tame v ∧ TameL vs
def TameM : List (Str × JV) → Prop
  | [] => True
  | (n, v) :: ms => n.getLast? ≠ some '\\' ∧ Tame v ∧ TameM ms
end

/-- an object or an array -/
def Container : JV → Prop
  | .arr _ => True
  | .obj _ => True
  | _ => False

end Conduit.Spec
