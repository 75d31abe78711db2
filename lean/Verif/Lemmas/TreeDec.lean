import Verif.Spec.Value
import Verif.Model.Json
/-
Decidable equality of the tree types (for concrete examples and witnesses only).
-/
namespace Conduit
mutual
def decTree : (a b : Spec.Tree) → Decidable (a = b)
  | .leaf x0, .leaf y0 =>
    if h : x0 = y0 then isTrue (by simp [h]) else isFalse (by simpa using h)
  | .leaf _, .obj _ => isFalse (by simp)
  | .leaf _, .lst _ => isFalse (by simp)
  | .obj _, .leaf _ => isFalse (by simp)
  | .obj x0, .obj y0 =>
    match decTreeE x0 y0 with
    | isTrue h => isTrue (by rw [h])
    | isFalse h => isFalse (by simpa using h)
  | .obj _, .lst _ => isFalse (by simp)
  | .lst _, .leaf _ => isFalse (by simp)
  | .lst _, .obj _ => isFalse (by simp)
  | .lst x0, .lst y0 =>
    match decTreeL x0 y0 with
    | isTrue h => isTrue (by rw [h])
    | isFalse h => isFalse (by simpa using h)
def decTreeE : (a b : List (Str × Spec.Tree)) → Decidable (a = b)
  | [], [] => isTrue rfl
  | [], _ :: _ => isFalse (by simp)
  | _ :: _, [] => isFalse (by simp)
  | (n, a) :: as, (n', b) :: bs =>
    match decTree a b with
    | isFalse h => isFalse (by simp [h])
    | isTrue h =>
      match decTreeE as bs with
      | isFalse h' => isFalse (by simp [h'])
      | isTrue h' => if hn : n = n' then isTrue (by rw [h, h', hn]) else isFalse (by simp [hn])
def decTreeL : (a b : List Spec.Tree) → Decidable (a = b)
  | [], [] => isTrue rfl
  | [], _ :: _ => isFalse (by simp)
  | _ :: _, [] => isFalse (by simp)
  | a :: as, b :: bs =>
    match decTree a b with
    | isFalse h => isFalse (by simp [h])
    | isTrue h =>
      match decTreeL as bs with
      | isFalse h' => isFalse (by simp [h'])
      | isTrue h' => isTrue (by rw [h, h'])
end
instance : DecidableEq Spec.Tree := decTree

mutual
def decVal : (a b : Spec.Val) → Decidable (a = b)
  | .leaf x0 x1 x2, .leaf y0 y1 y2 =>
    if h : x0 = y0 ∧ x1 = y1 ∧ x2 = y2 then isTrue (by simp [h]) else isFalse (by simpa using h)
  | .leaf _ _ _, .obj _ => isFalse (by simp)
  | .leaf _ _ _, .lst _ => isFalse (by simp)
  | .obj _, .leaf _ _ _ => isFalse (by simp)
  | .obj x0, .obj y0 =>
    match decValE x0 y0 with
    | isTrue h => isTrue (by rw [h])
    | isFalse h => isFalse (by simpa using h)
  | .obj _, .lst _ => isFalse (by simp)
  | .lst _, .leaf _ _ _ => isFalse (by simp)
  | .lst _, .obj _ => isFalse (by simp)
  | .lst x0, .lst y0 =>
    match decValL x0 y0 with
    | isTrue h => isTrue (by rw [h])
    | isFalse h => isFalse (by simpa using h)
def decValE : (a b : List (Str × Spec.Val)) → Decidable (a = b)
  | [], [] => isTrue rfl
  | [], _ :: _ => isFalse (by simp)
  | _ :: _, [] => isFalse (by simp)
  | (n, a) :: as, (n', b) :: bs =>
    match decVal a b with
    | isFalse h => isFalse (by simp [h])
    | isTrue h =>
      match decValE as bs with
      | isFalse h' => isFalse (by simp [h'])
      | isTrue h' => if hn : n = n' then isTrue (by rw [h, h', hn]) else isFalse (by simp [hn])
def decValL : (a b : List Spec.Val) → Decidable (a = b)
  | [], [] => isTrue rfl
  | [], _ :: _ => isFalse (by simp)
  | _ :: _, [] => isFalse (by simp)
  | a :: as, b :: bs =>
    match decVal a b with
    | isFalse h => isFalse (by simp [h])
    | isTrue h =>
      match decValL as bs with
      | isFalse h' => isFalse (by simp [h'])
      | isTrue h' => isTrue (by rw [h, h'])
end
instance : DecidableEq Spec.Val := decVal

mutual
def decNode : (a b : Node) → Decidable (a = b)
  | .leaf x0 x1, .leaf y0 y1 =>
    if h : x0 = y0 ∧ x1 = y1 then isTrue (by simp [h]) else isFalse (by simpa using h)
  | .leaf _ _, .obj _ _ => isFalse (by simp)
  | .leaf _ _, .lst _ _ => isFalse (by simp)
  | .obj _ _, .leaf _ _ => isFalse (by simp)
  | .obj x0 x1, .obj y0 y1 =>
    match decNodeE x1 y1 with
    | isTrue h => if h0 : x0 = y0 then isTrue (by rw [h, h0]) else isFalse (by simp [h0])
    | isFalse h => isFalse (by simp [h])
  | .obj _ _, .lst _ _ => isFalse (by simp)
  | .lst _ _, .leaf _ _ => isFalse (by simp)
  | .lst _ _, .obj _ _ => isFalse (by simp)
  | .lst x0 x1, .lst y0 y1 =>
    match decNodeL x1 y1 with
    | isTrue h => if h0 : x0 = y0 then isTrue (by rw [h, h0]) else isFalse (by simp [h0])
    | isFalse h => isFalse (by simp [h])
def decNodeE : (a b : List (Str × Node)) → Decidable (a = b)
  | [], [] => isTrue rfl
  | [], _ :: _ => isFalse (by simp)
  | _ :: _, [] => isFalse (by simp)
  | (n, a) :: as, (n', b) :: bs =>
    match decNode a b with
    | isFalse h => isFalse (by simp [h])
    | isTrue h =>
      match decNodeE as bs with
      | isFalse h' => isFalse (by simp [h'])
      | isTrue h' => if hn : n = n' then isTrue (by rw [h, h', hn]) else isFalse (by simp [hn])
def decNodeL : (a b : List Node) → Decidable (a = b)
  | [], [] => isTrue rfl
  | [], _ :: _ => isFalse (by simp)
  | _ :: _, [] => isFalse (by simp)
  | a :: as, b :: bs =>
    match decNode a b with
    | isFalse h => isFalse (by simp [h])
    | isTrue h =>
      match decNodeL as bs with
      | isFalse h' => isFalse (by simp [h'])
      | isTrue h' => isTrue (by rw [h, h'])
end
instance : DecidableEq Node := decNode

mutual
def decJV : (a b : JV) → Decidable (a = b)
  | .null , .null  =>
    isTrue rfl
  | .null, .bool _ => isFalse (by simp)
  | .null, .int _ => isFalse (by simp)
  | .null, .real _ => isFalse (by simp)
  | .null, .str _ => isFalse (by simp)
  | .null, .obj _ => isFalse (by simp)
  | .null, .arr _ => isFalse (by simp)
  | .bool _, .null => isFalse (by simp)
  | .bool x0, .bool y0 =>
    if h : x0 = y0 then isTrue (by simp [h]) else isFalse (by simpa using h)
  | .bool _, .int _ => isFalse (by simp)
  | .bool _, .real _ => isFalse (by simp)
  | .bool _, .str _ => isFalse (by simp)
  | .bool _, .obj _ => isFalse (by simp)
  | .bool _, .arr _ => isFalse (by simp)
  | .int _, .null => isFalse (by simp)
  | .int _, .bool _ => isFalse (by simp)
  | .int x0, .int y0 =>
    if h : x0 = y0 then isTrue (by simp [h]) else isFalse (by simpa using h)
  | .int _, .real _ => isFalse (by simp)
  | .int _, .str _ => isFalse (by simp)
  | .int _, .obj _ => isFalse (by simp)
  | .int _, .arr _ => isFalse (by simp)
  | .real _, .null => isFalse (by simp)
  | .real _, .bool _ => isFalse (by simp)
  | .real _, .int _ => isFalse (by simp)
  | .real x0, .real y0 =>
    if h : x0 = y0 then isTrue (by simp [h]) else isFalse (by simpa using h)
  | .real _, .str _ => isFalse (by simp)
  | .real _, .obj _ => isFalse (by simp)
  | .real _, .arr _ => isFalse (by simp)
  | .str _, .null => isFalse (by simp)
  | .str _, .bool _ => isFalse (by simp)
  | .str _, .int _ => isFalse (by simp)
  | .str _, .real _ => isFalse (by simp)
  | .str x0, .str y0 =>
    if h : x0 = y0 then isTrue (by simp [h]) else isFalse (by simpa using h)
  | .str _, .obj _ => isFalse (by simp)
  | .str _, .arr _ => isFalse (by simp)
  | .obj _, .null => isFalse (by simp)
  | .obj _, .bool _ => isFalse (by simp)
  | .obj _, .int _ => isFalse (by simp)
  | .obj _, .real _ => isFalse (by simp)
  | .obj _, .str _ => isFalse (by simp)
  | .obj x0, .obj y0 =>
    match decJVE x0 y0 with
    | isTrue h => isTrue (by rw [h])
    | isFalse h => isFalse (by simpa using h)
  | .obj _, .arr _ => isFalse (by simp)
  | .arr _, .null => isFalse (by simp)
  | .arr _, .bool _ => isFalse (by simp)
  | .arr _, .int _ => isFalse (by simp)
  | .arr _, .real _ => isFalse (by simp)
  | .arr _, .str _ => isFalse (by simp)
  | .arr _, .obj _ => isFalse (by simp)
  | .arr x0, .arr y0 =>
    match decJVL x0 y0 with
    | isTrue h => isTrue (by rw [h])
    | isFalse h => isFalse (by simpa using h)
def decJVE : (a b : List (Str × JV)) → Decidable (a = b)
  | [], [] => isTrue rfl
  | [], _ :: _ => isFalse (by simp)
  | _ :: _, [] => isFalse (by simp)
  | (n, a) :: as, (n', b) :: bs =>
    match decJV a b with
    | isFalse h => isFalse (by simp [h])
    | isTrue h =>
      match decJVE as bs with
      | isFalse h' => isFalse (by simp [h'])
      | isTrue h' => if hn : n = n' then isTrue (by rw [h, h', hn]) else isFalse (by simp [hn])
def decJVL : (a b : List JV) → Decidable (a = b)
  | [], [] => isTrue rfl
  | [], _ :: _ => isFalse (by simp)
  | _ :: _, [] => isFalse (by simp)
  | a :: as, b :: bs =>
    match decJV a b with
    | isFalse h => isFalse (by simp [h])
    | isTrue h =>
      match decJVL as bs with
      | isFalse h' => isFalse (by simp [h'])
      | isTrue h' => isTrue (by rw [h, h'])
end
instance : DecidableEq JV := decJV

end Conduit
