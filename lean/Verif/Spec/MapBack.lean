import Verif.Spec.Combine
/-
What it means that fields were brought back to the mesh that was partitioned.
-/
namespace Conduit.Back
open Conduit.Mesh Conduit.Part Conduit.Merge Conduit.Comb
variable {F : Type}

/-- A leaf of exactly `n` numbers. -/
def LenCol (c : BNode F) (n : Nat) : Prop := (∃ t l, c = .ints t l ∧ l.length = n) ∨ ∃ w l, c = .flts w l ∧ l.length = n

/-- The values of a field, `n` for each component. -/
def Exact (v : BNode F) (n : Nat) : Prop := LenCol v n ∨ ∃ k ks, v = .obj (k :: ks) ∧ ∀ c ∈ k :: ks, LenCol c.2 n

/-- A domain of the partitioned mesh: its fields, the domain and the number each element had, the global numbers of its points. -/
structure Piece (F : Type) where
  mesh : BNode F
  fields : BNode F
  orig : List (Int × Nat)
  gids : List Int

/-- How many values a field of it has. -/
def Piece.count (p : Piece F) (assoc : Str) : Nat := if assoc = chars! "element" then p.orig.length else p.gids.length

/-- It has an element of domain `d`. -/
def Piece.Holds (p : Piece F) (d : Int) : Prop := ∃ x ∈ p.orig, x.1 = d

/-- The field `name` of it has the values `v`. -/
def Piece.Has (p : Piece F) (name assoc topo : Str) (v : BNode F) : Prop := ∃ f, p.fields.get name = .ok f ∧ FieldOf f assoc topo v

/-- The numbers of a field, read as `index_t`. -/
def Numbers (A : Arith F) (fields : BNode F) (name : Str) (l : List Int) : Prop :=
  ∃ f v, fields.get name = .ok f ∧ f.get (chars! "values") = .ok v ∧ asIndices A v = .ok l

/-- A domain made with a mapping; it has the fields `names` with these associations on these topologies.  With fields on points, its points
    have global numbers. -/
structure GoodPiece (A : Arith F) (ename gname : Str) (names : List Str) (assoc topo : Str → Str) (p : Piece F) : Prop where
  fields : p.mesh.get (chars! "fields") = .ok p.fields
  nodup : (p.fields.kids.map (·.1)).Nodup
  origin : ∃ f v i d, p.fields.get ename = .ok f ∧ f.get (chars! "values") = .ok v ∧ v.get (chars! "ids") = .ok i ∧
    v.get (chars! "domains") = .ok d ∧ asIndices A i = .ok (p.orig.map fun x => (x.2 : Int)) ∧ asIndices A d = .ok (p.orig.map (·.1))
  has : ∀ name ∈ names, (assoc name = chars! "vertex" ∨ assoc name = chars! "element") ∧
    ∃ v, p.Has name (assoc name) (topo name) v ∧ Table v (p.count (assoc name))
  points : (∃ name ∈ names, assoc name = chars! "vertex") → Numbers A p.fields gname p.gids

/-- A domain of the original mesh: its number, the number of its elements, the global numbers of its points. -/
structure Whole (F : Type) where
  mesh : BNode F
  id : Int
  n : Nat
  gids : List Int

/-- How many values a field of it has. -/
def Whole.count (w : Whole F) (assoc : Str) : Nat := if assoc = chars! "element" then w.n else w.gids.length

/-- The fields it has. -/
def Whole.fields (w : Whole F) : BNode F := w.mesh.getOrEmpty (chars! "fields")

/-- The number of domain `k`: that of its state, or `k`. -/
def IdIs (d : BNode F) (k : Nat) (id : Int) : Prop :=
  (∃ st t v l, d.get (chars! "state") = .ok st ∧ st.get (chars! "domain_id") = .ok (.ints t (v :: l)) ∧ int64.cast v = id) ∨
  ((∀ st, d.get (chars! "state") = .ok st → st.hasChild (chars! "domain_id") = false) ∧ id = k)

/-- An original domain.  With fields on points, the points have global numbers.  A field of the name of one that is brought back has values of
    the same type and as many as needed. -/
structure GoodWhole (A : Arith F) (gname : Str) (names : List Str) (assoc topo : Str → Str) (ps : List (Piece F)) (k : Nat) (w : Whole F) :
    Prop where
  id : IdIs w.mesh k w.id
  points : (∃ name ∈ names, assoc name = chars! "vertex") → ∃ fs, w.mesh.get (chars! "fields") = .ok fs ∧ Numbers A fs gname w.gids
  coords : ∀ name ∈ names, assoc name = chars! "vertex" → w.gids ≠ [] ∧ ∃ ts t cn cs c, w.mesh.get (chars! "topologies") = .ok ts ∧
    ts.get (topo name) = .ok t ∧ t.get (chars! "coordset") = .ok (.str cn) ∧ w.mesh.get (chars! "coordsets") = .ok cs ∧ cs.get cn = .ok c ∧
    coordsetLength A c = .ok (w.gids.length : Int)
  old : ∀ name ∈ names, ∀ f old, w.fields.get name = .ok f → f.get (chars! "values") = .ok old → Exact old (w.count (assoc name)) ∧
    ∀ p ∈ ps, ∀ v, p.Has name (assoc name) (topo name) v → Alike v old

/-- Where the elements of domain `d` went: the numbers they had. -/
def numbersOf (ps : List (Piece F)) (d : Int) : List Nat := ((ps.flatMap (·.orig)).filter fun x => x.1 = d).map (·.2)

/-- Each element of an original domain is in one place of the partitioned mesh, if any is; there are no others. -/
structure OnceEach (ps : List (Piece F)) (ws : List (Whole F)) : Prop where
  ids : (ws.map (·.id)).Nodup
  known : ∀ p ∈ ps, ∀ x ∈ p.orig, ∃ w ∈ ws, w.id = x.1
  once : ∀ w ∈ ws, (∃ p ∈ ps, p.Holds w.id) → (numbersOf ps w.id).Perm (List.range w.n)

/-- The values of one field are alike in all pieces. -/
def PiecesAlike (names : List Str) (assoc topo : Str → Str) (ps : List (Piece F)) : Prop :=
  ∀ name ∈ names, ∀ p ∈ ps, ∀ q ∈ ps, ∀ v w, p.Has name (assoc name) (topo name) v → q.Has name (assoc name) (topo name) w → Alike v w

/-- The values `v` that domain `w` has now for elements: each has that of the element it became. -/
def ElementsBack (ps : List (Piece F)) (w : Whole F) (name assoc topo : Str) (v : BNode F) : Prop :=
  ∀ p ∈ ps, ∀ u, p.Has name assoc topo u → ∀ (j e : Nat), p.orig[j]? = some (w.id, e) → rowAt v e = rowAt u j

/-- The values `v` that domain `w` has now for points: a point has the value it has in the last piece, of those with an element of the domain,
    that has a point of its number; without any it has the value it had. -/
def PointsBack (ps : List (Piece F)) (w : Whole F) (name assoc topo : Str) (v : BNode F) : Prop :=
  ∀ (q : Nat) (g : Int), w.gids[q]? = some g →
    (∀ A p B, ps = A ++ p :: B → p.Holds w.id → (∀ p' ∈ B, p'.Holds w.id → g ∉ p'.gids) →
      ∀ r, p.gids[r]? = some g → (∀ r', r < r' → p.gids[r']? ≠ some g) → ∀ u, p.Has name assoc topo u → rowAt v q = rowAt u r) ∧
    ((∀ p ∈ ps, p.Holds w.id → g ∉ p.gids) → ∀ f old, w.fields.get name = .ok f → f.get (chars! "values") = .ok old → rowAt v q = rowAt old q)

/-- What becomes of an original domain. -/
structure BroughtBack (names : List Str) (assoc topo : Str → Str) (ps : List (Piece F)) (w : Whole F) (out : BNode F) : Prop where
  untouched : (∀ p ∈ ps, ¬ p.Holds w.id) → out = w.mesh
  rest : ∀ c, c ≠ chars! "fields" → out.get c = w.mesh.get c
  others : ∀ name, name ∉ names → (out.getOrEmpty (chars! "fields")).get name = w.fields.get name
  fields : (∃ p ∈ ps, p.Holds w.id) → ∀ name ∈ names, ∃ fs f v, out.get (chars! "fields") = .ok fs ∧ fs.get name = .ok f ∧
    FieldOf f (assoc name) (topo name) v ∧ Exact v (w.count (assoc name)) ∧
    (assoc name = chars! "element" → ElementsBack ps w name (assoc name) (topo name) v) ∧
    (assoc name = chars! "vertex" → PointsBack ps w name (assoc name) (topo name) v)

end Conduit.Back
