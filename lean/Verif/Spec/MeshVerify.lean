import Verif.Model.MeshTree
import Verif.Model.Log
/-
What a node must look like to conform to the mesh blueprint, stated on the tree alone.
Nothing here mentions the order of the checks, the report or the helpers of the verify functions.
-/
namespace Conduit.Mesh

section
variable {F : Type}

/-- The node holds integers. -/
def IsInts (c : BNode F) : Prop := ∃ t l, c = .ints t l
/-- The node holds numbers. -/
def IsNums (c : BNode F) : Prop := IsInts c ∨ ∃ w l, c = .flts w l
/-- The node has a child `f`. -/
def Has (n : BNode F) (f : Str) : Prop := ∃ c, n.get f = .ok c
/-- The child `f` holds integers. -/
def HasInts (n : BNode F) (f : Str) : Prop := ∃ t l, n.get f = .ok (.ints t l)
/-- The child `f` is a string. -/
def HasStr (n : BNode F) (f : Str) : Prop := ∃ s, n.get f = .ok (.str s)
/-- The child `f` is one of the strings `vals`. -/
def HasOneOf (n : BNode F) (f : Str) (vals : List Str) : Prop := ∃ s ∈ vals, n.get f = .ok (.str s)

/-- The children of an object or a list. -/
def members : BNode F → List (BNode F)
  | .obj ks => ks.map (·.2)
  | .list ks => ks
  | _ => []

/-- Counts that agree, except that zeros in front are not looked at. -/
def SameLength (ls : List Nat) : Prop := ∃ k m n, ls = List.replicate k 0 ++ List.replicate m n

/-- A multi-component array. -/
def IsMCArray (c : BNode F) : Prop :=
  ((∃ ks, c = .obj ks) ∨ ∃ ks, c = .list ks) ∧ (∀ d ∈ members c, IsNums d) ∧
    SameLength ((members c).map BNode.numElements)

/-- `x` is `d` levels below `c`. -/
inductive Below (c : BNode F) : Nat → BNode F → Prop
  | here : Below c 0 c
  | down {d : Nat} {y z : BNode F} : Below c d y → z ∈ members y → Below c (d + 1) z

/-- A multi-level array of a depth from `lo` to `hi`: the nodes of one level have the same child names,
    those of the last level hold numbers. -/
def IsMLArray (c : BNode F) (lo hi : Nat) : Prop :=
  ∃ h, lo ≤ h ∧ h ≤ hi ∧ (∀ x, ¬ Below c (h + 1) x) ∧ (∃ x, Below c h x) ∧
    (∀ d < h, ∀ x y, Below c d x → Below c d y → ∀ f, Has x f → Has y f) ∧
    ∀ x, Below c h x → IsNums x

/-- The names of the index arrays of a one-to-many relation. -/
def relationNames : List Str := [chars! "sizes", chars! "offsets", chars! "indices"]

/-- A one-to-many relation. -/
def IsRelation (c : BNode F) : Prop :=
  (∃ ks, c = .obj ks) ∧ (∀ f ∈ relationNames, ∀ d, c.get f = .ok d → IsInts d) ∧
    ((¬ Has c (chars! "sizes") ∧ ¬ Has c (chars! "offsets")) ∨
      ∃ a b, c.get (chars! "sizes") = .ok a ∧ c.get (chars! "offsets") = .ok b ∧ a.numElements = b.numElements) ∧
    ∃ k ∈ c.kids, k.1 ∉ relationNames ∧ IsNums k.2

/-- Logical dimensions. -/
def IsDims (c : BNode F) : Prop :=
  HasInts c (chars! "i") ∧ (∀ d, c.get (chars! "j") = .ok d → IsInts d) ∧
    ∀ d, c.get (chars! "k") = .ok d → IsInts d

/-- The child `f` holds logical dimensions. -/
def HasDims (c : BNode F) (f : Str) : Prop := ∃ d, c.get f = .ok d ∧ IsDims d

/-- The names of coordinate axes. -/
def axisNames : List Str :=
  [chars! "x", chars! "y", chars! "z", chars! "r", chars! "theta", chars! "phi"]

/-- A coordset. -/
def IsCoordset (c : BNode F) : Prop :=
  (c.get (chars! "type") = .ok (.str (chars! "uniform")) ∧ HasDims c (chars! "dims") ∧
    (∀ o, c.get (chars! "origin") = .ok o → ∀ ax ∈ axisNames, ∀ d, o.get ax = .ok d → IsNums d) ∧
    ∀ o, c.get (chars! "spacing") = .ok o → ∀ ax ∈ axisNames, ∀ d, o.get ('d' :: ax) = .ok d → IsNums d) ∨
  (c.get (chars! "type") = .ok (.str (chars! "rectilinear")) ∧
    ∃ v, c.get (chars! "values") = .ok v ∧ members v ≠ [] ∧ ∀ d ∈ members v, IsNums d) ∨
  (c.get (chars! "type") = .ok (.str (chars! "explicit")) ∧ ∃ v, c.get (chars! "values") = .ok v ∧ IsMCArray v)

/-- The names of element shapes. -/
def shapeNames : List Str :=
  [chars! "point", chars! "line", chars! "tri", chars! "quad", chars! "tet", chars! "hex", chars! "wedge",
   chars! "pyramid", chars! "polygonal", chars! "polyhedral", chars! "mixed"]

/-- The shape of a group of elements is `x`. -/
def ShapeIs (c : BNode F) (x : Str) : Prop := c.get (chars! "shape") = .ok (.str x)

/-- A table from shape names to numbers. -/
def IsShapeMap (m : BNode F) : Prop :=
  m.kids ≠ [] ∧ ∀ k ∈ m.kids, k.1 ∈ shapeNames ∧ ∃ v l, k.2 = .ints int32 (v :: l)

/-- Elements of several shapes, each with the number of its shape. -/
def IsMixed (c : BNode F) : Prop :=
  HasOneOf c (chars! "shape") shapeNames ∧ ∃ m, c.get (chars! "shape_map") = .ok m ∧ IsShapeMap m ∧
    ∃ t l, c.get (chars! "shapes") = .ok (.ints t l) ∧
      ∀ x ∈ l, ∃ k ∈ m.kids, ∃ v r, k.2 = .ints int32 (v :: r) ∧ int32.cast x = int32.cast v

/-- The faces of polyhedra. -/
def IsFaces (c : BNode F) : Prop :=
  ShapeIs c (chars! "polygonal") ∧ HasInts c (chars! "connectivity") ∧ IsRelation c

/-- One group of elements; `faces` leads to its faces. -/
def IsElements (c : BNode F) (faces : BNode F → Prop) : Prop :=
  HasOneOf c (chars! "shape") shapeNames ∧ HasInts c (chars! "connectivity") ∧
    (ShapeIs c (chars! "polygonal") → IsRelation c) ∧
    (ShapeIs c (chars! "polyhedral") → IsRelation c ∧ ∃ s, faces s ∧ IsFaces s)

/-- The elements of an unstructured topology. -/
def HasElements (n : BNode F) : Prop :=
  ∃ c, n.get (chars! "elements") = .ok c ∧ c.kids ≠ [] ∧
    ((Has c (chars! "shape") ∧ IsElements c (fun s => n.get (chars! "subelements") = .ok s) ∧
        (ShapeIs c (chars! "mixed") → (IsMixed c ∧ IsRelation c) ∧
          ∀ s, n.get (chars! "subelements") = .ok s → IsMixed s ∧ IsRelation s)) ∨
     (¬ Has c (chars! "shape") ∧ Has c (chars! "element_types")) ∨
     (¬ Has c (chars! "shape") ∧ ¬ Has c (chars! "element_types") ∧
        ∀ k ∈ c.kids, IsElements k.2 fun s =>
          ∃ e, n.get (chars! "subelements") = .ok e ∧ e.get k.1 = .ok s))

/-- A topology. -/
def IsTopology (n : BNode F) : Prop :=
  HasStr n (chars! "coordset") ∧
    (HasOneOf n (chars! "type") [chars! "points", chars! "uniform", chars! "rectilinear"] ∨
      (n.get (chars! "type") = .ok (.str (chars! "structured")) ∧
        ∃ e, n.get (chars! "elements") = .ok e ∧ HasDims e (chars! "dims")) ∨
      (n.get (chars! "type") = .ok (.str (chars! "unstructured")) ∧ HasElements n)) ∧
    (Has n (chars! "grid_function") → HasStr n (chars! "grid_function"))

/-- A material set.  An object of volume fractions without children is let through. -/
def IsMatset (n : BNode F) : Prop :=
  HasStr n (chars! "topology") ∧
    ∃ v, n.get (chars! "volume_fractions") = .ok v ∧
      ((IsNums v ∧ HasInts n (chars! "material_ids") ∧ IsRelation n ∧ Has n (chars! "material_map")) ∨
        (∃ ks, v = .obj ks ∧ ∀ k ∈ ks, IsRelation k.2 ∨ IsNums k.2)) ∧
      (∀ m, n.get (chars! "material_map") = .ok m →
        (∃ ks, m = .obj ks ∧ ks ≠ [] ∧ ∀ k ∈ ks, IsInts k.2 ∧ ((∃ vs, v = .obj vs) → Has v k.1))) ∧
      (∀ e, n.get (chars! "element_ids") = .ok e →
        (IsInts e ∧ IsNums v) ∨
        (∃ es vs, e = .obj es ∧ v = .obj vs ∧ (∀ f, Has v f ↔ Has e f) ∧ ∀ k ∈ es, IsInts k.2))

/-- A field. -/
def IsField (n : BNode F) : Prop :=
  (Has n (chars! "association") ∨ Has n (chars! "basis")) ∧
    (Has n (chars! "association") → HasOneOf n (chars! "association") [chars! "vertex", chars! "element"]) ∧
    (Has n (chars! "basis") → HasStr n (chars! "basis")) ∧
    (Has n (chars! "topology") ∨ Has n (chars! "matset")) ∧
    ((¬ Has n (chars! "topology") ∧ ¬ Has n (chars! "values")) ∨
      (HasStr n (chars! "topology") ∧ ∃ v, n.get (chars! "values") = .ok v ∧ IsMLArray v 0 1)) ∧
    ((¬ Has n (chars! "matset") ∧ ¬ Has n (chars! "matset_values")) ∨
      (HasStr n (chars! "matset") ∧ ∃ v, n.get (chars! "matset_values") = .ok v ∧ IsMLArray v 0 2))

/-- A species set; `ls` are the lengths of the materials' first components. -/
def IsSpecset (n : BNode F) : Prop :=
  HasStr n (chars! "matset") ∧
    ∃ ks ls, n.get (chars! "matset_values") = .ok (.obj ks) ∧ ks ≠ [] ∧ (∀ k ∈ ks, IsMCArray k.2) ∧
      ks.map (fun k => (members k.2).head?.map BNode.numElements) = ls.map some ∧ SameLength ls

/-- One group of an adjacency set. -/
def IsAdjGroup (g : BNode F) : Prop :=
  HasInts g (chars! "neighbors") ∧ (Has g (chars! "values") → HasInts g (chars! "values")) ∧
    (¬ Has g (chars! "values") → Has g (chars! "windows") →
      (∃ ws, g.get (chars! "windows") = .ok (.obj ws) ∧ ws ≠ [] ∧ ∀ w ∈ ws,
        HasDims w.2 (chars! "origin") ∧ HasDims w.2 (chars! "dims") ∧ HasDims w.2 (chars! "ratio")) ∧
      (Has g (chars! "orientation") → HasInts g (chars! "orientation")))

/-- An adjacency set. -/
def IsAdjset (n : BNode F) : Prop :=
  HasStr n (chars! "topology") ∧ HasOneOf n (chars! "association") [chars! "vertex", chars! "element"] ∧
    ∃ gs, n.get (chars! "groups") = .ok (.obj gs) ∧ ∀ g ∈ gs, IsAdjGroup g.2

/-- One window of a nesting set. -/
def IsNestWindow (w : BNode F) : Prop :=
  HasInts w (chars! "domain_id") ∧ HasOneOf w (chars! "domain_type") [chars! "parent", chars! "child"] ∧
    ∃ r, w.get (chars! "ratio") = .ok r ∧ IsDims r ∧
      (∀ o, w.get (chars! "origin") = .ok o → IsDims o ∧ (members o).length = (members r).length) ∧
      ∀ d, w.get (chars! "dims") = .ok d → IsDims d ∧ (members d).length = (members r).length

/-- A nesting set. -/
def IsNestset (n : BNode F) : Prop :=
  HasStr n (chars! "topology") ∧ HasOneOf n (chars! "association") [chars! "vertex", chars! "element"] ∧
    ∃ ws, n.get (chars! "windows") = .ok (.obj ws) ∧ ws ≠ [] ∧ ∀ w ∈ ws, IsNestWindow w.2

/-- The entry `name` of the collection `coll`. -/
def Entry (n : BNode F) (coll name : Str) (c : BNode F) : Prop :=
  ∃ e, n.get coll = .ok e ∧ e.get name = .ok c

/-- The child `f` of `c` names an entry of the collection `coll` for which `good` holds. -/
def RefersTo (n c : BNode F) (f coll : Str) (good : BNode F → Prop) : Prop :=
  ∃ s x, c.get f = .ok (.str s) ∧ Entry n coll s x ∧ good x

/-- A coordset entry is sound. -/
def CoordsetOk (_n c : BNode F) : Prop := IsCoordset c
/-- A topology entry is sound and refers to a sound coordset. -/
def TopologyOk (n c : BNode F) : Prop :=
  IsTopology c ∧ RefersTo n c (chars! "coordset") (chars! "coordsets") (CoordsetOk n)
/-- A matset entry is sound and refers to a sound topology. -/
def MatsetOk (n c : BNode F) : Prop :=
  IsMatset c ∧ RefersTo n c (chars! "topology") (chars! "topologies") (TopologyOk n)
/-- A specset entry is sound and refers to a sound matset. -/
def SpecsetOk (n c : BNode F) : Prop :=
  IsSpecset c ∧ RefersTo n c (chars! "matset") (chars! "matsets") (MatsetOk n)
/-- A field entry is sound and refers to sound entries. -/
def FieldOk (n c : BNode F) : Prop :=
  IsField c ∧ (Has c (chars! "topology") → RefersTo n c (chars! "topology") (chars! "topologies") (TopologyOk n)) ∧
    (Has c (chars! "matset") → RefersTo n c (chars! "matset") (chars! "matsets") (MatsetOk n))
/-- An adjset entry is sound and refers to a sound topology. -/
def AdjsetOk (n c : BNode F) : Prop :=
  IsAdjset c ∧ RefersTo n c (chars! "topology") (chars! "topologies") (TopologyOk n)
/-- A nestset entry is sound and refers to a sound topology. -/
def NestsetOk (n c : BNode F) : Prop :=
  IsNestset c ∧ RefersTo n c (chars! "topology") (chars! "topologies") (TopologyOk n)
/-- The grid function of a topology, if it has one, names a sound field. -/
def GridOk (n c : BNode F) : Prop :=
  Has c (chars! "grid_function") → RefersTo n c (chars! "grid_function") (chars! "fields") (FieldOk n)

/-- The collection `coll` has entries, and `good` holds for all of them. -/
def AllOf (n : BNode F) (coll : Str) (good : BNode F → Prop) : Prop :=
  ∃ ks, n.get coll = .ok (.obj ks) ∧ ks ≠ [] ∧ ∀ k ∈ ks, good k.2

/-- A mesh of one domain. -/
def IsDomain (n : BNode F) : Prop :=
  AllOf n (chars! "coordsets") (CoordsetOk n) ∧
  AllOf n (chars! "topologies") (fun c => TopologyOk n c ∧ GridOk n c) ∧
  (Has n (chars! "matsets") → AllOf n (chars! "matsets") (MatsetOk n)) ∧
  (Has n (chars! "specsets") → AllOf n (chars! "specsets") (SpecsetOk n)) ∧
  (Has n (chars! "fields") → AllOf n (chars! "fields") (FieldOk n)) ∧
  (Has n (chars! "adjsets") → AllOf n (chars! "adjsets") (AdjsetOk n)) ∧
  (Has n (chars! "nestsets") → AllOf n (chars! "nestsets") (NestsetOk n))

/-- A mesh: one domain, or any number of them. -/
def IsMesh (n : BNode F) : Prop :=
  (Has n (chars! "coordsets") ∧ IsDomain n) ∨
    (¬ Has n (chars! "coordsets") ∧
      (n = .empty ∨ (∃ ks, n = .obj ks) ∨ ∃ ks, n = .list ks) ∧ ∀ d ∈ members n, IsDomain d)

/-- No object in the tree has two children of one name, or one named `valid`. -/
def Plain : BNode F → Prop
  | .obj ks => (ks.map (·.1)).Nodup ∧ plainO ks
  | .list ks => plainL ks
  | _ => True
where
  plainO : List (Str × BNode F) → Prop
    | [] => True
    | k :: ks => k.1 ≠ chars! "valid" ∧ Plain k.2 ∧ plainO ks
  plainL : List (BNode F) → Prop
    | [] => True
    | k :: ks => Plain k ∧ plainL ks

/-- The shape table holds int32 numbers, and a node with shapes has a shape table. -/
def MixedSafe (c : BNode F) : Prop :=
  (∀ m, c.get (chars! "shape_map") = .ok m → ∀ d ∈ members m, ∃ v l, d = .ints int32 (v :: l)) ∧
    ∀ x, c.get (chars! "shapes") = .ok x → Has c (chars! "shape_map") ∧ ∀ y, x ≠ .str y
/-- The shape of the faces is a string. -/
def FacesSafe (c : BNode F) : Prop := ∀ d, c.get (chars! "shape") = .ok d → ∃ x, d = .str x

/-- What `topology::verify` reads without checking it first. -/
def TopologySafe (n : BNode F) : Prop :=
  ∀ c, n.get (chars! "elements") = .ok c →
    (ShapeIs c (chars! "mixed") → MixedSafe c ∧ ∀ s, n.get (chars! "subelements") = .ok s → MixedSafe s) ∧
    ∀ e, n.get (chars! "subelements") = .ok e → (ShapeIs c (chars! "polyhedral") → FacesSafe e) ∧
      ∀ k ∈ c.kids, ShapeIs k.2 (chars! "polyhedral") → ∀ f, e.get k.1 = .ok f → FacesSafe f
/-- What `specset::verify` reads without checking it first. -/
def SpecsetSafe (n : BNode F) : Prop :=
  ∀ v, n.get (chars! "matset_values") = .ok v → ∀ k ∈ v.kids, IsMCArray k.2 → members k.2 ≠ []

/-- A domain in which every topology and specset is safe to check. -/
def DomainSafe (n : BNode F) : Prop :=
  (∀ e, n.get (chars! "topologies") = .ok e → ∀ k ∈ e.kids, TopologySafe k.2) ∧
    ∀ e, n.get (chars! "specsets") = .ok e → ∀ k ∈ e.kids, SpecsetSafe k.2
/-- The same for a mesh. -/
def MeshSafe (n : BNode F) : Prop :=
  (Has n (chars! "coordsets") → DomainSafe n) ∧ (¬ Has n (chars! "coordsets") → ∀ d ∈ members n, DomainSafe d)

/-! ### The report -/

/-- The report says whether `φ` holds. -/
def VerdictIs (t : Log.Info) (φ : Prop) : Prop :=
  (t.child? (chars! "valid") = some (.str (chars! "true")) ∧ φ) ∨
    (t.child? (chars! "valid") = some (.str (chars! "false")) ∧ ¬ φ)

/-- The report says of every entry of the collection whether it is good. -/
def Reports (t : Log.Info) (n : BNode F) (coll : Str) (good : BNode F → Prop) : Prop :=
  ∀ name c, Entry n coll name c → ∃ s r, t.child? coll = some s ∧ s.child? name = some r ∧ VerdictIs r (good c)

/-- The report on a domain. -/
def ReportsDomain (t : Log.Info) (n : BNode F) : Prop :=
  VerdictIs t (IsDomain n) ∧
  Reports t n (chars! "coordsets") (CoordsetOk n) ∧
  Reports t n (chars! "topologies") (fun c => TopologyOk n c ∧ GridOk n c) ∧
  Reports t n (chars! "matsets") (MatsetOk n) ∧
  Reports t n (chars! "specsets") (SpecsetOk n) ∧
  Reports t n (chars! "fields") (FieldOk n) ∧
  Reports t n (chars! "adjsets") (AdjsetOk n) ∧
  Reports t n (chars! "nestsets") (NestsetOk n)

end
end Conduit.Mesh
