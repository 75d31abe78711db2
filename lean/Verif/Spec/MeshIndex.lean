import Verif.Spec.MeshVerify
/-
What an index of a mesh must look like, and what it says of the mesh.
-/
namespace Conduit.Mesh

section
variable {F : Type}

/-- The axes of a coordinate system. -/
def axesOf (sys : Str) : List Str :=
  if sys = chars! "cartesian" then [chars! "x", chars! "y", chars! "z"]
  else if sys = chars! "cylindrical" then [chars! "r", chars! "z"]
  else [chars! "r", chars! "theta", chars! "phi"]

/-- The child `f` is an object with children. -/
def HasKids (n : BNode F) (f : Str) : Prop := ∃ ks, n.get f = .ok (.obj ks) ∧ ks ≠ []

/-- A coordinate system. -/
def IsCoordSystem (n : BNode F) : Prop :=
  ∃ sys ∈ [chars! "cartesian", chars! "cylindrical", chars! "spherical"], n.get (chars! "type") = .ok (.str sys) ∧
    ∃ ks, n.get (chars! "axes") = .ok (.obj ks) ∧ ks ≠ [] ∧ ∀ k ∈ ks, k.1 ∈ axesOf sys

/-- The index of a coordset. -/
def IsCoordsetIndex (n : BNode F) : Prop :=
  HasOneOf n (chars! "type") [chars! "uniform", chars! "rectilinear", chars! "explicit"] ∧ HasStr n (chars! "path") ∧
    ∃ s, n.get (chars! "coord_system") = .ok s ∧ IsCoordSystem s

/-- The index of a topology. -/
def IsTopologyIndex (n : BNode F) : Prop :=
  HasOneOf n (chars! "type")
      [chars! "points", chars! "uniform", chars! "rectilinear", chars! "structured", chars! "unstructured"] ∧
    HasStr n (chars! "coordset") ∧ HasStr n (chars! "path") ∧
    (Has n (chars! "grid_function") → HasStr n (chars! "grid_function"))

/-- The index of a matset. -/
def IsMatsetIndex (n : BNode F) : Prop :=
  HasStr n (chars! "topology") ∧
    ((∃ ks, n.get (chars! "material_map") = .ok (.obj ks) ∧ ks ≠ [] ∧ ∀ k ∈ ks, IsInts k.2) ∨
      (¬ Has n (chars! "material_map") ∧ HasKids n (chars! "materials"))) ∧
    HasStr n (chars! "path")

/-- The index of a field. -/
def IsFieldIndex (n : BNode F) : Prop :=
  (Has n (chars! "association") ∨ Has n (chars! "basis")) ∧
    (Has n (chars! "association") → HasOneOf n (chars! "association") [chars! "vertex", chars! "element"]) ∧
    (Has n (chars! "basis") → HasStr n (chars! "basis")) ∧
    (Has n (chars! "topology") ∨ Has n (chars! "matset")) ∧
    (Has n (chars! "topology") → HasStr n (chars! "topology")) ∧
    (Has n (chars! "matset") → HasStr n (chars! "matset")) ∧
    HasInts n (chars! "number_of_components") ∧ HasStr n (chars! "path")

/-- The index of a specset. -/
def IsSpecsetIndex (n : BNode F) : Prop :=
  HasStr n (chars! "matset") ∧ HasKids n (chars! "species") ∧ HasStr n (chars! "path")

/-- The index of an adjset or a nestset. -/
def IsAdjacencyIndex (n : BNode F) : Prop :=
  HasStr n (chars! "topology") ∧ HasOneOf n (chars! "association") [chars! "vertex", chars! "element"] ∧
    HasStr n (chars! "path")

/-- The same with the entries referred to. -/
def TopologyIndexOk (n c : BNode F) : Prop :=
  IsTopologyIndex c ∧ RefersTo n c (chars! "coordset") (chars! "coordsets") IsCoordsetIndex
def MatsetIndexOk (n c : BNode F) : Prop :=
  IsMatsetIndex c ∧ RefersTo n c (chars! "topology") (chars! "topologies") (TopologyIndexOk n)
def SpecsetIndexOk (n c : BNode F) : Prop :=
  IsSpecsetIndex c ∧ RefersTo n c (chars! "matset") (chars! "matsets") (MatsetIndexOk n)
def FieldIndexOk (n c : BNode F) : Prop :=
  IsFieldIndex c ∧
    (Has c (chars! "topology") → RefersTo n c (chars! "topology") (chars! "topologies") (TopologyIndexOk n)) ∧
    (Has c (chars! "matset") → RefersTo n c (chars! "matset") (chars! "matsets") (MatsetIndexOk n))
def AdjacencyIndexOk (n c : BNode F) : Prop :=
  IsAdjacencyIndex c ∧ RefersTo n c (chars! "topology") (chars! "topologies") (TopologyIndexOk n)

/-- An index of a mesh. -/
def IsIndex (n : BNode F) : Prop :=
  AllOf n (chars! "coordsets") IsCoordsetIndex ∧
  AllOf n (chars! "topologies") (TopologyIndexOk n) ∧
  (Has n (chars! "matsets") → AllOf n (chars! "matsets") (MatsetIndexOk n)) ∧
  (Has n (chars! "specsets") → AllOf n (chars! "specsets") (SpecsetIndexOk n)) ∧
  (Has n (chars! "fields") → AllOf n (chars! "fields") (FieldIndexOk n)) ∧
  (Has n (chars! "adjsets") → AllOf n (chars! "adjsets") (AdjacencyIndexOk n)) ∧
  (Has n (chars! "nestsets") → AllOf n (chars! "nestsets") (AdjacencyIndexOk n))

/-- The report on an index. -/
def ReportsIndex (t : Log.Info) (n : BNode F) : Prop :=
  VerdictIs t (IsIndex n) ∧
  Reports t n (chars! "coordsets") IsCoordsetIndex ∧
  Reports t n (chars! "topologies") (TopologyIndexOk n) ∧
  Reports t n (chars! "matsets") (MatsetIndexOk n) ∧
  Reports t n (chars! "specsets") (SpecsetIndexOk n) ∧
  Reports t n (chars! "fields") (FieldIndexOk n) ∧
  Reports t n (chars! "adjsets") (AdjacencyIndexOk n) ∧
  Reports t n (chars! "nestsets") (AdjacencyIndexOk n)

/-! ### What the index says of the mesh -/

/-- The names of the children of an object. -/
def childNames : BNode F → List Str
  | .obj ks => ks.map (·.1)
  | _ => []

/-- A `d` in front of the name of a spacing is dropped. -/
def dropD : Str → Str
  | 'd' :: c :: r => c :: r
  | s => s

/-- `a` is an axis of the coordset. -/
def HasAxis (c : BNode F) (a : Str) : Prop :=
  (c.get (chars! "type") = .ok (.str (chars! "uniform")) ∧
    ((∃ o, c.get (chars! "origin") = .ok o ∧ a ∈ childNames o) ∨
     (¬ Has c (chars! "origin") ∧ ∃ o, c.get (chars! "spacing") = .ok o ∧ ∃ k ∈ childNames o, dropD k = a) ∨
     (¬ Has c (chars! "origin") ∧ ¬ Has c (chars! "spacing") ∧ ∃ o, c.get (chars! "dims") = .ok o ∧
        a ∈ [chars! "x", chars! "y", chars! "z"].take (childNames o).length))) ∨
  (c.get (chars! "type") ≠ .ok (.str (chars! "uniform")) ∧
    ∃ o, c.get (chars! "values") = .ok o ∧ a ∈ childNames o)

/-- The coordinate system of a coordset, told by its axes. -/
def InSystem (c : BNode F) (sys : Str) : Prop :=
  ((HasAxis c (chars! "theta") ∨ HasAxis c (chars! "phi")) ∧ sys = chars! "spherical") ∨
  (¬ (HasAxis c (chars! "theta") ∨ HasAxis c (chars! "phi")) ∧ HasAxis c (chars! "r") ∧ sys = chars! "cylindrical") ∨
  (¬ (HasAxis c (chars! "theta") ∨ HasAxis c (chars! "phi")) ∧ ¬ HasAxis c (chars! "r") ∧ sys = chars! "cartesian")

/-- The axes of the coordset are axes of one system; dimensions are named `i`, `j`, `k`. -/
def CoordsetIndexable (c : BNode F) : Prop :=
  (∃ sys ∈ [chars! "cartesian", chars! "cylindrical", chars! "spherical"], ∀ a, HasAxis c a → a ∈ axesOf sys) ∧
  (∃ a, HasAxis c a) ∧
  (c.get (chars! "type") = .ok (.str (chars! "uniform")) → ¬ Has c (chars! "origin") → ¬ Has c (chars! "spacing") →
    ∀ o, c.get (chars! "dims") = .ok o → ∀ k ∈ childNames o, k ∈ [chars! "i", chars! "j", chars! "k"])

/-- The matset names a material. -/
def MatsetIndexable (c : BNode F) : Prop :=
  Has c (chars! "material_map") ∨ HasKids c (chars! "materials") ∨
    (¬ Has c (chars! "materials") ∧ HasKids c (chars! "volume_fractions"))

/-- The field has values, or values for a material; `volume_dependent` is a string. -/
def FieldIndexable (c : BNode F) : Prop :=
  (¬ Has c (chars! "values") → ∃ v, c.get (chars! "matset_values") = .ok v ∧ members v ≠ []) ∧
    (Has c (chars! "volume_dependent") → HasStr c (chars! "volume_dependent"))

/-- A domain for which an index can be made. -/
def Indexable (n : BNode F) : Prop :=
  (∀ name c, Entry n (chars! "coordsets") name c → CoordsetIndexable c) ∧
  (∀ name c, Entry n (chars! "matsets") name c → MatsetIndexable c) ∧
  (∀ name c, Entry n (chars! "fields") name c → FieldIndexable c)

/-- The child `f` is in both nodes, and the same, or in neither. -/
def Copied (f : Str) (c e : BNode F) : Prop := e.get f = c.get f

/-- The number of components of an array. -/
def components : BNode F → Nat
  | .obj ks => ks.length
  | _ => 1

/-- What the index entry `e` says of the coordset `c`. -/
def OfCoordset (c e : BNode F) : Prop :=
  Copied (chars! "type") c e ∧ ∃ s ax sys, e.get (chars! "coord_system") = .ok s ∧ s.get (chars! "axes") = .ok ax ∧
    s.get (chars! "type") = .ok (.str sys) ∧ InSystem c sys ∧ ∀ a, Has ax a ↔ HasAxis c a
/-- The same for a topology. -/
def OfTopology (c e : BNode F) : Prop :=
  Copied (chars! "type") c e ∧ Copied (chars! "coordset") c e ∧ Copied (chars! "grid_function") c e
/-- The same for a matset: its material map, the names of its materials, or the places of its volume fractions. -/
def OfMatset (c e : BNode F) : Prop :=
  Copied (chars! "topology") c e ∧
  (Has c (chars! "material_map") → Copied (chars! "material_map") c e) ∧
  (¬ Has c (chars! "material_map") → ∀ m, c.get (chars! "materials") = .ok m →
    ∃ x, e.get (chars! "materials") = .ok x ∧ childNames x = childNames m) ∧
  (¬ Has c (chars! "material_map") → ¬ Has c (chars! "materials") → ∀ v, c.get (chars! "volume_fractions") = .ok v →
    ∃ x, e.get (chars! "material_map") = .ok x ∧ childNames x = childNames v ∧
      ∀ (i : Nat) name, (childNames v)[i]? = some name → x.get name = .ok (.ints int64 [(i : Int)]))
/-- The same for a specset: the species of each material. -/
def OfSpecset (c e : BNode F) : Prop :=
  Copied (chars! "matset") c e ∧
  ∃ s, e.get (chars! "species") = .ok s ∧ ∀ v, c.get (chars! "matset_values") = .ok v →
    (∀ m, Has s m → Has v m) ∧
    ∀ m ks, v.get m = .ok (.obj ks) → ∀ sp, (∃ x, s.get m = .ok x ∧ Has x sp) ↔ Has (.obj ks : BNode F) sp
/-- The same for a field. -/
def OfField (c e : BNode F) : Prop :=
  Copied (chars! "topology") c e ∧ Copied (chars! "matset") c e ∧ Copied (chars! "volume_dependent") c e ∧
  Copied (chars! "association") c e ∧ (¬ Has c (chars! "association") → Copied (chars! "basis") c e) ∧
  (∀ v, c.get (chars! "values") = .ok v →
    e.get (chars! "number_of_components") = .ok (.ints int64 [(components v : Int)])) ∧
  (¬ Has c (chars! "values") → ∀ v w l, c.get (chars! "matset_values") = .ok v → members v = w :: l →
    e.get (chars! "number_of_components") = .ok (.ints int64 [(components w : Int)]))
/-- The same for an adjset or a nestset. -/
def OfAdjacency (c e : BNode F) : Prop :=
  Copied (chars! "association") c e ∧ Copied (chars! "topology") c e

/-- A path below `ref`. -/
def below (ref rest : Str) : Str := if ref = [] ∨ ref.getLast? = some '/' then ref ++ rest else ref ++ ['/'] ++ rest

/-- The index has an entry for each entry of the collection and no other, in the same order; it says where the
    entry is, and what `R` asks for. -/
def Catalogs (ref : Str) (n idx : BNode F) (coll : Str) (R : BNode F → BNode F → Prop) : Prop :=
  (Has idx coll ↔ Has n coll) ∧ ∀ x, n.get coll = .ok x → ∃ y, idx.get coll = .ok y ∧ childNames y = childNames x ∧
    ∀ name c, x.get name = .ok c → ∃ e, y.get name = .ok e ∧ R c e ∧
      (name ≠ [] → e.get (chars! "path") = .ok (.str (below ref (coll ++ ['/'] ++ name))))

/-- What the index of a domain says. -/
def Describes (ref : Str) (n idx : BNode F) : Prop :=
  Catalogs ref n idx (chars! "coordsets") OfCoordset ∧
  Catalogs ref n idx (chars! "topologies") OfTopology ∧
  Catalogs ref n idx (chars! "matsets") OfMatset ∧
  Catalogs ref n idx (chars! "specsets") OfSpecset ∧
  Catalogs ref n idx (chars! "fields") OfField ∧
  Catalogs ref n idx (chars! "adjsets") OfAdjacency ∧
  Catalogs ref n idx (chars! "nestsets") OfAdjacency

/-- What the index says of the state. -/
def OfState (ref : Str) (doms : Int) (n idx : BNode F) : Prop :=
  ∃ s, idx.get (chars! "state") = .ok s ∧ s.get (chars! "number_of_domains") = .ok (.ints int64 [doms]) ∧
    ∀ x, n.get (chars! "state") = .ok x → Copied (chars! "cycle") x s ∧ Copied (chars! "time") x s ∧
      s.get (chars! "path") = .ok (.str (below ref (chars! "state")))

/-! ### What the index says of several domains -/

/-- The domain has an entry of this name. -/
def Listed (n : BNode F) (coll name : Str) : Prop := ∃ c, Entry n coll name c

/-- A material of a matset. -/
def HasMaterial (c : BNode F) (m : Str) : Prop :=
  (∃ x, c.get (chars! "material_map") = .ok x ∧ Has x m) ∨
  (¬ Has c (chars! "material_map") ∧ ∃ x, c.get (chars! "materials") = .ok x ∧ Has x m) ∨
  (¬ Has c (chars! "material_map") ∧ ¬ Has c (chars! "materials") ∧
    ∃ x, c.get (chars! "volume_fractions") = .ok x ∧ Has x m)

/-- The axes of every domain's coordset are in the index. -/
def AlsoCoordset (c e : BNode F) : Prop :=
  ∃ s ax, e.get (chars! "coord_system") = .ok s ∧ s.get (chars! "axes") = .ok ax ∧ ∀ a, HasAxis c a → Has ax a
/-- The materials of every domain's matset are in the index. -/
def AlsoMatset (c e : BNode F) : Prop :=
  ∀ m, HasMaterial c m → (∃ x, e.get (chars! "material_map") = .ok x ∧ Has x m) ∨
    ∃ x, e.get (chars! "materials") = .ok x ∧ Has x m
/-- The species of every domain's specset are in the index. -/
def AlsoSpecset (c e : BNode F) : Prop :=
  ∃ s, e.get (chars! "species") = .ok s ∧ ∀ v m ks sp, c.get (chars! "matset_values") = .ok v → v.get m = .ok (.obj ks) →
    Has (.obj ks : BNode F) sp → ∃ x, s.get m = .ok x ∧ Has x sp

/-- What is taken from the last domain that has the coordset. -/
def LastCoordset (c e : BNode F) : Prop :=
  Copied (chars! "type") c e ∧ ∃ s sys, e.get (chars! "coord_system") = .ok s ∧
    s.get (chars! "type") = .ok (.str sys) ∧ InSystem c sys
/-- The same for a topology. -/
def LastTopology (c e : BNode F) : Prop :=
  Copied (chars! "type") c e ∧ Copied (chars! "coordset") c e ∧
    (Has c (chars! "grid_function") → Copied (chars! "grid_function") c e)
/-- The same for a matset. -/
def LastMatset (c e : BNode F) : Prop := Copied (chars! "topology") c e
/-- The same for a specset. -/
def LastSpecset (c e : BNode F) : Prop := Copied (chars! "matset") c e
/-- The same for a field. -/
def LastField (c e : BNode F) : Prop :=
  (∀ f ∈ [chars! "topology", chars! "matset", chars! "volume_dependent", chars! "association"], Has c f → Copied f c e) ∧
  (¬ Has c (chars! "association") → Copied (chars! "basis") c e) ∧
  (∀ v, c.get (chars! "values") = .ok v →
    e.get (chars! "number_of_components") = .ok (.ints int64 [(components v : Int)])) ∧
  (¬ Has c (chars! "values") → ∀ v w l, c.get (chars! "matset_values") = .ok v → members v = w :: l →
    e.get (chars! "number_of_components") = .ok (.ints int64 [(components w : Int)]))

/-- The index has an entry for each name some domain lists and no other.  It says where the entry is;
    `U` holds for every domain that has the entry, `L` for the last one. -/
def Unites (ref : Str) (ds : List (BNode F)) (idx : BNode F) (coll : Str) (U L : BNode F → BNode F → Prop) : Prop :=
  (∀ name, Listed idx coll name ↔ ∃ d ∈ ds, Listed d coll name) ∧
  ∀ pre d post, ds = pre ++ d :: post → ∀ name c, Entry d coll name c → ∃ e, Entry idx coll name e ∧ U c e ∧
    ((∀ d' ∈ post, ¬ Listed d' coll name) → L c e) ∧
    (name ≠ [] → e.get (chars! "path") = .ok (.str (below ref (coll ++ ['/'] ++ name))))

/-- What the index of several domains says. -/
def DescribesAll (ref : Str) (ds : List (BNode F)) (idx : BNode F) : Prop :=
  Unites ref ds idx (chars! "coordsets") AlsoCoordset LastCoordset ∧
  Unites ref ds idx (chars! "topologies") (fun _ _ => True) LastTopology ∧
  Unites ref ds idx (chars! "matsets") AlsoMatset LastMatset ∧
  Unites ref ds idx (chars! "specsets") AlsoSpecset LastSpecset ∧
  Unites ref ds idx (chars! "fields") (fun _ _ => True) LastField ∧
  Unites ref ds idx (chars! "adjsets") (fun _ _ => True) OfAdjacency ∧
  Unites ref ds idx (chars! "nestsets") (fun _ _ => True) OfAdjacency

end
end Conduit.Mesh
