import Verif.Spec.Mesh
import Verif.Props.Utils
/-
What it means that the elements of a mesh were reordered (or some of them selected).
-/
namespace Conduit.Mesh
variable {F : Type}

/-- A number an `index_t` holds. -/
def Idx (n : Nat) : Prop := n < 2 ^ 63

instance (n : Nat) : Decidable (Idx n) := inferInstanceAs (Decidable (n < 2 ^ 63))

instance (t : IntTy) (v : Int) : Decidable (t.Holds v) := by
  obtain ⟨s, w⟩ := t
  cases s <;> cases w <;> exact inferInstanceAs (Decidable (_ ∧ _))

/-- The unstructured topology has these elements, each the list of its points; the offsets are of type `ot`. -/
def HasElems (topo : BNode F) (els : List (List Nat)) (ot : IntTy) : Prop :=
  ∃ e tc conn ts sizes offs, topo.get (chars! "elements") = .ok e ∧
    e.get (chars! "connectivity") = .ok (.ints tc conn) ∧ e.get (chars! "sizes") = .ok (.ints ts sizes) ∧
    e.get (chars! "offsets") = .ok (.ints ot offs) ∧ sizes.length = els.length ∧ offs.length = els.length ∧
    ∀ (c : Nat) (el : List Nat), els[c]? = some el →
      sizes[c]? = some (el.length : Int) ∧ ts.Holds el.length ∧ Idx el.length ∧
      ∃ o : Nat, offs[c]? = some (o : Int) ∧ ot.Holds o ∧ Idx o ∧
        ∀ (i p : Nat), el[i]? = some p → conn[o + i]? = some (p : Int) ∧ tc.Holds p ∧ Idx p

/-- Element `i` of a leaf of numbers. -/
def elemAt : BNode F → Nat → Option (Int ⊕ F)
  | .ints _ l, i => l[i]?.map .inl
  | .flts _ l, i => l[i]?.map .inr
  | _, _ => none

/-- A leaf of `n` numbers (or more). -/
def Column (c : BNode F) (n : Nat) : Prop :=
  (∃ t l, c = .ints t l ∧ n ≤ l.length) ∨ ∃ w l, c = .flts w l ∧ n ≤ l.length

/-- The values of a field or a coordset: a leaf, or one for each component. -/
def Table (v : BNode F) (n : Nat) : Prop :=
  Column v n ∨ ∃ k ks, v = .obj (k :: ks) ∧ ∀ c ∈ k :: ks, Column c.2 n

/-- The leaf `dst` has the elements `ids` of `src`, and its type. -/
def SlicedColumn (src : BNode F) (ids : List Nat) (dst : BNode F) : Prop :=
  dst.ety = src.ety ∧ dst.numElements = ids.length ∧
    ∀ (k id : Nat), ids[k]? = some id → ∃ v, elemAt src id = some v ∧ elemAt dst k = some v

/-- The same for each component. -/
def Sliced (src : BNode F) (ids : List Nat) (dst : BNode F) : Prop :=
  SlicedColumn src ids dst ∨ ∃ ks ks', src = .obj ks ∧ dst = .obj ks' ∧ ks'.map (·.1) = ks.map (·.1) ∧
    ∀ (i : Nat) k k', ks[i]? = some k → ks'[i]? = some k' → SlicedColumn k.2 ids k'.2

/-- The elements in the order given. -/
def picked (els : List (List Nat)) (order : List Nat) : List (List Nat) := order.map fun c => els.getD c []

/-- The points of the elements in the order of their first use. -/
def firstUses (els : List (List Nat)) : List Nat := els.flatten.eraseDups

/-- The elements with the points numbered by their place in the list. -/
def renumbered (pts : List Nat) (els : List (List Nat)) : List (List Nat) := els.map (·.map (pts.idxOf ·))

/-- A field of a mesh: what `reorder` reads of it. -/
structure FieldOf (f : BNode F) (assoc topo : Str) (values : BNode F) : Prop where
  association : f.get (chars! "association") = .ok (.str assoc)
  topology : f.get (chars! "topology") = .ok (.str topo)
  values : f.get (chars! "values") = .ok values

/-- Entry `i` of a field or a coordset: the value of each component, with its name. -/
def rowAt (v : BNode F) (i : Nat) : List (Str × Option (Int ⊕ F)) :=
  match v with
  | .obj ks => ks.map fun k => (k.1, elemAt k.2 i)
  | v => [([], elemAt v i)]

/-- Topology `topo'`, point values `vals'` and the map of the points describe the elements `order` of a mesh with
    elements `els` and point values `vals`: element `j` is element `order[j]`, corner by corner at the same place;
    corners that were one point are still one point, and other corners are not; no point is left without element. -/
def SameElements (els : List (List Nat)) (order : List Nat) (vals topo' vals' : BNode F) (ot : IntTy) (old2new : List Int) :
    Prop :=
  ∃ els', HasElems topo' els' ot ∧ els'.length = order.length ∧
    (∀ (j c : Nat) (el : List Nat), order[j]? = some c → els[c]? = some el → ∃ el', els'[j]? = some el' ∧
      el'.length = el.length ∧ ∀ (i p : Nat), el[i]? = some p → ∃ q : Nat, el'[i]? = some q ∧
        rowAt vals' q = rowAt vals p ∧ old2new[p]? = some (q : Int)) ∧
    ∃ n, (∀ (j : Nat) (el' : List Nat), els'[j]? = some el' → ∀ q ∈ el', q < n) ∧
      (∀ q, q < n → ∃ el' ∈ els', q ∈ el') ∧
      (∀ p p' q : Nat, old2new[p]? = some (q : Int) → old2new[p']? = some (q : Int) → p = p') ∧
      ∀ (p : Nat) (z : Int), old2new[p]? = some z → z ≠ -1 → ∃ (j : Nat) (c : Nat) (el : List Nat), order[j]? = some c ∧
        els[c]? = some el ∧ p ∈ el

end Conduit.Mesh
