import Verif.Spec.Extract
import Verif.Spec.PointMerge
import Verif.Model.Combine
/-
What it means that chunks of a mesh were put together.
-/
namespace Conduit.Comb
open Conduit.Mesh Conduit.Part Conduit.Merge
variable {F : Type}

/-- Polygons whose points come one after the other in the connectivity. -/
def Packed (topo : BNode F) (els : List (List Nat)) : Prop :=
  ∃ e tc ts, topo.get (chars! "elements") = .ok e ∧ e.get (chars! "shape") = .ok (.str (chars! "polygonal")) ∧
    e.get (chars! "connectivity") = .ok (.ints tc (els.flatten.map fun p : Nat => (p : Int))) ∧
    e.get (chars! "sizes") = .ok (.ints ts (els.map fun el => (el.length : Int))) ∧
    ∀ el ∈ els, Idx el.length ∧ ∀ p ∈ el, Idx p

/-- The two arrays have numbers of one type. -/
def LikeCol (c d : BNode F) : Prop := (∃ t l m, c = .ints t l ∧ d = .ints t m) ∨ ∃ w l m, c = .flts w l ∧ d = .flts w m

/-- The same for every component; the components have the same names in the same order. -/
def Alike (v w : BNode F) : Prop :=
  LikeCol v w ∨ ∃ k ks l, v = .obj (k :: ks) ∧ w = .obj l ∧ List.Forall₂ (fun a b : Str × BNode F => a.1 = b.1 ∧ LikeCol a.2 b.2) (k :: ks) l

/-- A chunk: its topology, coordset and fields, the shape of the elements, the points of each, the number of axes and the points. -/
structure Chunk (F : Type) where
  mesh : BNode F
  topo : BNode F
  cset : BNode F
  fields : List (Str × BNode F)
  shape : Str
  els : List (List Nat)
  n : Nat
  pts : List (V3 F)

/-- How many values a field of the chunk has. -/
def Chunk.count (c : Chunk F) (assoc : Str) : Nat := if assoc = chars! "element" then c.els.length else c.pts.length

/-- A chunk with one topology, unstructured, and one coordset, explicit and cartesian.  All its fields are on the topology. -/
structure Good (o : MOps F) (tname csname : Str) (c : Chunk F) : Prop where
  topologies : c.mesh.get (chars! "topologies") = .ok (.obj [(tname, c.topo)])
  coordsets : c.mesh.get (chars! "coordsets") = .ok (.obj [(csname, c.cset)])
  type : c.topo.get (chars! "type") = .ok (.str (chars! "unstructured"))
  coordset : c.topo.get (chars! "coordset") = .ok (.str csname)
  points : Cart o c.cset c.n c.pts
  elements : c.els ≠ [] ∧ ∀ el ∈ c.els, el ≠ [] ∧ ∀ p ∈ el, p < c.pts.length
  fields : c.mesh.get (chars! "fields") = .ok (.obj c.fields)
  names : (c.fields.map (·.1)).Nodup
  good : ∀ f ∈ c.fields, ∃ a v, FieldOf f.2 a tname v ∧ (a = chars! "vertex" ∨ a = chars! "element") ∧ Table v (c.count a)

/-- Fields of one name are alike in all chunks. -/
def FieldsAlike (cs : List (Chunk F)) : Prop :=
  ∀ c ∈ cs, ∀ d ∈ cs, ∀ f ∈ c.fields, ∀ g ∈ d.fields, f.1 = g.1 → ∀ a b t u v w, FieldOf f.2 a t v → FieldOf g.2 b u w → a = b ∧ Alike v w

/-- The chunks as coordsets. -/
def inOf (cs : List (Chunk F)) : List (In F) := cs.map fun c => ⟨c.cset, c.n, c.pts⟩

/-- Elements of one shape with a fixed number of points. -/
def OneShape (e : BNode F) (s : Str) (els : List (List Nat)) : Prop :=
  e.get (chars! "shape") = .ok (.str s) ∧ e.get (chars! "connectivity") = .ok (.ints int64 (els.flatten.map fun p : Nat => (p : Int))) ∧
    ∃ n, (s, n) ∈ shapeSizes ∧ ∀ el ∈ els, el.length = n

/-- The topology has these elements, each with its shape, in this order: all of one shape, or in a bucket for each shape. -/
def Shapes (topo : BNode F) (els : List (Str × List Nat)) : Prop :=
  ∃ e, topo.get (chars! "elements") = .ok e ∧
    ((∃ s l, OneShape e s l ∧ els = l.map fun el => (s, el)) ∨
      ∃ bs : List (Str × List (List Nat)), (bs.map (·.1)).Nodup ∧ e.kids.map (·.1) = bs.map (fun b => b.1 ++ chars! "s") ∧
        (∀ b ∈ bs, ∃ n, e.get (b.1 ++ chars! "s") = .ok n ∧ OneShape n b.1 b.2) ∧
        els = bs.flatMap fun b => b.2.map fun el => (b.1, el))

/-- The topology has these polygons, in this order. -/
def Polys (topo : BNode F) (els : List (Str × List Nat)) : Prop :=
  ∃ (e : BNode F) (l : List (List Nat)) (offs : List Int), topo.get (chars! "elements") = .ok e ∧ e.get (chars! "shape") = .ok (.str (chars! "polygonal")) ∧
    e.get (chars! "connectivity") = .ok (.ints int64 (l.flatten.map fun p : Nat => (p : Int))) ∧
    e.get (chars! "sizes") = .ok (.ints int64 (l.map fun el => (el.length : Int))) ∧
    e.get (chars! "offsets") = .ok (.ints int64 offs) ∧ offs.length = l.length ∧
    (∀ j : Nat, j < l.length → offs[j]? = some (((l.take j).flatten.length : Nat) : Int)) ∧
    els = l.map fun el => (chars! "polygonal", el)

/-- `orig` tells for each new element the chunk and the number there: every element of every chunk once.  A new element has the corners
    the old one had, with the numbers `maps` gives them. -/
structure Kept (cs : List (Chunk F)) (maps : List (List Nat)) (els : List (Str × List Nat)) (orig : List (Nat × Nat)) : Prop where
  length : els.length = orig.length
  once : orig.Nodup
  all : ∀ i j, (i, j) ∈ orig ↔ ∃ c, cs[i]? = some c ∧ j < c.els.length
  corners : ∀ (k i j : Nat) (c : Chunk F) (el : List Nat), orig[k]? = some (i, j) → cs[i]? = some c → c.els[j]? = some el →
    ∃ s el', els[k]? = some (s, el') ∧ el'.length = el.length ∧ ∀ (m p : Nat), el[m]? = some p → ∃ q, el'[m]? = some q ∧ IdAt maps i p q

/-- Entry `k` of `v` is that of the field `name` of chunk `i` at `j`. -/
def From (cs : List (Chunk F)) (name : Str) (v : BNode F) (k i j : Nat) : Prop :=
  ∃ c f a t w, cs[i]? = some c ∧ (name, f) ∈ c.fields ∧ FieldOf f a t w ∧ Alike w v ∧ rowAt v k = rowAt w j

/-- The field `name` of the result: an element has the value it had; a point has the value of the last chunk it is in. -/
def FieldKept (cs : List (Chunk F)) (maps : List (List Nat)) (orig : List (Nat × Nat)) (npts : Nat) (tname name : Str) (f : BNode F) : Prop :=
  ∃ a v, FieldOf f a tname v ∧ (∀ c ∈ cs, ∃ g w, (name, g) ∈ c.fields ∧ FieldOf g a tname w) ∧
    ((a = chars! "element" ∧ ∀ (k i j : Nat), orig[k]? = some (i, j) → From cs name v k i j) ∨
      (a = chars! "vertex" ∧ ∀ q, q < npts → ∃ i k, IdAt maps i k q ∧ From cs name v q i k ∧ ∀ i' k', IdAt maps i' k' q → i' ≤ i))

/-- The number of the domain of chunk `i`: that of its state, or `i`. -/
def DomainIs (A : Arith F) (c : Chunk F) (i : Nat) (d : Int) : Prop :=
  (∃ st n, c.mesh.get (chars! "state") = .ok st ∧ st.get (chars! "domain_id") = .ok n ∧ n.toInt64 A = .ok d) ∨
  ((∀ st n, c.mesh.get (chars! "state") = .ok st → st.get (chars! "domain_id") ≠ .ok n) ∧ d = i)

/-- A field with the domains and the numbers things had. -/
def OriginKept (A : Arith F) (cs : List (Chunk F)) (tname assoc : Str) (f : BNode F) (P : Nat → Nat → Nat → Prop) (n : Nat) : Prop :=
  ∃ v ds is, FieldOf f assoc tname v ∧ v.get (chars! "domains") = .ok (.ints int64 ds) ∧ v.get (chars! "ids") = .ok (.ints int64 is) ∧
    ds.length = n ∧ is.length = n ∧
    ∀ k, k < n → ∃ i j c d, P k i j ∧ cs[i]? = some c ∧ DomainIs A c i d ∧ ds[k]? = some d ∧ is[k]? = some (j : Int)

/-- Points of different chunks become one exactly if they have the same coordinates. -/
def United (o : MOps F) (cs : List (Chunk F)) (maps : List (List Nat)) : Prop :=
  ∀ i j k l p q id id', i ≠ j → PointAt (inOf cs) i k p → PointAt (inOf cs) j l q → IdAt maps i k id → IdAt maps j l id' → (id = id' ↔ Same o p q)

/-- The mesh is what the chunks make together; `Q` holds for the numbers given to the points. -/
structure Combined (o : MOps F) (tol : F) (op : Opts) (tname csname : Str) (domain : Int) (poly : Bool) (Q : List (List Nat) → Prop)
    (cs : List (Chunk F)) (out : BNode F) : Prop where
  state : ∃ st, out.get (chars! "state") = .ok st ∧ st.get (chars! "domain_id") = .ok (.ints int32 [domain]) ∧
    ∀ c, cs[0]? = some c → ∀ st0 k v, c.mesh.get (chars! "state") = .ok st0 → k ≠ chars! "domain_id" → st0.get k = .ok v → st.get k = .ok v
  mesh : ∃ topo cset fields merged pts maps els orig,
    LeafAt out (chars! "topologies") tname topo ∧ LeafAt out (chars! "coordsets") csname cset ∧
    topo.get (chars! "type") = .ok (.str (chars! "unstructured")) ∧ topo.get (chars! "coordset") = .ok (.str csname) ∧
    Merged o tol (inOf cs) merged pts maps ∧ Q maps ∧
    cset.get (chars! "type") = merged.get (chars! "type") ∧ cset.get (chars! "values") = merged.get (chars! "values") ∧
    (if poly then Polys topo els else Shapes topo els) ∧ Kept cs maps els orig ∧
    (poly = false → ∀ (k i j : Nat) (s : Str) (el : List Nat) (c : Chunk F), orig[k]? = some (i, j) → els[k]? = some (s, el) →
      cs[i]? = some c → s = c.shape) ∧
    out.get (chars! "fields") = .ok (.obj fields) ∧ (fields.map (·.1)).Nodup ∧
    (∀ name, (∀ c ∈ cs, name ∈ c.fields.map (·.1)) → ∃ f, (name, f) ∈ fields) ∧
    (∀ f ∈ fields, FieldKept cs maps orig pts.length tname f.1 f.2 ∨
      (f.1 = op.elementName ∧ OriginKept o.arith cs tname (chars! "element") f.2 (fun k i j => orig[k]? = some (i, j)) orig.length) ∨
      (f.1 = op.vertexName ∧ OriginKept o.arith cs tname (chars! "vertex") f.2
        (fun q i k => IdAt maps i k q ∧ ∀ i' k', IdAt maps i' k' q → i' ≤ i) pts.length)) ∧
    (∃ f, (op.elementName, f) ∈ fields) ∧ ∃ f, (op.vertexName, f) ∈ fields

end Conduit.Comb
