import Verif.Lemmas.MeshRead
import Verif.Model.Float
/-
C70: conversions of coordinate sets.  C71: conversions of grids to unstructured meshes.
C72: the widest leaf type.
-/
namespace Conduit.Mesh
variable {F : Type}

/-! ### C70 -/

/-- **C70**: the explicit form of a uniform coordset lists every point of the grid, under each axis its
    coordinate along that axis: the float64 value if the coordset holds a float64, else that value
    rounded to float32. -/
theorem C70_uniform_explicit (A : Arith F) (n : BNode F) (g : List (Axis F)) (h : Uniform A n g) :
    ∃ m, toExplicit A .uniform n = .ok m ∧ (HasLeaf n (.f true) → Explicit m g) ∧
      (¬ HasLeaf n (.f true) → Explicit m (mapCoord A.narrow g)) :=
  rd_uniform_explicit A n g h.read h.noValues

/-- **C70**: the explicit form of a rectilinear coordset with floating point arrays lists every point of the grid;
    each coordinate is exactly the one given (also if the arrays differ in type). -/
theorem C70_rectilinear_explicit (A : Arith F) (n : BNode F) (g : List (Axis F)) (h : Rectilinear n g) :
    ∃ m, toExplicit A .rectilinear n = .ok m ∧ Explicit m g :=
  rd_rectilinear_explicit A n g h.read

theorem rectilinearOf_tree (wide : Bool) (g : List (Axis F)) (hg : g ≠ []) (hs : AxisNames (g.map (·.name)))
    (h : RectilinearRd (rectilinearOf wide g) g) : Rectilinear (rectilinearOf wide g) g where
  type := rfl
  system := hs
  named := by
    have hkid : ∀ ks : List (Str × BNode F), ks ≠ [] → objKid (chars! "values") ks = [(chars! "values", .obj ks)] := by
      intro ks hks; cases ks with
      | nil => simp at hks
      | cons => rfl
    refine ⟨.obj (g.map fun a => (a.name, BNode.flts wide ((List.range a.len).map a.coord))), ?_, ?_⟩
    · unfold rectilinearOf; rw [hkid _ (by simpa using hg)]; rfl
    · intro k; simp only [BNode.kids, List.map_map]; exact Iff.rfl
  axis := by
    intro i a ha
    obtain ⟨v, w, l, e1, e2, e3, e4⟩ := h.axis i a ha
    exact ⟨w, l, ⟨v, e1, e2⟩, e3, e4⟩
  noOrigin := h.noOrigin
  noSpacing := h.noSpacing

/-- **C70**: the rectilinear form of a uniform coordset has the same axes, each coordinate rounded to float32 if the
    coordset holds no float64; going on to the explicit form gives the same tree as going there directly. -/
theorem C70_commute (A : Arith F) (n : BNode F) (g : List (Axis F)) (h : Uniform A n g) (hg : g ≠ []) :
    ∃ r, toRectilinear A n = .ok r ∧ (HasLeaf n (.f true) → Rectilinear r g) ∧
      (¬ HasLeaf n (.f true) → Rectilinear r (mapCoord A.narrow g)) ∧
      toExplicit A .rectilinear r = toExplicit A .uniform n := by
  obtain ⟨r, h1, h2, h3⟩ := rd_commute A n g h.read hg h.noValues
  have hr : r = rectilinearOf (widestFloat n) (mapCoord (storeF A (widestFloat n) true) g) := by
    have := toRectilinear_eq A n g h.read
    rw [h1] at this
    exact Res.ok.inj this
  have hT : Rectilinear r (mapCoord (storeF A (widestFloat n) true) g) := by
    rw [hr] at h2 ⊢
    exact rectilinearOf_tree _ _ (by simpa [mapCoord] using hg) (by rw [mapCoord_names]; exact h.system) h2
  refine ⟨r, h1, fun hl => ?_, fun hl => ?_, h3⟩
  · have hid : mapCoord (storeF A (widestFloat n) true) g = g := by
      rw [widestFloat_true n hl]
      exact (List.map_congr_left (fun a _ => by simp [storeF])).trans (List.map_id' g)
    rw [hid] at hT; exact hT
  · rw [widestFloat_false n hl] at hT
    have he : mapCoord (storeF A false true) g = mapCoord A.narrow g := by simp [mapCoord, storeF]
    rw [he] at hT; exact hT

/-- **C70**: `coordset::length` counts the points of a uniform coordset, and of the rectilinear one made from it. -/
theorem C70_length (A : Arith F) (n : BNode F) (g : List (Axis F)) (h : Uniform A n g) (hg : g ≠ []) :
    coordsetLength A n = .ok (count (g.map (·.len)) : Nat) ∧
    (∀ r, toRectilinear A n = .ok r → coordsetLength A r = .ok (count (g.map (·.len)) : Nat)) :=
  rd_length A n g h.read hg h.type h.noValues

/-- **C70**: it counts the points of the explicit coordset made from a uniform or rectilinear one. -/
theorem C70_length_explicit (A : Arith F) (base : Base) (n m : BNode F) (g : List (Axis F)) (hg : g ≠ [])
    (h : (base = .uniform ∧ Uniform A n g) ∨ (base = .rectilinear ∧ Rectilinear n g))
    (hm : toExplicit A base n = .ok m) : coordsetLength A m = .ok (count (g.map (·.len)) : Nat) :=
  rd_length_explicit A base n m g hg (by
    rcases h with ⟨hb, h⟩ | ⟨hb, h⟩
    · exact .inl ⟨hb, h.read, h.noValues⟩
    · exact .inr ⟨hb, h.read⟩) hm

/-! ### C71 -/

/-- **C71**: a uniform mesh becomes an unstructured one with the same points and the same elements: the coordset is
    the explicit form of the grid, and element `x` lists the points at `x` plus the steps to its corners.
    The topology's integer type (the widest of its leaves, else int32) must hold every point number. -/
theorem C71_uniform (A : Arith F) (topo n : BNode F) (cname : Str) (g : List (Axis F)) (h : Uniform A n g) (hg : g ≠ [])
    (h1 : ∀ a ∈ g, 1 ≤ a.len) (h32 : ∀ a ∈ g, a.len < 2147483648)
    (hf : ∀ k : Nat, k < count (g.map (·.len)) → (widestInt topo).cast k = k) :
    ∃ m c, toUnstructured A .uniform topo n cname = .ok (m, c) ∧ toExplicit A .uniform n = .ok c ∧
      Elements m (elemCounts g) ∧ m.get (chars! "coordset") = .ok (.str cname) :=
  rdt_uniform A topo n cname g h.read hg h.noValues h1 h32 hf

/-- **C71**: the same for a rectilinear mesh. -/
theorem C71_rectilinear (A : Arith F) (topo n : BNode F) (cname : Str) (g : List (Axis F)) (h : Rectilinear n g)
    (hg : g ≠ []) (h1 : ∀ a ∈ g, 1 ≤ a.len)
    (hf : ∀ k : Nat, k < count (g.map (·.len)) → (widestInt topo).cast k = k) :
    ∃ m c, toUnstructured A .rectilinear topo n cname = .ok (m, c) ∧ Explicit c g ∧
      Elements m (elemCounts g) ∧ m.get (chars! "coordset") = .ok (.str cname) :=
  rdt_rectilinear A topo n cname g h.read hg h1 hf

/-- **C71**: the same for a structured mesh (without `offsets` and `strides`); the coordset is kept. -/
theorem C71_structured (A : Arith F) (topo n : BNode F) (cname : Str) (as : List Str) (ed : List Nat)
    (ha : ExplicitAxes n as) (hl : as.length = ed.length) (hne : as ≠ []) (h : Structured A topo ed)
    (hf : ∀ k : Nat, k < count (ed.map (· + 1)) → (widestInt topo).cast k = k) :
    ∃ m, toUnstructured A .structured topo n cname = .ok (m, n) ∧ Elements m ed ∧
      m.get (chars! "coordset") = .ok (.str cname) :=
  rdt_structured A topo n cname as ed ha.read hl hne h hf

/-- **C71**, what it is for: every corner of every element of the converted mesh lies where the grid puts it. -/
theorem C71_corner_coordinates (m c : BNode F) (g : List (Axis F)) (h1 : ∀ a ∈ g, 1 ≤ a.len)
    (hc : Explicit c g) (hm : Elements m (elemCounts g)) (x : List Nat) (hx : InGrid (elemCounts g) x)
    (k : Nat) (s : List Nat) (hs : (corners g.length)[k]? = some s) (i : Nat) (a : Axis F) (ha : g[i]? = some a) :
    ∃ e t conn v w l p, m.get (chars! "elements") = .ok e ∧ e.get (chars! "connectivity") = .ok (.ints t conn) ∧
      c.get (chars! "values") = .ok v ∧ v.get a.name = .ok (.flts w l) ∧
      conn[pointId (elemCounts g) x * 2 ^ g.length + k]? = some ((p : Nat) : Int) ∧
      l[p]? = ((addIdx x s)[i]?).map a.coord ∧ ∃ q, (addIdx x s)[i]? = some q ∧ q < a.len :=
  rdt_corner_coordinates m c g h1 hc hm x hx k s hs i a ha

/-- **C71**: a structured topology made from a uniform or rectilinear one has one element less than points along each
    axis, if the integer type holds these numbers; its coordset is the explicit form. -/
theorem C71_to_structured (A : Arith F) (base : Base) (topo n : BNode F) (cname : Str) (g : List (Axis F)) (hg : g ≠ [])
    (h : (base = .uniform ∧ Uniform A n g) ∨ (base = .rectilinear ∧ Rectilinear n g)) (h1 : ∀ a ∈ g, 1 ≤ a.len)
    (hf : ∀ a ∈ g, (widestInt topo).cast ((a.len : Int) - 1) = (a.len : Int) - 1 ∧ a.len ≤ 2147483648) :
    ∃ m c, toStructured A base topo n cname = .ok (m, c) ∧ toExplicit A base n = .ok c ∧
      Structured A m (elemCounts g) ∧ m.get (chars! "type") = .ok (.str (chars! "structured")) := by
  rcases h with ⟨rfl, h⟩ | ⟨rfl, h⟩
  · obtain ⟨c, hc, _⟩ := C70_uniform_explicit A n g h
    obtain ⟨m, e1, e2, e3⟩ := rdt_to_structured A .uniform topo n c cname g hg hc h.read.names h1
      (fun i a ha => (h.read.axis i a ha).1) hf
    exact ⟨m, c, e1, hc, e2, e3⟩
  · obtain ⟨c, hc, _⟩ := C70_rectilinear_explicit A n g h
    obtain ⟨m, e1, e2, e3⟩ := rdt_to_structured A .rectilinear topo n c cname g hg hc h.read.names h1
      (fun i a ha => by
        obtain ⟨v, w, l, f1, f2, f3, _⟩ := h.read.axis i a ha
        simp [axisLen, f1, f2, BNode.numElements, f3]) hf
    exact ⟨m, c, e1, hc, e2, e3⟩

/-! ### C72 -/

/-- **C72**: `find_widest_dtype` gives the default type if no leaf is of the class of a default type; else the type of
    such a leaf, and no such leaf has wider elements. -/
theorem C72_widest (n : BNode F) (d : ETy) (defs : List ETy) :
    ((∀ t, HasLeaf n t → ∀ e ∈ d :: defs, sameClass t e = false) → findWidest n d defs = d) ∧
    (∀ t e, HasLeaf n t → e ∈ d :: defs → sameClass t e = true →
      t.bytes ≤ (findWidest n d defs).bytes ∧ HasLeaf n (findWidest n d defs) ∧
      ∃ e' ∈ d :: defs, sameClass (findWidest n d defs) e' = true) := by
  obtain ⟨h1, h2, h3, h4⟩ := findWidest_spec n d defs
  refine ⟨fun h => h3 (fun t ht ⟨e, he, hs⟩ => by rw [h t ht e he] at hs; simp at hs), fun t e ht he hs => ?_⟩
  refine ⟨h2 t ht ⟨e, he, hs⟩, h4 t ht ⟨e, he, hs⟩, ?_⟩
  rcases h1 with h1 | ⟨_, h1⟩
  · exact ⟨d, by simp, by rw [h1]; cases d <;> simp [sameClass]⟩
  · exact h1

/-! ### cases -/

namespace MeshEx

/-- Integers as floating point values, rounded to 24 bits when narrowed. -/
def arith : Arith Int where
  zero := 0
  one := 1
  ofInt := id
  ofInt32 z := (if z < 0 then - (Ieee.roundMag Ieee.f32 z.natAbs : Int) else (Ieee.roundMag Ieee.f32 z.natAbs : Int))
  lin o d s := o + d * s
  narrow z := (if z < 0 then - (Ieee.roundMag Ieee.f32 z.natAbs : Int) else (Ieee.roundMag Ieee.f32 z.natAbs : Int))
  trunc := id

/-- A uniform coordset of 3 by 2 points; the axes are named out of order. -/
def uni : BNode Int := .obj [(chars! "type", .str (chars! "uniform")),
  (chars! "dims", .obj [(chars! "i", .ints int32 [3]), (chars! "j", .ints int32 [2])]),
  (chars! "origin", .obj [(chars! "y", .flts true [10]), (chars! "x", .flts true [-5])]),
  (chars! "spacing", .obj [(chars! "dx", .flts true [2]), (chars! "dy", .flts true [7])])]

def grid : List (Axis Int) := [⟨chars! "x", 3, fun d => -5 + d * 2⟩, ⟨chars! "y", 2, fun d => 10 + d * 7⟩]

theorem uni_uniform : Uniform arith uni grid where
  type := rfl
  system := ⟨_, .head _, fun a => a != chars! "z", by decide⟩
  named := .inl ⟨by decide, _, rfl, fun k => by simp [grid, BNode.kids, or_comm]⟩
  noValues := by decide
  axis := by
    intro i a h
    match i with
    | 0 =>
      have : a = ⟨chars! "x", 3, fun d => -5 + d * 2⟩ := by simpa [grid] using h.symm
      subst this
      refine ⟨⟨_, ⟨_, rfl, rfl⟩, by decide +kernel⟩, -5, 2, ?_, ?_, fun d => rfl⟩
      · rw [if_pos (by decide)]; exact ⟨_, ⟨_, rfl, rfl⟩, by decide +kernel⟩
      · rw [if_pos (by decide)]; exact ⟨_, ⟨_, rfl, rfl⟩, by decide +kernel⟩
    | 1 =>
      have : a = ⟨chars! "y", 2, fun d => 10 + d * 7⟩ := by simpa [grid] using h.symm
      subst this
      refine ⟨⟨_, ⟨_, rfl, rfl⟩, by decide +kernel⟩, 10, 7, ?_, ?_, fun d => rfl⟩
      · rw [if_pos (by decide)]; exact ⟨_, ⟨_, rfl, rfl⟩, by decide +kernel⟩
      · rw [if_pos (by decide)]; exact ⟨_, ⟨_, rfl, rfl⟩, by decide +kernel⟩
    | i + 2 => simp [grid] at h

/-- The hypotheses of C70 and C71 hold for it. -/
theorem uni_explicit : ∃ m, toExplicit arith .uniform uni = .ok m ∧ Explicit m grid := by
  obtain ⟨m, h1, h2, _⟩ := C70_uniform_explicit arith uni grid uni_uniform
  refine ⟨m, h1, h2 ?_⟩
  exact .obj _ (chars! "origin") (.obj [(chars! "y", .flts true [10]), (chars! "x", .flts true [-5])]) _ (by simp)
    (.obj _ (chars! "y") (.flts true [10]) _ (by simp) (.leaf _ _ rfl))

/-- The array of an axis, and whether it is float64. -/
def values (r : Res (BNode Int)) (a : Str) : Option (Bool × List Int) :=
  match (do (← (← r).get (chars! "values")).get a) with
  | .ok (.flts w l) => some (w, l)
  | _ => none

/-- The arrays of the explicit form, as the code computes them. -/
theorem uni_explicit_values : values (toExplicit arith .uniform uni) (chars! "x") = some (true, [-5, -3, -1, -5, -3, -1]) ∧
    values (toExplicit arith .uniform uni) (chars! "y") = some (true, [10, 10, 10, 17, 17, 17]) := by decide +kernel

def topo : BNode Int := .obj [(chars! "type", .str (chars! "uniform")), (chars! "coordset", .str (chars! "coords"))]

theorem uni_unstructured : ∃ m c, toUnstructured arith .uniform topo uni (chars! "coords") = .ok (m, c) ∧
    Elements m [2, 1] := by
  obtain ⟨m, c, h1, _, h3, _⟩ := C71_uniform arith topo uni (chars! "coords") grid uni_uniform (by simp [grid])
    (by simp [grid]) (by simp [grid]) (by
      intro k hk
      have hk6 : k < 6 := by simpa [grid, count] using hk
      have ht : widestInt topo = int32 := by decide +kernel
      rw [ht]
      exact int32_cast_id k (by omega))
  exact ⟨m, c, h1, h3⟩

/-- The connectivity the code computes. -/
theorem uni_connectivity : (connectivity int32 2 ⟨2, 1, 1⟩) = .ok [0, 1, 4, 3, 1, 2, 5, 4] := by decide +kernel

/-- A rectilinear coordset whose coordinates are integers: 16777217 is a point. -/
def rectInt : BNode Int := .obj [(chars! "type", .str (chars! "rectilinear")),
  (chars! "values", .obj [(chars! "x", .ints int32 [16777216, 16777217])])]

/-- A rectilinear coordset with a float32 and a float64 axis. -/
def rectMixed : BNode Int := .obj [(chars! "type", .str (chars! "rectilinear")),
  (chars! "values", .obj [(chars! "y", .flts true [1, 16777217]), (chars! "x", .flts false [0, 3, 4])])]

theorem rectMixed_rectilinear : Rectilinear rectMixed
    [⟨chars! "x", 3, fun d => [0, 3, 4].getD d 0⟩, ⟨chars! "y", 2, fun d => [1, 16777217].getD d 0⟩] where
  type := rfl
  system := ⟨_, .head _, fun a => a != chars! "z", by decide⟩
  named := ⟨_, rfl, fun k => by simp [BNode.kids, or_comm]⟩
  axis := by
    intro i a h
    match i with
    | 0 =>
      have : a = ⟨chars! "x", 3, fun d => [0, 3, 4].getD d 0⟩ := by simpa using h.symm
      subst this
      refine ⟨false, [0, 3, 4], ⟨_, rfl, rfl⟩, rfl, fun d hd => ?_⟩
      have : d < 3 := hd
      rcases (by omega : d = 0 ∨ d = 1 ∨ d = 2) with rfl | rfl | rfl <;> rfl
    | 1 =>
      have : a = ⟨chars! "y", 2, fun d => [1, 16777217].getD d 0⟩ := by simpa using h.symm
      subst this
      refine ⟨true, [1, 16777217], ⟨_, rfl, rfl⟩, rfl, fun d hd => ?_⟩
      have : d < 2 := hd
      rcases (by omega : d = 0 ∨ d = 1) with rfl | rfl <;> rfl
    | i + 2 => simp at h
  noOrigin := by decide +kernel
  noSpacing := by decide +kernel

/-- A structured topology of 15 by 15 elements whose dims are int8. -/
def topo8 : BNode Int := .obj [(chars! "type", .str (chars! "structured")), (chars! "coordset", .str (chars! "coords")),
  (chars! "elements", .obj [(chars! "dims", .obj [(chars! "i", .ints int8 [15]), (chars! "j", .ints int8 [15])])])]

/-- An explicit coordset with axes x and y. -/
def expl : BNode Int := .obj [(chars! "type", .str (chars! "explicit")),
  (chars! "values", .obj [(chars! "x", .flts true [0]), (chars! "y", .flts true [0])])]

/-- The documentation's strided structured topology: 3 by 2 elements in a coordset of 7 points per row. -/
def strided : BNode Int := .obj [(chars! "type", .str (chars! "structured")), (chars! "coordset", .str (chars! "coords")),
  (chars! "elements", .obj [(chars! "dims", .obj [(chars! "i", .ints int32 [3]), (chars! "j", .ints int32 [2]),
    (chars! "offsets", .ints int32 [2, 2]), (chars! "strides", .ints int32 [1, 7])])])]

/-- A uniform topology with an int8 origin. -/
def topoOrigin8 : BNode Int := .obj [(chars! "type", .str (chars! "uniform")), (chars! "coordset", .str (chars! "coords")),
  (chars! "elements", .obj [(chars! "origin", .obj [(chars! "i", .ints int8 [4])])])]

/-- A uniform coordset of 200 points. -/
def uni200 : BNode Int := .obj [(chars! "type", .str (chars! "uniform")),
  (chars! "dims", .obj [(chars! "i", .ints int32 [200])])]

/-- What `to_unstructured` gives for corner `c` of element `e`. -/
def entry (r : Res (BNode Int × BNode Int)) (k : Nat) : Option Int :=
  match r with
  | .ok (m, _) =>
    match (do (← m.get (chars! "elements")).get (chars! "connectivity")) with
    | .ok (.ints _ l) => l[k]?
    | _ => none
  | _ => none

/-- The element count along `i` of a structured topology. -/
def dimI (r : Res (BNode Int × BNode Int)) : Option Int :=
  match r with
  | .ok (m, _) =>
    match (do (← (← m.get (chars! "elements")).get (chars! "dims")).get (chars! "i")) with
    | .ok (.ints _ (v :: _)) => some v
    | _ => none
  | _ => none

theorem topo8_structured : Structured arith topo8 [15, 15] := by
  refine ⟨_, _, rfl, rfl, ?_⟩
  intro i k hk
  match i with
  | 0 =>
    have : k = 15 := by simpa using hk.symm
    subst this
    exact ⟨_, by decide, rfl, by decide +kernel, by decide⟩
  | 1 =>
    have : k = 15 := by simpa using hk.symm
    subst this
    exact ⟨_, by decide, rfl, by decide +kernel, by decide⟩
  | i + 2 => simp at hk

end MeshEx

open MeshEx

/-- **C70** fails for integer coordinates: without a floating point leaf the explicit form is float32, and two points
    of the grid become one. -/
theorem C70_integer_false :
    values (toExplicit arith .rectilinear rectInt) (chars! "x") = some (false, [16777216, 16777216]) := by
  decide +kernel

/-- **C71** fails when the topology's own integers are narrow: with int8 dims of 15 by 15 elements the last corner, point
    255, is listed as -1. -/
theorem C71_narrow_dims_false : Structured arith topo8 [15, 15] ∧ ExplicitAxes expl [chars! "x", chars! "y"] ∧
    ∃ m, toUnstructured arith .structured topo8 expl (chars! "c") = .ok (m, expl) ∧
      entry (.ok (m, expl)) (224 * 4 + 2) = some (-1) := by
  refine ⟨topo8_structured, ⟨rfl, ⟨_, .head _, fun a => a != chars! "z", by decide⟩,
    ⟨_, rfl, fun k => by simp [BNode.kids]⟩⟩, ?_⟩
  obtain ⟨e, d, h1, h2, h3⟩ := topo8_structured
  have hd : elemDims arith .structured topo8 expl [chars! "x", chars! "y"] = .ok (ijkOf [15, 15]) := by decide +kernel
  obtain ⟨m, e1, ⟨e, conn, e2, e3, _, _, e4⟩, _⟩ := toUnstructured_as arith .structured topo8 expl (chars! "c")
    [chars! "x", chars! "y"] [15, 15] expl [] rfl rfl (by decide +kernel) rfl (by simp) hd
  refine ⟨m, e1, ?_⟩
  have h := e4 [14, 14] (by decide) 2 [1, 1] rfl
  have hw : widestInt topo8 = int8 := by decide +kernel
  rw [hw] at h
  have hq : int8.cast ((pointId ([15, 15].map (· + 1)) (addIdx [14, 14] [1, 1]) : Nat) : Int) = -1 := by decide
  have hp : pointId [15, 15] [14, 14] * 2 ^ [15, 15].length + 2 = 224 * 4 + 2 := by decide
  rw [hq, hp] at h
  simp only [entry, e2, Res.bind_ok, e3]
  exact h

/-- **C71** fails for strided structured topologies: `offsets` and `strides` are ignored. The first corner of the first
    element of the documentation's example is point 2 + 2 * 7 = 16; the conversion lists point 0. -/
theorem C71_strided_false : entry (toUnstructured arith .structured strided expl (chars! "c")) 0 = some 0 := by
  decide +kernel

/-- **C71** fails when an int8 leaf of the topology decides the type of the element counts: 199 elements become -57.
    The origin under `elements` is dropped too. -/
theorem C71_narrow_origin_false : dimI (toStructured arith .uniform topoOrigin8 uni200 (chars! "c")) = some (-57) ∧
    ∃ m c e, toStructured arith .uniform topoOrigin8 uni200 (chars! "c") = .ok (m, c) ∧
      m.get (chars! "elements") = .ok e ∧ e.hasChild (chars! "origin") = false := by
  refine ⟨by decide +kernel, ?_⟩
  have h : (match toStructured arith .uniform topoOrigin8 uni200 (chars! "c") with
    | .ok (m, _) => (match m.get (chars! "elements") with
      | .ok e => !e.hasChild (chars! "origin")
      | _ => false)
    | _ => false) = true := by decide +kernel
  cases hr : toStructured arith .uniform topoOrigin8 uni200 (chars! "c") with
  | ok r =>
    obtain ⟨m, c⟩ := r
    rw [hr] at h
    simp only [] at h
    cases he : m.get (chars! "elements") with
    | ok e => rw [he] at h; exact ⟨m, c, e, rfl, he, by simpa using h⟩
    | error => rw [he] at h; simp at h
    | ub => rw [he] at h; simp at h
  | error => rw [hr] at h; simp at h
  | ub => rw [hr] at h; simp at h

/-- **C72**: the widest type need not hold the values of every leaf: of an uint32 and an int32 the one visited first (the
    last child) is taken. -/
theorem C72_sign_false : widestInt (.obj [(chars! "a", .ints uint32 [4000000000]), (chars! "b", .ints int32 [1])] : BNode Int)
      = int32 ∧ int32.cast 4000000000 ≠ 4000000000 := by
  decide +kernel

end Conduit.Mesh
