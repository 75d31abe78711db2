import Verif.Props.Extract
/-
C93: cases that meet the hypotheses, and where the claim is false.
-/
namespace Conduit.Part
open Conduit.Mesh
namespace XCase

def A : Arith Int := { zero := 0, one := 1, ofInt := id, ofInt32 := id, lin := fun o d s => o + d * s, narrow := id, trunc := id }
def s (x : List Char) : BNode Int := .str x
def i (l : List Int) : BNode Int := .ints int64 l
def o (l : List (Str × BNode Int)) : BNode Int := .obj l

/-- Fields, in different types. -/
def fields : List (Str × BNode Int) :=
  [(chars! "p", o [(chars! "association", s (chars! "vertex")), (chars! "topology", s (chars! "t")),
      (chars! "values", .flts false [50, 51, 52, 53, 54, 55, 56])]),
    (chars! "e", o [(chars! "association", s (chars! "element")), (chars! "topology", s (chars! "t")),
      (chars! "values", o [(chars! "u", .ints int8 [7, 8, 9, 10]), (chars! "v", .flts true [17, 18, 19, 20])])]),
    (chars! "other", o [(chars! "association", s (chars! "element")), (chars! "topology", s (chars! "w")),
      (chars! "values", i [1])])]

def cset : BNode Int := o [(chars! "type", s (chars! "explicit")),
  (chars! "values", o [(chars! "x", .flts true [0, 1, 2, 0, 1, 2, 9]), (chars! "y", .flts false [0, 0, 0, 1, 1, 1, 9])])]

def els : List (List Nat) := [[0, 1, 4], [0, 4, 3], [1, 2, 5, 4], [6, 6, 6]]

/-- Polygons; those in the arrays are not in order. -/
def topo : BNode Int := o [(chars! "type", s (chars! "unstructured")), (chars! "coordset", s (chars! "c")),
  (chars! "elements", o [(chars! "shape", s (chars! "polygonal")), (chars! "connectivity", .ints int32 [1, 2, 5, 4, 0, 1, 4, 0, 4, 3, 6, 6, 6]),
    (chars! "sizes", .ints int32 [3, 3, 4, 3]), (chars! "offsets", .ints int32 [4, 7, 0, 10])])]

def mesh : BNode Int := o [(chars! "state", o [(chars! "cycle", i [12])]), (chars! "coordsets", o [(chars! "c", cset)]),
  (chars! "topologies", o [(chars! "t", topo)]), (chars! "fields", o fields)]

def opts : Opts := ⟨[], true, chars! "original_vertex_ids", chars! "original_element_ids"⟩

def sel (k : Kind) : Sel := { whole := none, domain := 3, topology := chars! "t", any := false, kind := k }

theorem topo_elems : Elems A topo cset (chars! "polygonal") els := by
  refine .inl ⟨rfl, .inr ⟨rfl, ⟨_, rfl, rfl⟩, ⟨int32, _, int32, _, int32, _, _, rfl, rfl, rfl, rfl, rfl, rfl, ?_⟩, by decide⟩⟩
  intro c el hc
  have hlt := (List.getElem?_eq_some_iff.1 hc).1
  change c < 4 at hlt
  rcases (by omega : c = 0 ∨ c = 1 ∨ c = 2 ∨ c = 3) with rfl | rfl | rfl | rfl <;> cases hc <;> refine ⟨rfl, by decide, by decide, ?_⟩
  · refine ⟨4, rfl, by decide, by decide, fun j p hp => ?_⟩
    have := (List.getElem?_eq_some_iff.1 hp).1
    change j < 3 at this
    rcases (by omega : j = 0 ∨ j = 1 ∨ j = 2) with rfl | rfl | rfl <;> cases hp <;> exact ⟨rfl, by decide, by decide⟩
  · refine ⟨7, rfl, by decide, by decide, fun j p hp => ?_⟩
    have := (List.getElem?_eq_some_iff.1 hp).1
    change j < 3 at this
    rcases (by omega : j = 0 ∨ j = 1 ∨ j = 2) with rfl | rfl | rfl <;> cases hp <;> exact ⟨rfl, by decide, by decide⟩
  · refine ⟨0, rfl, by decide, by decide, fun j p hp => ?_⟩
    have := (List.getElem?_eq_some_iff.1 hp).1
    change j < 4 at this
    rcases (by omega : j = 0 ∨ j = 1 ∨ j = 2 ∨ j = 3) with rfl | rfl | rfl | rfl <;> cases hp <;> exact ⟨rfl, by decide, by decide⟩
  · refine ⟨10, rfl, by decide, by decide, fun j p hp => ?_⟩
    have := (List.getElem?_eq_some_iff.1 hp).1
    change j < 3 at this
    rcases (by omega : j = 0 ∨ j = 1 ∨ j = 2) with rfl | rfl | rfl <;> cases hp <;> exact ⟨rfl, by decide, by decide⟩

theorem cset_coords : Coords A cset [chars! "x", chars! "y"] 7 := by
  refine .explicit _ _ _ ⟨rfl, ⟨_, .head _, fun a => a != chars! "z", by decide⟩, ⟨_, rfl, fun k => by simp [BNode.kids, o]⟩⟩ (by simp) rfl ?_
  intro a ha
  rcases List.mem_cons.1 ha with rfl | ha
  · exact ⟨_, rfl, .inr ⟨_, _, rfl, by decide⟩⟩
  · rw [List.mem_singleton.1 ha]
    exact ⟨_, rfl, .inr ⟨_, _, rfl, by decide⟩⟩

theorem fields_good : GoodFields opts (chars! "t") 4 7 fields := by
  refine ⟨by decide, ?_, fun _ => by decide⟩
  intro f hf
  simp only [fields, List.mem_cons, List.not_mem_nil, or_false] at hf
  rcases hf with rfl | rfl | rfl
  · exact ⟨_, _, _, ⟨rfl, rfl, rfl⟩, fun _ => .inl (.inr ⟨_, _, rfl, by decide⟩)⟩
  · refine ⟨_, _, _, ⟨rfl, rfl, rfl⟩, fun _ => .inr ⟨_, _, rfl, fun c hc => ?_⟩⟩
    rcases List.mem_cons.1 hc with rfl | hc
    · exact .inl ⟨_, _, rfl, by decide⟩
    · rw [List.mem_singleton.1 hc]
      exact .inr ⟨_, _, rfl, by decide⟩
  · exact ⟨_, _, _, ⟨rfl, rfl, rfl⟩, fun h => absurd h (by decide)⟩

theorem domain (k : Kind) : Domain (sel k) mesh (chars! "t") topo (chars! "c") cset :=
  ⟨rfl, by decide, rfl, ⟨_, rfl, rfl⟩⟩

/-- The hypotheses of C93 are met: polygons 2 and 0. -/
example := C93_extract_partial A opts (sel (.explicit [2, 0])) mesh topo cset (o fields) (chars! "t") (chars! "c")
  (chars! "polygonal") [chars! "x", chars! "y"] 7 els [2, 0] (domain _) (fun _ _ h => by cases h) (by decide +kernel) (by decide) (by decide)
  topo_elems cset_coords (by decide) (by decide) (by decide) rfl fields_good

/-- Leaves of the result. -/
def leaf (r : Res (Option (BNode Int × List Int))) (path : List Str) : Option (Option IntTy × List Int) :=
  match r with
  | .ok (some (m, _)) =>
    match path.foldlM (fun (n : BNode Int) a => n.get a) m with
    | .ok (.ints t l) => some (some t, l)
    | .ok (.flts _ l) => some (none, l)
    | _ => none
  | _ => none

def points (r : Res (Option (BNode Int × List Int))) : Option (List Int) :=
  match r with
  | .ok (some (_, l)) => some l
  | _ => none

def names (r : Res (Option (BNode Int × List Int))) : Option (List Str) :=
  match r with
  | .ok (some (m, _)) => some ((m.getOrEmpty (chars! "fields")).kids.map (·.1))
  | _ => none

/-- What comes out. -/
example : let r := extract A opts (sel (.explicit [2, 0])) mesh
    points r = some [0, 1, 2, 4, 5] ∧
    leaf r [chars! "topologies", chars! "t", chars! "elements", chars! "connectivity"] = some (some int64, [1, 2, 4, 3, 0, 1, 3]) ∧
    leaf r [chars! "topologies", chars! "t", chars! "elements", chars! "sizes"] = some (some int64, [4, 3]) ∧
    leaf r [chars! "topologies", chars! "t", chars! "elements", chars! "offsets"] = some (some int64, [0, 4]) ∧
    leaf r [chars! "coordsets", chars! "c", chars! "values", chars! "x"] = some (none, [0, 1, 2, 1, 2]) ∧
    leaf r [chars! "fields", chars! "p", chars! "values"] = some (none, [50, 51, 52, 54, 55]) ∧
    leaf r [chars! "fields", chars! "e", chars! "values", chars! "u"] = some (some int8, [9, 7]) ∧
    leaf r [chars! "fields", chars! "original_element_ids", chars! "values", chars! "ids"] = some (some int64, [2, 0]) ∧
    leaf r [chars! "fields", chars! "original_element_ids", chars! "values", chars! "domains"] = some (some int64, [3, 3]) ∧
    leaf r [chars! "state", chars! "cycle"] = some (some int64, [12]) ∧
    names r = some [chars! "p", chars! "original_vertex_ids", chars! "e", chars! "original_element_ids"] := by
  decide +kernel

/-! ### a grid -/

/-- 3 by 2 points from (-5, 10). -/
def grid : List (Axis Int) := [⟨chars! "x", 3, fun d => -5 + d * 2⟩, ⟨chars! "y", 2, fun d => 10 + d * 7⟩]

def gcset : BNode Int := o [(chars! "type", s (chars! "uniform")), (chars! "dims", o [(chars! "i", i [3]), (chars! "j", i [2])]),
  (chars! "origin", o [(chars! "x", .flts true [-5]), (chars! "y", .flts true [10])]),
  (chars! "spacing", o [(chars! "dx", .flts true [2]), (chars! "dy", .flts true [7])])]

theorem gcset_uniform : Uniform A gcset grid where
  type := rfl
  system := ⟨_, .head _, fun a => a != chars! "z", by decide⟩
  named := .inl ⟨rfl, ⟨_, rfl, fun k => by simp [BNode.kids, grid, o]⟩⟩
  noValues := rfl
  axis := by
    intro i a ha
    rcases i with _ | _ | i
    · cases ha
      exact ⟨⟨_, ⟨_, rfl, rfl⟩, rfl⟩, -5, 2, ⟨_, ⟨_, rfl, rfl⟩, rfl⟩, ⟨_, ⟨_, rfl, rfl⟩, rfl⟩, fun d => rfl⟩
    · cases ha
      exact ⟨⟨_, ⟨_, rfl, rfl⟩, rfl⟩, 10, 7, ⟨_, ⟨_, rfl, rfl⟩, rfl⟩, ⟨_, ⟨_, rfl, rfl⟩, rfl⟩, fun d => rfl⟩
    · simp [grid] at ha

def gtopo : BNode Int := o [(chars! "type", s (chars! "uniform")), (chars! "coordset", s (chars! "c"))]

def gmesh : BNode Int := o [(chars! "coordsets", o [(chars! "c", gcset)]), (chars! "topologies", o [(chars! "t", gtopo)]), (chars! "fields", o
  [(chars! "e", o [(chars! "association", s (chars! "element")), (chars! "topology", s (chars! "t")), (chars! "values", i [7, 8])])])]

theorem gtopo_elems : Elems A gtopo gcset (chars! "quad") [[0, 1, 4, 3], [1, 2, 5, 4]] := by
  refine .inr ⟨[2, 1], .uniform grid rfl gcset_uniform (by decide), .inl rfl, by decide, rfl, ⟨rfl, ?_⟩, by decide +kernel⟩
  intro x hx
  rcases x with _ | ⟨x, _ | ⟨y, _ | ⟨_, _⟩⟩⟩ <;> simp [InGrid] at hx
  obtain ⟨h1, rfl⟩ := hx
  rcases (by omega : x = 0 ∨ x = 1) with rfl | rfl <;> rfl

/-- The hypotheses of C93 are met: the second of two quads of a uniform grid. -/
example := C93_extract_partial A ⟨[], false, [], []⟩ (sel (.ranges [(1, 1)])) gmesh gtopo gcset _ (chars! "t") (chars! "c")
  (chars! "quad") [chars! "x", chars! "y"] 6 [[0, 1, 4, 3], [1, 2, 5, 4]] [1] ⟨rfl, by decide, rfl, ⟨_, rfl, rfl⟩⟩ (fun _ _ h => by cases h)
  (by decide +kernel) (by decide) (by decide) gtopo_elems (.uniform grid (by decide) gcset_uniform) (by decide) (by decide) (by decide) rfl
  ⟨by decide, (fun f hf => by
    rw [List.mem_singleton.1 hf]
    exact ⟨_, _, _, ⟨rfl, rfl, rfl⟩, fun _ => .inl (.inl ⟨_, _, rfl, by decide⟩)⟩), (fun h => by cases h)⟩

example : let r := extract A ⟨[], false, [], []⟩ (sel (.ranges [(1, 1)])) gmesh
    points r = some [1, 2, 4, 5] ∧
    leaf r [chars! "coordsets", chars! "c", chars! "values", chars! "x"] = some (none, [-3, -1, -3, -1]) ∧
    leaf r [chars! "topologies", chars! "t", chars! "elements", chars! "connectivity"] = some (some int64, [0, 1, 3, 2]) := by
  decide +kernel

/-! ### where it fails -/

/-- A line of three points. -/
def line : BNode Int := o [(chars! "coordsets", o [(chars! "c", o [(chars! "type", s (chars! "uniform")), (chars! "dims", o [(chars! "i", i [3])])])]),
  (chars! "topologies", o [(chars! "t", gtopo)])]

/-- **C93** fails for grids of one dimension: the code goes through the corners of a hexahedron and reads points beyond the last. -/
theorem C93_line_false : (do length A line gtopo) = .ok 2 ∧
    (match extract A opts (sel (.explicit [1])) line with | .ub => true | _ => false) = true := by
  decide +kernel

/-- The polygons of `mesh`, without offsets. -/
def bare : BNode Int := o [(chars! "coordsets", o [(chars! "c", cset)]), (chars! "topologies", o [(chars! "t",
  o [(chars! "type", s (chars! "unstructured")), (chars! "coordset", s (chars! "c")),
    (chars! "elements", o [(chars! "shape", s (chars! "polygonal")), (chars! "connectivity", .ints int32 [1, 2, 5, 4, 0, 1, 4]),
      (chars! "sizes", .ints int32 [4, 3])])])])]

/-- **C93** fails for polygons without offsets, which the blueprint lets one leave out: those made are of another type than the one
    asked for.  The extraction gives a null pointer. -/
theorem C93_no_offsets_false :
    (match extract A opts (sel (.explicit [0])) bare with | .ok none => true | _ => false) = true := by
  decide +kernel

/-- A field that has only values for materials. -/
def material : BNode Int := o [(chars! "coordsets", o [(chars! "c", cset)]), (chars! "topologies", o [(chars! "t", topo)]),
  (chars! "fields", o [(chars! "m", o [(chars! "association", s (chars! "element")), (chars! "topology", s (chars! "t")),
    (chars! "matset", s (chars! "ms")), (chars! "matset_values", o [])])])]

/-- **C93** fails for a mesh with a field that has only values for materials, which the blueprint lets one have. -/
theorem C93_material_field_false :
    (match extract A opts (sel (.explicit [0])) material with | .ok none => true | _ => false) = true := by
  decide +kernel

/-- **C93**: without the child "fields" the mapping is not written. -/
theorem C93_no_fields_no_mapping :
    names (extract A opts (sel (.explicit [2, 0])) (o [(chars! "coordsets", o [(chars! "c", cset)]), (chars! "topologies", o [(chars! "t", topo)])])) =
      some [] := by
  decide +kernel

/-- **C93**: a negative element number is not left out (only those too large are): it is read from before the arrays. -/
theorem C93_negative_false :
    (match extract A opts (sel (.explicit [-1])) mesh with | .ub => true | _ => false) = true := by
  decide +kernel

end XCase
end Conduit.Part
