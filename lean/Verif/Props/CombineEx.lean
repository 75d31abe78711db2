import Verif.Props.Combine
import Verif.Props.PointMergeEx
/-
C96: cases.
-/
namespace Conduit.Comb.Case
open Conduit.Mesh Conduit.Part Conduit.Merge Conduit.Merge.Case Conduit.Comb

def field (assoc topo : Str) (v : BNode Int) : BNode Int :=
  .obj [(chars! "association", .str assoc), (chars! "topology", .str topo), (chars! "values", v)]

def topology (els : BNode Int) : BNode Int :=
  .obj [(chars! "type", .str (chars! "unstructured")), (chars! "coordset", .str (chars! "c")), (chars! "elements", els)]

def elems (shape : Str) (conn : List Int) : BNode Int := .obj [(chars! "shape", .str shape), (chars! "connectivity", .ints int32 conn)]

/-- A mesh with a state, one coordset, one topology and fields. -/
def mesh (dom : Int) (c t : BNode Int) (fs : List (Str × BNode Int)) : BNode Int :=
  .obj [(chars! "state", .obj [(chars! "cycle", .ints int32 [5]), (chars! "domain_id", .ints int32 [dom])]),
    (chars! "coordsets", .obj [(chars! "c", c)]), (chars! "topologies", .obj [(chars! "t", t)]), (chars! "fields", .obj fs)]

def op : Opts := ⟨[], true, chars! "original_vertex_ids", chars! "original_element_ids"⟩

def none' : Str → Str → List (BNode Int) → Res (Option (BNode Int × BNode Int)) := fun _ _ _ => .ok none

def fsA : List (Str × BNode Int) :=
  [(chars! "e", field (chars! "element") (chars! "t") (.ints int32 [10])),
    (chars! "v", field (chars! "vertex") (chars! "t") (.obj [(chars! "a", .flts true [1, 2, 3, 4]), (chars! "b", .ints int64 [5, 6, 7, 8])]))]

def fsB : List (Str × BNode Int) :=
  [(chars! "v", field (chars! "vertex") (chars! "t") (.obj [(chars! "a", .flts true [11, 12, 13, 14]), (chars! "b", .ints int64 [15, 16, 17, 18])])),
    (chars! "e", field (chars! "element") (chars! "t") (.ints int32 [20, 30])),
    (chars! "only", field (chars! "element") (chars! "t") (.ints int32 [1, 2]))]

/-- A square, and two triangles beside it. -/
def chA : Chunk Int :=
  ⟨mesh 3 square.cset (topology (elems (chars! "quad") [0, 1, 2, 3])) fsA, topology (elems (chars! "quad") [0, 1, 2, 3]), square.cset, fsA,
    chars! "quad", [[0, 1, 2, 3]], 2, square.pts⟩

def chB : Chunk Int :=
  ⟨mesh 7 square'.cset (topology (elems (chars! "tri") [2, 3, 0, 2, 0, 1])) fsB, topology (elems (chars! "tri") [2, 3, 0, 2, 0, 1]), square'.cset, fsB,
    chars! "tri", [[2, 3, 0], [2, 0, 1]], 2, square'.pts⟩

/-- The triangles as polygons. -/
def polyElems (conn sizes offs : List Int) : BNode Int :=
  .obj [(chars! "shape", .str (chars! "polygonal")), (chars! "connectivity", .ints int32 conn), (chars! "sizes", .ints int32 sizes),
    (chars! "offsets", .ints int32 offs)]

def chP : Chunk Int :=
  ⟨mesh 7 square'.cset (topology (polyElems [2, 3, 0, 2, 0, 1] [3, 3] [0, 3])) fsB, topology (polyElems [2, 3, 0, 2, 0, 1] [3, 3] [0, 3]), square'.cset, fsB,
    chars! "polygonal", [[2, 3, 0], [2, 0, 1]], 2, square'.pts⟩

theorem field_alike {a t : Str} {v w : BNode Int} (h : Alike v w) (b c u u' : Str) (x y : BNode Int) (h1 : FieldOf (field a t v) b u x)
    (h2 : FieldOf (field a t w) c u' y) : b = c ∧ Alike x y := by
  obtain ⟨e1, _, e2⟩ := h1
  obtain ⟨e3, _, e4⟩ := h2
  cases e1; cases e2; cases e3; cases e4
  exact ⟨rfl, h⟩

theorem alike_e (l m : List Int) : Alike (.ints int32 l : BNode Int) (.ints int32 m) := .inl (.inl ⟨_, l, m, rfl, rfl⟩)

theorem alike_v (a b a' b' : List Int) : Alike (.obj [(chars! "a", .flts true a), (chars! "b", .ints int64 b)] : BNode Int)
    (.obj [(chars! "a", .flts true a'), (chars! "b", .ints int64 b')]) :=
  .inr ⟨_, _, _, rfl, rfl, .cons ⟨rfl, .inr ⟨_, _, _, rfl, rfl⟩⟩ (.cons ⟨rfl, .inl ⟨_, _, _, rfl, rfl⟩⟩ .nil)⟩

theorem alike_of (cs : List (Chunk Int)) (h : ∀ c ∈ cs, c.fields = fsA ∨ c.fields = fsB) : FieldsAlike cs := by
  intro c hc d hd f hf g hg hn a b t u v w h1 h2
  have key : ∀ f ∈ fsA ++ fsB, ∀ g ∈ fsA ++ fsB, f.1 = g.1 → ∀ a b t u v w, FieldOf f.2 a t v → FieldOf g.2 b u w → a = b ∧ Alike v w := by
    intro f hf g hg hn a b t u v w h1 h2
    simp only [fsA, fsB, List.cons_append, List.nil_append, List.mem_cons, List.not_mem_nil, or_false] at hf hg
    rcases hf with rfl | rfl | rfl | rfl | rfl <;> rcases hg with rfl | rfl | rfl | rfl | rfl <;>
      first
      | exact absurd hn (by decide)
      | exact field_alike (alike_e _ _) _ _ _ _ _ _ h1 h2
      | exact field_alike (alike_v _ _ _ _) _ _ _ _ _ _ h1 h2
  have mem : ∀ c ∈ cs, ∀ f ∈ c.fields, f ∈ fsA ++ fsB := by
    intro c hc f hf
    rcases h c hc with e | e
    · rw [e] at hf; exact List.mem_append_left _ hf
    · rw [e] at hf; exact List.mem_append_right _ hf
  exact key f (mem c hc f hf) g (mem d hd g hg) hn a b t u v w h1 h2

theorem good_field (c : Chunk Int) (h : c.pts.length = 4) (fs : List (Str × BNode Int))
    (hc : (fs = fsA ∧ c.els.length = 1) ∨ (fs = fsB ∧ c.els.length = 2)) :
    ∀ f ∈ fs, ∃ a v, FieldOf f.2 a (chars! "t") v ∧ (a = chars! "vertex" ∨ a = chars! "element") ∧ Table v (c.count a) := by
  have he : c.count (chars! "element") = c.els.length := rfl
  have hv : c.count (chars! "vertex") = 4 := h
  intro f hf
  rcases hc with ⟨rfl, hl⟩ | ⟨rfl, hl⟩
  · simp only [fsA, List.mem_cons, List.not_mem_nil, or_false] at hf
    rcases hf with rfl | rfl
    · exact ⟨_, _, ⟨rfl, rfl, rfl⟩, .inr rfl, by rw [he, hl]; exact .inl (.inl ⟨_, _, rfl, by decide⟩)⟩
    · refine ⟨_, _, ⟨rfl, rfl, rfl⟩, .inl rfl, .inr ⟨_, _, rfl, ?_⟩⟩
      rw [hv]
      intro k hk
      simp only [List.mem_cons, List.not_mem_nil, or_false] at hk
      rcases hk with rfl | rfl
      · exact .inr ⟨_, _, rfl, by decide⟩
      · exact .inl ⟨_, _, rfl, by decide⟩
  · simp only [fsB, List.mem_cons, List.not_mem_nil, or_false] at hf
    rcases hf with rfl | rfl | rfl
    · refine ⟨_, _, ⟨rfl, rfl, rfl⟩, .inl rfl, .inr ⟨_, _, rfl, ?_⟩⟩
      rw [hv]
      intro k hk
      simp only [List.mem_cons, List.not_mem_nil, or_false] at hk
      rcases hk with rfl | rfl
      · exact .inr ⟨_, _, rfl, by decide⟩
      · exact .inl ⟨_, _, rfl, by decide⟩
    · exact ⟨_, _, ⟨rfl, rfl, rfl⟩, .inr rfl, by rw [he, hl]; exact .inl (.inl ⟨_, _, rfl, by decide⟩)⟩
    · exact ⟨_, _, ⟨rfl, rfl, rfl⟩, .inr rfl, by rw [he, hl]; exact .inl (.inl ⟨_, _, rfl, by decide⟩)⟩

theorem goodA : Good o (chars! "t") (chars! "c") chA where
  topologies := rfl
  coordsets := rfl
  type := rfl
  coordset := rfl
  points := square_cart
  elements := by decide
  fields := rfl
  names := by decide
  good := good_field chA rfl fsA (.inl ⟨rfl, rfl⟩)

theorem goodB : Good o (chars! "t") (chars! "c") chB where
  topologies := rfl
  coordsets := rfl
  type := rfl
  coordset := rfl
  points := square'_cart
  elements := by decide
  fields := rfl
  names := by decide
  good := good_field chB rfl fsB (.inr ⟨rfl, rfl⟩)

theorem goodP : Good o (chars! "t") (chars! "c") chP where
  topologies := rfl
  coordsets := rfl
  type := rfl
  coordset := rfl
  points := square'_cart
  elements := by decide
  fields := rfl
  names := by decide
  good := good_field chP rfl fsB (.inr ⟨rfl, rfl⟩)

theorem fixedA : Fixed chA.topo chA.shape chA.els := ⟨_, 4, _, rfl, rfl, by decide, rfl, by decide⟩
theorem fixedB : Fixed chB.topo chB.shape chB.els := ⟨_, 3, _, rfl, rfl, by decide, rfl, by decide⟩
theorem packedP : Packed chP.topo chP.els := ⟨_, _, _, rfl, rfl, rfl, rfl, by decide⟩

theorem two {P : Chunk Int → Prop} {a b : Chunk Int} (ha : P a) (hb : P b) : ∀ c ∈ [a, b], P c := by
  intro c hc
  simp only [List.mem_cons, List.not_mem_nil, or_false] at hc
  rcases hc with rfl | rfl
  · exact ha
  · exact hb

theorem numbered_mesh (c t : BNode Int) (fs : List (Str × BNode Int)) (d : Int) (st n : BNode Int)
    (h1 : (mesh d c t fs).get (chars! "state") = .ok st) (h2 : st.get (chars! "domain_id") = .ok n) : ∃ d, n.toInt64 o.arith = .ok d := by
  cases h1; cases h2; exact ⟨_, rfl⟩

/-- The cases meet the hypotheses. -/
example := C96_fixed o 1 op none' 9 (chars! "t") (chars! "c") [chA, chB] (by decide) (two goodA goodB)
  (alike_of _ (two (.inl rfl) (.inr rfl))) (two (numbered_mesh _ _ _ _) (numbered_mesh _ _ _ _)) (two fixedA fixedB)
example := C96_polygons o 1 op none' 9 (chars! "t") (chars! "c") [chA, chP] (by decide) (two goodA goodP)
  (alike_of _ (two (.inl rfl) (.inr rfl))) (two (numbered_mesh _ _ _ _) (numbered_mesh _ _ _ _))
  (two (.inl ⟨fixedA, by decide⟩) (.inr packedP)) ⟨chP, by simp, packedP⟩
example := C96_shared o 1 op none' 9 (chars! "t") (chars! "c") [chA, chB] ordered (tolerance 1 (by decide)) squares_separated (by decide)
  (two goodA goodB) (alike_of _ (two (.inl rfl) (.inr rfl))) (two (numbered_mesh _ _ _ _) (numbered_mesh _ _ _ _)) false
  (.inl ⟨rfl, two fixedA fixedB⟩)

/-- The array at a path. -/
def at' (r : Res (BNode Int)) (path : List Str) : Option (List Int) :=
  match path.foldlM (fun (n : BNode Int) k => n.get k) (match r with | .ok n => n | _ => .empty) with
  | .ok (.ints _ l) => some l
  | .ok (.flts _ l) => some l
  | _ => none

def both : Res (BNode Int) := combine o 1 op none' 9 [chA.mesh, chB.mesh]

/-- What comes out: two points are in both chunks and have the values of the second one. -/
example : at' both [chars! "topologies", chars! "t", chars! "elements", chars! "tris", chars! "connectivity"] = some [1, 5, 4, 1, 4, 2] := by decide +kernel
example : at' both [chars! "fields", chars! "e", chars! "values"] = some [10, 20, 30] := by decide +kernel
example : at' both [chars! "fields", chars! "v", chars! "values", chars! "a"] = some [1, 13, 12, 4, 11, 14] := by decide +kernel
example : at' both [chars! "fields", chars! "original_element_ids", chars! "values", chars! "domains"] = some [3, 7, 7] := by decide +kernel
example : at' both [chars! "fields", chars! "original_vertex_ids", chars! "values", chars! "ids"] = some [0, 2, 1, 3, 0, 3] := by decide +kernel

/-- A field that is not on all chunks is not in the result, and nothing is said. -/
example : at' both [chars! "fields", chars! "only", chars! "values"] = none := by decide +kernel

/-- Why the components have to be in the same order: they are taken by their place.  The values of `b` become those of `a`. -/
def swapped : BNode Int := mesh 7 square'.cset (topology (elems (chars! "tri") [2, 3, 0, 2, 0, 1]))
  [(chars! "v", field (chars! "vertex") (chars! "t") (.obj [(chars! "b", .flts true [15, 16, 17, 18]), (chars! "a", .flts true [11, 12, 13, 14])]))]
def plain : BNode Int := mesh 3 square.cset (topology (elems (chars! "quad") [0, 1, 2, 3]))
  [(chars! "v", field (chars! "vertex") (chars! "t") (.obj [(chars! "a", .flts true [1, 2, 3, 4]), (chars! "b", .flts true [5, 6, 7, 8])]))]

theorem C96_order : at' (combine o 1 op none' 9 [plain, swapped]) [chars! "fields", chars! "v", chars! "values", chars! "a"]
    = some [1, 17, 16, 4, 15, 18] := by decide +kernel

/-- Why the values have to be of one type: the bytes of one type are taken for those of another. -/
def other : BNode Int := mesh 7 square'.cset (topology (elems (chars! "tri") [2, 3, 0, 2, 0, 1]))
  [(chars! "e", field (chars! "element") (chars! "t") (.flts true [20, 30]))]

theorem C96_type : (match combine o 1 op none' 9 [chA.mesh, other] with | .ub => true | _ => false) = true := by decide +kernel

/-- Why the points of the polygons have to come one after the other: the offsets are not looked at.  The second triangle, which begins at
    the fourth place, gets other corners. -/
def gapped : BNode Int := mesh 7 square'.cset (topology (polyElems [2, 3, 0, 3, 2, 0, 1] [3, 3] [0, 4])) fsB
def packed : BNode Int := mesh 7 square'.cset (topology (polyElems [2, 3, 0, 2, 0, 1] [3, 3] [0, 3])) fsB

theorem C96_offsets : at' (combine o 1 op none' 9 [chA.mesh, gapped]) [chars! "topologies", chars! "t", chars! "elements", chars! "connectivity"]
      = some [0, 1, 2, 3, 1, 5, 4, 5, 1, 4] ∧
    at' (combine o 1 op none' 9 [chA.mesh, packed]) [chars! "topologies", chars! "t", chars! "elements", chars! "connectivity"]
      = some [0, 1, 2, 3, 1, 5, 4, 1, 4, 2] := by decide +kernel

/-- Why all fields have to be on the one topology: with another topology, and a field on it, nothing comes out. -/
def second (m : BNode Int) : BNode Int :=
  (m.setChild (chars! "topologies") (.obj [(chars! "t", topology (elems (chars! "quad") [0, 1, 2, 3])), (chars! "s", topology (elems (chars! "line") [0, 1]))])).setChild
    (chars! "fields") (.obj [(chars! "w", field (chars! "element") (chars! "s") (.ints int32 [1]))])

theorem C96_second : (match combine o 1 op none' 9 [second chA.mesh, chB.mesh] with | .error => true | _ => false) = true := by decide +kernel

/-- Why the chunks have to be unstructured: the elements of a topology of points are lost. -/
def pointsMesh : BNode Int := mesh 7 square'.cset
  (.obj [(chars! "type", .str (chars! "points")), (chars! "coordset", .str (chars! "c"))]) []

theorem C96_points : at' (combine o 1 op none' 9 [chA.mesh, pointsMesh]) [chars! "topologies", chars! "t", chars! "elements", chars! "connectivity"]
    = some [0, 1, 2, 3] := by decide +kernel

end Conduit.Comb.Case
