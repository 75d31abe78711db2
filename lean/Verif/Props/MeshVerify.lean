import Verif.Lemmas.MeshVerify6
import Verif.Props.MeshPoints
/-
C84: `blueprint::mesh::verify` and the verify functions of the parts of a mesh.
-/
namespace Conduit.Mesh
open Log (Info)
variable {F : Type}

theorem Marked.is {t : Info} {b : Bool} {φ : Prop} (h : Marked t b) (e : b = true ↔ φ) : VerdictIs t φ := by
  cases b with
  | true => exact .inl ⟨h, e.1 rfl⟩
  | false => exact .inr ⟨h, fun x => absurd (e.2 x) (by simp)⟩

theorem Known.reports {t : Info} {n : BNode F} {coll : Str} {good : BNode F → Prop} (h : Known n coll good t) :
    Reports t n coll good := by
  intro name c hc
  obtain ⟨b, hm, hb⟩ := h _ (entry_mem hc)
  have hm' := hm
  unfold ent Marked at hm
  cases h1 : t.child? coll with
  | none => rw [h1] at hm; simp [Log.Info.child?] at hm
  | some s =>
    rw [h1, Option.getD_some] at hm
    cases h2 : s.child? name with
    | none => rw [h2] at hm; simp [Log.Info.child?] at hm
    | some r =>
      rw [h2, Option.getD_some] at hm
      exact ⟨s, r, rfl, h2, Marked.is (b := b) hm hb⟩

theorem Reported.domain {t : Info} {n : BNode F} (h : Reported n t) (hs : VerdictIs t (IsDomain n)) : ReportsDomain t n :=
  ⟨hs, h.coordsets.reports, h.topologies.reports, h.matsets.reports, h.specsets.reports, h.fields.reports,
    h.adjsets.reports, h.nestsets.reports⟩

/-- The answer of `mesh::verify` is that the mesh conforms, and the report says the same.
    Not for all meshes: no node may have a child named `valid`. -/
theorem C84_verdict_partial (A : Arith F) (n : BNode F) (t0 t : Info) (b : Bool) (hp : Plain n)
    (h : meshVerify A n t0 = .ok (b, t)) : (b = true ↔ IsMesh n) ∧ VerdictIs t (IsMesh n) := by
  obtain ⟨h1, h2, -⟩ := (meshVerify_does (s := False) (P := fun _ => True) hp False.elim t0 trivial).1 b t h
  exact ⟨h1, h2.is h1⟩

/-- The report says of every coordset, topology, matset, specset, field, adjset and nestset whether it is sound and
    refers to sound entries; of the domains of a mesh of several, whether they conform.
    Not for all meshes: no node may have a child named `valid`, and the report on a domain named `info` is lost. -/
theorem C84_report_partial (A : Arith F) (n : BNode F) (t0 t : Info) (b : Bool) (hp : Plain n)
    (h : meshVerify A n t0 = .ok (b, t)) :
    (Has n (chars! "coordsets") → ReportsDomain t n) ∧
    (¬ Has n (chars! "coordsets") →
      (∀ ks, n = .obj ks → ∀ k ∈ ks, k.1 ≠ chars! "info" → ∃ r, t.child? k.1 = some r ∧ ReportsDomain r k.2) ∧
      (∀ ks, n = .list ks → ∀ (i : Nat) d, ks[i]? = some d →
        ∃ r, t.child? (toString i).toList = some r ∧ ReportsDomain r d)) := by
  obtain ⟨h1, h2, h3, h4⟩ := (meshVerify_does (s := False) (P := fun _ => True) hp False.elim t0 trivial).1 b t h
  have part : ∀ (k : Str × BNode F), Part k.2 ((t.child? k.1).getD .empty) →
      ∃ r, t.child? k.1 = some r ∧ ReportsDomain r k.2 := by
    rintro k ⟨⟨b, hm, hb⟩, hr⟩
    cases e : t.child? k.1 with
    | none => rw [e] at hm; simp [Marked, Log.Info.child?] at hm
    | some r =>
      rw [e, Option.getD_some] at hm hr
      exact ⟨r, rfl, hr.domain (hm.is hb)⟩
  refine ⟨fun x => (h3 x).domain (h2.is (h1.trans ?_)), fun x => ⟨?_, ?_⟩⟩
  · constructor
    · rintro (⟨-, y⟩ | ⟨y, -⟩)
      · exact y
      · exact absurd x y
    · exact fun y => .inl ⟨x, y⟩
  · rintro ks rfl k hk hne
    exact part k (h4 x k hk hne)
  · rintro ks rfl i d hd
    have hm : (decimal (i : Int), d) ∈ (BNode.list ks).items := by
      simp only [BNode.items, List.mem_map]
      refine ⟨(d, i), ?_, rfl⟩
      rw [List.mem_zipIdx_iff_getElem?]; exact hd
    refine part _ (h4 x _ hm ?_)
    intro e
    have e' : Nat.toDigits 10 i = chars! "info" := by
      have : decimal (i : Int) = Nat.toDigits 10 i := by
        show (String.ofList (Nat.toDigits 10 i)).toList = _
        simp
      rw [← this]; exact e
    have : 'i' ∈ Nat.toDigits 10 i := by rw [e']; decide
    exact absurd (Nat.isDigit_of_mem_toDigits (by decide) (by decide) this) (by decide)

/-- `mesh::verify` answers, whatever the mesh is.
    Not for all meshes: no node may have a child named `valid`, shape tables must be int32 and present where shapes are, the
    shape of faces must be a string, and the materials of a specset must have a species. -/
theorem C84_total_partial (A : Arith F) (n : BNode F) (t0 : Info) (hp : Plain n) (hs : MeshSafe n) :
    ∃ b t, meshVerify A n t0 = .ok (b, t) := by
  obtain ⟨b, t, h, -⟩ := (meshVerify_does (A := A) (s := MeshSafe n) (P := fun _ => True) hp id .empty trivial).2 hs trivial
  exact ⟨b, t, h⟩

/-- What the report held before makes no difference. -/
theorem C84_fresh (A : Arith F) (n : BNode F) (t0 t1 : Info) : meshVerify A n t0 = meshVerify A n t1 := rfl

theorem Verifies.result {act : V Bool} {φ : Prop} (h : Verifies act False φ) {t0 t : Info} {b : Bool}
    (e : act t0 = .ok (b, t)) : (b = true ↔ φ) ∧ VerdictIs t φ := by
  obtain ⟨h1, h2⟩ := (h t0 trivial).1 b t e
  exact ⟨h1, h2.is h1⟩

/-- The verify functions of the parts of a mesh.
    Not for all nodes: none may have a child named `valid`. -/
theorem C84_parts_partial (A : Arith F) (n : BNode F) (t0 t : Info) (b : Bool) (hp : Plain n) :
    (coordsetVerify n t0 = .ok (b, t) → (b = true ↔ IsCoordset n) ∧ VerdictIs t (IsCoordset n)) ∧
    (topologyVerify A n t0 = .ok (b, t) → (b = true ↔ IsTopology n) ∧ VerdictIs t (IsTopology n)) ∧
    (matsetVerify n t0 = .ok (b, t) → (b = true ↔ IsMatset n) ∧ VerdictIs t (IsMatset n)) ∧
    (specsetVerify n t0 = .ok (b, t) → (b = true ↔ IsSpecset n) ∧ VerdictIs t (IsSpecset n)) ∧
    (fieldVerify n t0 = .ok (b, t) → (b = true ↔ IsField n) ∧ VerdictIs t (IsField n)) ∧
    (adjsetVerify n t0 = .ok (b, t) → (b = true ↔ IsAdjset n) ∧ VerdictIs t (IsAdjset n)) ∧
    (nestsetVerify n t0 = .ok (b, t) → (b = true ↔ IsNestset n) ∧ VerdictIs t (IsNestset n)) :=
  ⟨coordset_verifies.result, (topology_verifies hp.elements False.elim).result, (matset_verifies hp).result,
    (specset_verifies hp False.elim).result, field_verifies.result, (adjset_verifies hp).result, (nestset_verifies hp).result⟩

/-- The verify functions of the parts of a mesh answer, on a fresh report.
    Not for all nodes, as for `C84_total_partial`. -/
theorem C84_parts_total_partial (A : Arith F) (n : BNode F) (hp : Plain n) :
    (∃ r, coordsetVerify n .empty = .ok r) ∧ (TopologySafe n → ∃ r, topologyVerify A n .empty = .ok r) ∧
    (∃ r, matsetVerify n .empty = .ok r) ∧ (SpecsetSafe n → ∃ r, specsetVerify n .empty = .ok r) ∧
    (∃ r, fieldVerify n .empty = .ok r) ∧ (∃ r, adjsetVerify n .empty = .ok r) ∧ ∃ r, nestsetVerify n .empty = .ok r := by
  have go : ∀ {act : V Bool} {s φ : Prop}, Verifies act s φ → s → ∃ r, act .empty = .ok r := fun h hs => by
    obtain ⟨b, t, e, -⟩ := (h .empty trivial).2 hs trivial
    exact ⟨_, e⟩
  exact ⟨go (s := True) coordset_verifies trivial, fun h => go (topology_verifies hp.elements id) h,
    go (s := True) (matset_verifies hp) trivial, fun h => go (specset_verifies hp id) h,
    go (s := True) field_verifies trivial, go (s := True) (adjset_verifies hp) trivial,
    go (s := True) (nestset_verifies hp) trivial⟩

/-! ### Examples -/

namespace VerifyEx
abbrev N := BNode Int
def str (s : Str) : N := .str s
def i64 (l : List Int) : N := .ints int64 l
def i32 (l : List Int) : N := .ints int32 l
def f64 (l : List Int) : N := .flts true l
/-- The entry at a path of the report. -/
def read : Info → List Str → Option Str
  | .str s, [] => some s
  | t, p :: ps => (t.child? p).bind fun c => read c ps
  | _, [] => none
/-- The answer, and the report at the paths. -/
def look (act : V Bool) (ps : List (List Str)) : Option (Bool × List (Option Str)) :=
  match act .empty with
  | .ok (b, t) => some (b, ps.map (read t))
  | _ => none

def yes : Option Str := some (chars! "true")
def no : Option Str := some (chars! "false")

def coords : N := .obj [(chars! "type", str (chars! "explicit")),
  (chars! "values", .obj [(chars! "x", f64 [0, 1, 0]), (chars! "y", f64 [0, 0, 1])])]
def tri (grid : List (Str × N)) : N := .obj ([(chars! "type", str (chars! "unstructured")), (chars! "coordset", str (chars! "c")),
  (chars! "elements", .obj [(chars! "shape", str (chars! "tri")), (chars! "connectivity", i64 [0, 1, 2])])] ++ grid)
def field (topo : Str) : N := .obj [(chars! "association", str (chars! "vertex")), (chars! "topology", str topo),
  (chars! "values", f64 [1, 2, 3])]
def mat : N := .obj [(chars! "topology", str (chars! "t")),
  (chars! "volume_fractions", .obj [(chars! "a", f64 [1])])]
def spec : N := .obj [(chars! "matset", str (chars! "m")),
  (chars! "matset_values", .obj [(chars! "a", .obj [(chars! "s", f64 [1])])])]
def adj : N := .obj [(chars! "topology", str (chars! "t")), (chars! "association", str (chars! "vertex")),
  (chars! "groups", .obj [(chars! "g", .obj [(chars! "neighbors", i64 [1]), (chars! "values", i64 [0])])])]
def nest : N := .obj [(chars! "topology", str (chars! "t")), (chars! "association", str (chars! "element")),
  (chars! "windows", .obj [(chars! "w", .obj [(chars! "domain_id", i64 [1]), (chars! "domain_type", str (chars! "parent")),
    (chars! "ratio", .obj [(chars! "i", i64 [2]), (chars! "j", i64 [2])])])])]
def mesh (grid fieldTopo : Str) : N := .obj [(chars! "coordsets", .obj [(chars! "c", coords)]),
  (chars! "topologies", .obj [(chars! "t", tri [(chars! "grid_function", str grid)])]),
  (chars! "matsets", .obj [(chars! "m", mat)]),
  (chars! "specsets", .obj [(chars! "s", spec)]),
  (chars! "fields", .obj [(chars! "f", field fieldTopo)]),
  (chars! "adjsets", .obj [(chars! "a", adj)]), (chars! "nestsets", .obj [(chars! "n", nest)])]
def good : N := mesh (chars! "f") (chars! "t")
def A : Arith Int := MeshEx.arith

theorem plain_mesh (g f : Str) : Plain (mesh g f) := by
  simp [mesh, tri, coords, field, mat, spec, adj, nest, str, i64, f64, Plain, Plain.plainO]

theorem safe_mesh (g f : Str) : MeshSafe (mesh g f) := by
  refine ⟨fun _ => ⟨?_, ?_⟩, fun h => absurd ⟨_, rfl⟩ h⟩
  · intro e he k hk
    obtain rfl : _ = e := Res.ok.inj (show Res.ok _ = Res.ok e from he)
    obtain rfl := List.mem_singleton.1 hk
    intro c hc
    obtain rfl : _ = c := Res.ok.inj (show Res.ok _ = Res.ok c from hc)
    refine ⟨fun h => absurd (Res.ok.inj (show Res.ok _ = Res.ok _ from h)) (by simp [str]), fun e he => ?_⟩
    exact absurd (show Res.error = Res.ok e from he) (by simp)
  · intro e he k hk
    obtain rfl : _ = e := Res.ok.inj (show Res.ok _ = Res.ok e from he)
    obtain rfl := List.mem_singleton.1 hk
    intro v hv k hk _
    obtain rfl : _ = v := Res.ok.inj (show Res.ok _ = Res.ok v from hv)
    obtain rfl := List.mem_singleton.1 hk
    simp [members]

end VerifyEx
open VerifyEx

/-- A mesh with one entry of each kind meets the hypotheses and is accepted. -/
example : Plain good ∧ MeshSafe good ∧ look (meshVerify VerifyEx.A good)
    [[chars! "valid"], [chars! "topologies", chars! "t", chars! "valid"], [chars! "nestsets", chars! "n", chars! "valid"]] =
    some (true, [yes, yes, yes]) := ⟨plain_mesh _ _, safe_mesh _ _, by decide +kernel⟩

/-- So does one whose field refers to a topology that is not there: the field and the mesh are rejected, and through the grid
    function the topology; the coordset is not. -/
example : Plain (mesh (chars! "f") (chars! "u")) ∧ MeshSafe (mesh (chars! "f") (chars! "u")) ∧
    look (meshVerify VerifyEx.A (mesh (chars! "f") (chars! "u")))
    [[chars! "valid"], [chars! "fields", chars! "f", chars! "valid"], [chars! "topologies", chars! "t", chars! "valid"],
     [chars! "coordsets", chars! "c", chars! "valid"]] = some (false, [no, no, no, yes]) :=
  ⟨plain_mesh _ _, safe_mesh _ _, by decide +kernel⟩

/-- Domains in a list. -/
example : look (meshVerify VerifyEx.A (.list [good, mesh (chars! "g") (chars! "t")]))
    [[chars! "valid"], [chars! "0", chars! "valid"], [chars! "1", chars! "valid"]] = some (false, [no, yes, no]) := by
  decide +kernel

/-! ### Where the claims fail -/

/-- A coordset named `valid`: the check raises an error. -/
theorem C84_named_valid_false :
    look (meshVerify VerifyEx.A (.obj [(chars! "coordsets", .obj [(chars! "valid", coords)]),
      (chars! "topologies", .obj [(chars! "t", tri [])])])) [] = none := by decide +kernel

def VerifyEx.mixed (m : List (Str × N)) (shapes : N) : N := .obj [(chars! "type", str (chars! "unstructured")),
  (chars! "coordset", str (chars! "c")),
  (chars! "elements", .obj ([(chars! "shape", str (chars! "mixed")), (chars! "connectivity", i32 [0, 1, 2]),
    (chars! "sizes", i32 [3]), (chars! "offsets", i32 [0]), (chars! "shapes", shapes)] ++ m))]

/-- The numbers of shapes as 64 bit integers: the check raises an error; as 32 bit integers it accepts the same mesh. -/
theorem C84_shape_map_false :
    look (topologyVerify VerifyEx.A (mixed [(chars! "shape_map", .obj [(chars! "tri", i32 [5])])] (i32 [5]))) [] = some (true, []) ∧
    look (topologyVerify VerifyEx.A (mixed [(chars! "shape_map", .obj [(chars! "tri", i64 [5])])] (i32 [5]))) [] = none ∧
    look (topologyVerify VerifyEx.A (mixed [] (i32 [5]))) [] = none ∧
    look (topologyVerify VerifyEx.A (mixed [(chars! "shape_map", .obj [(chars! "tri", i32 [5])])] (str (chars! "x")))) [] = none := by
  decide +kernel

/-- Faces whose shape is not a string. -/
theorem C84_faces_false :
    look (topologyVerify VerifyEx.A (.obj [(chars! "type", str (chars! "unstructured")), (chars! "coordset", str (chars! "c")),
      (chars! "elements", .obj [(chars! "shape", str (chars! "polyhedral")), (chars! "connectivity", i64 [0, 1, 2, 3]),
        (chars! "sizes", i64 [4]), (chars! "offsets", i64 [0])]),
      (chars! "subelements", .obj [(chars! "shape", i64 [1]), (chars! "connectivity", i64 [0])])])) [] = none := by decide +kernel

/-- A material without species: the check raises an error. -/
theorem C84_species_false :
    look (specsetVerify (.obj [(chars! "matset", str (chars! "m")),
      (chars! "matset_values", .obj [(chars! "a", (.obj [] : N))])])) [] = none := by decide +kernel

/-- A matset without a volume fraction is accepted, although the report calls its volume fractions invalid. -/
theorem C84_volume_fractions_false :
    look (matsetVerify (.obj [(chars! "topology", str (chars! "t")), (chars! "volume_fractions", (.obj [] : N))]))
      [[chars! "valid"], [chars! "volume_fractions", chars! "valid"]] = some (true, [yes, no]) := by decide +kernel

def VerifyEx.dims (l : List Str) : N := .obj (l.map fun s => (s, i64 [1]))
def VerifyEx.window (o d r : List Str) : N := .obj [(chars! "topology", str (chars! "t")), (chars! "association", str (chars! "element")),
  (chars! "groups", .obj [(chars! "g", .obj [(chars! "neighbors", i64 [1]), (chars! "windows", .obj [(chars! "w",
    .obj [(chars! "origin", dims o), (chars! "dims", dims d), (chars! "ratio", dims r)])])])])]

/-- Windows of an adjset: dimensions that differ are accepted; for a window that is not sound the adjset is rejected, but the
    report calls its group valid. -/
theorem C84_windows_false :
    look (adjsetVerify (window [chars! "i", chars! "j"] [chars! "i"] [chars! "i", chars! "j", chars! "k"])) [] = some (true, []) ∧
    look (adjsetVerify (window [chars! "j"] [chars! "i"] [chars! "i"]))
      [[chars! "valid"], [chars! "groups", chars! "valid"], [chars! "groups", chars! "g", chars! "valid"],
       [chars! "groups", chars! "g", chars! "windows", chars! "valid"]] = some (false, [no, yes, yes, no]) := by
  decide +kernel

/-- An adjset group without values and windows, an explicit coordset without an axis, and a uniform one whose origin is a
    number are accepted. -/
theorem C84_lenient_false :
    look (adjsetVerify (.obj [(chars! "topology", str (chars! "t")), (chars! "association", str (chars! "vertex")),
      (chars! "groups", .obj [(chars! "g", .obj [(chars! "neighbors", i64 [1])])])])) [] = some (true, []) ∧
    look (coordsetVerify (.obj [(chars! "type", str (chars! "explicit")), (chars! "values", (.obj [] : N))])) [] = some (true, []) ∧
    look (coordsetVerify (.obj [(chars! "type", str (chars! "uniform")), (chars! "dims", dims [chars! "i"]),
      (chars! "origin", f64 [1])])) [] = some (true, []) := by decide +kernel

/-- Text beside numbers in a multi-level array. -/
theorem C84_mlarray_false :
    look (fieldVerify (.obj [(chars! "association", str (chars! "element")), (chars! "matset", str (chars! "m")),
      (chars! "matset_values", .list [str (chars! "x"), .list [f64 [1]]])])) [] = some (true, []) := by decide +kernel

/-- The report on a domain named `info` is lost. -/
theorem C84_named_info_false :
    look (meshVerify VerifyEx.A (.obj [(chars! "info", good), (chars! "d", good)]))
      [[chars! "valid"], [chars! "d", chars! "valid"], [chars! "info", chars! "valid"]] = some (true, [yes, yes, none]) := by
  decide +kernel

end Conduit.Mesh
