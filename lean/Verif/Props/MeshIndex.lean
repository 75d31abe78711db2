import Verif.Lemmas.MeshIndex7
import Verif.Props.MeshVerify
/-
C85: `blueprint::mesh::index::verify` and `blueprint::mesh::generate_index`.
-/
namespace Conduit.Mesh
open Log (Info)
variable {F : Type}

/-- `mesh::index::verify` answers, its answer is that the index conforms, and the report says the same, of the index and
    of every entry.
    Not for all indices: no node may have a child named `valid`. -/
theorem C85_verdict_partial (n : BNode F) (t0 : Info) (hp : Plain n) :
    ∃ b t, indexVerify n t0 = .ok (b, t) ∧ (b = true ↔ IsIndex n) ∧ ReportsIndex t n := by
  obtain ⟨b, t, h, -⟩ := (indexVerify_does (s := True) (P := fun _ => True) hp .empty trivial).2 trivial trivial
  obtain ⟨h1, h2, h3⟩ := (indexVerify_does (s := True) (P := fun _ => True) hp .empty trivial).1 b t h
  exact ⟨b, t, h, h1, h2.is h1, h3.coordsets.reports, h3.topologies.reports, h3.matsets.reports, h3.specsets.reports,
    h3.fields.reports, h3.adjsets.reports, h3.nestsets.reports⟩

/-- What the report held before makes no difference. -/
theorem C85_fresh (n : BNode F) (t0 t1 : Info) : indexVerify n t0 = indexVerify n t1 := rfl

/-- The index of a mesh of one domain is made, conforms, and says of every entry of the mesh what and where it is.
    Not for all meshes that conform: the axes of each coordset must be those of one coordinate system, a matset must name a
    material, and a field without values must have some for a material. -/
theorem C85_domain_partial (n : BNode F) (ref : Str) (doms : Int) (hp : Plain n) (hd : IsDomain n) (hx : Indexable n) :
    ∃ idx, generateIndex n ref doms = .ok idx ∧ IsIndex idx ∧ Plain idx ∧ Describes ref n idx ∧ OfState ref doms n idx := by
  obtain ⟨idx, h1, h2, h3⟩ := generate_single (ref := ref) doms hp hd hx
  exact ⟨idx, h1, h2.isIndex, h3⟩

/-- The index of a mesh of several domains is made, conforms, and has an entry for each name that some domain has in a
    collection, with the axes, materials and species of all the domains; what else it says is what the last such domain has.
    Not for all meshes that conform: as for one domain, and coordsets of one name must be in one coordinate system. -/
theorem C85_domains_partial (n : BNode F) (ref : Str) (doms : Int) (S : Str → Str) (hp : Plain n)
    (hno : ¬ Has n (chars! "coordsets")) (hne : members n ≠ []) (hd : ∀ d ∈ members n, IsDomain d ∧ Indexable d)
    (hS : ∀ d ∈ members n, ∀ name c, Entry d (chars! "coordsets") name c → InSystem c (S name)) :
    ∃ idx, generateIndex n ref doms = .ok idx ∧ IsIndex idx ∧ Plain idx ∧ DescribesAll ref (members n) idx ∧
      ∃ s, idx.get (chars! "state") = .ok s ∧ s.get (chars! "number_of_domains") = .ok (.ints int64 [doms]) := by
  obtain ⟨idx, h1, h2, h3⟩ := generate_domains (ref := ref) doms hp hno hne hd hS
  exact ⟨idx, h1, h2.isIndex, h3⟩

/-- What `mesh::verify` accepts, `generate_index` makes an index of that `mesh::index::verify` accepts.
    Not for all meshes, as above. -/
theorem C85_accepted_partial (A : Arith F) (n : BNode F) (t0 t1 t : Info) (ref : Str) (doms : Int) (hp : Plain n)
    (hc : Has n (chars! "coordsets")) (hv : meshVerify A n t0 = .ok (true, t)) (hx : Indexable n) :
    ∃ idx u, generateIndex n ref doms = .ok idx ∧ indexVerify idx t1 = .ok (true, u) := by
  have hm := (C84_verdict_partial A n t0 t true hp hv).1.1 rfl
  rcases hm with ⟨-, hd⟩ | ⟨hno, -⟩
  · obtain ⟨idx, h1, h2, h3, -⟩ := C85_domain_partial n ref doms hp hd hx
    obtain ⟨b, u, q1, q2, -⟩ := C85_verdict_partial idx t1 h3
    rw [q2.2 h2] at q1
    exact ⟨idx, u, h1, q1⟩
  · exact absurd hc hno

/-! ### Examples -/

namespace IndexEx
open VerifyEx

/-- The child at a path. -/
def atPath (n : N) : List Str → Option N
  | [] => some n
  | p :: ps => match n.get p with
    | .ok c => atPath c ps
    | _ => none
/-- A string, numbers or the names of children. -/
inductive Shown
  | str (s : Str)
  | ints (l : List Int)
  | names (l : List Str)
  deriving DecidableEq
/-- The node at a path. -/
def show? (n : N) (p : List Str) : Option Shown :=
  match atPath n p with
  | some (.str s) => some (.str s)
  | some (.ints _ l) => some (.ints l)
  | some (.obj ks) => some (.names (ks.map (·.1)))
  | _ => none
/-- Work on the node after it has been written out, which spares the kernel repeating the making of it. -/
def outS {α : Type} : Str → (Str → α) → α
  | [], k => k []
  | c :: s, k => outS s fun s => k (c :: s)
def out {α : Type} : N → (N → α) → α
  | .obj ks, k => outO ks fun ks => k (.obj ks)
  | .list ks, k => outL ks fun ks => k (.list ks)
  | .str s, k => outS s fun s => k (.str s)
  | n, k => k n
where
  outO {α : Type} : List (Str × N) → (List (Str × N) → α) → α
    | [], k => k []
    | (s, n) :: ks, k => outS s fun s => out n fun n => outO ks fun ks => k ((s, n) :: ks)
  outL {α : Type} : List N → (List N → α) → α
    | [], k => k []
    | n :: ks, k => out n fun n => outL ks fun ks => k (n :: ks)
/-- The index, at some paths; with the answer of its check. -/
def made (n : N) (ref : Str) (doms : Int) (ps : List (List Str)) : Option (Option Bool × List (Option Shown)) :=
  match generateIndex n ref doms with
  | .ok i => out i fun i => some (match indexVerify i .empty with | .ok (b, _) => some b | _ => none, ps.map (show? i))
  | _ => none
def accepted (n : N) : Bool := match meshVerify VerifyEx.A n .empty with
  | .ok (b, _) => b
  | _ => false

theorem domain_of {n : N} (hp : Plain n) (hc : Has n (chars! "coordsets")) (h : accepted n = true) : IsDomain n := by
  unfold accepted at h
  split at h
  · rename_i b t e
    subst h
    rcases (C84_verdict_partial VerifyEx.A n .empty t true hp e).1.1 rfl with ⟨-, q⟩ | ⟨q, -⟩
    · exact q
    · exact absurd hc q
  · exact absurd h (by simp)

/-- An explicit coordset with these axes. -/
def pts (axes : List Str) : N := .obj [(chars! "type", str (chars! "explicit")), (chars! "values", .obj (axes.map fun a => (a, f64 [0, 1, 2])))]
def dom (c m f : N) : N := .obj [(chars! "state", .obj [(chars! "cycle", i64 [7])]), (chars! "coordsets", .obj [(chars! "c", c)]),
  (chars! "topologies", .obj [(chars! "t", tri [])]), (chars! "matsets", .obj [(chars! "m", m)]),
  (chars! "fields", .obj [(chars! "f", f)])]
def xy : N := pts [chars! "x", chars! "y"]
def yz : N := pts [chars! "y", chars! "z"]
def mats (l : List Str) : N := .obj [(chars! "topology", str (chars! "t")), (chars! "volume_fractions", .obj (l.map fun a => (a, f64 [1])))]
def one : N := dom xy (mats [chars! "a", chars! "b"]) (field (chars! "t"))
def two : N := dom yz (mats [chars! "b", chars! "c"]) (field (chars! "t"))

theorem hasAxis_pts (axes : List Str) (a : Str) : HasAxis (pts axes) a ↔ a ∈ axes := by
  constructor
  · rintro (⟨h, -⟩ | ⟨-, o, h, ha⟩)
    · have := Res.ok.inj (show Res.ok _ = Res.ok _ from h)
      exact absurd this (by simp [str])
    · obtain rfl : _ = o := Res.ok.inj (show Res.ok _ = Res.ok o from h)
      simpa [childNames] using ha
  · intro h
    refine .inr ⟨fun h => ?_, _, rfl, by simpa [childNames] using h⟩
    have := Res.ok.inj (show Res.ok _ = Res.ok _ from h)
    exact absurd this (by simp [str])

theorem indexable_pts {axes : List Str} (h : axes ≠ []) (hs : ∀ a ∈ axes, a ∈ axesOf (chars! "cartesian")) :
    CoordsetIndexable (pts axes) := by
  refine ⟨⟨chars! "cartesian", by simp, fun a ha => hs a ((hasAxis_pts _ _).1 ha)⟩, ?_, fun h => ?_⟩
  · obtain ⟨a, ha⟩ := List.exists_mem_of_ne_nil _ h
    exact ⟨a, (hasAxis_pts _ _).2 ha⟩
  · have := Res.ok.inj (show Res.ok _ = Res.ok _ from h)
    exact absurd this (by simp [str])

theorem entry_one {n c x : N} {coll name g : Str} (h : n.get coll = .ok (.obj [(g, x)])) (he : Entry n coll name c) : c = x := by
  obtain ⟨e, h1, h2⟩ := he
  obtain rfl := get_inj h h1
  have := mem_of_get h2
  rw [List.mem_singleton] at this
  exact (Prod.mk.inj this).2

theorem indexable_dom {axes ms : List Str} {t : Str} (h : axes ≠ []) (hs : ∀ a ∈ axes, a ∈ axesOf (chars! "cartesian"))
    (hm : ms ≠ []) : Indexable (dom (pts axes) (mats ms) (field t)) := by
  refine ⟨fun name c he => ?_, fun name c he => ?_, fun name c he => ?_⟩
  · rw [entry_one rfl he]; exact indexable_pts h hs
  · rw [entry_one rfl he]
    refine .inr (.inr ⟨not_has_of_error rfl, _, rfl, ?_⟩)
    simpa using hm
  · rw [entry_one rfl he]
    exact ⟨fun q => absurd ⟨_, rfl⟩ q, fun q => absurd q (not_has_of_error rfl)⟩

theorem plain_dom {axes ms : List Str} (t : Str) (h1 : axes.Nodup) (h2 : ms.Nodup) (h3 : chars! "valid" ∉ axes) (h4 : chars! "valid" ∉ ms) :
    Plain (dom (pts axes) (mats ms) (field t)) := by
  have go : ∀ {l : List Str}, l.Nodup → chars! "valid" ∉ l → Plain (.obj (l.map fun a => (a, f64 [0, 1, 2])) : N) ∧
      Plain (.obj (l.map fun a => (a, f64 [1])) : N) := by
    intro l hl hv
    constructor <;>
    · refine plain_obj (by simpa [Function.comp_def] using hl) fun k hk => ?_
      obtain ⟨a, ha, rfl⟩ := List.mem_map.1 hk
      exact ⟨fun e => hv ((show a = chars! "valid" from e) ▸ ha), trivial⟩
  have g1 := (go h1 h3).1
  have g2 := (go h2 h4).2
  simp [dom, pts, mats, tri, field, str, i64, f64, Plain, Plain.plainO] at g1 g2 ⊢
  exact ⟨g1, g2⟩

theorem ok_one : Plain one ∧ IsDomain one ∧ Indexable one := by
  have hp : Plain one := plain_dom _ (by decide) (by decide) (by decide) (by decide)
  exact ⟨hp, domain_of hp ⟨_, rfl⟩ (by decide +kernel), indexable_dom (by decide) (by decide) (by decide)⟩

theorem ok_two : Plain two ∧ IsDomain two ∧ Indexable two := by
  have hp : Plain two := plain_dom _ (by decide) (by decide) (by decide) (by decide)
  exact ⟨hp, domain_of hp ⟨_, rfl⟩ (by decide +kernel), indexable_dom (by decide) (by decide) (by decide)⟩

end IndexEx
open VerifyEx IndexEx

/-- A domain that meets the hypotheses, and its index. -/
example : (Plain one ∧ IsDomain one ∧ Indexable one) ∧
    made one (chars! "mesh") 3 [[chars! "state", chars! "number_of_domains"], [chars! "state", chars! "cycle"],
      [chars! "coordsets", chars! "c", chars! "coord_system", chars! "axes"],
      [chars! "coordsets", chars! "c", chars! "coord_system", chars! "type"],
      [chars! "topologies", chars! "t", chars! "path"], [chars! "matsets", chars! "m", chars! "material_map", chars! "b"],
      [chars! "fields", chars! "f", chars! "number_of_components"]] =
    some (some true, [some (.ints [3]), some (.ints [7]), some (.names [chars! "x", chars! "y"]),
      some (.str (chars! "cartesian")), some (.str (chars! "mesh/topologies/t")), some (.ints [1]),
      some (.ints [1])]) := ⟨ok_one, by decide +kernel⟩

/-- Two domains that meet the hypotheses; the index has the axes and the materials of both. -/
example : (Plain (.list [one, two]) ∧ ¬ Has (.list [one, two]) (chars! "coordsets") ∧ members (.list [one, two]) ≠ [] ∧
      (∀ d ∈ members (.list [one, two]), IsDomain d ∧ Indexable d) ∧
      ∀ d ∈ members (.list [one, two]), ∀ name c, Entry d (chars! "coordsets") name c → InSystem c (chars! "cartesian")) ∧
    made (.list [one, two]) [] 2 [[chars! "coordsets", chars! "c", chars! "coord_system", chars! "axes"],
      [chars! "matsets", chars! "m", chars! "material_map"], [chars! "fields", chars! "f", chars! "path"]] =
    some (some true, [some (.names [chars! "x", chars! "y", chars! "z"]), some (.names [chars! "a", chars! "b", chars! "c"]),
      some (.str (chars! "fields/f"))]) := by
  refine ⟨⟨⟨ok_one.1, ok_two.1, trivial⟩, not_has_of_error rfl, by simp [members], ?_, ?_⟩, by decide +kernel⟩
  · intro d hd
    simp only [members, List.mem_cons, List.not_mem_nil, or_false] at hd
    rcases hd with rfl | rfl
    · exact ok_one.2
    · exact ok_two.2
  · intro d hd name c he
    simp only [members, List.mem_cons, List.not_mem_nil, or_false] at hd
    rcases hd with rfl | rfl <;> rw [entry_one rfl he] <;>
      refine .inr (.inr ⟨?_, ?_, rfl⟩) <;> simp [xy, yz, hasAxis_pts]

/-- An index that is rejected, and what the report says. -/
example : look (indexVerify (.obj [(chars! "coordsets", .obj [(chars! "c", .obj [(chars! "type", str (chars! "explicit")),
        (chars! "coord_system", .obj [(chars! "type", str (chars! "cylindrical")), (chars! "axes", .obj [(chars! "x", .empty)])]),
        (chars! "path", str (chars! "p"))])]),
      (chars! "topologies", .obj [(chars! "t", .obj [(chars! "type", str (chars! "points")), (chars! "coordset", str (chars! "c")),
        (chars! "path", str (chars! "p"))])])] : N))
    [[chars! "valid"], [chars! "coordsets", chars! "c", chars! "valid"], [chars! "topologies", chars! "t", chars! "valid"]] =
    some (false, [no, no, no]) := by decide +kernel

/-! ### Where the claims fail: meshes that `mesh::verify` accepts -/

namespace IndexEx
/-- A mesh with this coordset. -/
def withCoords (c : N) : N := .obj [(chars! "coordsets", .obj [(chars! "c", c)]), (chars! "topologies", .obj [(chars! "t", tri [])])]
def uni (l : List (Str × N)) : N := .obj ([(chars! "type", str (chars! "uniform"))] ++ l)
def withMat (m : N) : N := dom xy m (field (chars! "t"))
def withField (l : List (Str × N)) : N := dom xy (mats [chars! "a"])
  (.obj ([(chars! "association", str (chars! "vertex"))] ++ l))
end IndexEx

/-- The index of a mesh that was accepted is rejected: an origin named by dimensions, an origin that is a number, explicit
    values without an axis, dimensions named by an axis of another system. -/
theorem C85_coordset_false :
    (accepted (withCoords (uni [(chars! "dims", dims [chars! "i"]), (chars! "origin", dims [chars! "i"])])) = true ∧
      made (withCoords (uni [(chars! "dims", dims [chars! "i"]), (chars! "origin", dims [chars! "i"])])) [] 1 [] = some (some false, [])) ∧
    (accepted (withCoords (uni [(chars! "dims", dims [chars! "i"]), (chars! "origin", i64 [1])])) = true ∧
      made (withCoords (uni [(chars! "dims", dims [chars! "i"]), (chars! "origin", i64 [1])])) [] 1 [] = some (some false, [])) ∧
    (accepted (withCoords (pts [])) = true ∧ made (withCoords (pts [])) [] 1 [] = some (some false, [])) ∧
    (accepted (withCoords (uni [(chars! "dims", dims [chars! "i", chars! "r"])])) = true ∧
      made (withCoords (uni [(chars! "dims", dims [chars! "i", chars! "r"])])) [] 1 [] = some (some false, [])) := by
  decide +kernel

/-- So is that of a mesh with a matset without volume fractions. -/
theorem C85_matset_false :
    accepted (withMat (mats [])) = true ∧ made (withMat (mats [])) [] 1 [] = some (some false, []) := by decide +kernel

/-- For a field with only a leaf of values for materials, and for one whose `volume_dependent` is a number, an error is
    raised. -/
theorem C85_field_false :
    (accepted (withField [(chars! "matset", str (chars! "m")), (chars! "matset_values", f64 [1])]) = true ∧
      made (withField [(chars! "matset", str (chars! "m")), (chars! "matset_values", f64 [1])]) [] 1 [] = none) ∧
    (accepted (withField [(chars! "topology", str (chars! "t")), (chars! "values", f64 [1]), (chars! "volume_dependent", i64 [1])]) = true ∧
      made (withField [(chars! "topology", str (chars! "t")), (chars! "values", f64 [1]), (chars! "volume_dependent", i64 [1])]) [] 1 [] = none) := by decide +kernel

/-- Two domains with coordsets of one name, in two coordinate systems: the index of each is accepted, that of the two is
    not. -/
theorem C85_systems_false :
    accepted (.list [withCoords xy, withCoords (pts [chars! "r", chars! "z"])]) = true ∧
    made (withCoords xy) [] 1 [] = some (some true, []) ∧
    made (withCoords (pts [chars! "r", chars! "z"])) [] 1 [] = some (some true, []) ∧
    made (.list [withCoords xy, withCoords (pts [chars! "r", chars! "z"])]) [] 2
      [[chars! "coordsets", chars! "c", chars! "coord_system", chars! "type"],
       [chars! "coordsets", chars! "c", chars! "coord_system", chars! "axes"]] =
      some (some false, [some (.str (chars! "cylindrical")), some (.names [chars! "x", chars! "y", chars! "r", chars! "z"])]) := by
  decide +kernel

/-- The index of a mesh without domains is made, but does not conform. -/
theorem C85_no_domains_false :
    accepted (.list []) = true ∧ made (.list []) [] 0 [] = some (some false, []) := by decide +kernel

end Conduit.Mesh
