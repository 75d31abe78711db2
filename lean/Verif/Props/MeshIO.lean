import Verif.Lemmas.MeshIO11
/-
C88: `relay::io::blueprint::write_mesh`, `save_mesh` and `load_mesh`.
-/
namespace Conduit.MeshIO
open Conduit.Mesh
variable {F : Type}

/-- `write_mesh` writes the mesh, `load_mesh` of the root file gives back its domains, and no file is touched that is not one
    of the files of this mesh.
    Not for all meshes: those that are `Writable`, and files that begin with the path are to be replaced, or there are none. -/
theorem C88_write_partial (A : Arith F) (version : Str) (counter : Int) (mesh : BNode F) (doms : List (BNode F)) (path protocol name : Str)
    (o : BNode F) (fs : Disk F) (h : Writable mesh doms path protocol o) (hn : MeshName o name)
    (hf : o.get (chars! "truncate") = .ok (.str (chars! "true")) ∨ ∀ f, path <+: f → fs f = none) :
    ∃ d0 root fs', doms[0]? = some d0 ∧ RootName A o counter path d0 root ∧
      writeMesh A version counter mesh path protocol o fs = .ok fs' ∧ Loads A fs' root name doms ∧
      ∀ f, ¬ FileOf root f → fs' f = fs f := by
  obtain ⟨S, hS⟩ := h.systems
  obtain ⟨d0, root, dir, fs', h0, h1, h2, h3, h4⟩ :=
    writeMesh_stored A version counter h.plain h.domains h.savable hS h.opts h.pathOk h.protocolOk hn h.place hf
  exact ⟨d0, root, fs', h0, h1, h2, loadMesh_stored A h3 (by rintro rfl; cases h0) (meshName_good h.opts hn) (writable_plain h), h4⟩

/-- The same of `save_mesh`, whatever there was before. -/
theorem C88_save_partial (A : Arith F) (version : Str) (counter : Int) (mesh : BNode F) (doms : List (BNode F)) (path protocol name : Str)
    (o : BNode F) (fs : Disk F) (h : Writable mesh doms path protocol o) (hn : MeshName o name) :
    ∃ d0 root fs', doms[0]? = some d0 ∧ RootName A o counter path d0 root ∧
      saveMesh A version counter mesh path protocol o fs = .ok fs' ∧ Loads A fs' root name doms ∧
      ∀ f, ¬ FileOf root f → fs' f = fs f := by
  obtain ⟨d0, root, dir, fs', h0, h1, h2, h3, h4⟩ := saveMesh_stored A version counter fs h hn
  exact ⟨d0, root, fs', h0, h1, h2, loadMesh_stored A h3 (by rintro rfl; cases h0) (meshName_good h.opts hn) (writable_plain h), h4⟩

/-- Meshes of different cycles saved one after the other to one path: at the end each is given back.
    Not for all meshes, as above. -/
theorem C88_series_partial (A : Arith F) (version path protocol : Str) (l : List (Dump F)) (fs : Disk F)
    (h : ∀ x ∈ l, x.Ok A path protocol) (hd : (l.map (·.cycle)).Nodup) :
    ∃ fs', l.foldlM (fun fs x => saveMesh A version x.counter x.mesh path protocol x.opts fs) fs = .ok fs' ∧
      ∀ x ∈ l, Loads A fs' (cycleRoot path x.cycle) x.name x.doms := by
  obtain ⟨fs', h1, h2, -⟩ := series_stored A version path protocol l h hd fs
  refine ⟨fs', h1, fun x hx => ?_⟩
  obtain ⟨dir, h3⟩ := h2 x hx
  obtain ⟨d0, c, e, -⟩ := (h x hx).cycleIs
  exact loadMesh_stored A h3 (by intro q; rw [q] at e; cases e) (meshName_good (h x hx).writable.opts (h x hx).named) (writable_plain (h x hx).writable)

/-- The numbers in the names of domains, files and cycles are in six digits, or in more if need be. -/
theorem C88_names (i : Nat) : SixDigits i (pad6 (i : Int)) ∧
    ∀ a b : Int, pad6 a = pad6 b → a = b := by
  refine ⟨⟨fun c hc => ?_, value_pad6 i, ?_⟩, fun a b => pad6_inj_int⟩
  · rw [pad6_nat] at hc
    rcases List.mem_append.1 hc with h | h
    · obtain ⟨-, rfl⟩ := List.mem_replicate.1 h; decide
    · exact isDigit_toDigits h
  · rw [pad6_nat]
    obtain ⟨c, r, e, -, hc⟩ := digit_head i
    by_cases h : (Nat.toDigits 10 i).length ≤ 6
    · left
      rw [List.length_append, List.length_replicate]
      omega
    · right
      rw [show 6 - (Nat.toDigits 10 i).length = 0 by omega]
      refine ⟨by simpa using h, ?_⟩
      rw [List.replicate_zero, List.nil_append, e]
      simp only [List.head?_cons, ne_eq, Option.some.injEq]
      refine hc ?_
      rcases Nat.eq_zero_or_pos i with rfl | h0
      · exact absurd h (by decide)
      · exact h0

/-! ### Examples -/

namespace IOEx
open VerifyEx IndexEx

theorem entry_name {n c x : N} {coll name g : Str} (h : n.get coll = .ok (.obj [(g, x)])) (he : Entry n coll name c) : name = g := by
  obtain ⟨e, h1, h2⟩ := he
  obtain rfl := get_inj h h1
  have := mem_of_get h2
  rw [List.mem_singleton] at this
  exact (Prod.mk.inj this).1

theorem entry_none {n c : N} {coll name : Str} (h : n.get coll = .error) : ¬ Entry n coll name c := by
  rintro ⟨e, h1, -⟩
  rw [h] at h1
  cases h1

theorem savable_dom {c m f : N} (h : IsDomain (dom c m f)) (hx : Indexable (dom c m f)) : Savable (dom c m f) := by
  refine ⟨h, hx, ?_, ?_⟩
  · intro coll hc name x he
    simp only [collections, List.mem_cons, List.not_mem_nil, or_false] at hc
    rcases hc with rfl | rfl | rfl | rfl | rfl | rfl | rfl
    · rw [entry_name rfl he]; unfold GoodName; decide
    · rw [entry_name rfl he]; unfold GoodName; decide
    · rw [entry_name rfl he]; unfold GoodName; decide
    · exact absurd he (entry_none rfl)
    · rw [entry_name rfl he]; unfold GoodName; decide
    · exact absurd he (entry_none rfl)
    · exact absurd he (entry_none rfl)
  · intro g hg x he
    rw [entry_one rfl he]
    exact .inl ⟨_, _, _, rfl⟩

def meshTwo : N := .list [one, two]
/-- Three domains, in which those of one coordset have different axes. -/
def meshThree : N := .obj [(chars! "a", one), (chars! "b", two), (chars! "c", one)]
def opts (l : List (Str × N)) : N := .obj l

theorem inSystem (d : N) (hd : d = one ∨ d = two) (name : Str) (c : N) (he : Entry d (chars! "coordsets") name c) :
    InSystem c (chars! "cartesian") := by
  rcases hd with rfl | rfl <;> rw [entry_one rfl he] <;>
    refine .inr (.inr ⟨?_, ?_, rfl⟩) <;> simp [xy, yz, hasAxis_pts]

theorem savable (d : N) (hd : d = one ∨ d = two) : Savable d := by
  rcases hd with rfl | rfl
  · exact savable_dom ok_one.2.1 ok_one.2.2
  · exact savable_dom ok_two.2.1 ok_two.2.2

/-- Options for two files. -/
def twoFiles : N := .obj [(chars! "number_of_files", .ints int32 [2]), (chars! "mesh_name", str (chars! "main"))]
theorem optsOk : OptsOk twoFiles := by
  refine ⟨fun s h => ?_, fun s h => ?_, fun s h => ?_, fun t l h => ?_⟩
  · cases h
  · cases h
  · obtain rfl : _ = s := BNode.str.inj (Res.ok.inj h)
    exact ⟨by unfold GoodName; decide, by decide⟩
  · cases h
    simp

theorem writable : Writable meshThree [one, two, one] (chars! "out/run") (chars! "conduit_bin") twoFiles := by
  have hm : ∀ d ∈ [one, two, one], d = one ∨ d = two := by simp
  refine ⟨?_, .inl ⟨not_has_of_error rfl, rfl, by simp⟩, fun d hd => savable d (hm d hd),
    ⟨fun _ => chars! "cartesian", fun d hd => inSystem d (hm d hd)⟩, optsOk, ?_, by unfold GoodProtocol; decide, by intro h; cases h⟩
  · refine plain_obj (by decide) fun k hk => ?_
    simp only [List.mem_cons, List.not_mem_nil, or_false] at hk
    rcases hk with rfl | rfl | rfl
    · exact ⟨by decide, ok_one.1⟩
    · exact ⟨by decide, ok_two.1⟩
    · exact ⟨by decide, ok_one.1⟩
  · exact ⟨by decide, by decide, by decide, chars! "run", by decide, by decide, .inr ⟨chars! "out", by decide, by decide, rfl⟩⟩

theorem named : MeshName twoFiles (chars! "main") := .given rfl

/-- The first of them at the next cycle. -/
def later : N := .obj ((chars! "state", .obj [(chars! "cycle", i64 [8])]) :: one.kids.tail)
theorem later_get {f : Str} (h : f ≠ chars! "state") : later.get f = one.get f := by
  show (BNode.obj (_ :: _)).get f = (BNode.obj ((chars! "state", _) :: _)).get f
  rw [get_cons_ne (Ne.symm h), get_cons_ne (Ne.symm h)]
  rfl
theorem plain_later : Plain later := ⟨ok_one.1.1, ok_one.1.2.1, ⟨by simp, by simp, trivial, trivial⟩, ok_one.1.2.2.2⟩
theorem savable_later : Savable later := by
  have h1 := savable one (.inl rfl)
  have hE : ∀ coll ∈ collections, ∀ n c, Entry later coll n c ↔ Entry one coll n c :=
    fun coll hc n c => entry_congr (later_get (coll_ne hc))
  obtain ⟨q1, q2, q3⟩ := h1.indexable
  refine ⟨isDomain_congr (fun f => later_get) h1.domain, ⟨fun n c h => q1 n c ((hE _ (by decide) n c).1 h),
    fun n c h => q2 n c ((hE _ (by decide) n c).1 h), fun n c h => q3 n c ((hE _ (by decide) n c).1 h)⟩,
    fun coll hc n c h => h1.names coll hc n c ((hE coll hc n c).1 h), fun g hg x he => ?_⟩
  rw [entry_one rfl he]
  exact .inl ⟨_, _, _, rfl⟩
theorem writable_later : Writable later [later] (chars! "out/run") (chars! "conduit_bin") twoFiles := by
  refine ⟨plain_later, .inr ⟨rfl, ?_⟩, fun d hd => List.mem_singleton.1 hd ▸ savable_later,
    ⟨fun _ => chars! "cartesian", fun d hd name c he => ?_⟩, optsOk, writable.pathOk, writable.protocolOk, by intro h; cases h⟩
  · intro m hm
    simp only [members, later, one, dom, BNode.kids, List.tail_cons, List.map_cons, List.map_nil, List.mem_cons, List.not_mem_nil, or_false] at hm
    rcases hm with rfl | rfl | rfl | rfl | rfl <;> exact not_has_of_error rfl
  · rw [List.mem_singleton.1 hd] at he
    exact inSystem one (.inl rfl) name c ((entry_congr (later_get (by decide))).1 he)
/-- Two cycles. -/
def dumps : List (Dump Int) :=
  [⟨meshThree, [one, two, one], twoFiles, chars! "main", 0, 7⟩, ⟨later, [later], twoFiles, chars! "main", 0, 8⟩]
theorem dumps_ok : ∀ x ∈ dumps, x.Ok A (chars! "out/run") (chars! "conduit_bin") := by
  intro x hx
  simp only [dumps, List.mem_cons, List.not_mem_nil, or_false] at hx
  rcases hx with rfl | rfl
  · exact ⟨writable, named, (fun h => by cases h), one, _, rfl, ⟨_, rfl, rfl⟩, rfl⟩
  · exact ⟨writable_later, named, (fun h => by cases h), later, _, rfl, ⟨_, rfl, rfl⟩, rfl⟩

/-- Work on the files after the ones of these names have been written out. -/
def settle {α : Type} : List Str → Disk Int → (Disk Int → α) → α
  | [], fs, k => k fs
  | f :: l, fs, k => match fs f with
    | some n => out n fun n => settle l fs fun fs' => k fun p => if p = f then some n else fs' p
    | none => settle l fs k
/-- Write some meshes one after the other. -/
def writes {α : Type} (files : List Str) : List (Disk Int → Res (Disk Int)) → Disk Int → (Option (Disk Int) → α) → α
  | [], fs, k => k (some fs)
  | w :: ws, fs, k => match w fs with
    | .ok fs => settle files fs fun fs => writes files ws fs k
    | _ => k none
/-- The mesh that is loaded, at some paths, after some meshes were written. -/
def loaded (files : List Str) (ws : List (Disk Int → Res (Disk Int))) (root : Str) (o : N) (ps : List (List Str)) :
    Option (List Str × List (Option Shown)) :=
  writes files ws (fun _ => none) fun r => match r with
    | some fs => match loadMesh A fs root o with
      | .ok m => out m fun m => some (Mesh.childNames m, ps.map (show? m))
      | _ => none
    | none => none
def wrote (ws : List (Disk Int → Res (Disk Int))) : Bool := writes [] ws (fun _ => none) (·.isSome)
def wr (m : N) (path : Str) (o : N) (fs : Disk Int) : Res (Disk Int) := writeMesh A (chars! "1") 0 m path (chars! "conduit_bin") o fs

end IOEx
open VerifyEx IndexEx IOEx

/-- Three domains in two files: they meet the hypotheses, and are given back with their numbers. -/
example : (Writable meshThree [one, two, one] (chars! "out/run") (chars! "conduit_bin") twoFiles ∧ MeshName twoFiles (chars! "main")) ∧
    loaded [chars! "out/run.cycle_000007.root"] [wr meshThree (chars! "out/run") twoFiles] (chars! "out/run.cycle_000007.root") .empty
      [[chars! "domain_000001", chars! "state", chars! "domain_id"],
       [chars! "domain_000001", chars! "coordsets", chars! "c", chars! "values"],
       [chars! "domain_000002", chars! "matsets", chars! "m", chars! "volume_fractions"]] =
    some ([chars! "domain_000000", chars! "domain_000001", chars! "domain_000002"],
      [some (.ints [1]), some (.names [chars! "y", chars! "z"]), some (.names [chars! "a", chars! "b"])]) :=
  ⟨⟨writable, named⟩, by decide +kernel⟩

namespace IOEx
def runFiles : List Str := [chars! "out/run.cycle_000007.root", chars! "out/run.cycle_000008.root",
  chars! "out/run.cycle_000007/file_000000.conduit_bin", chars! "out/run.cycle_000007/file_000001.conduit_bin"]
def abFiles : List Str := [chars! "a/b.cycle_000007.root", chars! "a/b.cycle_000007/domain_000000.conduit_bin",
  chars! "a/b.cycle_000007/domain_000001.conduit_bin"]
def bFiles : List Str := [chars! "b.root", chars! "b/domain_000000.conduit_bin", chars! "b/domain_000001.conduit_bin",
  chars! "b/domain_000002.conduit_bin"]
end IOEx

/-- Two cycles that meet the hypotheses; the first is given back after the second was written. -/
example : ((∀ x ∈ dumps, x.Ok VerifyEx.A (chars! "out/run") (chars! "conduit_bin")) ∧ (dumps.map (·.cycle)).Nodup) ∧
    loaded runFiles (dumps.map fun x => saveMesh VerifyEx.A (chars! "1") x.counter x.mesh (chars! "out/run") (chars! "conduit_bin") x.opts)
      (chars! "out/run.cycle_000007.root") .empty [[chars! "domain_000001", chars! "state", chars! "cycle"]] =
    some ([chars! "domain_000000", chars! "domain_000001", chars! "domain_000002"], [some (.ints [7])]) ∧
    loaded runFiles (dumps.map fun x => saveMesh VerifyEx.A (chars! "1") x.counter x.mesh (chars! "out/run") (chars! "conduit_bin") x.opts)
      (chars! "out/run.cycle_000008.root") .empty [[chars! "domain_000000", chars! "state", chars! "cycle"]] =
    some ([chars! "domain_000000"], [some (.ints [8])]) :=
  ⟨⟨dumps_ok, by decide⟩, by decide +kernel⟩

/-! ### Where the claims fail -/

namespace IOEx
def named' (s : Str) : N := .obj [(chars! "mesh_name", str s)]
def plainName : N := .obj [(chars! "suffix", str (chars! "none"))]
def rootOnly : N := .obj [(chars! "file_style", str (chars! "root_only"))]
/-- A mesh with a field of this name. -/
def fieldNamed (s : Str) : N := .obj [(chars! "coordsets", .obj [(chars! "c", xy)]), (chars! "topologies", .obj [(chars! "t", tri [])]),
  (chars! "fields", .obj [(s, VerifyEx.field (chars! "t"))])]
end IOEx

/-- Two meshes written to the same path under two names, without `truncate`: the root file lists both, but the first comes
    back without anything. -/
theorem C88_two_names_false :
    loaded abFiles [wr meshTwo (chars! "a/b") (named' (chars! "p"))] (chars! "a/b.cycle_000007.root") (named' (chars! "p"))
        [[chars! "domain_000000"]] =
      some ([chars! "domain_000000", chars! "domain_000001"], [some (.names [chars! "state", chars! "coordsets", chars! "topologies",
        chars! "matsets", chars! "fields"])]) ∧
    loaded abFiles [wr meshTwo (chars! "a/b") (named' (chars! "p")), wr meshTwo (chars! "a/b") (named' (chars! "q"))]
        (chars! "a/b.cycle_000007.root") (named' (chars! "p")) [[chars! "domain_000000"]] =
      some ([chars! "domain_000000", chars! "domain_000001"], [some (.names [chars! "state"])]) := by decide +kernel

/-- One domain written where there were three, without `truncate`: three come back. -/
theorem C88_fewer_false :
    loaded bFiles [wr meshThree (chars! "b") plainName, wr one (chars! "b") plainName] (chars! "b.root") .empty [] =
      some ([chars! "domain_000000", chars! "domain_000001", chars! "domain_000002"], []) := by decide +kernel

/-- What is written without an error is not found: several domains in a root file in a directory; a root file in `/`; a brace
    in the path. -/
theorem C88_path_false :
    (wrote [wr meshTwo (chars! "a/b") rootOnly] = true ∧
      loaded [] [wr meshTwo (chars! "a/b") rootOnly] (chars! "a/b.cycle_000007.root") .empty [] = none) ∧
    (wrote [wr one (chars! "/b") .empty] = true ∧ loaded [] [wr one (chars! "/b") .empty] (chars! "/b.cycle_000007.root") .empty [] = none) ∧
    (wrote [wr meshTwo (chars! "b{") .empty] = true ∧
      loaded [] [wr meshTwo (chars! "b{") .empty] (chars! "b{.cycle_000007.root") .empty [] = none) := by decide +kernel

/-- A mesh that `mesh::verify` accepts cannot be written: one with a field named `topologies`. -/
theorem C88_field_named_false :
    accepted (fieldNamed (chars! "f")) = true ∧ wrote [wr (fieldNamed (chars! "f")) (chars! "b") .empty] = true ∧
    accepted (fieldNamed (chars! "topologies")) = true ∧ wrote [wr (fieldNamed (chars! "topologies")) (chars! "b") .empty] = false := by
  decide +kernel

end Conduit.MeshIO
