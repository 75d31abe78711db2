import Verif.Lemmas.MeshLegacy2
import Verif.Props.MeshIO
/-
C89: what `write_mesh` writes for readers that do not know partition maps.
-/
namespace Conduit.MeshIO
open Conduit.Mesh
variable {F : Type}

/-- The patterns `%02d` to `%09d`: the number is put in, with zeros in front to this width. -/
theorem C89_expand (a b : Str) (w i : Nat) (hw : 2 ≤ w ∧ w ≤ 9) (ha : '%' ∉ a) (hb : '%' ∉ b) :
    ∃ s, expand (a ++ ('%' :: '0' :: Nat.digitChar w :: ['d']) ++ b) i = a ++ s ++ b ∧
      (∀ c ∈ s, c.isDigit = true) ∧ value s = i ∧ (s.length = w ∨ w < s.length ∧ (0 < i → s.head? ≠ some '0')) := by
  refine ⟨_, by rw [← expand_width ha hb hw i]; simp, fun c hc => ?_, by rw [value_zeros, value_toDigits], ?_⟩
  · rcases List.mem_append.1 hc with h | h
    · obtain ⟨-, rfl⟩ := List.mem_replicate.1 h; decide
    · exact isDigit_toDigits h
  · by_cases h : (Nat.toDigits 10 i).length ≤ w
    · left
      rw [List.length_append, List.length_replicate]
      omega
    · right
      rw [show w - (Nat.toDigits 10 i).length = 0 by omega]
      refine ⟨by simpa using h, fun h0 => ?_⟩
      obtain ⟨c, r, e, -, hc⟩ := digit_head i
      rw [List.replicate_zero, List.nil_append, e]
      simpa using hc h0

/-- A mesh that was saved is given back by a root file without the partition map too: the patterns and the numbers of trees and
    of files lead to the same places.
    Not for all meshes: those that are `Writable`, with no `%` in the path and the protocol. -/
theorem C89_old_root_partial (A : Arith F) (version : Str) (counter : Int) (mesh : BNode F) (doms : List (BNode F)) (path protocol name : Str)
    (o : BNode F) (fs : Disk F) (h : Writable mesh doms path protocol o) (hn : MeshName o name) (hp : '%' ∉ path ∧ '%' ∉ protocol)
    (hd : doms.length < 2147483648) :
    ∃ d0 root fs' R, doms[0]? = some d0 ∧ RootName A o counter path d0 root ∧
      saveMesh A version counter mesh path protocol o fs = .ok fs' ∧ fs' root = some R ∧
      Loads A (fs'.put root (withoutPartition name R)) root name doms := by
  obtain ⟨d0, root, dir, fs', h0, h1, h2, h3, h4⟩ := saveMesh_stored A version counter fs h hn
  have hr : '%' ∉ root := by
    have hpad : ∀ v : Int, '%' ∉ pad6 v := by
      intro v hv
      rcases pad6_chars v hv with q | q <;> revert q <;> decide
    cases h1 <;> simp [hp.1, hpad]
  obtain ⟨R, r1, r2⟩ := loadMesh_old A h3 (by rintro rfl; cases h0) (meshName_good h.opts hn) (writable_plain h) ⟨hr, hp.2⟩ hd
  exact ⟨d0, root, fs', R, h0, h1, h2, r1, r2⟩

/-! ### Examples -/

namespace IOEx
open VerifyEx IndexEx
/-- Loaded by a root file without the partition. -/
def loadedOld (files : List Str) (w : Disk Int → Res (Disk Int)) (root name : Str) (ps : List (List Str)) : Option (List Str × List (Option Shown)) :=
  loaded files [w, fun fs => match fs root with
    | some R => .ok (fs.put root (withoutPartition name R))
    | none => .error] root .empty ps
end IOEx
open VerifyEx IndexEx IOEx

/-- Three domains in two files meet the hypotheses, and are found without the partition map. -/
example : (Writable meshThree [one, two, one] (chars! "out/run") (chars! "conduit_bin") twoFiles ∧ MeshName twoFiles (chars! "main") ∧
      '%' ∉ chars! "out/run" ∧ '%' ∉ chars! "conduit_bin") ∧
    loadedOld runFiles (wr meshThree (chars! "out/run") twoFiles) (chars! "out/run.cycle_000007.root") (chars! "main")
      [[chars! "domain_000001", chars! "state", chars! "domain_id"], [chars! "domain_000001", chars! "coordsets", chars! "c", chars! "values"]] =
    some ([chars! "domain_000000", chars! "domain_000001", chars! "domain_000002"],
      [some (.ints [1]), some (.names [chars! "y", chars! "z"])]) :=
  ⟨⟨writable, named, by decide, by decide⟩, by decide +kernel⟩

/-! ### Where the claims fail -/

/-- The pattern `%d`, which is of two characters, takes the place of four. -/
theorem C89_expand_false : expand (chars! "dom_%d.bin") 7 = chars! "dom_7in" ∧ expand (chars! "dom_%d") 7 = chars! "dom_7" ∧
    expand (chars! "/domain_%d/mesh") 12 = chars! "/domain_12esh" := by decide +kernel

/-- A `%` in the path: the mesh is not found without the partition map. -/
theorem C89_percent_false :
    (loaded [] [wr meshTwo (chars! "b%02d") .empty] (chars! "b%02d.cycle_000007.root") .empty []).isSome = true ∧
    loadedOld [] (wr meshTwo (chars! "b%02d") .empty) (chars! "b%02d.cycle_000007.root") (chars! "mesh") [] = none := by decide +kernel

end Conduit.MeshIO
