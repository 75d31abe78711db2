import Verif.Spec.MeshIndex
import Verif.Model.MeshIO
/-
What a mesh that was written to files should be when it is read back.
-/
namespace Conduit.MeshIO
open Conduit.Mesh

section
variable {F : Type}

/-- The tree with an empty node for every object and every list without children. -/
def tidy : BNode F → BNode F
  | .obj ks => match ks with
    | [] => .empty
    | _ => .obj (tidyO ks)
  | .list ks => match ks with
    | [] => .empty
    | _ => .list (tidyL ks)
  | n => n
where
  tidyO : List (Str × BNode F) → List (Str × BNode F)
    | [] => []
    | k :: ks => (k.1, tidy k.2) :: tidyO ks
  tidyL : List (BNode F) → List (BNode F)
    | [] => []
    | k :: ks => tidy k :: tidyL ks

/-- The number that some digits stand for. -/
def value (s : Str) : Nat := s.foldl (fun a c => a * 10 + (c.toNat - 48)) 0

/-- The number `i` in six digits, or in more without a leading zero. -/
structure SixDigits (i : Nat) (s : Str) : Prop where
  digits : ∀ c ∈ s, c.isDigit = true
  value : value s = i
  length : s.length = 6 ∨ 6 < s.length ∧ s.head? ≠ some '0'

/-- The collections of a domain. -/
def collections : List Str :=
  [chars! "coordsets", chars! "topologies", chars! "matsets", chars! "specsets", chars! "fields", chars! "adjsets",
   chars! "nestsets"]

/-- A name that is one step of a path. -/
def GoodName (s : Str) : Prop := s ≠ [] ∧ '/' ∉ s ∧ s ≠ chars! ".."

/-- The node holds at least one number. -/
def Number (c : BNode F) : Prop := (∃ t v l, c = .ints t (v :: l)) ∨ ∃ w v l, c = .flts w (v :: l)

/-- A domain that can be saved. -/
structure Savable (d : BNode F) : Prop where
  domain : IsDomain d
  indexable : Indexable d
  names : ∀ coll ∈ collections, ∀ name c, Entry d coll name c → GoodName name
  state : ∀ f ∈ [chars! "cycle", chars! "time", chars! "domain_id"], ∀ x, Entry d (chars! "state") f x → Number x

/-- The domains of a mesh: of several, or of one, in which nothing else looks like a domain. -/
def DomainsOf (mesh : BNode F) (doms : List (BNode F)) : Prop :=
  (¬ Has mesh (chars! "coordsets") ∧ members mesh = doms ∧ doms ≠ []) ∨
  (doms = [mesh] ∧ ∀ m ∈ members mesh, ¬ Has m (chars! "topologies"))

/-- The domain `x` is the domain `d` as number `i`: its state and its collections, nothing else. -/
structure Restored (i : Nat) (d x : BNode F) : Prop where
  entries : ∀ coll ∈ collections, ∀ name c, Entry x coll name c ↔ ∃ b, Entry d coll name b ∧ c = tidy b
  id : Entry x (chars! "state") (chars! "domain_id") (.ints int32 [(i : Int)])
  state : ∀ f, f ≠ chars! "domain_id" → ∀ c,
    (Entry x (chars! "state") f c ↔ ∃ b, Entry d (chars! "state") f b ∧ c = tidy b)
  only : ∀ f, Has x f → f = chars! "state" ∨ f ∈ collections

/-- The mesh `m` has the domains `doms`, in their order. -/
structure RestoredAll (doms : List (BNode F)) (m : BNode F) : Prop where
  names : Mesh.childNames m = (List.range doms.length).map fun (i : Nat) => chars! "domain_" ++ pad6 (i : Int)
  each : ∀ (i : Nat) d, doms[i]? = some d → ∃ x, m.get (chars! "domain_" ++ pad6 (i : Int)) = .ok x ∧ Restored i d x

/-- Options that `write_mesh` takes. -/
structure OptsOk (o : BNode F) : Prop where
  style : ∀ s, o.get (chars! "file_style") = .ok (.str s) → s ∈ [chars! "default", chars! "root_only", chars! "multi_file"]
  suffix : ∀ s, o.get (chars! "suffix") = .ok (.str s) → s ∈ [chars! "default", chars! "cycle", chars! "none"]
  name : ∀ s, o.get (chars! "mesh_name") = .ok (.str s) → GoodName s ∧
    s ∉ [chars! "valid", chars! "blueprint_index", chars! "file_pattern", chars! "tree_pattern", chars! "number_of_trees",
      chars! "number_of_files", chars! "protocol"]
  files : ∀ t l, o.get (chars! "number_of_files") = .ok (.ints t l) → l ≠ []

/-- A path without the characters that mean something in the patterns: a name, or a directory and a name.  The directory is not
    the root directory. -/
def GoodPath (p : Str) : Prop :=
  ':' ∉ p ∧ '{' ∉ p ∧ '}' ∉ p ∧ ∃ base, base ≠ [] ∧ '/' ∉ base ∧
    (p = base ∨ ∃ dir, dir ≠ [] ∧ dir.getLast? ≠ some '/' ∧ p = dir ++ '/' :: base)

/-- The name of a protocol. -/
def GoodProtocol (s : Str) : Prop := ':' ∉ s ∧ '{' ∉ s ∧ '}' ∉ s ∧ '/' ∉ s

/-- The name of the mesh, by the options. -/
inductive MeshName (o : BNode F) : Str → Prop
  | given {s : Str} (h : o.get (chars! "mesh_name") = .ok (.str s)) : MeshName o s
  | default (h : ∀ s, o.get (chars! "mesh_name") ≠ .ok (.str s)) : MeshName o (chars! "mesh")

/-- The name of the root file. -/
inductive RootName (A : Arith F) (o : BNode F) (counter : Int) (path : Str) (d : BNode F) : Str → Prop
  /-- with the cycle of the first domain -/
  | cycle {c : BNode F} {v : Int} (h : Entry d (chars! "state") (chars! "cycle") c) (hv : c.toInt32 A = .ok v)
      (hs : o.get (chars! "suffix") ≠ .ok (.str (chars! "none"))) :
      RootName A o counter path d (path ++ chars! ".cycle_" ++ pad6 v ++ chars! ".root")
  /-- with a count -/
  | counter (h : ∀ c, ¬ Entry d (chars! "state") (chars! "cycle") c) (hs : o.get (chars! "suffix") = .ok (.str (chars! "cycle"))) :
      RootName A o counter path d (path ++ chars! ".cycle_" ++ pad6 counter ++ chars! ".root")
  /-- with neither -/
  | none (h : (∀ c, ¬ Entry d (chars! "state") (chars! "cycle") c) ∧ o.get (chars! "suffix") ≠ .ok (.str (chars! "cycle")) ∨
        o.get (chars! "suffix") = .ok (.str (chars! "none"))) :
      RootName A o counter path d (path ++ chars! ".root")

/-- A mesh, with its domains, that can be written to this path with these options.  Coordsets of one name are in one coordinate
    system; several domains in the root file are written only beside the program. -/
structure Writable (mesh : BNode F) (doms : List (BNode F)) (path protocol : Str) (o : BNode F) : Prop where
  plain : Plain mesh
  domains : DomainsOf mesh doms
  savable : ∀ d ∈ doms, Savable d
  systems : ∃ S : Str → Str, ∀ d ∈ doms, ∀ n c, Entry d (chars! "coordsets") n c → InSystem c (S n)
  opts : OptsOk o
  pathOk : GoodPath path
  protocolOk : GoodProtocol protocol
  place : o.get (chars! "file_style") = .ok (.str (chars! "root_only")) → doms.length ≤ 1 ∨ '/' ∉ path

/-- One of several meshes that are saved one after the other. -/
structure Dump (F : Type) where
  mesh : BNode F
  doms : List (BNode F)
  opts : BNode F
  name : Str
  counter : Int
  cycle : Int

/-- It can be written to this path, and the file is named by the cycle of its first domain. -/
structure Dump.Ok (A : Arith F) (path protocol : Str) (x : Dump F) : Prop where
  writable : Writable x.mesh x.doms path protocol x.opts
  named : MeshName x.opts x.name
  suffix : x.opts.get (chars! "suffix") ≠ .ok (.str (chars! "none"))
  cycleIs : ∃ d0 c, x.doms[0]? = some d0 ∧ Entry d0 (chars! "state") (chars! "cycle") c ∧ c.toInt32 A = .ok x.cycle

/-- The root file of a cycle. -/
def cycleRoot (path : Str) (cycle : Int) : Str := path ++ chars! ".cycle_" ++ pad6 cycle ++ chars! ".root"

/-- The files of a mesh with this root file: the root file, and those in the directory of the same name. -/
def FileOf (root f : Str) : Prop := f = root ∨ ∃ stem x, root = stem ++ chars! ".root" ∧ f = stem ++ '/' :: x

/-- A root file as it was before there were partition maps. -/
def withoutPartition (name : Str) (root : BNode F) : BNode F :=
  let change (f : Str) (g : BNode F → BNode F) (n : BNode F) : BNode F := .obj (modKid f g n.kids)
  change (chars! "blueprint_index") (change name (change (chars! "state") fun s =>
    .obj (s.kids.filter fun k => k.1 ∉ [chars! "partition_pattern", chars! "partition_map"]))) root

/-- The mesh in these files is the one of these domains, under this name. -/
def Loads (A : Arith F) (fs : Disk F) (root name : Str) (doms : List (BNode F)) : Prop :=
  ∀ o : BNode F, (∀ s, o.get (chars! "mesh_name") = .ok (.str s) → s = [] ∨ s = name) →
    ∃ m, loadMesh A fs root o = .ok m ∧ RestoredAll doms m

end
end Conduit.MeshIO
