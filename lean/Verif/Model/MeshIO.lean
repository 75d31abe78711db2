import Verif.Model.MeshIndex
import Verif.Model.MeshFiles
import Verif.Model.MeshPoints
import Verif.Model.SchemaRaw
/-
Writing a mesh to files and reading it back: `relay::io::blueprint::write_mesh` and `read_mesh`
(conduit_relay_io_blueprint.cpp, the build without MPI) with the handle of the basic protocols
(conduit_relay_io_handle.cpp, `BasicHandle`).
Simplification of the whole file: a file is the tree it holds, what is saved is what is loaded (that is so for `conduit_bin`;
the loss of types in `json` and `yaml` is not modelled), every file and every directory can be written, and the files are
found to be of the protocol with which they were written.
-/
namespace Conduit.MeshIO
open Conduit.Mesh

section
variable {F : Type}

/-! ### Paths in a tree -/

/-- conduit_schema.cpp:1259-1300 `has_path`; `fuel` is at least the length of the path. -/
def hasPathIn : (fuel : Nat) → BNode F → Str → Bool
  | 0, _, _ => false
  | fuel + 1, n, p =>
    let q := splitPath (RSchema.cullSlash p)
    match n.get q.1 with
    | .ok c => if q.2 = [] then true else hasPathIn fuel c q.2
    | _ => false
def hasPath (n : BNode F) (p : Str) : Bool := hasPathIn (p.length + 1) n p

/-- conduit_node.cpp:14415-14483 `fetch`, of a path that exists (callers ask `has_path` before).  Not modelled: `..`. -/
def fetchIn : (fuel : Nat) → BNode F → Str → Res (BNode F)
  | 0, _, _ => .error
  | fuel + 1, n, p =>
    if p = [] then .error else
    let q := splitPath p
    if q.1 = [] then fetchIn fuel n q.2
    else if q.2 = [] then .ok (n.getOrEmpty q.1)
    else fetchIn fuel (n.getOrEmpty q.1) q.2
def fetch (n : BNode F) (p : Str) : Res (BNode F) := fetchIn (p.length + 1) n p

/-- conduit_node.cpp:14415-14483 `fetch`, and a change `f` of the node that is found or made there.  Not modelled: `..`. -/
def changeIn (f : BNode F → BNode F) : (fuel : Nat) → BNode F → Str → Res (BNode F)
  | 0, _, _ => .error
  | fuel + 1, n, p =>
    if p = [] then .error else
    let q := splitPath p
    if q.1 = [] then changeIn f fuel (.obj n.kids) q.2
    else if q.2 = [] then .ok (.obj (modKid q.1 f n.kids))
    else do
      let c ← changeIn f fuel (n.getOrEmpty q.1) q.2
      .ok (.obj (modKid q.1 (fun _ => c) n.kids))
def change (f : BNode F → BNode F) (n : BNode F) (p : Str) : Res (BNode F) := changeIn f (p.length + 1) n p

/-! ### `BasicHandle` -/

/-- The files by name. -/
abbrev Disk (F : Type) := Str → Option (BNode F)

/-- The modes that `write_mesh` and `read_mesh` ask for: `r`, `w`, `wt` and the default `rwa`. -/
inductive Mode where
  | r | w | wt | rwa
  deriving DecidableEq, Repr

/-- `open_mode_read() && !open_mode_truncate()`, conduit_relay_io_handle.cpp:203-269. -/
def Mode.loads : Mode → Bool
  | .r | .rwa => true
  | .w | .wt => false

/-- conduit_relay_io_handle.cpp:184-200, 405-449 `BasicHandle::open`: the tree of the handle. -/
def openFile (fs : Disk F) (path : Str) (m : Mode) : Res (BNode F) :=
  if (splitFilePath path ':').2 ≠ [] then .error else
  match fs path with
  | some n => .ok (if m.loads then n else .empty)
  | none => if m = .r then .error else .ok .empty

/-- A file is saved. -/
def Disk.put (fs : Disk F) (path : Str) (n : BNode F) : Disk F := fun p => if p = path then some n else fs p

/-- Open, `write(node, path)` (conduit_relay_io_handle.cpp:524-531), close (576-588). -/
def writeAt (fs : Disk F) (file : Str) (m : Mode) (ws : List (Str × BNode F)) : Res (Disk F) := do
  let n ← openFile fs file m
  let n ← ws.foldlM (fun n w => change w.2.update n w.1) n
  .ok (fs.put file n)

/-- Open, `write(node)` (conduit_relay_io_handle.cpp:505-512), close. -/
def writeAll (fs : Disk F) (file : Str) (m : Mode) (x : BNode F) : Res (Disk F) := do
  let n ← openFile fs file m
  .ok (fs.put file (x.update n))

/-- `read(path, node)`, conduit_relay_io_handle.cpp:480-492, on the tree `n` of the handle. -/
def readAt (n : BNode F) (p : Str) (out : BNode F) : Res (BNode F) :=
  if hasPath n p then (fetch n p).map' fun x => x.update out else .ok out

/-! ### Names -/

/-- `fmt` of an integer with `{:06d}`. -/
def pad6 (i : Int) : Str :=
  let d := Nat.toDigits 10 i.natAbs
  if i < 0 then '-' :: (List.replicate (5 - d.length) '0' ++ d) else List.replicate (6 - d.length) '0' ++ d

/-- `domain_{:06d}` -/
def domainName (i : Nat) : Str := chars! "domain_" ++ pad6 i
/-- `file_{:06d}` -/
def fileName (i : Nat) : Str := chars! "file_" ++ pad6 i

/-- `std::string::find` of a string. -/
def findSub (t : Str) : Str → Option Nat
  | [] => if t = [] then some 0 else none
  | c :: s => if t.isPrefixOf (c :: s) then some 0 else (findSub t s).map (· + 1)

/-- conduit_utils.cpp:450-470 `split_string` at `:/`: only one character of the separator is left out of the second part. -/
def splitColon (s : Str) : Str × Str :=
  match findSub (chars! ":/") s with
  | some found => (s.take found, if found ≠ s.length - 1 then s.drop (found + 1) else [])
  | none => (s, [])

/-- The tree path ends with `/` (conduit_relay_io_blueprint.cpp:233-238, 342-347). -/
def endSlash (s : Str) : Str := if s.length > 0 ∧ s.getLast? ≠ some '/' then s ++ ['/'] else s

/-! ### The path generators -/

/-- A replacement field of a `fmt` pattern.  Simplification: the format of an integer is none or `06d`, another is an error. -/
def field (args : List (Str × Int)) (s : Str) : Res Str :=
  let q := splitString s ':'
  match args.lookup q.1 with
  | none => .error
  | some v => if ':' ∉ s then .ok (decimal v) else if q.2 = chars! "06d" then .ok (pad6 v) else .error

/-- `fmt::vformat` with named integers; `inside`: what has been read of a replacement field, backwards.
    Simplification: arguments are named, not counted. -/
def vformat (args : List (Str × Int)) : (inside : Option Str) → Str → Res Str
  | none, [] => .ok []
  | some _, [] => .error
  | none, '{' :: '{' :: r => (vformat args none r).map' ('{' :: ·)
  | none, '}' :: '}' :: r => (vformat args none r).map' ('}' :: ·)
  | none, c :: r =>
    if c = '{' then vformat args (some []) r
    else if c = '}' then .error
    else (vformat args none r).map' (c :: ·)
  | some a, c :: r =>
    if c = '}' then do
      let s ← field args a.reverse
      (vformat args none r).map' (s ++ ·)
    else vformat args (some (c :: a)) r

/-- conduit_utils.cpp:1576-1800 `format(pattern, maps, map_index)`: the arguments.  Simplification: the maps are of integers. -/
def mapArgs (k : Nat) : List (Str × BNode F) → Res (List (Str × Int))
  | [] => .ok []
  | x :: l => match x.2 with
    | .ints _ vs => match vs[k]? with
      | none => .error
      | some v => (mapArgs k l).map' ((x.1, v) :: ·)
    | _ => .error

/-- `doms.max() + 1` (conduit_relay_io_blueprint.cpp:281, 2096); the largest of no elements is the least `int64`. -/
def countOf (doms : List Int) : Int := (doms.foldl max (-9223372036854775808)) + 1

/-- conduit_relay_io_blueprint.cpp:284-289: `dom_to_tree_vals[doms[i]] = i`. -/
def domToTree (doms : List Int) : (i k : Nat) → List Nat → Res (List Nat)
  | _, 0, t => .ok t
  | i, k + 1, t =>
    match doms[i]? with
    | none => .ub
    | some d => if d < 0 ∨ (t.length : Int) ≤ d then .ub else domToTree doms (i + 1) k (t.set d.toNat i)

/-- `BlueprintPartitonMapPathGenerator`, conduit_relay_io_blueprint.cpp:270-320: `GenerateFullPath`. -/
def fullPath (pattern : Str) (map : Option (BNode F)) (i : Nat) : Res Str :=
  match map with
  | none => .ok pattern
  | some m => do
    match (← m.get (chars! "domain")) with
    | .ints _ doms =>
      let n := (countOf doms).toNat
      let t ← domToTree doms 0 n (List.replicate n 0)
      let k ← Res.ofIdx t i
      let args ← mapArgs k m.kids
      vformat args none pattern
    | _ => .error

/-- conduit_relay_io_blueprint.cpp:164-199 `Expand`. -/
def expand (pattern : Str) (i : Nat) : Str :=
  match findSub (chars! "%d") pattern with
  | some k => pattern.take k ++ Nat.toDigits 10 i ++ pattern.drop (k + 4)
  | none =>
    let go (w : Nat) : Option Str :=
      (findSub (chars! "%0" ++ Nat.toDigits 10 w ++ chars! "d") pattern).map fun k =>
        let d := Nat.toDigits 10 i
        pattern.take k ++ (List.replicate (w - d.length) '0' ++ d) ++ pattern.drop (k + 4)
    (([2, 3, 4, 5, 6, 7, 8, 9].findSome? go).getD pattern)

/-- `BlueprintLegacyPathGenerator`, conduit_relay_io_blueprint.cpp:140-240: the file and the tree path of a domain. -/
def legacyPaths (filePattern treePattern : Str) (files trees i : Nat) : Res (Str × Str) := do
  let f ← (if trees = files then .ok i else if files = 1 then .ok 0 else do
      let m ← Files.domainMap trees files
      Res.ofIdx m.toFile i : Res Nat)
  .ok (expand filePattern f, endSlash (expand treePattern i))

/-- `GenerateFilePath` and `GenerateTreePath` of the partition map, conduit_relay_io_blueprint.cpp:322-349. -/
def partitionPaths (pattern : Str) (map : Option (BNode F)) (i : Nat) : Res (Str × Str) := do
  let s ← fullPath pattern map i
  .ok ((splitColon s).1, endSlash (splitColon s).2)

/-! ### `write_mesh` -/

/-- conduit_relay_io_blueprint.cpp:459-463 `quick_mesh_check`. -/
def quickCheck (n : BNode F) : Bool :=
  n.hasChild (chars! "topologies") && decide (0 < (n.getOrEmpty (chars! "topologies")).numChildren)

/-- conduit_relay_io_blueprint.cpp:684-690: the number of the domain is read before it is replaced. -/
def checkId (A : Arith F) (d : BNode F) : Res Unit :=
  match (d.getOrEmpty (chars! "state")).get (chars! "domain_id") with
  | .ok x => (x.toInt64 A).map' fun _ => ()
  | _ => .ok ()

/-- conduit_blueprint_mesh.cpp:7590-7602, one turn of `generate_domain_ids`.  Simplification: the number fits in an `int`. -/
def setId (i : Nat) (d : BNode F) : BNode F :=
  .obj (modKid (chars! "state") (fun s => .obj (modKid (chars! "domain_id") (fun _ => .ints int32 [(i : Int)]) s.kids)) d.kids)

/-- conduit_relay_io_blueprint.cpp:651-714 `clean_mesh`.  Not modelled: of a mesh of one domain the number of the domain is
    changed in the caller's mesh too, if it is an `int32`. -/
def cleanMesh (A : Arith F) (n : BNode F) : Res (List (BNode F)) := do
  let l := (n.items.map (·.2)).filter quickCheck
  l.forM (checkId A)
  let l := if l.isEmpty then (if quickCheck n then [n] else []) else l
  .ok (l.mapIdx setId)

/-- The options of `write_mesh`. -/
structure Opts where
  style : Str
  suffix : Str
  name : Str
  files : Int
  truncate : Bool

/-- An option that is a string. -/
def strOpt (o : BNode F) (f : Str) (dflt : Str) : Str :=
  match o.get f with
  | .ok (.str s) => s
  | _ => dflt

/-- conduit_relay_io_blueprint.cpp:896-949. -/
def readOpts (A : Arith F) (o : BNode F) : Res Opts := do
  let style := strOpt o (chars! "file_style") (chars! "default")
  if style ∉ [chars! "default", chars! "root_only", chars! "multi_file"] then .error
  else do
    let suffix := strOpt o (chars! "suffix") (chars! "default")
    if suffix ∉ [chars! "default", chars! "cycle", chars! "none"] then .error
    else do
      let name := strOpt o (chars! "mesh_name") (chars! "mesh")
      let files ← (match o.get (chars! "number_of_files") with
        | .ok (.ints t l) => (BNode.ints t l : BNode F).toInt32 A
        | _ => .ok (-1) : Res Int)
      .ok ⟨style, suffix, name, files, strOpt o (chars! "truncate") [] = chars! "true"⟩

/-- conduit_relay_io_blueprint.cpp:996-1024, 1113-1117: what is added to the path for the cycle.  `counter`: how often
    `write_mesh` of this path has counted up so far. -/
def cycleSuffix (A : Arith F) (suffix : Str) (counter : Int) (d : BNode F) : Res Str :=
  match (d.getOrEmpty (chars! "state")).get (chars! "cycle") with
  | .ok c => if suffix = chars! "none" then .ok [] else (c.toInt32 A).map' fun v => chars! ".cycle_" ++ pad6 v
  | _ => if suffix = chars! "cycle" then .ok (chars! ".cycle_" ++ pad6 counter) else .ok []

/-- Where the parts of the mesh go. -/
structure Plan where
  rootOnly : Bool
  /-- `output_dir` -/
  dir : Str
  /-- `root_filename` -/
  root : Str
  protocol : Str
  name : Str
  doms : Nat
  files : Nat
  truncate : Bool

/-- conduit_relay_io_blueprint.cpp:1081-1199. -/
def plan (o : Opts) (path protocol suffix : Str) (doms : Nat) : Plan where
  rootOnly := if o.style = chars! "default" then !decide (1 < doms) else o.style = chars! "root_only"
  dir := if (if o.style = chars! "default" then !decide (1 < doms) else o.style = chars! "root_only") then [] else path ++ suffix
  root := path ++ suffix ++ chars! ".root"
  protocol := protocol
  name := o.name
  doms := doms
  files := if o.files ≤ 0 ∨ (doms : Int) < o.files then doms else o.files.toNat
  truncate := o.truncate

/-- conduit_relay_io_blueprint.cpp:1209-1312, 1443-1511: the domains are written. -/
def writeDoms (p : Plan) (doms : List (BNode F)) (fs : Disk F) : Res (Disk F) :=
  if p.rootOnly then
    writeAt fs p.root (if p.truncate then .wt else .rwa)
      (doms.mapIdx fun i d => (if p.doms = 1 then p.name else domainName i ++ chars! "/" ++ p.name, d))
  else if p.doms = p.files then
    doms.zipIdx.foldlM (fun fs d =>
      writeAt fs (joinFilePath p.dir (domainName d.2 ++ chars! "." ++ p.protocol)) (if p.truncate then .wt else .w) [(p.name, d.1)]) fs
  else do
    match (← Files.writeDomains p.files p.truncate (fun _ => false) [p.doms] 3) with
    | some (.done, rounds) =>
      rounds.flatten.flatten.foldlM (fun fs w =>
        writeAt fs (joinFilePath p.dir (fileName w.file ++ chars! "." ++ p.protocol)) (if w.trunc then .wt else .rwa)
          [(domainName w.dom ++ chars! "/" ++ p.name, (doms[w.dom]?).getD .empty)]) fs
    | _ => .error

/-- The numbers from 0 on. -/
def counting (n : Nat) : BNode F := .ints int64 ((List.range n).map Int.ofNat)

/-- conduit_relay_io_blueprint.cpp:1620-1705 and 1339-1350: the patterns and the partition map. -/
structure Patterns (F : Type) where
  file : Str
  tree : Str
  part : Str
  map : List (Str × BNode F)

def patterns (p : Plan) : Res (Patterns F) :=
  let base := (rsplitPath (rsplitString p.dir '/').1).1
  if p.rootOnly then
    let file := (rsplitPath p.root).1
    if p.doms = 1 then .ok ⟨file, chars! "/", file ++ chars! ":/", []⟩
    else .ok ⟨file, chars! "/domain_%06d/", p.root ++ chars! ":/domain_{domain:06d}", [(chars! "domain", counting p.doms)]⟩
  else if p.doms = p.files then
    .ok ⟨joinFilePath base (chars! "domain_%06d." ++ p.protocol), chars! "/",
      joinFilePath base (chars! "domain_{domain:06d}." ++ p.protocol ++ chars! ":/"),
      [(chars! "file", counting p.doms), (chars! "domain", counting p.doms)]⟩
  else do
    let m ← Files.domainMap p.doms p.files
    .ok ⟨joinFilePath base (chars! "file_%06d." ++ p.protocol), chars! "/domain_%06d",
      joinFilePath base (chars! "file_{file:06d}." ++ p.protocol ++ chars! ":/domain_{domain:06d}"),
      [(chars! "file", .ints int64 (m.toFile.map Int.ofNat)), (chars! "domain", counting p.doms)]⟩

/-- conduit_relay_io_blueprint.cpp:1742-1748. -/
def addPartition (q : Patterns F) (idx : BNode F) : BNode F :=
  .obj (modKid (chars! "state") (fun s =>
    let s := modKid (chars! "partition_pattern") (fun _ => .str q.part) s.kids
    .obj (if q.map.isEmpty then s else modKid (chars! "partition_map") (fun _ => .obj q.map) s)) idx.kids)

/-- conduit_relay_io_blueprint.cpp:1750-1760: what goes into the root file. -/
def rootNode (p : Plan) (q : Patterns F) (version : Str) (bp : BNode F) : BNode F :=
  .obj [(chars! "blueprint_index", bp),
    (chars! "protocol", .obj [(chars! "name", .str p.protocol), (chars! "version", .str version)]),
    (chars! "number_of_files", .ints int32 [(p.files : Int)]), (chars! "number_of_trees", .ints int32 [(p.doms : Int)]),
    (chars! "file_pattern", .str q.file), (chars! "tree_pattern", .str q.tree)]

/-- conduit_relay_io_blueprint.cpp:888-1790 `write_mesh`. -/
def writeMesh (A : Arith F) (version : Str) (counter : Int) (mesh : BNode F) (path protocol : Str) (opts : BNode F)
    (fs : Disk F) : Res (Disk F) := do
  let o ← readOpts A opts
  let doms ← cleanMesh A mesh
  match doms with
  | [] => .ok fs
  | d :: _ => do
    let suffix ← cycleSuffix A o.suffix counter d
    let p := plan o path protocol suffix doms.length
    let fs ← writeDoms p doms fs
    let idx ← generateIndex (.list doms) p.name p.doms
    let q ← patterns p
    let bp ← change (fun _ => addPartition q idx) .empty p.name
    writeAll fs p.root (if !p.rootOnly && p.truncate then .wt else .rwa) (rootNode p q version bp)

/-- conduit_relay_io_blueprint.cpp:788-811 `save_mesh`. -/
def saveMesh (A : Arith F) (version : Str) (counter : Int) (mesh : BNode F) (path protocol : Str) (opts : BNode F)
    (fs : Disk F) : Res (Disk F) :=
  writeMesh A version counter mesh path protocol (.obj (modKid (chars! "truncate") (fun _ => .str (chars! "true")) opts.kids)) fs

/-! ### `read_mesh` -/

/-- The names read from the root file (conduit_relay_io_blueprint.cpp:1903-1908). -/
def rootNames : List Str :=
  [chars! "blueprint_index", chars! "file_pattern", chars! "tree_pattern", chars! "number_of_trees", chars! "number_of_files",
   chars! "protocol"]

/-- conduit_relay_io_blueprint.cpp:1862-1979 `read_root_blueprint_index`: the parts of the root file and the name of the mesh. -/
def readRoot (fs : Disk F) (path : Str) (opts : BNode F) : Res (BNode F × Str) := do
  let n ← openFile fs path .r
  let root ← rootNames.foldlM (fun r name =>
    if hasPath n name then do
      let x ← readAt n name (r.getOrEmpty name)
      .ok (.obj (modKid name (fun _ => x) r.kids))
    else .ok r) (.empty : BNode F)
  let bp ← root.get (chars! "blueprint_index")
  let name := strOpt opts (chars! "mesh_name") []
  let name ← (if name = [] then (match bp.items with | k :: _ => .ok k.1 | [] => .error) else .ok name : Res Str)
  if bp.hasChild name then .ok (root, name) else .error

/-- conduit_relay_io_blueprint.cpp:2234-2260: the entry `e` of the collection `coll`.
    Simplification: names are not split at `/`. -/
def readEntry (file : BNode F) (tree coll : Str) (out : BNode F) (e : Str × BNode F) : Res (BNode F) :=
  if e.2.hasChild (chars! "path") then do
    let p ← (← e.2.get (chars! "path")).asString
    if hasPath file (joinPath tree p) then do
      let x ← readAt file (joinPath tree p) ((out.getOrEmpty coll).getOrEmpty e.1)
      .ok (.obj (modKid coll (fun c => .obj (modKid e.1 (fun _ => x) c.kids)) out.kids))
    else .ok out
  else .ok out

/-- conduit_relay_io_blueprint.cpp:2207-2229: the state. -/
def readState (file : BNode F) (tree : Str) (out : BNode F) (s : BNode F) : Res (BNode F) :=
  if s.hasChild (chars! "path") then do
    let p ← (← s.get (chars! "path")).asString
    let x ← readAt file (joinPath tree p) (out.getOrEmpty (chars! "state"))
    .ok (.obj (modKid (chars! "state") (fun _ => x) out.kids))
  else
    let copy (f : Str) (out : BNode F) : BNode F := match s.get f with
      | .ok x => .obj (modKid (chars! "state") (fun c => .obj (modKid f (fun _ => x) c.kids)) out.kids)
      | _ => out
    .ok (copy (chars! "time") (copy (chars! "cycle") out))

/-- conduit_relay_io_blueprint.cpp:2198-2262, a child of the index. -/
def readOuter (file : BNode F) (tree : Str) (out : BNode F) (k : Str × BNode F) : Res (BNode F) := do
  let out ← (if k.1 = chars! "state" then readState file tree out k.2 else .ok out : Res (BNode F))
  k.2.items.foldlM (readEntry file tree k.1) out

/-- The same, all of the index. -/
def readDomain (file : BNode F) (tree : Str) (idx out : BNode F) : Res (BNode F) :=
  idx.items.foldlM (readOuter file tree) out

/-- conduit_relay_io_blueprint.cpp:2062-2140: the number of domains, and where each is. -/
def locate (A : Arith F) (root idx : BNode F) : Res (Nat × (Nat → Res (Str × Str))) := do
  let s := idx.getOrEmpty (chars! "state")
  match s.get (chars! "partition_pattern") with
  | .ok pat => do
    let n ← (match (s.getOrEmpty (chars! "partition_map")).get (chars! "domain") with
      | .ok (.ints _ doms) => .ok (countOf doms).toNat
      | .ok _ => .error
      | _ => .ok 1 : Res Nat)
    let pat ← pat.asString
    .ok (n, partitionPaths pat (match s.get (chars! "partition_map") with | .ok m => some m | _ => none))
  | _ => do
    let fp ← root.get (chars! "file_pattern")
    let n ← (← root.get (chars! "number_of_trees")).toInt32 A
    let f ← (← root.get (chars! "number_of_files")).toInt32 A
    let fp ← fp.asString
    let tp ← (root.getOrEmpty (chars! "tree_pattern")).asString
    .ok (n.toNat, legacyPaths fp tp f.toNat n.toNat)

/-- conduit_relay_io_blueprint.cpp:1982-2266 `read_mesh`, the basic protocols. -/
def readMesh (A : Arith F) (fs : Disk F) (path : Str) (opts mesh : BNode F) : Res (BNode F) := do
  let (root, name) ← readRoot fs path opts
  let idx ← fetch (root.getOrEmpty (chars! "blueprint_index")) name
  let (ok, _) ← indexVerify idx .empty
  if !ok then .error
  else do
    let (n, place) ← locate A root idx
    (List.range n).foldlM (fun mesh i => do
      let (file, tree) ← place i
      let f ← openFile fs (joinPath (rsplitString path '/').2 file) .r
      let x ← readDomain f tree idx (mesh.getOrEmpty (domainName i))
      .ok (.obj (modKid (domainName i) (fun _ => x) mesh.kids))) mesh

/-- conduit_relay_io_blueprint.cpp:1806-1840 `load_mesh`. -/
def loadMesh (A : Arith F) (fs : Disk F) (path : Str) (opts : BNode F) : Res (BNode F) := readMesh A fs path opts .empty

end
end Conduit.MeshIO
