import Verif.Model.Res
/-
How the domains of a mesh are shared out over files and MPI ranks by `relay::mpi::io::blueprint::write_mesh` and
`read_mesh` (conduit_relay_io_blueprint.cpp, built with CONDUIT_RELAY_IO_MPI_ENABLED; the serial build is one rank).
-/
namespace Conduit.Files

/-! ### `gen_domain_to_file_map` -/

/-- What `gen_domain_to_file_map` sets in `out`. -/
structure DomainMap where
  perFile : List Nat
  offsets : List Nat
  toFile : List Nat
  deriving DecidableEq, Repr

/-- conduit_relay_io_blueprint.cpp:93-98, the domains of each file. -/
def perFile (domains files : Nat) : List Nat :=
  (List.range files).map fun f => if f < domains % files then domains / files + 1 else domains / files

/-- conduit_relay_io_blueprint.cpp:103-107, one turn of the prefix sum. -/
def offsetStep (per : List Nat) (o : List Nat) (f : Nat) : List Nat :=
  o.set f (o.getD f 0 + (per.getD (f - 1) 0 + o.getD (f - 1) 0))

/-- conduit_relay_io_blueprint.cpp:100-108; `set(DataType)` leaves the array zero. -/
def offsets (per : List Nat) (files : Nat) : List Nat :=
  (List.range' 1 (files - 1)).foldl (offsetStep per) (List.replicate files 0)

/-- conduit_relay_io_blueprint.cpp:111-121: `f` is `f_idx`, `d` the domain, `k` domains remain. -/
def assign (off : List Nat) (files : Nat) : (f d k : Nat) → List Nat
  | _, _, 0 => []
  | f, d, k + 1 =>
    let f := if f + 1 < files && off.getD (f + 1) 0 ≤ d then f + 1 else f
    f :: assign off files f (d + 1) k

/-- `gen_domain_to_file_map`, conduit_relay_io_blueprint.cpp:78-123.  No files: division by zero.  Simplification: the counts
    are not negative and do not overflow. -/
def domainMap (domains files : Nat) : Res DomainMap :=
  if files = 0 then .ub else
  let per := perFile domains files
  let off := offsets per files
  .ok ⟨per, off, assign off files 0 0 domains⟩

/-! ### Domain numbers -/

/-- `mpi::mesh::generate_domain_ids`, conduit_blueprint_mpi_mesh.cpp:2713-2741: the number of the first domain of a rank, from
    the numbers of domains of the ranks (`MPI_Allgather`). -/
def firstDomain (counts : List Nat) (rank : Nat) : Nat := (counts.take rank).sum

/-! ### N domains to M files -/

/-- One `open`, `write` and close of a domain: the handle is made anew for each domain (line 1452).  `trunc`: it is opened
    with mode `wt`. -/
structure Write where
  rank : Nat
  file : Nat
  dom : Nat
  trunc : Bool
  deriving DecidableEq, Repr

/-- The books of a rank, conduit_relay_io_blueprint.cpp:1320-1399.  Arrays are functions: all of the code's indices are in
    range. -/
structure Rank where
  /-- `local_num_domains` -/
  count : Nat
  /-- `state/domain_id` of the first domain; the others follow -/
  first : Nat
  /-- `local_domain_to_file` -/
  toFile : Nat → Nat
  /-- `local_domain_status` -/
  pending : Nat → Bool
  /-- `local_file_created` -/
  created : Nat → Bool
  /-- `global_file_created`: each rank has its own -/
  gCreated : Nat → Bool
  /-- `global_file_batons`: each rank has its own -/
  gBatons : Nat → Int
  /-- `local_all_is_good` -/
  good : Bool

def Rank.start (counts : List Nat) (toFile : List Nat) (rank : Nat) : Rank where
  count := counts.getD rank 0
  first := firstDomain counts rank
  toFile d := toFile.getD (firstDomain counts rank + d) 0
  pending _ := true
  created _ := false
  gCreated _ := false
  gBatons _ := 0
  good := true

/-- An element of an array is set. -/
def put {α : Type} (a : Nat → α) (i : Nat) (v : α) : Nat → α := fun j => if j = i then v else a j

/-- `local_file_batons[f]`, lines 1404-1421. -/
def baton (rank : Nat) (k : Rank) (f : Nat) : Int :=
  (List.range k.count).foldl (fun b d => if k.pending d && k.toFile d == f then (rank : Int) else b) (-1)

/-- `MPI_MAX` over the ranks. -/
def maxOf : List Int → Int
  | [] => -1
  | x :: xs => xs.foldl max x

/-- Lines 1423-1439: both `max_all_reduce`. -/
def reduce (ks : List Rank) (k : Rank) : Rank :=
  { k with
    gBatons := fun f => maxOf (ks.mapIdx fun r k => baton r k f)
    gCreated := fun f => ks.any fun k => k.created f }

/-- Lines 1452-1508, domain `d` and file `f`.  `fails`: `open` or `write` raises an error for this domain.  Not modelled: an
    error of the handle's destructor, where the basic protocols save the file. -/
def writeDomain (trunc : Bool) (fails : Nat → Bool) (rank f : Nat) (s : Rank × List Write) (d : Nat) : Rank × List Write :=
  let k := s.1
  if k.good && k.pending d && k.toFile d == f then
    let t := trunc && !k.gCreated f
    let k := if t then { k with created := put k.created f true, gCreated := put k.gCreated f true } else k
    if fails (k.first + d) then ({ k with good := false }, s.2)
    else ({ k with pending := put k.pending d false }, s.2 ++ [⟨rank, f, k.first + d, t⟩])
  else s

/-- Lines 1446-1510, file `f`. -/
def writeFile (trunc : Bool) (fails : Nat → Bool) (rank : Nat) (s : Rank × List Write) (f : Nat) : Rank × List Write :=
  if s.1.good && s.1.gBatons f == (rank : Int) then (List.range s.1.count).foldl (writeDomain trunc fails rank f) s else s

/-- Lines 1443-1511, all files. -/
def writeFiles (files : Nat) (trunc : Bool) (fails : Nat → Bool) (rank : Nat) (k : Rank) : Rank × List Write :=
  (List.range files).foldl (writeFile trunc fails rank) (k, [])

/-- Lines 1548-1558: does this rank go for another round? -/
def another (files : Nat) (k : Rank) : Bool := (List.range files).any fun f => k.gBatons f != -1

/-- The writes of a round, by rank. -/
abbrev Round := List (List Write)

inductive End where
  /-- every rank left the loop -/
  | done
  /-- every rank raised an error -/
  | raised
  /-- some ranks left the loop and others wait for them -/
  | hang
  deriving DecidableEq, Repr

/-- The loop of lines 1401-1559 on all ranks, at most `fuel` times; none: it goes on. -/
def twirl (files : Nat) (trunc : Bool) (fails : Nat → Bool) : (fuel : Nat) → List Rank → Option (End × List Round)
  | 0, _ => none
  | fuel + 1, ks =>
    let ks := ks.map (reduce ks)
    let out := ks.mapIdx (writeFiles files trunc fails)
    let ks := out.map (·.1)
    let ws := out.map (·.2)
    if !ks.all (·.good) then some (.raised, [ws])
    else if ks.all (another files) then (twirl files trunc fails fuel ks).map fun r => (r.1, ws :: r.2)
    else if ks.all (!another files ·) then some (.done, [ws])
    else some (.hang, [ws])

/-- `write_mesh`, N domains to M files, lines 1313-1560. `counts`: the domains of each rank. -/
def writeDomains (files : Nat) (trunc : Bool) (fails : Nat → Bool) (counts : List Nat) (fuel : Nat) :
    Res (Option (End × List Round)) := do
  let m ← domainMap counts.sum files
  .ok (twirl files trunc fails fuel ((List.range counts.length).map (Rank.start counts m.toFile)))

/-! ### All domains to the root file -/

/-- One use of a handle: the domains written to the root file between its opening and closing. -/
structure Session where
  rank : Nat
  trunc : Bool
  doms : List Nat
  deriving DecidableEq, Repr

/-- Lines 1228-1271, the turn of a rank with the domains `ds`; `created`: `global_root_file_created`. The handle that is open. -/
def rootTurn (trunc created : Bool) (rank : Nat) (ds : List Nat) : Option Session :=
  ds.foldl (fun h d =>
    let h := match h with
      | some h => h
      | none => ⟨rank, trunc && !created, []⟩
    some { h with doms := h.doms ++ [d] }) none

/-- Lines 1224-1282: the ranks from `rank` on, with `n` domains each, in turn.  `created`: some rank has set
    `local_root_file_created`. -/
def rootTurns (trunc : Bool) : (created : Bool) → (rank first : Nat) → (counts : List Nat) → List Session
  | _, _, _, [] => []
  | created, rank, first, n :: counts =>
    let s := rootTurn trunc created rank (List.range' first n)
    s.toList ++ rootTurns trunc (created || s.any (·.trunc)) (rank + 1) (first + n) counts

/-- `write_mesh`, `root_only`, lines 1209-1283: what is done to the root file, in order. -/
def writeRoot (trunc : Bool) (counts : List Nat) : List Session := rootTurns trunc false 0 0 counts

/-! ### Reading -/

/-- `read_size` of `read_mesh`, lines 2147-2152. -/
def readSize (domains ranks rank : Nat) : Nat :=
  if rank < domains % ranks then domains / ranks + 1 else domains / ranks

/-- `domain_start` and `domain_end` of `read_mesh`, lines 2142-2172. Simplification: counts are not negative. -/
def readRange (domains ranks rank : Nat) : Nat × Nat :=
  let counts := (List.range ranks).map (readSize domains ranks)
  let start := ((List.range rank).map fun i => counts.getD i 0).sum
  (start, start + readSize domains ranks rank)

end Conduit.Files
