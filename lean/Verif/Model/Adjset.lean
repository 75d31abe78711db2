import Verif.Model.MeshTree
import Verif.Model.Matset
import Verif.Model.Json
/-
Adjacency sets: which entities of a domain are shared with which other domains.
Sources: /repo/src/libs/blueprint/conduit_blueprint_mesh.cpp:6816-7048 (`is_pairwise`, `is_maxshare`, `to_pairwise`,
`to_maxshare`), conduit_blueprint_mesh_utils.cpp:399-422 (`find_domain_id`), 2873-2943 (`canonicalize`, `is_canonical`).

Simplifications common to this file: group names hold no '/', so that `groups[name]` is the child of that name.
-/
namespace Conduit.Mesh
variable {F κ β : Type}

/-! ### containers -/

/-- One step of an insertion sort. -/
def insertBy (lt : κ → κ → Bool) (a : κ) : List κ → List κ
  | [] => [a]
  | b :: l => if lt b a then b :: insertBy lt a l else a :: b :: l

/-- `std::sort`: of all algorithms that sort, insertion (equal elements cannot be told apart here). -/
def sortBy (lt : κ → κ → Bool) (l : List κ) : List κ := l.foldr (insertBy lt) []

/-- `operator<` on `index_t`. -/
def intLt (a b : Int) : Bool := decide (a < b)

/-- `std::set<index_t>::insert`; the elements are kept in ascending order. -/
def setInsert (x : Int) : List Int → List Int
  | [] => [x]
  | y :: s => if x = y then y :: s else if x < y then x :: y :: s else y :: setInsert x s

/-- `operator<` on `std::set<index_t>`: lexicographic. -/
def setLt : List Int → List Int → Bool
  | _, [] => false
  | [], _ :: _ => true
  | a :: as, b :: bs => if a < b then true else if b < a then false else setLt as bs

/-- `map[k] = f(map[k])`, where `map[k]` creates the entry `d` if there is none; the entries are kept in key order. -/
def mapMod [DecidableEq κ] (lt : κ → κ → Bool) (k : κ) (d : β) (f : β → β) : List (κ × β) → List (κ × β)
  | [] => [(k, f d)]
  | (k', v) :: m =>
    if k = k' then (k', f v) :: m
    else if lt k k' then (k, f d) :: (k', v) :: m
    else (k', v) :: mapMod lt k d f m

/-- `map.find(k)` -/
def mapGet [DecidableEq κ] (m : List (κ × β)) (k : κ) : Option β := (m.find? fun e => e.1 = k).map (·.2)

/-! ### reading -/

/-- The loops `temp(DataType(id, 1), element_ptr(i)); temp.to_index_t()` over an array.
    A string has elements too: reading those is left out (undefined). -/
def leafInts (A : Arith F) : BNode F → Res (List Int)
  | .ints _ l => .ok (l.map int64.cast)
  | .flts _ l => .ok (l.map A.trunc)
  | .str _ => .ub
  | _ => .ok []

/-- conduit_blueprint_mesh.cpp:6881-6904: the neighbors and the values of a group. -/
def readGroup (A : Arith F) (g : BNode F) : Res (List Int × List Int) := do
  let nb ← leafInts A (← g.get (chars! "neighbors"))
  let vs ← leafInts A (← g.get (chars! "values"))
  .ok (nb, vs)

/-- conduit_blueprint_mesh.cpp:6819-6831 `is_pairwise`; the loop ends at the first group that is not. -/
def pairwiseLoop : List (Str × BNode F) → Res Bool
  | [] => .ok true
  | (_, g) :: gs => do
    let nb ← g.get (chars! "neighbors")
    if nb.numElements = 1 then pairwiseLoop gs else .ok false

def isPairwise (n : BNode F) : Res Bool := do
  let gs ← n.get (chars! "groups")
  pairwiseLoop gs.kids

/-- conduit_blueprint_mesh.cpp:6846-6855: the values of one group against the ids seen so far. -/
def maxshareVals (vs : List Int) (st : Bool × List Int) : Bool × List Int :=
  vs.foldl (fun st v => (st.1 && !st.2.contains v, setInsert v st.2)) st

/-- conduit_blueprint_mesh.cpp:6834-6859 `is_maxshare`; the loop ends after the first group with a repeated id. -/
def maxshareLoop (A : Arith F) : List (Str × BNode F) → Bool × List Int → Res Bool
  | [], st => .ok st.1
  | (_, g) :: gs, st =>
    if st.1 then do
      let vs ← leafInts A (← g.get (chars! "values"))
      maxshareLoop A gs (maxshareVals vs st)
    else .ok false

def isMaxshare (A : Arith F) (n : BNode F) : Res Bool := do
  let gs ← n.get (chars! "groups")
  maxshareLoop A gs.kids (true, [])

/-! ### canonical names -/

/-- conduit_blueprint_mesh_utils.cpp:399-422 `find_domain_id`: the nodes from the given one up to the root; for each
    the `state/domain_id` of its first domain, if it passes `mesh::verify` and has one.
    Simplification: `mesh::verify` is not modelled; its results are given. -/
def findDomainId : List (Option Int) → Int
  | [] => -1
  | none :: up => findDomainId up
  | some d :: up => if d = -1 then findDomainId up else d

/-- conduit_blueprint_mesh_utils.cpp:2883-2907: the name of a group with these neighbors. -/
def canonicalName (dom : Int) (nb : List Int) : Str :=
  chars! "group" ++ (sortBy intLt (dom :: nb)).flatMap fun d => '_' :: intText d

/-- conduit_blueprint_mesh_utils.cpp:2879-2911: the group at position `i`; `rename_child` rejects a name in use. -/
def canonicalStep (A : Arith F) (dom : Int) (ks : List (Str × BNode F)) (i : Nat) : Res (List (Str × BNode F)) := do
  let k ← Res.ofIdx ks i
  let nb ← leafInts A (← k.2.get (chars! "neighbors"))
  let new := canonicalName dom nb
  if k.1 = new then .ok ks
  else if ks.any (fun k => k.1 == new) then .error
  else .ok (ks.set i (new, k.2))

/-- conduit_blueprint_mesh_utils.cpp:2875-2912 `adjset::canonicalize` on the children of "groups"; `child_names()` is
    a reference to the names being changed, and each is read before it is changed. -/
def canonicalGroups (A : Arith F) (dom : Int) (ks : List (Str × BNode F)) : Res (List (Str × BNode F)) :=
  (List.range ks.length).foldlM (canonicalStep A dom) ks

/-- Replace the child of this name. -/
def putKid (ks : List (Str × BNode F)) (name : Str) (v : BNode F) : List (Str × BNode F) :=
  ks.map fun k => if k.1 = name then (k.1, v) else k

def canonicalize (A : Arith F) (dom : Int) (n : BNode F) : Res (BNode F) := do
  let gs ← n.get (chars! "groups")
  let ks ← canonicalGroups A dom gs.kids
  .ok (.obj (putKid n.kids (chars! "groups") (.obj ks)))

/-! ### conversions -/

/-- conduit_blueprint_mesh.cpp:6914-6919, 6996-7001: the adjset without its groups. -/
def template (n : BNode F) : List (Str × BNode F) := n.kids.filter fun k => k.1 != chars! "groups"

/-- conduit_blueprint_mesh.cpp:6878-6910: one group. -/
def pairGroup (nb vs : List Int) (m : List (Int × List Int)) : List (Int × List Int) :=
  nb.foldl (fun m d => mapMod intLt d [] (· ++ vs) m) m

/-- conduit_blueprint_mesh.cpp:6872-6910: the values shared with each neighbor; groups in the order of their names. -/
def pairValues (A : Arith F) (gs : BNode F) (names : List Str) : Res (List (Int × List Int)) :=
  names.foldlM (fun m name => do
    let r ← readGroup A (← gs.get name)
    .ok (pairGroup r.1 r.2 m)) []

/-- The names of the groups, sorted: conduit_blueprint_mesh.cpp:6872-6873, 6956-6957. -/
def sortedNames (gs : BNode F) : List Str := sortBy Matset.strLt (gs.kids.map (·.1))

/-- conduit_blueprint_mesh.cpp:6926-6937: a group made from index_t arrays. -/
def makeGroup (t : IntTy) (nb vs : List Int) : BNode F :=
  .obj [(chars! "neighbors", .ints t (nb.map t.cast)), (chars! "values", .ints t (vs.map t.cast))]

/-- The groups in order, named by their position. -/
def numbered (gs : List (BNode F)) : List (Str × BNode F) := gs.mapIdx fun i g => (intText i, g)

/-- conduit_blueprint_mesh.cpp:6862-6941 `adjset::to_pairwise`; `up` describes the nodes above `dest` for
    `find_domain_id`. -/
def toPairwise (A : Arith F) (up : List (Option Int)) (n : BNode F) : Res (BNode F) := do
  let t := widestInt n
  let gs ← n.get (chars! "groups")
  let m ← pairValues A gs (sortedNames gs)
  let groups := numbered (m.map fun e => makeGroup t [e.1] e.2)
  canonicalize A (findDomainId up) (.obj (template n ++ [(chars! "groups", .obj groups)]))

/-- conduit_blueprint_mesh.cpp:6959-6990: the set of neighbors of each entity. -/
def entitySets (A : Arith F) (gs : BNode F) (names : List Str) : Res (List (Int × List Int)) :=
  names.foldlM (fun m name => do
    let r ← readGroup A (← gs.get name)
    .ok (r.2.foldl (fun m v => mapMod intLt v [] (fun s => r.1.foldl (fun s d => setInsert d s) s) m) m)) []

/-- conduit_blueprint_mesh.cpp:7003-7018: the sets of neighbors, each once, in the order of the entities. -/
def neighborSets (m : List (Int × List Int)) : List (List Int) :=
  m.foldl (fun sets e => if sets.contains e.2 then sets else sets ++ [e.2]) []

/-- conduit_blueprint_mesh.cpp:7033-7041: an entity is added to the values of its set of neighbors, unless it is there. -/
def addValue (esets : List (Int × List Int)) (m : List (List Int × List Int)) (v : Int) : List (List Int × List Int) :=
  mapMod setLt ((mapGet esets v).getD []) [] (fun vs => if vs.contains v then vs else vs ++ [v]) m

/-- conduit_blueprint_mesh.cpp:7023-7043: the values of each set of neighbors. -/
def setValues (A : Arith F) (gs : BNode F) (esets : List (Int × List Int)) (names : List Str) :
    Res (List (List Int × List Int)) :=
  names.foldlM (fun m name => do
    let vs ← leafInts A (← (← gs.get name).get (chars! "values"))
    .ok (vs.foldl (addValue esets) m)) []

/-- conduit_blueprint_mesh.cpp:6944-7048 `adjset::to_maxshare`. -/
def toMaxshare (A : Arith F) (up : List (Option Int)) (n : BNode F) : Res (BNode F) := do
  let t := widestInt n
  let gs ← n.get (chars! "groups")
  let names := sortedNames gs
  let esets ← entitySets A gs names
  let vals ← setValues A gs esets names
  let groups := numbered ((neighborSets esets).map fun s => makeGroup t s ((mapGet vals s).getD []))
  canonicalize A (findDomainId up) (.obj (template n ++ [(chars! "groups", .obj groups)]))

/-! ### is_canonical -/

/-- `atoi`: digits after an optional sign.  Simplification: leading blanks are not skipped, and a number outside of
    `int` (undefined behaviour) is not cut. -/
def atoi (s : Str) : Int :=
  match s with
  | '-' :: r => -(JV.digitsVal (r.takeWhile Char.isDigit) : Int)
  | '+' :: r => JV.digitsVal (r.takeWhile Char.isDigit)
  | r => JV.digitsVal (r.takeWhile Char.isDigit)

/-- Each element less than the next one. -/
def ascending : List Int → Bool
  | a :: b :: l => decide (a < b) && ascending (b :: l)
  | _ => true

/-- conduit_blueprint_mesh_utils.cpp:2921-2938: one name. -/
def canonicalOk (name : Str) : Bool :=
  if (chars! "group").isPrefixOf name then
    let tokens := splitVec name '_'
    decide (3 ≤ tokens.length) && ascending (tokens.tail.map atoi)
  else false

/-- conduit_blueprint_mesh_utils.cpp:2915-2943 `adjset::is_canonical`. -/
def isCanonical (n : BNode F) : Res Bool := do
  let gs ← n.get (chars! "groups")
  .ok (gs.kids.all fun k => canonicalOk k.1)

end Conduit.Mesh
