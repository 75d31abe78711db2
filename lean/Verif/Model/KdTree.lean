import Verif.Model.MeshTree
/-
Lookup of points by their coordinates: the kd-tree and the point query built on it.
Sources: /repo/src/libs/blueprint/conduit_blueprint_mesh_kdtree.hpp, conduit_blueprint_mesh_utils.cpp
-/
namespace Conduit.Kd

/-- Arithmetic of the platform on the coordinate type (`float` or `double`). -/
structure Ops (K : Type) where
  zero : K
  /-- `a < b` -/
  lt : K → K → Bool
  /-- `a <= b`, that is `b >= a` -/
  le : K → K → Bool
  add : K → K → K
  sub : K → K → K
  mul : K → K → K
  /-- `x / 2.` -/
  half : K → K
  /-- `x / 200.` -/
  d200 : K → K
  /-- `numeric_limits<CoordinateType>::max()` -/
  maxLim : K
  /-- `numeric_limits<CoordinateType>::min()`: for floating point types the smallest positive value -/
  minLim : K
  /-- `DEFAULT_POINT_TOLERANCE * 200.` -/
  minExp : K

/-- `CoordinateType[NDIMS][2]` -/
abbrev Box (K : Type) := Nat → K × K

/-- `CoordinateType[NDIMS]` -/
abbrev Pt (K : Type) := Nat → K

/-- conduit_blueprint_mesh_kdtree.hpp:129-133 `RangeType`. -/
structure Range where
  offset : Nat
  size : Nat
deriving DecidableEq, Repr

/-- conduit_blueprint_mesh_kdtree.hpp:136-145 `BoxInfo`; `none` is `NoChild`. -/
structure BoxInfo where
  child : Option Nat
  dim : Nat
  range : Range
deriving DecidableEq, Repr

/-- The coordinates a tree is made for, and the means to sort.
    Simplifications: every coordinate array has `len` elements; `int` and `index_t` are unbounded.
    `std::sort` is any function: which order it gives to equal elements is not specified. -/
structure Env (K : Type) where
  ops : Ops K
  /-- `NDIMS` -/
  nd : Nat
  /-- `coordlen` -/
  len : Nat
  /-- `coords[dimension][index]` -/
  coord : Nat → Nat → K
  /-- `std::sort` -/
  sort : (Nat → Nat → Bool) → List Nat → List Nat

/-- The members `boxes` and `index`. -/
structure St where
  boxes : List BoxInfo
  index : List Nat
deriving DecidableEq, Repr

variable {K : Type}

/-- conduit_blueprint_mesh_kdtree.hpp:581-589 `pointInBox`. -/
def pointInBox (E : Env K) (pt : Pt K) (b : Box K) : Bool :=
  (List.range E.nd).foldl (fun r i => r && (E.ops.le (b i).1 (pt i) && E.ops.lt (pt i) (b i).2)) true

/-- conduit_blueprint_mesh_kdtree.hpp:436-447 `pointEqual`. -/
def pointEqual (E : Env K) (tol2 : K) (pt : Pt K) (idx : Nat) : Bool :=
  let dist2 := (List.range E.nd).foldl
    (fun s i => let delta := E.ops.sub (pt i) (E.coord i idx); E.ops.add s (E.ops.mul delta delta)) E.ops.zero
  E.ops.lt dist2 tol2

/-- `std::min(a, b)` -/
def minK (o : Ops K) (a b : K) : K := if o.lt b a then b else a

/-- `std::max(a, b)` -/
def maxK (o : Ops K) (a b : K) : K := if o.lt a b then b else a

/-- conduit_blueprint_mesh_kdtree.hpp:455-461: the least and the greatest coordinate of a dimension. -/
def extent (E : Env K) (i : Nat) : K × K :=
  (List.range E.len).foldl (fun b j => (minK E.ops b.1 (E.coord i j), maxK E.ops b.2 (E.coord i j)))
    (E.ops.maxLim, E.ops.minLim)

/-- conduit_blueprint_mesh_kdtree.hpp:469-472. -/
def expand (o : Ops K) (b : K × K) : K × K :=
  let side := maxK o (o.sub b.2 b.1) o.minExp
  let d := o.d200 side
  (o.sub b.1 d, o.add b.2 d)

/-- conduit_blueprint_mesh_kdtree.hpp:450-474 `calculateExtents`. -/
def calculateExtents (E : Env K) : Box K := fun i => expand E.ops (extent E i)

/-- `b[dimension][0] = lo; b[dimension][1] = hi;` -/
def setDim (b : Box K) (dim : Nat) (v : K × K) : Box K := fun i => if i = dim then v else b i

/-- conduit_blueprint_mesh_kdtree.hpp:299: where a box is cut. -/
def midOf (o : Ops K) (b : Box K) (dim : Nat) : K := o.half (o.add (b dim).1 (b dim).2)

/-- conduit_blueprint_mesh_kdtree.hpp:288-302 `cutBox`. -/
def cutBox (o : Ops K) (b : Box K) (dim : Nat) : Box K × Box K :=
  let mid := midOf o b dim
  (setDim b dim ((b dim).1, mid), setDim b dim (mid, (b dim).2))

/-- conduit_blueprint_mesh_kdtree.hpp:547-560 `longest`.  `len` stays the length of the first
    dimension. -/
def longest (E : Env K) (b : Box K) : Nat :=
  let len := E.ops.sub (b 0).2 (b 0).1
  (List.range (E.nd - 1)).foldl
    (fun rv i => if E.ops.lt len (E.ops.sub (b (i + 1)).2 (b (i + 1)).1) then i + 1 else rv) 0

/-- The part of the index vector that belongs to a range. -/
def slice (l : List Nat) (r : Range) : List Nat := (l.drop r.offset).take r.size

/-- Replacement of the part. -/
def splice (l : List Nat) (r : Range) (new : List Nat) : List Nat :=
  l.take r.offset ++ new ++ l.drop (r.offset + r.size)

/-- conduit_blueprint_mesh_kdtree.hpp:562-578 `sortIndexRange`. -/
def sortIndexRange (E : Env K) (index : List Nat) (r : Range) (dim : Nat) : List Nat :=
  if 1 < r.size then
    splice index r (E.sort (fun a b => E.ops.lt (E.coord dim a) (E.coord dim b)) (slice index r))
  else index

/-- conduit_blueprint_mesh_kdtree.hpp:313-324: the leading indices whose coordinate is below `v`. -/
def countBelow (E : Env K) (dim : Nat) (v : K) : List Nat → Nat
  | [] => 0
  | i :: is => if E.ops.lt (E.coord dim i) v then countBelow E dim v is + 1 else 0

/-- conduit_blueprint_mesh_kdtree.hpp:304-330 `cutRange`. -/
def cutRange (E : Env K) (index : List Nat) (r : Range) (dim : Nat) (v : K) : Range × Range :=
  let a := countBelow E dim v (slice index r)
  (⟨r.offset, a⟩, ⟨r.offset + a, r.size - a⟩)

/-- A write to `boxes[bp]`. -/
def setBox (l : List BoxInfo) (bp : Nat) (f : BoxInfo → BoxInfo) : Res (List BoxInfo) :=
  match l[bp]? with
  | some x => .ok (l.set bp (f x))
  | none => .ub

/-- conduit_blueprint_mesh_kdtree.hpp:506-545 `constructBox`; `left` is `maxLevels - level`. -/
def constructBox (E : Env K) : (left bp : Nat) → Range → Box K → St → Res St
  | left, bp, range, b, st =>
    if 0 < range.size then do
      let dim := longest E b
      let boxes ← setBox st.boxes bp fun x => { x with dim := dim, range := range }
      let index := sortIndexRange E st.index range dim
      let cut := cutBox E.ops b dim
      let rs := cutRange E index range dim (cut.1 dim).2
      match left with
      | left + 1 => do
        let x ← Res.ofIdx boxes bp
        match x.child with
        | some c => do
          let st ← constructBox E left c rs.1 cut.1 ⟨boxes, index⟩
          constructBox E left (c + 1) rs.2 cut.2 st
        | none => .ub
      | 0 => do
        let boxes ← setBox boxes bp fun x => { x with child := none }
        .ok ⟨boxes, index⟩
    else do
      let boxes ← setBox st.boxes bp fun x => { x with child := none }
      .ok ⟨boxes, st.index⟩

/-- conduit_blueprint_mesh_kdtree.hpp:476-504 `construct`; `levels` is `maxLevels`, the rounded down
    logarithm of `coordlen`, computed in floating point.
    Simplification: with no points that logarithm is infinite and its conversion to `int` undefined;
    here any `levels` is accepted. -/
def construct (E : Env K) (levels : Nat) (box : Box K) : Res St :=
  constructBox E levels 0 ⟨0, E.len⟩ box
    ⟨(List.range (2 ^ (levels + 1) - 1)).map fun i => ⟨some (2 * i + 1), 0, ⟨0, 0⟩⟩, List.range E.len⟩

/-- conduit_blueprint_mesh_kdtree.hpp:374-403: the box above the leaf the point belongs to.
    `fuel`: bound on the number of steps; `ub` if the loop has not ended by then. -/
def descend (E : Env K) (st : St) (pt : Pt K) : (fuel bp prev : Nat) → Box K → Res Nat
  | fuel, bp, prev, cur => do
    let x ← Res.ofIdx st.boxes bp
    match x.child with
    | none => .ok prev
    | some c =>
      match fuel with
      | 0 => .ub
      | fuel + 1 =>
        let cut := cutBox E.ops cur x.dim
        if pointInBox E pt cut.1 then descend E st pt fuel c bp cut.1
        else descend E st pt fuel (c + 1) bp cut.2

/-- conduit_blueprint_mesh_kdtree.hpp:356-433 `findPoint`; `none` is `NotFound`. -/
def findPoint (E : Env K) (st : St) (box : Box K) (tol2 : K) (pt : Pt K) : Res (Option Nat) :=
  if pointInBox E pt box then do
    let bp ← descend E st pt st.boxes.length 0 0 box
    let x ← Res.ofIdx st.boxes bp
    .ok ((slice st.index x.range).find? (pointEqual E tol2 pt))
  else .ok none

/-- `initialize` and then `findPoint` (conduit_blueprint_mesh_kdtree.hpp:210-224, 202-208). -/
def lookup (E : Env K) (levels : Nat) (tol : K) (pt : Pt K) : Res (Option Nat) := do
  let box := calculateExtents E
  let st ← construct E levels box
  findPoint E st box (E.ops.mul tol tol) pt

/-! ### PointQuery -/

/-- The arithmetic a point query uses. -/
structure QOps (F : Type) where
  d : Ops F
  s : Ops F
  /-- `(float32) x` -/
  narrow : F → F
  /-- `(double) i` -/
  ofInt : Int → F

/-- A coordinate array (`float32`, `float64` or another numeric type), its elements as the accessors of
    a `double` give them. -/
structure Col (F : Type) where
  ty : Mesh.ETy
  vals : List F

variable {F : Type}

/-- conduit_blueprint_mesh_utils.cpp:3583 `SEARCH_THRESHOLD`. -/
def threshold : Nat := 25 * 25 * 25

/-- Element `i` of array `d`.  Simplification: reads outside of an array are not looked at. -/
def colAt (Q : QOps F) (cols : List (Col F)) (d i : Nat) : F :=
  ((cols[d]?.map (·.vals)).getD []).getD i Q.d.zero

/-- `coords[0]->dtype().number_of_elements()` -/
def numPts (cols : List (Col F)) : Nat := ((cols[0]?.map (·.vals)).getD []).length

/-- conduit_blueprint_mesh_utils.cpp:3663-3669 and the conditions of 3706-3791: whether the kd-tree is
    used, and with which type (`true`: `float64`). -/
def accelerated (cols : List (Col F)) : Option Bool :=
  if (cols.length = 3 ∨ cols.length = 2) ∧ threshold ≤ numPts cols then
    if cols.all (fun c => c.ty == .f true) then some true
    else if cols.all (fun c => c.ty == .f false) then some false
    else none
  else none

/-- conduit_blueprint_mesh_utils.cpp:3827-3838, 3854-3864, 3880-3889: the square of the distance, in
    `double`. -/
def distance2 (Q : QOps F) (cols : List (Col F)) (pt : Pt F) (i : Nat) : F :=
  let sq := fun d => let delta := Q.d.sub (colAt Q cols d i) (pt d); Q.d.mul delta delta
  match cols.length with
  | 1 => sq 0
  | 2 => Q.d.add (sq 0) (sq 1)
  | _ => Q.d.add (Q.d.add (sq 0) (sq 1)) (sq 2)

/-- conduit_blueprint_mesh_utils.cpp:3801-3896 `normalSearch`, for one point. -/
def normalSearch (Q : QOps F) (cols : List (Col F)) (tol : F) (pt : Pt F) : Option Nat :=
  (List.range (numPts cols)).find? fun i => Q.d.lt (distance2 Q cols pt i) (Q.d.mul tol tol)

/-- The tree of conduit_blueprint_mesh_utils.cpp:3706-3796. -/
def envOf (Q : QOps F) (sort : (Nat → Nat → Bool) → List Nat → List Nat) (cols : List (Col F)) (wide : Bool) : Env F :=
  { ops := if wide then Q.d else Q.s, nd := cols.length, len := numPts cols, coord := colAt Q cols, sort := sort }

/-- conduit_blueprint_mesh_utils.cpp:3642-3798 `findPointsInDomain` and `acceleratedSearch`, for one
    point; `levels` as in `construct`. -/
def query (Q : QOps F) (sort : (Nat → Nat → Bool) → List Nat → List Nat) (levels : Nat) (cols : List (Col F))
    (tol : F) (pt : Pt F) : Res (Option Nat) :=
  match accelerated cols with
  | some true => lookup (envOf Q sort cols true) levels tol pt
  | some false => lookup (envOf Q sort cols false) levels (Q.narrow tol) (fun d => Q.narrow (pt d))
  | none => .ok (normalSearch Q cols tol pt)

end Conduit.Kd
