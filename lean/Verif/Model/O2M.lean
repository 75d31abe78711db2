import Verif.Model.Res
/-
One-to-many relations.
Sources: /repo/src/libs/blueprint/conduit_blueprint_o2mrelation.cpp,
conduit_blueprint_o2mrelation_index.cpp, conduit_blueprint_o2mrelation_iterator.cpp
-/
namespace Conduit.O2M

/-- A relation node: its optional integer children "sizes", "offsets", "indices" read through
    `index_t` accessors, and its data arrays in child order (conduit_blueprint_o2mrelation.cpp:154-171
    `data_paths`: the other numeric children).  Simplification: `index_t` is unbounded, data
    elements are opaque values. -/
structure Rel (α : Type) where
  sizes : Option (List Int)
  offsets : Option (List Int)
  indices : Option (List Int)
  datas : List (List α)
deriving DecidableEq, Repr

variable {α : Type}

/-- accessor element access, unchecked in the code -/
def rd {β : Type} (l : List β) (i : Int) : Res β := if i < 0 then .ub else Res.ofIdx l i.toNat

/-- accessor element write, unchecked in the code -/
def wr {β : Type} (l : List β) (i : Int) (x : β) : Res (List β) :=
  if i < 0 ∨ (l.length : Int) ≤ i then .ub else .ok (l.set i.toNat x)

/-! ### O2MIndex -/

/-- the accessor of an absent child has no elements (conduit_blueprint_o2mrelation_index.cpp:53-67) -/
def acc (o : Option (List Int)) : List Int := o.getD []

/-- conduit_blueprint_o2mrelation_index.cpp:186-195 `O2MIndex::offset` -/
def indexOffset (r : Rel α) (one : Int) : Res Int :=
  if (acc r.offsets).length > 0 then rd (acc r.offsets) one else .ok one

/-- conduit_blueprint_o2mrelation_index.cpp:128-151 `O2MIndex::index(one, many)` -/
def indexIndex (r : Rel α) (one many : Int) : Res Int := do
  let offset ← indexOffset r one
  if (acc r.indices).length > 0 then rd (acc r.indices) (offset + many) else .ok (offset + many)

/-- conduit_blueprint_o2mrelation_index.cpp:154-183 `O2MIndex::size(one)`, `-1`: number of ones -/
def indexSize (r : Rel α) (one : Int) : Res Int :=
  if one = -1 then
    if (acc r.offsets).length > 0 then .ok (acc r.offsets).length
    else if (acc r.indices).length > 0 then .ok (acc r.indices).length
    else .ok 0
  else if (acc r.sizes).length > 0 then rd (acc r.sizes) one else .ok 1

/-! ### O2MIterator -/

inductive Kind where | data | one | many
deriving DecidableEq, Repr

/-- The iterator's position (`m_one_index`, `m_many_index`). -/
structure It where
  one : Int
  many : Int
deriving DecidableEq, Repr

/-- conduit_blueprint_o2mrelation_iterator.cpp:474-487, the ONE case of `elements` -/
def elementsOne (r : Rel α) : Int :=
  match r.sizes with
  | some s => s.length
  | none => match r.indices with
    | some ix => ix.length
    | none => match r.datas with
      | d :: _ => d.length
      | [] => 0

/-- conduit_blueprint_o2mrelation_iterator.cpp:488-507, the MANY case of `elements` -/
def elementsMany (r : Rel α) (one : Int) : Res Int :=
  if one < elementsOne r then
    match r.sizes with
    | some s => rd s one
    | none => .ok 1
  else .ok 0

/-- conduit_blueprint_o2mrelation_iterator.cpp:456-473, the DATA case of `elements` -/
def elementsData (r : Rel α) : Int :=
  match r.sizes with
  | some s => s.sum
  | none => elementsOne r

/-- conduit_blueprint_o2mrelation_iterator.cpp:423-427 -/
def groupOffset (r : Rel α) (one : Int) : Res Int :=
  match r.offsets with | some o => rd o one | none => .ok one

/-- conduit_blueprint_o2mrelation_iterator.cpp:429-433 -/
def groupStart (r : Rel α) (offset : Int) : Res Int :=
  match r.indices with | some ix => rd ix offset | none => .ok offset

/-- conduit_blueprint_o2mrelation_iterator.cpp:416-447 `index(one, many, itype)` -/
def index (r : Rel α) (one many : Int) : Kind → Res Int
  | .data => do
    let offset ← groupOffset r one
    let i ← groupStart r offset
    .ok (i + (many - 1))
  | .one => .ok one
  | .many => .ok (many - 1)

/-- conduit_blueprint_o2mrelation_iterator.cpp:148-167 `has_next` -/
def hasNext (r : Rel α) (it : It) : Kind → Res Bool
  | .data =>
    if it.one < elementsOne r - 1 then .ok true
    else do .ok (decide (it.many < (← elementsMany r it.one)))
  | .one => .ok (decide (it.one < elementsOne r - 1))
  | .many => do .ok (decide (it.many < (← elementsMany r it.one)))

/-- conduit_blueprint_o2mrelation_iterator.cpp:171-208 `next` -/
def next (r : Rel α) (it : It) : Kind → Res (It × Int)
  | .data => do
    let it' : It := if it.many < (← elementsMany r it.one) then { it with many := it.many + 1 }
      else { one := it.one + 1, many := 1 }
    .ok (it', ← index r it'.one it'.many .data)
  | .one =>
    if it.many < 1 then .ok ({ it with many := it.many + 1 }, it.one)
    else .ok ({ it with one := it.one + 1 }, it.one + 1)
  | .many => .ok ({ it with many := it.many + 1 }, it.many)

/-- conduit_blueprint_o2mrelation_iterator.cpp:212-238 `peek_next` -/
def peekNext (r : Rel α) (it : It) : Kind → Res Int
  | .data => do
    if it.many < (← elementsMany r it.one) then index r it.one (it.many + 1) .data
    else index r (it.one + 1) 1 .data
  | .one => .ok (it.one + if it.many < 1 then 0 else 1)
  | .many => .ok it.many

/-- conduit_blueprint_o2mrelation_iterator.cpp:242-258 `to_front` -/
def toFront (it : It) : Kind → It
  | .data => ⟨0, 0⟩
  | .one => { it with one := 0 }
  | .many => { it with many := 0 }

/-- conduit_blueprint_o2mrelation_iterator.cpp:265-284 `has_previous` -/
def hasPrevious (it : It) : Kind → Bool
  | .data => decide (it.one > 0) || decide (it.many > 1)
  | .one => decide (it.one > 0)
  | .many => decide (it.many > 1)

/-- conduit_blueprint_o2mrelation_iterator.cpp:288-317 `previous` -/
def previous (r : Rel α) (it : It) : Kind → Res (It × Int)
  | .data =>
    if it.many > 1 then do
      .ok ({ it with many := it.many - 1 }, ← index r it.one (it.many - 1) .data)
    else do
      let m ← elementsMany r (it.one - 1)
      .ok ({ one := it.one - 1, many := m }, ← index r (it.one - 1) m .data)
  | .one => .ok ({ it with one := it.one - 1 }, it.one - 1)
  | .many => .ok ({ it with many := it.many - 1 }, it.many - 1 - 1)

/-- conduit_blueprint_o2mrelation_iterator.cpp:350-367 `to_back` -/
def toBack (r : Rel α) (it : It) : Kind → Res It
  | .data => .ok ⟨elementsOne r, 1⟩
  | .one => .ok { it with one := elementsOne r }
  | .many => do .ok { it with many := ← elementsMany r it.one }

/-- What a traversal reports at each step: `index(ONE)`, `index(MANY)` and the data index
    returned by `next(DATA)` / `previous(DATA)`. -/
structure Visit where
  one : Int
  many : Int
  data : Int
deriving DecidableEq, Repr

/-- `while(it.has_next(DATA)) it.next(DATA);`; `none`: not ended within `fuel` steps. -/
def dataLoop (r : Rel α) : Nat → It → Option (Res (List Visit))
  | 0, it => match hasNext r it .data with
    | .ok true => none
    | .ok false => some (.ok [])
    | .error => some .error
    | .ub => some .ub
  | fuel + 1, it => match hasNext r it .data with
    | .ok true => match next r it .data with
      | .ok (it', d) => (dataLoop r fuel it').map (·.map' (⟨it'.one, it'.many - 1, d⟩ :: ·))
      | .error => some .error
      | .ub => some .ub
    | .ok false => some (.ok [])
    | .error => some .error
    | .ub => some .ub

/-- `while(it.has_previous(DATA)) it.previous(DATA);` -/
def dataLoopBack (r : Rel α) : Nat → It → Option (Res (List Visit))
  | 0, it => if hasPrevious it .data then none else some (.ok [])
  | fuel + 1, it =>
    if hasPrevious it .data then match previous r it .data with
      | .ok (it', d) => (dataLoopBack r fuel it').map (·.map' (⟨it'.one, it'.many - 1, d⟩ :: ·))
      | .error => some .error
      | .ub => some .ub
    else some (.ok [])

/-! ### compact_to and generate_offsets -/

/-- The variables of the loops of `compact_to`. -/
structure Compact (α : Type) where
  it : It
  currIndex : Int
  currOffset : Int
  offsets : List Int
  datas : List (List α)
deriving DecidableEq, Repr

/-- conduit_blueprint_o2mrelation.cpp:227-237: copy one element of every data array;
    `curr_index` steps once per array. -/
def copyElems (dataIndex : Int) : List (List α) → List (List α) → Int → Res (Int × List (List α))
  | src :: srcs, dst :: dsts, curr => do
    let x ← rd src dataIndex
    let dst' ← wr dst curr x
    let (curr', dsts') ← copyElems dataIndex srcs dsts (curr + 1)
    .ok (curr', dst' :: dsts')
  | _, dsts, curr => .ok (curr, dsts)

/-- conduit_blueprint_o2mrelation.cpp:222-238: the loop over one group. -/
def compactMany (r : Rel α) : Nat → Compact α → Option (Res (Compact α))
  | 0, _ => none
  | fuel + 1, st => match hasNext r st.it .many with
    | .ok false => some (.ok st)
    | .ok true => match (do
        let (it', _) ← next r st.it .many
        let di ← index r it'.one it'.many .data
        let (curr', datas') ← copyElems di r.datas st.datas st.currIndex
        .ok { st with it := it', currIndex := curr', datas := datas' } : Res (Compact α)) with
      | .ok st' => compactMany r fuel st'
      | .error => some .error
      | .ub => some .ub
    | .error => some .error
    | .ub => some .ub

/-- conduit_blueprint_o2mrelation.cpp:212-241: the loop over the groups. -/
def compactOne (r : Rel α) : Nat → Compact α → Option (Res (Compact α))
  | 0, _ => none
  | fuel + 1, st => match hasNext r st.it .one with
    | .ok false => some (.ok st)
    | .ok true => match next r st.it .one with
      | .ok (it', one) => match wr st.offsets one st.currOffset with
        | .ok offs => match compactMany r fuel { st with it := toFront it' .many, offsets := offs } with
          | some (.ok st') => match elementsMany r st'.it.one with
            | .ok m => compactOne r fuel { st' with currOffset := st'.currOffset + m }
            | .error => some .error
            | .ub => some .ub
          | x => x
        | .error => some .error
        | .ub => some .ub
      | .error => some .error
      | .ub => some .ub
    | .error => some .error
    | .ub => some .ub

/-- conduit_blueprint_o2mrelation.cpp:175-244 `compact_to(o2mrelation, res)`: the relation left in
    `res`.  `zero`: the value of a freshly allocated (zeroed) element.
    Simplification: offsets are not narrowed to the type of the source's offsets. -/
def compactTo (r : Rel α) (zero : α) (fuel : Nat) : Option (Res (Rel α)) :=
  match r.sizes with
  | none => some (.ok r)
  | some s =>
    let n := (elementsData r).toNat
    match compactOne r fuel ⟨⟨0, 0⟩, 0, 0, List.replicate s.length 0, r.datas.map fun _ => List.replicate n zero⟩ with
    | some (.ok st) => some (.ok ⟨some s, some st.offsets, none, st.datas⟩)
    | some .error => some .error
    | some .ub => some .ub
    | none => none

/-- conduit_blueprint_o2mrelation.cpp:262-275: the loop of `generate_offsets`, `prev` being the
    previous offset and size. -/
def offsetsLoop : Option (Int × Int) → List Int → List Int
  | _, [] => []
  | none, s :: ss => 0 :: offsetsLoop (some (0, s)) ss
  | some (o, p), s :: ss => (o + p) :: offsetsLoop (some (o + p, s)) ss

/-- conduit_blueprint_o2mrelation.cpp:247-279 `generate_offsets`: `none`: it reports an error and
    leaves the node alone. -/
def generateOffsets (r : Rel α) : Option (Rel α) :=
  match r.sizes with
  | none => none
  | some s => some { r with offsets := some (offsetsLoop none s) }

end Conduit.O2M
