import Verif.Model.O2M
/-
What a one-to-many relation means (blueprint documentation of one-to-many relations): group `i`
has `size i` members; member `j` of group `i` is entry `offset i + j` of the data, looked up
through "indices" when present.
-/
namespace Conduit.O2M
variable {α : Type}

/-- number of groups -/
def ones (r : Rel α) : Nat := (r.sizes.map List.length).getD ((r.indices.map List.length).getD ((r.datas.head?.map List.length).getD 0))

/-- members of group `i` -/
def size (r : Rel α) (i : Nat) : Nat := match r.sizes with
  | some s => (s.getD i 0).toNat
  | none => 1

/-- first entry of group `i` -/
def off (r : Rel α) (i : Nat) : Int := match r.offsets with
  | some o => o.getD i 0
  | none => i

/-- the data element that is member `j` of group `i` -/
def target (r : Rel α) (i j : Nat) : Int := match r.indices with
  | some ix => ix.getD (off r i + j).toNat 0
  | none => off r i + j

/-- all members, group by group -/
def entries (r : Rel α) : List (Nat × Nat) :=
  (List.range (ones r)).flatMap fun i => (List.range (size r i)).map fun j => (i, j)

/-- A relation whose lookups stay inside its arrays. -/
structure Valid (r : Rel α) : Prop where
  sizes_nonneg : ∀ s, r.sizes = some s → ∀ x ∈ s, 0 ≤ x
  offsets_len : ∀ o, r.offsets = some o → ones r ≤ o.length
  indices_in : ∀ ix, r.indices = some ix → ∀ i < ones r, ∀ j < size r i,
    0 ≤ off r i + j ∧ off r i + j < ix.length

/-- The members of every group are consecutive data elements (always so without "indices"). -/
def Consecutive (r : Rel α) : Prop :=
  ∀ i < ones r, ∀ j < size r i, target r i j = target r i 0 + j

end Conduit.O2M
