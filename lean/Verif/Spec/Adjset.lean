import Verif.Model.MeshTree
import Verif.Model.Json
/-
What an adjacency set says: groups of entities, each shared with all neighbors of its group.
-/
namespace Conduit.Mesh
variable {F : Type}

/-- A group: its name, the domains it is shared with, the entities shared. -/
structure Group where
  name : Str
  neighbors : List Int
  values : List Int
deriving DecidableEq, Repr

/-- The tree holds this group. -/
def IsGroup (k : Str × BNode F) (g : Group) : Prop :=
  k.1 = g.name ∧ ∃ t u, k.2.get (chars! "neighbors") = .ok (.ints t g.neighbors) ∧
    k.2.get (chars! "values") = .ok (.ints u g.values)

/-- The tree is an adjset with these groups, in order. -/
def HasGroups (n : BNode F) (gs : List Group) : Prop :=
  ∃ ks, n.get (chars! "groups") = .ok (.obj ks) ∧ ks.length = gs.length ∧
    ∀ (i : Nat) k g, ks[i]? = some k → gs[i]? = some g → IsGroup k g

/-- Entity `v` is shared with domain `d`. -/
def Shares (gs : List Group) (d v : Int) : Prop := ∃ g ∈ gs, d ∈ g.neighbors ∧ v ∈ g.values

/-- The numbers of the groups are `index_t` values that the type `t` holds. -/
def Fits (t : IntTy) (gs : List Group) : Prop :=
  ∀ g ∈ gs, ∀ v ∈ g.neighbors ++ g.values, int64.cast v = v ∧ t.cast v = v

/-- The name of a group shared by these domains, listed in ascending order. -/
def groupName (doms : List Int) : Str := chars! "group" ++ (doms.map fun d => '_' :: intText d).flatten

/-- The group is named after the domains that share it. -/
def NamedFor (dom : Int) (g : Group) : Prop :=
  ∃ doms, doms.Pairwise (· ≤ ·) ∧ doms.Perm (dom :: g.neighbors) ∧ g.name = groupName doms

/-- The domain id that a node takes from the nodes above it, nearest first (the id each has, if it is a mesh): the nearest
    one that is not -1; -1 if there is none. -/
def DomainId (up : List (Option Int)) (d : Int) : Prop :=
  (∃ near far, up = near ++ some d :: far ∧ d ≠ -1 ∧ ∀ x ∈ near, x = none ∨ x = some (-1)) ∨
    (d = -1 ∧ ∀ x ∈ up, x = none ∨ x = some (-1))

/-- Position by position the same. -/
inductive Matching (r : Int → Int → Prop) : List Int → List Int → Prop where
  | nil : Matching r [] []
  | cons {a b : Int} {l m : List Int} : r a b → Matching r l m → Matching r (a :: l) (b :: m)

/-- Domain `b` also has each group that `a` shares with it: under the same name, with the entities in the same order. -/
def Lists (r : Int → Int → Prop) (a b : Int) (gs hs : List Group) : Prop :=
  ∀ g ∈ gs, b ∈ g.neighbors → ∃ h ∈ hs, h.name = g.name ∧ a ∈ h.neighbors ∧ Matching r g.values h.values

/-- The groups of a domain: one for each neighbor, none with itself; entities in ascending order of a global id. -/
structure ByNeighbor (dom : Int) (gid : Int → Int) (gs : List Group) : Prop where
  pairwise : ∀ g ∈ gs, ∃ d, d ≠ dom ∧ g.neighbors = [d]
  once : ∀ g ∈ gs, ∀ h ∈ gs, g.neighbors = h.neighbors → g = h
  ascending : ∀ g ∈ gs, (g.values.map gid).Pairwise (· < ·)

/-- Each entity that `a` shares with `b` is shared by `b`, with `a` and the same other domains. -/
def Complete (a b : Int) (ida idb : Int → Int) (gs hs : List Group) : Prop :=
  ∀ v, Shares gs b v → ∃ w, idb w = ida v ∧ Shares hs a w ∧ ∀ d, d ≠ a → d ≠ b → (Shares gs d v ↔ Shares hs d w)

end Conduit.Mesh
