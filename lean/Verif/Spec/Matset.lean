import Verif.Model.Matset
import Verif.Spec.O2M
/-
What a material set means (blueprint documentation of matsets): which volume fraction of which
material lies in which element, and what a material dependent field says about it.
-/
namespace Conduit.Matset
open O2M (ones size target)
variable {α β : Type}

/-! ### full: one array over all elements per material -/

/-- element `e` holds the value `v` for material `n` -/
def FullHas (vals : List (Str × List α)) (e : Nat) (n : Str) (v : α) : Prop :=
  ∃ col, (n, col) ∈ vals ∧ col[e]? = some v

/-- `N` elements, every material listed once and with `N` values -/
structure FullWF (vfs : List (Str × List α)) (N : Nat) : Prop where
  names : (vfs.map (·.1)).Nodup
  len : ∀ c ∈ vfs, c.2.length = N

/-! ### sparse by element: groups of (material id, value) per element -/

/-- position `d` of the data arrays belongs to element `e` -/
def Slot (S : Sbe α) (e d : Nat) : Prop :=
  e < ones S.rel ∧ ∃ j < size S.rel e, target S.rel e j = (d : Int)

/-- element `e` holds the value `v` for material `n`, the values being in `vals` -/
def SbeHas (S : Sbe α) (vals : List β) (e : Nat) (n : Str) (v : β) : Prop :=
  ∃ d id, Slot S e d ∧ S.ids[d]? = some id ∧ (n, id) ∈ S.matmap ∧ vals[d]? = some v

/-- the same for two value arrays at once -/
def SbeHas2 (S : Sbe α) (fv : List β) (e : Nat) (n : Str) (v : α) (w : β) : Prop :=
  ∃ d id, Slot S e d ∧ S.ids[d]? = some id ∧ (n, id) ∈ S.matmap ∧ S.vals[d]? = some v ∧ fv[d]? = some w

/-- A well formed sparse by element matset over `N` elements: its relation stays inside its arrays,
    "offsets" has one entry per element (and a matset over no elements has no "indices"), and "material_map" is a bijection between names and
    numbers that covers the numbers in use. -/
structure SbeWF (S : Sbe α) (N : Nat) : Prop where
  rel : O2M.Valid S.rel
  zones : ones S.rel = N
  offs : ∃ o, S.offsets = some o ∧ o.length = N
  none : N = 0 → S.indices = none
  pos : ∀ i < N, ∀ j < size S.rel i, 0 ≤ target S.rel i j
  data : ∀ e d, Slot S e d → d < S.ids.length ∧ d < S.vals.length
  names : (S.matmap.map (·.1)).Nodup
  nums : (S.matmap.map (·.2)).Nodup
  known : ∀ e d id, Slot S e d → S.ids[d]? = some id → id ∈ S.matmap.map (·.2)

/-- no element lists a material twice -/
def Once (S : Sbe α) : Prop :=
  ∀ e j j' id, e < ones S.rel → j < size S.rel e → j' < size S.rel e →
    S.ids[(target S.rel e j).toNat]? = some id → S.ids[(target S.rel e j').toNat]? = some id → j = j'

/-! ### sparse by material: per material element ids and values -/

/-- element `e` holds the value `v` for material `n`, the values being in `vals` -/
def SbmHas (eids : List (Str × List Int)) (vals : List (Str × List β)) (e : Nat) (n : Str) (v : β) : Prop :=
  ∃ (es : List Int) (vs : List β) (k : Nat), (n, es) ∈ eids ∧ (n, vs) ∈ vals ∧ es[k]? = some (e : Int) ∧ vs[k]? = some v

/-- the same for two families of value arrays at once -/
def SbmHas2 (eids : List (Str × List Int)) (vfs : List (Str × List α)) (fvs : List (Str × List β))
    (e : Nat) (n : Str) (v : α) (w : β) : Prop :=
  ∃ (es : List Int) (vs : List α) (ws : List β) (k : Nat), (n, es) ∈ eids ∧ (n, vs) ∈ vfs ∧ (n, ws) ∈ fvs ∧
    es[k]? = some (e : Int) ∧ vs[k]? = some v ∧ ws[k]? = some w

/-- "element_ids" and the values list the same materials, each once, with as many values as ids -/
structure SbmWF (eids : List (Str × List Int)) (vals : List (Str × List β)) : Prop where
  enames : (eids.map (·.1)).Nodup
  vnames : (vals.map (·.1)).Nodup
  same : ∀ n, n ∈ eids.map (·.1) ↔ n ∈ vals.map (·.1)
  len : ∀ n es vs, (n, es) ∈ eids → (n, vs) ∈ vals → es.length = vs.length

/-- the element ids in use are exactly `0, …, N-1` -/
def Dense (eids : List (Str × List Int)) (N : Nat) : Prop :=
  ∀ x : Int, (∃ n es, (n, es) ∈ eids ∧ x ∈ es) ↔ 0 ≤ x ∧ x < N

/-- no material lists an element twice -/
def SbmOnce (eids : List (Str × List Int)) : Prop := ∀ n es, (n, es) ∈ eids → es.Nodup

end Conduit.Matset
