import Verif.Model.Silo
import Verif.Spec.Matset
/-
How a Silo mixed material representation is read (Silo's DBPutMaterial): "matlist" holds for each
zone either the number of its only material, or minus the 1-based position of its first entry in
the mixed arrays; "mix_next" holds the 1-based position of the zone's next entry, 0 at the last one.
-/
namespace Conduit.Matset
variable {α β : Type}

/-- following "mix_next" from the 1-based position `p` passes through the positions `l` and ends -/
inductive Chain (next : List Int) : Int → List Nat → Prop
  | nil : Chain next 0 []
  | cons (d : Nat) (q : Int) (l : List Nat) : next[d]? = some q → Chain next q l → Chain next (d + 1) (d :: l)

/-- zone `e` is clean and consists of material `n` -/
def SiloClean (O : Silo α β) (e : Nat) (n : Str) : Prop :=
  ∃ x : Int, O.matlist[e]? = some x ∧ 0 ≤ x ∧ (n, x) ∈ O.matmap

/-- zone `e` is mixed and holds the volume fraction `v` of material `n` -/
def SiloMix (O : Silo α β) (e : Nat) (n : Str) (v : α) : Prop :=
  ∃ (x : Int) (l : List Nat) (d : Nat) (id : Int), O.matlist[e]? = some x ∧ x < 0 ∧ Chain O.mixNext (-x) l ∧ d ∈ l ∧
    O.mixMat[d]? = some id ∧ (n, id) ∈ O.matmap ∧ O.mixVf[d]? = some v

/-- and the field value `w` beside it -/
def SiloMix2 (O : Silo α β) (e : Nat) (n : Str) (v : α) (w : β) : Prop :=
  ∃ (x : Int) (l : List Nat) (d : Nat) (id : Int), O.matlist[e]? = some x ∧ x < 0 ∧ Chain O.mixNext (-x) l ∧ d ∈ l ∧
    O.mixMat[d]? = some id ∧ (n, id) ∈ O.matmap ∧ O.mixVf[d]? = some v ∧ O.mixVar[d]? = some w

/-- another material than `n` is above epsilon in `e` -/
def Other (big : α → Bool) (H : Nat → Str → α → Prop) (e : Nat) (n : Str) : Prop := ∃ n' v', n' ≠ n ∧ H e n' v' ∧ big v' = true

/-- the lists of the mixed zones are laid out one after the other and fill the mixed arrays -/
def Packed (O : Silo α β) : Prop :=
  ∃ C : Nat → List Nat, (∀ (e : Nat) (x : Int), O.matlist[e]? = some x → (0 ≤ x → C e = []) ∧ (x < 0 → Chain O.mixNext (-x) (C e))) ∧
    (List.range O.matlist.length).flatMap C = List.range O.mixMat.length

/-- The arrays say the same as the relation `H` between elements, materials and volume fractions
    does: a zone with one material above epsilon is clean, one with several lists them all, each
    once and nothing else, and no entry of the mixed arrays is unused or shared. -/
structure Decodes (O : Silo α β) (N : Nat) (big : α → Bool) (H : Nat → Str → α → Prop) : Prop where
  len : O.matlist.length = N
  lens : O.mixNext.length = O.mixMat.length ∧ O.mixVf.length = O.mixMat.length
  chain : ∀ (e : Nat) (x : Int), O.matlist[e]? = some x → x < 0 → ∃ l, Chain O.mixNext (-x) l ∧ (l.map fun d => O.mixMat[d]?).Nodup ∧
    ∀ d ∈ l, ∃ id, O.mixMat[d]? = some id ∧ id ∈ O.matmap.map (·.2)
  packed : Packed O
  clean : ∀ e n, e < N → (SiloClean O e n ↔ (∃ v, H e n v ∧ big v = true) ∧ ∀ n' v', H e n' v' → big v' = true → n' = n)
  mix : ∀ e n v, e < N → (SiloMix O e n v ↔ (H e n v ∧ big v = true) ∧ Other big H e n)

/-- the material map names each material number once -/
structure MapWF (mm : List (Str × Int)) : Prop where
  names : (mm.map (·.1)).Nodup
  nums : (mm.map (·.2)).Nodup
  pos : ∀ x ∈ mm, 0 ≤ x.2

/-- the integer type of the result holds everything from `-K` to `K` -/
def Fits (wrap : Int → Int) (K : Nat) : Prop := ∀ x : Int, -(K : Int) ≤ x → x ≤ K → wrap x = x

/-- element `e` of a uni-buffer, material dominant matset holds the value `v` for material `n` -/
def UbmHas (S : Sbe α) (eids : List Int) (vals : List β) (e : Nat) (n : Str) (v : β) : Prop :=
  ∃ i d id, Slot S i d ∧ eids[i]? = some (e : Int) ∧ S.ids[d]? = some id ∧ (n, id) ∈ S.matmap ∧ vals[d]? = some v

/-- the same for two value arrays at once -/
def UbmHas2 (S : Sbe α) (eids : List Int) (fv : List β) (e : Nat) (n : Str) (v : α) (w : β) : Prop :=
  ∃ i d id, Slot S i d ∧ eids[i]? = some (e : Int) ∧ S.ids[d]? = some id ∧ (n, id) ∈ S.matmap ∧ S.vals[d]? = some v ∧ fv[d]? = some w

/-- no element lists a material twice -/
def UbmOnce (S : Sbe α) (eids : List Int) : Prop :=
  ∀ i d i' d' id, Slot S i d → Slot S i' d' → eids[i]? = eids[i']? → S.ids[d]? = some id → S.ids[d']? = some id → d = d'

/-- A given material map names the materials of `vfs`; an implied one numbers them. -/
def MapOK (K : Nat) (vfs : List (Str × List α)) : Option (List (Str × Int)) → Prop
  | none => vfs.length ≤ K
  | some m => MapWF m ∧ (∀ x ∈ m, x.2 ≤ K) ∧ ∀ n ∈ vfs.map (·.1), n ∈ m.map (·.1)

/-- every element has a material above epsilon -/
def NoEmpty (N : Nat) (big : α → Bool) (H : Nat → Str → α → Prop) : Prop := ∀ e < N, ∃ n v, H e n v ∧ big v = true

end Conduit.Matset
