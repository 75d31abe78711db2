import Verif.Model.Specset
import Verif.Spec.Silo
/-
How a Silo species representation is read (Silo's DBPutMatspecies): for a clean zone "speclist" is
the 1-based position, in "species_mf", of the mass fractions of the zone's material; for a mixed
zone it is minus the 1-based position, in "mix_spec", of such positions, one per material of the
zone in the order of its list.
-/
namespace Conduit.Matset
variable {α β γ : Type}

/-- species `s` of material `n` has the mass fraction `v` in element `e` -/
def SpecHas (sp : Specs γ) (e : Nat) (n s : Str) (v : γ) : Prop :=
  ∃ ss col, (n, ss) ∈ sp ∧ (s, col) ∈ ss ∧ col[e]? = some v

/-- zone `e` contains material `n` -/
def SiloIn (O : Silo α β) (e : Nat) (n : Str) : Prop :=
  ∃ id, (n, id) ∈ O.matmap ∧ ((O.matlist[e]? = some id ∧ 0 ≤ id) ∨
    ∃ x l d, O.matlist[e]? = some x ∧ x < 0 ∧ Chain O.mixNext (-x) l ∧ d ∈ l ∧ O.mixMat[d]? = some id)

/-- the mass fractions of the material numbered `id` in zone `e` begin at the 1-based position `p` -/
def SpecStart (O : Silo α β) (R : SpecSilo γ) (e : Nat) (id p : Int) : Prop :=
  (O.matlist[e]? = some id ∧ 0 ≤ id ∧ R.speclist[e]? = some p) ∨
  ∃ (x : Int) (l : List Nat) (j d y : Nat), O.matlist[e]? = some x ∧ x < 0 ∧ Chain O.mixNext (-x) l ∧ l[j]? = some d ∧
    O.mixMat[d]? = some id ∧ R.speclist[e]? = some (-(y : Int) - 1) ∧ R.mixSpec[y + j]? = some p

/-- "mix_spec" read beside "mix_mat" instead -/
def SpecStartBeside (O : Silo α β) (R : SpecSilo γ) (e : Nat) (id p : Int) : Prop :=
  (O.matlist[e]? = some id ∧ 0 ≤ id ∧ R.speclist[e]? = some p) ∨
  ∃ (x : Int) (l : List Nat) (d : Nat), O.matlist[e]? = some x ∧ x < 0 ∧ Chain O.mixNext (-x) l ∧ d ∈ l ∧
    O.mixMat[d]? = some id ∧ R.mixSpec[d]? = some p

/-- the mass fraction of species `s` of material `n` in zone `e`, as read.  The species of the
    materials are numbered through, "nmatspec" tells how many each has. -/
def SiloSpec (start : Nat → Int → Int → Prop) (O : Silo α β) (R : SpecSilo γ) (e : Nat) (n s : Str) (v : γ) : Prop :=
  ∃ (i : Nat) (id : Int) (q k cnt : Nat), O.matmap[i]? = some (n, id) ∧ start e id ((q : Int) + 1) ∧ R.nmatspec[i]? = some cnt ∧ k < cnt ∧
    R.specnames[(R.nmatspec.take i).sum + k]? = some s ∧ R.mf[q + k]? = some v

/-- the silo matset can be read: its lists end and use material numbers of the map only -/
structure SiloWF (O : Silo α β) : Prop where
  map : MapWF O.matmap
  clean : ∀ (e : Nat) (x : Int), O.matlist[e]? = some x → 0 ≤ x → x ∈ O.matmap.map (·.2)
  chain : ∀ (e : Nat) (x : Int), O.matlist[e]? = some x → x < 0 → ∃ l, Chain O.mixNext (-x) l ∧
    ∀ d ∈ l, ∃ id, O.mixMat[d]? = some id ∧ id ∈ O.matmap.map (·.2)

/-- the species set lists the materials of `mm` in its order, with a value for each of `N` elements -/
structure SpecWF (sp : Specs γ) (mm : List (Str × Int)) (N : Nat) : Prop where
  names : sp.map (·.1) = mm.map (·.1)
  len : ∀ n ss s col, (n, ss) ∈ sp → (s, col) ∈ ss → N ≤ col.length

end Conduit.Matset
