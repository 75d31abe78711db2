import Verif.Model.Silo
/-
Species sets in the form the Silo library takes.
Source: /repo/src/libs/blueprint/conduit_blueprint_mesh_matset_xforms.cpp:1433-1697 (`specset::to_silo`).

Simplifications: "matset_values" is a list of materials, each a list of species with one array over
all elements; the arithmetic on `int` is not bounded; the result holds the arrays and not their
lengths ("nmat", "nspecies_mf", "mixlen").  `int32` says whether the entries of "material_map" are
32 bit integers, as `as_int()` wants them.
-/
namespace Conduit.Matset

open Conduit.O2M (rd wr)

variable {α β γ : Type}

/-- "matset_values": material ↦ species ↦ mass fraction per element -/
abbrev Specs (γ : Type) := List (Str × List (Str × List γ))

/-- the arrays of the result -/
structure SpecSilo (γ : Type) where
  nmatspec : List Nat
  specnames : List Str
  mf : List γ
  speclist : List Int
  mixSpec : List Int
deriving DecidableEq, Repr

/-- conduit_blueprint_mesh_matset_xforms.cpp:1476-1494 `matmap_map`: material number ↦ position;
    the loop over both lists, which have the same length here -/
def matPos (int32 : Bool) : List (Str × List (Str × List γ)) → List (Str × Int) → Nat → List (Int × Nat) → Res (List (Int × Nat))
  | (n, _) :: sp, (n', id) :: mm, i, m =>
    if n = n' then
      if int32 then matPos int32 sp mm (i + 1) (iset id i m) else .error
    else .error
  | _, _, _, m => .ok m

/-- conduit_blueprint_mesh_matset_xforms.cpp:1534-1554 `species_mf`: zone by zone, all species of
    all materials -/
def specMf (sp : Specs γ) (nzones : Nat) : Res (List γ) :=
  (List.range nzones).foldlM (fun acc (z : Nat) =>
    sp.foldlM (fun acc m =>
      m.2.foldlM (fun acc s => do .ok (acc ++ [← rd s.2 (z : Int)])) acc) acc) []

/-- conduit_blueprint_mesh_matset_xforms.cpp:1563-1607 `calculate_species_index` -/
def specIndex (nmatspec : List Nat) (zone matIndex : Nat) : Int :=
  ((zone * nmatspec.sum + (1 + (nmatspec.take matIndex).sum) : Nat) : Int)

/-- conduit_blueprint_mesh_matset_xforms.cpp:1642-1660: the loop over the entries of a mixed zone;
    the state is `mix_spec` and `mix_start_index`.  `none`: not ended within `fuel` steps. -/
def mixLoop (O : Silo α β) (idx : Int → Int) : Nat → Int → List Int × Int → Option (Res (List Int × Int))
  | 0, _, _ => none
  | fuel + 1, d, st =>
    if 0 ≤ d then
      match rd O.mixMat d, rd O.mixNext d with
      | .ok no, .ok next => mixLoop O idx fuel (next - 1) (st.1 ++ [idx no], st.2 - 1)
      | _, _ => some .ub
    else some (.ok st)

/-- conduit_blueprint_mesh_matset_xforms.cpp:1608-1662: the loop over the zones; the state is
    `speclist`, `mix_spec` and `mix_start_index`. -/
def specZones (O : Silo α β) (idx : Nat → Int → Int) (fuel : Nat) : List Int → Nat → List Int × List Int × Int → Option (Res (List Int × List Int × Int))
  | [], _, st => some (.ok st)
  | x :: xs, z, (sl, ms, start) =>
    if 0 ≤ x then specZones O idx fuel xs (z + 1) (sl ++ [idx z x], ms, start)
    else match mixLoop O (idx z) fuel (-1 * (x + 1)) (ms, start) with
      | some (.ok (ms', start')) => specZones O idx fuel xs (z + 1) (sl ++ [start], ms', start')
      | some .error => some .error
      | some .ub => some .ub
      | none => none

/-- conduit_blueprint_mesh_matset_xforms.cpp:1471-1692: `specset::to_silo` with a matset in silo
    form.  `matmap_map[matno]` of a number that is not there is 0. -/
def specToSilo (int32 : Bool) (sp : Specs γ) (O : Silo α β) (fuel : Nat) : Option (Res (SpecSilo γ)) :=
  if O.matmap.length = sp.length then
    match matPos int32 sp O.matmap 0 [] with
    | .ok pos =>
      let nmatspec := sp.map (·.2.length)
      match specMf sp O.matlist.length with
      | .ok mf =>
        match specZones O (fun z no => specIndex nmatspec z ((iget pos no).getD 0)) fuel O.matlist 0 ([], [], -1) with
        | some (.ok (sl, ms, _)) => some (.ok ⟨nmatspec, sp.flatMap (·.2.map (·.1)), mf, sl, ms⟩)
        | some .error => some .error
        | some .ub => some .ub
        | none => none
      | .error => some .error
      | .ub => some .ub
    | .error => some .error
    | .ub => some .ub
  else some .error

end Conduit.Matset
