import Verif.Props.ExtractBox
/-
C94: cases that meet the hypotheses, and where the claim is false.
-/
namespace Conduit.Part
open Conduit.Mesh
namespace BoxCase
open XCase (A s i o leaf points names)

theorem sum_exact : ∀ (o s : Int) (m n : Nat), A.lin (A.lin o m s) n s = A.lin o ((m + n : Nat) : Int) s := by
  intro o s m n
  show o + (m : Int) * s + (n : Int) * s = o + ((m + n : Nat) : Int) * s
  push_cast
  ring

/-- 4 by 3 points. -/
def grid : List (Axis Int) := [⟨chars! "x", 4, fun d => -5 + d * 2⟩, ⟨chars! "y", 3, fun d => 10 + d * 7⟩]

def cset : BNode Int := o [(chars! "type", s (chars! "uniform")), (chars! "dims", o [(chars! "i", i [4]), (chars! "j", i [3])]),
  (chars! "origin", o [(chars! "x", .flts true [-5]), (chars! "y", .flts true [10])]),
  (chars! "spacing", o [(chars! "dx", .flts true [2]), (chars! "dy", .flts true [7])])]

theorem cset_uniform : Uniform A cset grid where
  type := rfl
  system := ⟨_, .head _, fun a => a != chars! "z", by decide⟩
  named := .inl ⟨rfl, ⟨_, rfl, fun k => by simp [BNode.kids, grid, o]⟩⟩
  noValues := rfl
  axis := by
    intro i a ha
    rcases i with _ | _ | i
    · cases ha
      exact ⟨⟨_, ⟨_, rfl, rfl⟩, rfl⟩, -5, 2, ⟨_, ⟨_, rfl, rfl⟩, rfl⟩, ⟨_, ⟨_, rfl, rfl⟩, rfl⟩, fun d => rfl⟩
    · cases ha
      exact ⟨⟨_, ⟨_, rfl, rfl⟩, rfl⟩, 10, 7, ⟨_, ⟨_, rfl, rfl⟩, rfl⟩, ⟨_, ⟨_, rfl, rfl⟩, rfl⟩, fun d => rfl⟩
    · simp [grid] at ha

def topo (ty : Str) : BNode Int := o [(chars! "type", s ty), (chars! "coordset", s (chars! "c")),
  (chars! "elements", o [(chars! "origin", o [(chars! "i", i [100]), (chars! "j", i [200])])])]

def field : Str × BNode Int := (chars! "e", o [(chars! "association", s (chars! "element")), (chars! "topology", s (chars! "t")),
  (chars! "values", i [0, 1, 2, 3, 4, 5])])

def mesh (c t : BNode Int) : BNode Int := o [(chars! "state", o [(chars! "cycle", i [12])]), (chars! "coordsets", o [(chars! "c", c)]),
  (chars! "topologies", o [(chars! "t", t)]), (chars! "fields", o [field])]

def sel (a b : List Nat) : Sel := { whole := none, domain := 3, topology := chars! "t", any := false, kind := .logical (i3 a) (i3 b) }

def opts : Opts := ⟨[], true, chars! "v", chars! "w"⟩

theorem fields_good : GoodFields opts (chars! "t") 6 12 [field] := by
  refine ⟨by decide, (fun f hf => ?_), fun _ => by decide⟩
  rw [List.mem_singleton.1 hf]
  exact ⟨_, _, _, ⟨rfl, rfl, rfl⟩, fun _ => .inl (.inl ⟨_, _, rfl, by decide⟩)⟩

theorem origin_good (ty : Str) : OriginGood A (topo ty) := by
  intro e oo name v h1 h2 h3
  cases h1
  cases h2
  unfold BNode.get at h3
  simp only [o, BNode.kids, List.find?_cons] at h3
  by_cases e1 : chars! "i" = name
  · subst e1; cases h3; exact ⟨_, rfl⟩
  · by_cases e2 : chars! "j" = name
    · subst e2; cases h3; exact ⟨_, rfl⟩
    · rw [beq_eq_false_iff_ne.2 e1, beq_eq_false_iff_ne.2 e2] at h3
      cases h3

theorem box_in : BoxIn [3, 2] [1, 0] [2, 1] := by
  refine ⟨rfl, rfl, ?_⟩
  intro i a b n ha hb hn
  rcases i with _ | _ | i
  · cases ha; cases hb; cases hn; decide
  · cases ha; cases hb; cases hn; decide
  · simp at ha

/-- The hypotheses of C94 are met by a uniform grid: the box of columns 1 and 2. -/
example := C94_uniform_box_partial A opts (sel [1, 0] [2, 1]) (mesh cset (topo (chars! "uniform"))) (topo (chars! "uniform")) cset (o [field])
  (chars! "t") (chars! "c") grid [1, 0] [2, 1] ⟨rfl, by decide, rfl, ⟨_, rfl, rfl⟩⟩ rfl rfl cset_uniform (.inl rfl) (by decide) (by decide +kernel)
  box_in ⟨_, rfl, rfl⟩ ⟨_, rfl, rfl⟩ (origin_good _) rfl fields_good

/-- What comes out. -/
example : let r := extract A opts (sel [1, 0] [2, 1]) (mesh cset (topo (chars! "uniform")))
    points r = some [1, 2, 3, 5, 6, 7, 9, 10, 11] ∧
    leaf r [chars! "coordsets", chars! "c", chars! "origin", chars! "x"] = some (none, [-3]) ∧
    leaf r [chars! "coordsets", chars! "c", chars! "dims", chars! "i"] = some (some int64, [3]) ∧
    leaf r [chars! "coordsets", chars! "c", chars! "dims", chars! "j"] = some (some int64, [3]) ∧
    leaf r [chars! "topologies", chars! "t", chars! "elements", chars! "origin", chars! "i"] = some (some int64, [101]) ∧
    leaf r [chars! "topologies", chars! "t", chars! "elements", chars! "origin", chars! "j"] = some (some int64, [200]) ∧
    leaf r [chars! "fields", chars! "e", chars! "values"] = some (some int64, [1, 2, 4, 5]) ∧
    leaf r [chars! "fields", chars! "w", chars! "values", chars! "ids"] = some (some int64, [1, 2, 4, 5]) := by
  decide +kernel

/-! ### a rectilinear grid -/

def rgrid : List (Axis Int) := [⟨chars! "x", 4, fun d => [0, 1, 5, 6].getD d 0⟩, ⟨chars! "y", 3, fun d => [2, 3, 9].getD d 0⟩]

def rcset : BNode Int := o [(chars! "type", s (chars! "rectilinear")),
  (chars! "values", o [(chars! "x", .flts true [0, 1, 5, 6]), (chars! "y", .flts false [2, 3, 9])])]

theorem rcset_rectilinear : Rectilinear rcset rgrid where
  type := rfl
  system := ⟨_, .head _, fun a => a != chars! "z", by decide⟩
  named := ⟨_, rfl, fun k => by simp [BNode.kids, rgrid, o]⟩
  noOrigin := rfl
  noSpacing := rfl
  axis := by
    intro i a ha
    rcases i with _ | _ | i
    · cases ha
      refine ⟨_, _, ⟨_, rfl, rfl⟩, rfl, fun d hd => ?_⟩
      have hd : d < 4 := hd
      rcases (by omega : d = 0 ∨ d = 1 ∨ d = 2 ∨ d = 3) with rfl | rfl | rfl | rfl <;> rfl
    · cases ha
      refine ⟨_, _, ⟨_, rfl, rfl⟩, rfl, fun d hd => ?_⟩
      have hd : d < 3 := hd
      rcases (by omega : d = 0 ∨ d = 1 ∨ d = 2) with rfl | rfl | rfl <;> rfl
    · simp [rgrid] at ha

/-- The hypotheses of C94 are met by a rectilinear grid. -/
example := C94_rectilinear_box_partial A opts (sel [1, 0] [2, 1]) (mesh rcset (topo (chars! "rectilinear"))) (topo (chars! "rectilinear")) rcset
  (o [field]) (chars! "t") (chars! "c") rgrid [1, 0] [2, 1] ⟨rfl, by decide, rfl, ⟨_, rfl, rfl⟩⟩ rfl rfl rcset_rectilinear (.inl rfl)
  (by decide) (by decide +kernel) box_in ⟨_, rfl, rfl⟩ (origin_good _) rfl fields_good

example : let r := extract A opts (sel [1, 0] [2, 1]) (mesh rcset (topo (chars! "rectilinear")))
    leaf r [chars! "coordsets", chars! "c", chars! "values", chars! "x"] = some (none, [1, 5, 6]) ∧
    leaf r [chars! "coordsets", chars! "c", chars! "values", chars! "y"] = some (none, [2, 3, 9]) := by
  decide +kernel

/-! ### a structured grid -/

def scset : BNode Int := o [(chars! "type", s (chars! "explicit")),
  (chars! "values", o [(chars! "x", .flts true [0, 1, 2, 3, 0, 1, 2, 3, 0, 1, 2, 3]), (chars! "y", i [0, 0, 0, 0, 5, 6, 7, 8, 9, 9, 9, 9])])]

def stopo (l : List (Str × BNode Int)) : BNode Int := o [(chars! "type", s (chars! "structured")), (chars! "coordset", s (chars! "c")),
  (chars! "elements", o ([(chars! "dims", o [(chars! "i", i [3]), (chars! "j", i [2])])] ++ l))]

theorem stopo_structured : Structured A (stopo []) [3, 2] := by
  refine ⟨_, _, rfl, rfl, ?_⟩
  intro i k hk
  rcases i with _ | _ | i
  · cases hk; exact ⟨_, by decide, rfl, rfl, by decide⟩
  · cases hk; exact ⟨_, by decide, rfl, rfl, by decide⟩
  · simp at hk

/-- The hypotheses of C94 are met by a structured grid. -/
example := C94_structured_box_partial A opts (sel [1, 0] [2, 1]) (mesh scset (stopo [])) (stopo []) scset (o [field]) _ _ _
  (chars! "t") (chars! "c") [chars! "x", chars! "y"] [3, 2] [1, 0] [2, 1] ⟨rfl, by decide, rfl, ⟨_, rfl, rfl⟩⟩ rfl rfl
  ⟨rfl, ⟨_, .head _, fun a => a != chars! "z", by decide⟩, ⟨_, rfl, fun k => by simp [BNode.kids, o]⟩⟩ rfl stopo_structured rfl rfl rfl (.inl rfl)
  (by decide) (by decide +kernel) box_in rfl (fun a ha => by
    rcases List.mem_cons.1 ha with rfl | ha
    · exact ⟨_, rfl, .inr ⟨_, _, rfl, by decide⟩⟩
    · rw [List.mem_singleton.1 ha]
      exact ⟨_, rfl, .inl ⟨_, _, rfl, by decide⟩⟩) rfl fields_good

example : let r := extract A opts (sel [1, 0] [2, 1]) (mesh scset (stopo []))
    leaf r [chars! "coordsets", chars! "c", chars! "values", chars! "y"] = some (some int64, [0, 0, 0, 6, 7, 8, 9, 9, 9]) ∧
    leaf r [chars! "topologies", chars! "t", chars! "elements", chars! "dims", chars! "i"] = some (some int64, [2]) := by
  decide +kernel

/-! ### where it fails -/

/-- **C94** fails for a uniform coordset without an origin or a spacing, which the blueprint lets one leave out: a null pointer. -/
theorem C94_no_origin_false :
    (match extract A opts (sel [1, 0] [2, 1]) (mesh (o [(chars! "type", s (chars! "uniform")),
      (chars! "dims", o [(chars! "i", i [4]), (chars! "j", i [3])])]) (topo (chars! "uniform"))) with | .ok none => true | _ => false) = true := by
  decide +kernel

/-- A uniform coordset with the origin in another order than the axes: the same points as `cset`. -/
def mixed : BNode Int := o [(chars! "type", s (chars! "uniform")), (chars! "dims", o [(chars! "i", i [4]), (chars! "j", i [3])]),
  (chars! "origin", o [(chars! "y", .flts true [10]), (chars! "x", .flts true [-5])]),
  (chars! "spacing", o [(chars! "dx", .flts true [2]), (chars! "dy", .flts true [7])])]

/-- **C94** fails if the children of the origin come in another order: the box is moved to the wrong place (it begins at x = -5 + 0 * 7
    and y = 10 + 1 * 2, not at x = -3 and y = 10). -/
theorem C94_order_false : Uniform A mixed grid ∧
    leaf (extract A opts (sel [1, 0] [2, 1]) (mesh mixed (topo (chars! "uniform")))) [chars! "coordsets", chars! "c", chars! "origin", chars! "x"] =
      some (none, [-5]) ∧
    leaf (extract A opts (sel [1, 0] [2, 1]) (mesh mixed (topo (chars! "uniform")))) [chars! "coordsets", chars! "c", chars! "origin", chars! "y"] =
      some (none, [12]) := by
  refine ⟨⟨rfl, ⟨_, .head _, fun a => a != chars! "z", by decide⟩,
    .inl ⟨rfl, ⟨_, rfl, fun k => by simp [BNode.kids, grid, o, or_comm]⟩⟩, rfl, ?_⟩, by decide +kernel⟩
  intro i a ha
  rcases i with _ | _ | i
  · cases ha
    exact ⟨⟨_, ⟨_, rfl, rfl⟩, rfl⟩, -5, 2, ⟨_, ⟨_, rfl, rfl⟩, rfl⟩, ⟨_, ⟨_, rfl, rfl⟩, rfl⟩, fun d => rfl⟩
  · cases ha
    exact ⟨⟨_, ⟨_, rfl, rfl⟩, rfl⟩, 10, 7, ⟨_, ⟨_, rfl, rfl⟩, rfl⟩, ⟨_, ⟨_, rfl, rfl⟩, rfl⟩, fun d => rfl⟩
  · simp [grid] at ha

/-- **C94** fails for the origin of the elements of a structured grid: it is not in the box. -/
theorem C94_structured_origin_false :
    leaf (extract A opts (sel [1, 0] [2, 1]) (mesh scset (stopo [(chars! "origin", o [(chars! "i0", i [100]), (chars! "j0", i [200])])])))
      [chars! "topologies", chars! "t", chars! "elements", chars! "origin", chars! "i0"] = none ∧
    (match extract A opts (sel [1, 0] [2, 1]) (mesh scset (stopo [(chars! "origin", o [(chars! "i0", i [100]), (chars! "j0", i [200])])])) with
      | .ok (some _) => true | _ => false) = true := by
  decide +kernel

end BoxCase
end Conduit.Part
