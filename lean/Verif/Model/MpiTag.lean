import Verif.Model.Res
/-
MPI tag limits.
Source: /repo/src/libs/relay/conduit_relay_mpi.cpp
-/
namespace Conduit.Mpi

/-- largest `int` -/
def intMax : Int := 2147483647

/-- `int` addition; overflow is undefined behaviour. -/
def addInt (a b : Int) : Res Int := if a + b > intMax ∨ a + b < - intMax - 1 then .ub else .ok (a + b)

/-- conduit_relay_mpi.cpp:433-479 `probeTagUpperBound(low, high)`.  `accepts t`: `MPI_Isend` with
    tag `t` returns `MPI_SUCCESS`.  Simplification: `MPI_Irecv` and `MPI_Waitall` of the message
    just sent complete; the recursion is bounded by `fuel` (`none`: deeper than that). -/
def probeLoop (accepts : Int → Bool) : Nat → Int → Int → Option (Res Int)
  | 0, _, _ => none
  | fuel + 1, low, high =>
    if high - low < 2 then some (.ok low)
    else match addInt low high with
      | .ok s =>
        let tag := s.tdiv 2
        if accepts tag then probeLoop accepts fuel tag high else probeLoop accepts fuel low tag
      | .error => some .error
      | .ub => some .ub

/-- conduit_relay_mpi.cpp:412-419 `probe` -/
def probe (accepts : Int → Bool) (fuel : Nat) : Option (Res Int) := probeLoop accepts fuel 0 intMax

/-- conduit_relay_mpi.cpp:509-526 `safe_tag` with the static variable `tag_upper_bound`
    (-1: not set); `bound` is what `TagLimits::upper_bound` returns.  Result: the tag and the new
    value of the static variable. -/
def safeTag (static bound tag : Int) : Int × Int :=
  let ub := if static = -1 then bound else static
  let newtag := max 0 tag
  (if newtag > ub then ub else newtag, ub)

/-- conduit_relay_mpi.cpp:494-497 -/
def invalidTag (tag : Int) : Bool := decide (tag < 0)

/-- A sequence of `safe_tag` calls: the tags returned. -/
def safeTags (bound : Int) : (static : Int) → List Int → List Int
  | _, [] => []
  | static, t :: ts => (safeTag static bound t).1 :: safeTags bound (safeTag static bound t).2 ts

end Conduit.Mpi
