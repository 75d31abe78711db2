import Verif.Model.MeshFiles
/-
What sharing out domains over files and ranks should do.
-/
namespace Conduit.Files

/-! ### Domains to files -/

/-- The domains are shared out over the files evenly and in order. -/
structure SharedOut (domains files : Nat) (m : DomainMap) : Prop where
  sizes : m.perFile.length = files ∧ m.offsets.length = files
  mapped : m.toFile.length = domains
  /-- every domain has a file -/
  inFile : ∀ d f : Nat, m.toFile[d]? = some f → f < files
  /-- the domains of a file are those from its offset on, as many as it has -/
  block : ∀ (f o c d : Nat), m.offsets[f]? = some o → m.perFile[f]? = some c →
    (m.toFile[d]? = some f ↔ o ≤ d ∧ d < o + c)
  /-- no two files differ by more than one -/
  even : ∀ (f g c e : Nat), m.perFile[f]? = some c → m.perFile[g]? = some e → c ≤ e + 1
  total : m.perFile.sum = domains

/-! ### Writing in parallel -/

/-- The order in which what several processes do may happen: each process keeps its own order. -/
inductive Interleave {α : Type} : List (List α) → List α → Prop
  | done {ls} (h : ∀ l ∈ ls, l = []) : Interleave ls []
  | step {ls l es} {a : α} (r : Nat) (h : ls[r]? = some (a :: l)) (t : Interleave (ls.set r l) es) : Interleave ls (a :: es)

/-- The order in which what is done in several rounds may happen. -/
inductive InRounds : List Round → List Write → Prop
  | done : InRounds [] []
  | round {ws ts es es'} (h : Interleave ws es) (t : InRounds ts es') : InRounds (ws :: ts) (es ++ es')

/-- What the files hold: the domains written to each, none if there is no such file.  An opened file is made if there is none;
    opened with `wt` it loses what it held. -/
abbrev Disk := Nat → Option (List Nat)
def Disk.write (s : Disk) (w : Write) : Disk := fun f =>
  if f = w.file then some ((if w.trunc then [] else (s f).getD []) ++ [w.dom]) else s f

/-- Two ranks at work on one file in a round. -/
def Collide (ws : Round) : Prop :=
  ∃ (r r' : Nat) (l l' : List Write) (w w' : Write), r ≠ r' ∧ ws[r]? = some l ∧ ws[r']? = some l' ∧ w ∈ l ∧ w' ∈ l' ∧
    w.file = w'.file

/-- What file `f` should hold after the domains have been written to it: what it held, unless truncated, and then exactly the
    domains that belong there, each once. -/
def Holds (trunc : Bool) (toFile : List Nat) (f : Nat) (before after : Option (List Nat)) : Prop :=
  ∃ new, List.Perm new ((List.range toFile.length).filter fun d => toFile[d]? = some f) ∧
    after = if new = [] then before else some ((if trunc then [] else before.getD []) ++ new)

/-- What the root file holds after some sessions. -/
def Session.apply (s : Option (List Nat)) (w : Session) : Option (List Nat) :=
  some ((if w.trunc then [] else s.getD []) ++ w.doms)

end Conduit.Files
