import Verif.Spec.Endian
/-
What `update` and `update_compatible` do to values, and the situation they need.
Used for C26 and C27.
-/
namespace Conduit.Spec
open Conduit

/-- the value of an empty node -/
def emptyV : Val := .leaf .empty .default []

/-- the entry with a name -/
def entry (n : Str) : List (Str × Val) → Option Val
  | [] => none
  | (k, d) :: ds => if k = n then some d else entry n ds

/-! ### values -/

/-- The elements of one leaf written over another one of the same type that is at
    least as long: the others, and the declared byte order, stay. -/
def overLeaf (id : TypeId) (es : List (List (Option UInt8))) (d : Val) (otherwise : Val) : Val :=
  match d with
  | .leaf id' e' es' =>
    if id' = id ∧ es.length ≤ es'.length then .leaf id' e' (es ++ es'.drop es.length) else otherwise
  | _ => otherwise

mutual
/-- `d` with the elements `s` has for the leaves they have in common (same place,
    same type, not more elements). -/
def overlay (s : Val) : Val → Val
  | .leaf id' e' es' => match s with
    | .leaf id _ es => if id = .empty then .leaf id' e' es' else overLeaf id es (.leaf id' e' es') (.leaf id' e' es')
    | _ => .leaf id' e' es'
  | .obj ds => match s with
    | .obj ss => .obj (overlayE ss ds)
    | _ => .obj ds
  | .lst ds => match s with
    | .lst ss => .lst (overlayL ss ds)
    | _ => .lst ds
def overlayE (ss : List (Str × Val)) : List (Str × Val) → List (Str × Val)
  | [] => []
  | (n, d) :: ds => (n, match entry n ss with | some s => overlay s d | none => d) :: overlayE ss ds
def overlayL (ss : List Val) : List Val → List Val
  | [] => []
  | d :: ds => match ss with
    | [] => d :: ds
    | s :: ss => overlay s d :: overlayL ss ds
end

/-- Change the entry `n`, or add it at the end (changed from an empty node). -/
def upsert (n : Str) (f : Val → Val) : List (Str × Val) → List (Str × Val)
  | [] => [(n, f emptyV)]
  | (k, d) :: ds => if k = n then (k, f d) :: ds else (k, d) :: upsert n f ds

/-- entries of an object, none for another value -/
def entries : Val → List (Str × Val)
  | .obj es => es
  | _ => []

/-- children of a list, none for another value -/
def items : Val → List Val
  | .lst cs => cs
  | _ => []

mutual
/-- `d` after `update` from `s`. -/
def merge : Val → Val → Val
  | .leaf id e es, d => if id = .empty then d else overLeaf id es d (.leaf id e es)
  | .obj ss, d => if ss.isEmpty then d else .obj (mergeE ss (entries d))
  | .lst ss, d => if ss.isEmpty then d else .lst (mergeL ss (items d))
def mergeE : List (Str × Val) → List (Str × Val) → List (Str × Val)
  | [], ds => ds
  | (n, s) :: ss, ds => mergeE ss (upsert n (fun d => merge s d) ds)
def mergeL : List Val → List Val → List Val
  | [], ds => ds
  | s :: ss, [] => merge s emptyV :: mergeL ss []
  | s :: ss, d :: ds => merge s d :: mergeL ss ds
end

mutual
/-- names are distinct in every object -/
def DistinctV : Val → Prop
  | .leaf _ _ _ => True
  | .obj es => (es.map Prod.fst).Nodup ∧ DistinctVE es
  | .lst cs => DistinctVL cs
def DistinctVE : List (Str × Val) → Prop
  | [] => True
  | (_, c) :: es => DistinctV c ∧ DistinctVE es
def DistinctVL : List Val → Prop
  | [] => True
  | c :: cs => DistinctV c ∧ DistinctVL cs
end

mutual
/-- Nowhere does `s` have an object with entries where `d` has a list with
    entries. -/
def Fits : Val → Val → Prop
  | .leaf _ _ _, _ => True
  | .obj ss, d => (ss ≠ [] → items d = []) ∧ FitsE ss (entries d)
  | .lst ss, d => FitsL ss (items d)
def FitsE : List (Str × Val) → List (Str × Val) → Prop
  | [], _ => True
  | (n, s) :: ss, ds => (∀ d, entry n ds = some d → Fits s d) ∧ FitsE ss ds
def FitsL : List Val → List Val → Prop
  | [], _ => True
  | _ :: _, [] => True
  | s :: ss, d :: ds => Fits s d ∧ FitsL ss ds
end

/-! ### paths into values -/

/-- one step down a tree -/
inductive Step where
  | key (n : Str)
  | idx (i : Nat)

/-- the value at a path -/
def at? : Val → List Step → Option Val
  | v, [] => some v
  | .obj es, .key n :: p => match entry n es with
    | some c => at? c p
    | none => none
  | .lst cs, .idx i :: p => match cs[i]? with
    | some c => at? c p
    | none => none
  | _, _ :: _ => none

/-- `s` says nothing about the path: following it in `s` one meets an empty leaf,
    an object or list without children, or a missing child. -/
def Silent : Val → List Step → Prop
  | .leaf id _ _, _ => id = .empty
  | .obj es, [] => es = []
  | .lst cs, [] => cs = []
  | .obj es, .key n :: p => match entry n es with
    | some c => Silent c p
    | none => True
  | .obj es, .idx _ :: _ => es = []
  | .lst cs, .idx i :: p => match cs[i]? with
    | some c => Silent c p
    | none => True
  | .lst cs, .key _ :: _ => cs = []

/-! ### memory -/

/-- no byte in common -/
def NoShare (a b : Place) : Prop := ∀ blk i, a.Has blk i → ¬ b.Has blk i

mutual
/-- Elements have the size of their type. -/
def NatSize : Node → Prop
  | .leaf _ d => d.id ≠ .empty → d.ele = d.id.bytes
  | .obj _ es => NatSizeE es
  | .lst _ cs => NatSizeL cs
def NatSizeE : List (Str × Node) → Prop
  | [] => True
  | (_, c) :: es => NatSize c ∧ NatSizeE es
def NatSizeL : List Node → Prop
  | [] => True
  | c :: cs => NatSize c ∧ NatSizeL cs
end

/-- Two siblings do not show each other's buffers. -/
def Cross (c c' : Node) : Prop :=
  (∀ p ∈ owned c, p.blk ∉ blocks c') ∧ (∀ p ∈ owned c', p.blk ∉ blocks c)

mutual
/-- No node shows a buffer owned by a node of another branch. -/
def Tidy : Node → Prop
  | .leaf _ _ => True
  | .obj _ es => TidyE es ∧ (es.map Prod.snd).Pairwise Cross
  | .lst _ cs => TidyL cs ∧ cs.Pairwise Cross
def TidyE : List (Str × Node) → Prop
  | [] => True
  | (_, c) :: es => Tidy c ∧ TidyE es
def TidyL : List Node → Prop
  | [] => True
  | c :: cs => Tidy c ∧ TidyL cs
end

end Conduit.Spec
