import Verif.Spec.Tree
/-
Specification of schema equality and compatibility (C18, C19).
-/
namespace Conduit.Spec
open Conduit
namespace Tree

/-- Two schemas describe the same thing: same kind, leaves equal in every field,
    lists equal element by element, objects with the same set of names and the
    same description under each name (order is ignored). -/
inductive Same : Tree → Tree → Prop
  | leaf (d : DataType) : Same (.leaf d) (.leaf d)
  | lst (as bs : List Tree) (hl : as.length = bs.length)
      (h : ∀ (i : Nat) a b, as[i]? = some a → bs[i]? = some b → Same a b) : Same (.lst as) (.lst bs)
  | obj (as bs : List (Str × Tree)) (hk : ∀ n, n ∈ as.map (·.1) ↔ n ∈ bs.map (·.1))
      (h : ∀ n a b, as.lookup n = some a → bs.lookup n = some b → Same a b) : Same (.obj as) (.obj bs)

/-- `b`'s data can be stored in `a` wherever both have the same path. -/
inductive Fits : Tree → Tree → Prop
  | leaf (d e : DataType) (h1 : d.id = e.id) (h2 : d.ele = e.ele) (h3 : e.n ≤ d.n) : Fits (.leaf d) (.leaf e)
  | lst (as bs : List Tree) (hl : bs.length ≤ as.length)
      (h : ∀ (i : Nat) a b, as[i]? = some a → bs[i]? = some b → Fits a b) : Fits (.lst as) (.lst bs)
  | obj (as bs : List (Str × Tree))
      (h : ∀ n a b, as.lookup n = some a → bs.lookup n = some b → Fits a b) : Fits (.obj as) (.obj bs)

/-- every name of `c` exists in `b`, at every level -/
inductive Covers : Tree → Tree → Prop
  | leaf (d e : DataType) : Covers (.leaf d) (.leaf e)
  | lst (as bs : List Tree) (h : ∀ (i : Nat) a b, as[i]? = some a → bs[i]? = some b → Covers a b) :
      Covers (.lst as) (.lst bs)
  | obj (as bs : List (Str × Tree)) (hk : ∀ n, n ∈ bs.map (·.1) → n ∈ as.map (·.1))
      (h : ∀ n a b, as.lookup n = some a → bs.lookup n = some b → Covers a b) : Covers (.obj as) (.obj bs)

/-- One step down a tree: by name in an object, by position in a list. -/
inductive Step where
  | name (n : Str)
  | idx (i : Nat)

/-- Follow a list of steps. -/
def follow : Tree → List Step → Option Tree
  | t, [] => some t
  | .obj es, .name n :: ss => match es.lookup n with
    | some c => follow c ss
    | none => none
  | .lst cs, .idx i :: ss => match cs[i]? with
    | some c => follow c ss
    | none => none
  | _, _ :: _ => none

/-- names are distinct in every object -/
inductive Distinct : Tree → Prop
  | leaf (d : DataType) : Distinct (.leaf d)
  | lst (cs : List Tree) (h : ∀ c ∈ cs, Distinct c) : Distinct (.lst cs)
  | obj (es : List (Str × Tree)) (hd : (es.map (·.1)).Nodup) (h : ∀ e ∈ es, Distinct e.2) : Distinct (.obj es)

/-- no child name contains a slash -/
inductive NoSlash : Tree → Prop
  | leaf (d : DataType) : NoSlash (.leaf d)
  | lst (cs : List Tree) (h : ∀ c ∈ cs, NoSlash c) : NoSlash (.lst cs)
  | obj (es : List (Str × Tree)) (hs : ∀ e ∈ es, '/' ∉ e.1) (h : ∀ e ∈ es, NoSlash e.2) : NoSlash (.obj es)

end Tree
end Conduit.Spec
