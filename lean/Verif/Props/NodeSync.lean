import Verif.Lemmas.NodeSync13
/-
C33, C34, C35: nodes and their schemas, swap and move, ownership of memory, over histories of calls.
-/
namespace Conduit
open Spec Node Heap HT

/-- the state a list of calls leads to -/
def runs (ops : List Op) (h : Heap) : Res Heap := ops.foldlM (fun g o => o.run g) h

def Res.getD {α : Type} (r : Res α) (d : α) : α :=
  match r with
  | .ok a => a
  | _ => d
def Res.good {α : Type} (r : Res α) : Bool :=
  match r with
  | .ok _ => true
  | _ => false
theorem Res.good_eq {α : Type} {r : Res α} (d : α) (h : r.good = true) : r = .ok (r.getD d) := by
  cases r with
  | ok a => rfl
  | error => cases h
  | ub => cases h

namespace SyncEx

/-- a history computed call by call -/
def walk : List Op → List Nat → Heap → List Nat × Heap
  | [], U, h => (U, h)
  | op :: ops, U, h => walk ops (op.user h U) ((op.run h).getD h)
def Checked : List Op → List Nat → Heap → Prop
  | [], _, _ => True
  | op :: ops, U, h => op.Allowed U h ∧ (op.run h).good = true ∧ Checked ops (op.user h U) ((op.run h).getD h)
theorem hist : ∀ (ops : List Op) (U : List Nat) (h : Heap), Checked ops U h → History U h ops (walk ops U h).1 (walk ops U h).2
  | [], U, h, _ => .nil U h
  | op :: ops, U, h, c => .cons U h op _ ops _ _ c.1 (Res.good_eq h c.2.1) (hist ops _ _ c.2.2)

theorem not_below {h : Heap} {a b : Nat} (hl : (h.nodes a).map (·.children) = some []) (hne : a ≠ b) : ¬ Below h a b := by
  intro hb
  cases hb with
  | self => exact hne rfl
  | child _ _ c o ho hc _ =>
    rw [ho] at hl
    simp only [Option.map_some] at hl
    injection hl with hl
    rw [hl] at hc
    cases hc

/-- `NotBefore` for the nodes below the bound -/
def notBefore (h : Heap) (a b : Nat) : Bool :=
  (List.range h.nextN).all fun n => match h.nodes n with
    | none => true
    | some o => (List.range o.children.length).all fun i => (List.range o.children.length).all fun j =>
        !(o.children[i]? == some a && o.children[j]? == some b) || decide (j < i)

theorem notBefore_ok {U U' : List Nat} {h h' : Heap} {ops : List Op} (H : History U h ops U' h') {L : Prop} {F : List HT} (v : Inv L U h F)
    {a b : Nat} (hc : notBefore h' a b = true) : NotBefore h' a b := by
  obtain ⟨F', v'⟩ := H.inv v
  intro n o i j ho hi hj
  have hn : n < h'.nextN := by
    by_contra hc
    rw [v'.bounded.nodes n (by omega)] at ho
    cases ho
  unfold notBefore at hc
  rw [List.all_eq_true] at hc
  have := hc n (List.mem_range.2 hn)
  rw [ho] at this
  simp only [List.all_eq_true] at this
  have := this i (List.mem_range.2 (List.getElem?_eq_some_iff.1 hi).1) j (List.mem_range.2 (List.getElem?_eq_some_iff.1 hj).1)
  rw [hi, hj] at this
  simpa using this

/-- an object with two children, one of them an object, and a second tree with a value -/
def ops1 : List Op := [.new, .fetch 0 ['a', '/', 'c'], .fetch 0 ['b'], .setScalar 3 .int32 [1, 2, 3, 4], .new, .append 4,
  .setString 5 [104, 105], .userAlloc 16, .setExternalPtr 2 (.ofId .int64 2) (some ⟨2, 0⟩), .setNode 5 0, .rename 0 ['a'] ['z'], .remove 4 0]
def h1 : Heap := (walk ops1 [] init).2
theorem hist1 : History [] init ops1 (walk ops1 [] init).1 h1 := by
  refine hist _ _ _ ⟨trivial, ?_, trivial, ?_, trivial, ?_, trivial, ?_, trivial, ?_, trivial, ?_, trivial, ?_, trivial, ?_, trivial, ?_, trivial, ?_, trivial, ?_,
    trivial, ?_, trivial⟩ <;> decide +kernel
theorem ops1_noswap : ops1.all (fun o => !o.isSwap) = true := by decide
/-- the children of node 0: an object and a value -/
theorem h1_kids : (h1.nodes 0).map (·.children) = some [1, 3] ∧ (h1.nodes 4).map (·.children) = some [] := by decide +kernel

/-- the second child exchanged with the first one, then one moved into the other tree -/
def ops2 : List Op := ops1 ++ [.swap 3 1]
def h2 : Heap := (walk ops2 [] init).2

theorem apart_of {h : Heap} {a b : Nat} (h1 : ¬ Below h a b) (h2 : ¬ Below h b a) : Apart h a b := ⟨h1, h2⟩

theorem swap_allowed1 : Op.Allowed (walk ops1 [] init).1 h1 (.swap 3 1) := by
  refine ⟨⟨not_below (by decide +kernel) (by decide), ?_⟩, notBefore_ok hist1 Inv.init (by decide +kernel)⟩
  intro hb
  cases hb with
  | child _ _ c o ho hc hb =>
    have e : (h1.nodes 1).map (·.children) = some [2] := by decide +kernel
    rw [ho] at e
    simp only [Option.map_some] at e
    injection e with e
    rw [e, List.mem_singleton] at hc
    subst hc
    exact not_below (h := h1) (by decide +kernel) (by decide) hb

end SyncEx

/-! ### C33 -/

/-- **C33**, proved for histories of allowed calls (see `Op.Allowed`): at every point of the history a node has exactly one
    child for each child of its schema, in the same order.  Missing for the full claim: it is false for `add_child` on a list
    with children and for `swap` of two children of one node when the receiver comes first (below). -/
theorem C33_lockstep_partial {ops : List Op} {U : List Nat} {h : Heap} (H : History [] init ops U h) : Lockstep h ∧ Heap.Disjoint h := by
  obtain ⟨F, v⟩ := H.inv Inv.init
  exact ⟨v.lockstep, v.disjoint⟩

/-- and without `swap` and `move` the parent pointers are right -/
theorem C33_parents {ops : List Op} {U : List Nat} {h : Heap} (H : History [] init ops U h) (hs : ops.all (fun o => !o.isSwap) = true) :
    Linked h := by
  obtain ⟨F, v⟩ := H.inv Inv.init
  exact v.linked ⟨trivial, hs⟩

example : Lockstep SyncEx.h1 ∧ Heap.Disjoint SyncEx.h1 := C33_lockstep_partial SyncEx.hist1
example : Linked SyncEx.h1 := C33_parents SyncEx.hist1 SyncEx.ops1_noswap

/-- in lockstep a node has as many children as its schema -/
theorem not_lockstep {h : Heap} {n s : Nat} {k l : List Nat} (h1 : (h.nodes n).map (fun o => (o.schema, o.children)) = some (s, k))
    (h2 : (h.schemas s).map (·.children) = some l) (hl : k.length ≠ l.length) : ¬ Lockstep h := by
  intro H
  cases hn : h.nodes n with
  | none => rw [hn] at h1; cases h1
  | some o =>
    rw [hn] at h1
    simp only [Option.map_some] at h1
    injection h1 with h1
    injection h1 with e1 e2
    obtain ⟨so, hs, hlen, _⟩ := H n o hn
    rw [e1] at hs
    rw [hs] at h2
    simp only [Option.map_some] at h2
    injection h2 with h2
    rw [e2, h2] at hlen
    exact hl hlen

/-- C33 is false for `add_child` on a list: the schema becomes an object and drops the schemas of the
    list, the node keeps its children, whose schemas are gone: destroying the node uses a deleted schema. -/
theorem C33_add_child_on_list_false : ∃ h, runs [.new, .append 0, .addChild 0 ['x']] init = .ok h ∧ ¬ Lockstep h ∧
    Op.run h (.destroy 0) = .ub := by
  refine ⟨_, Res.good_eq Heap.init (by decide +kernel), ?_, ?_⟩
  · exact not_lockstep (n := 0) (s := 0) (k := [1, 2]) (l := [3]) (by decide +kernel) (by decide +kernel) (by decide)
  · have : (match (runs [.new, .append 0, .addChild 0 ['x'], .destroy 0] init) with | .ub => true | _ => false) = true := by decide +kernel
    generalize hr : (runs [.new, .append 0, .addChild 0 ['x']] init) = r at *
    have e : runs [.new, .append 0, .addChild 0 ['x'], .destroy 0] init = (r >>= fun h => Op.run h (.destroy 0)) := by
      rw [← hr]
      simp only [runs, List.foldlM_cons, List.foldlM_nil, bind_assoc, bind_pure]
    rw [e] at this
    have g : r.good = true := by rw [← hr]; decide +kernel
    rw [Res.good_eq Heap.init g] at this
    simp only [Res.bind_ok] at this
    split at this
    · assumption
    · cases this

/-- C33 is false after `n["a"].swap(n["b"])`: the nodes exchange their schemas, but the schema of the parent keeps the order, so the
    first child has the schema of the second; removing it then deletes the schema of the child that stays. -/
theorem C33_swap_siblings_false : ∃ h, runs [.new, .fetch 0 ['a'], .fetch 0 ['b'], .swap 1 2] init = .ok h ∧ ¬ Lockstep h ∧
    (h.nodes 1).map (·.schema) = some 3 ∧ (h.schemas 0).map (·.children) = some [1, 3] ∧
    runs [.remove 0 0, .reset 2] h = .ub := by
  refine ⟨_, Res.good_eq Heap.init (by decide +kernel), ?_, by decide +kernel, by decide +kernel, ?_⟩
  · intro H
    have h1 : (((runs [.new, .fetch 0 ['a'], .fetch 0 ['b'], .swap 1 2] init).getD init).nodes 0).map (fun o => (o.schema, o.children)) =
      some (0, [1, 2]) := by decide +kernel
    have h2 : (((runs [.new, .fetch 0 ['a'], .fetch 0 ['b'], .swap 1 2] init).getD init).schemas 0).map (·.children) = some [1, 3] := by decide +kernel
    have h3 : (((runs [.new, .fetch 0 ['a'], .fetch 0 ['b'], .swap 1 2] init).getD init).nodes 1).map (·.schema) = some 3 := by decide +kernel
    generalize ((runs [.new, .fetch 0 ['a'], .fetch 0 ['b'], .swap 1 2] init).getD init) = g at *
    cases hn : g.nodes 0 with
    | none => rw [hn] at h1; cases h1
    | some o =>
      rw [hn] at h1
      simp only [Option.map_some] at h1
      injection h1 with h1
      injection h1 with e1 e2
      obtain ⟨so, hs, _, hc, _⟩ := H 0 o hn
      obtain ⟨oc, soc, c1, c2, _⟩ := hc 0 1 (by rw [e2]; rfl)
      rw [e1] at hs
      rw [hs] at h2
      simp only [Option.map_some] at h2
      injection h2 with h2
      rw [c1] at h3
      simp only [Option.map_some] at h3
      injection h3 with h3
      rw [h2, h3] at c2
      cases c2
  · generalize hr : runs [.new, .fetch 0 ['a'], .fetch 0 ['b'], .swap 1 2] init = r
    have : (match (runs [.new, .fetch 0 ['a'], .fetch 0 ['b'], .swap 1 2, .remove 0 0, .reset 2] init) with | .ub => true | _ => false) = true := by
      decide +kernel
    have e : runs [.new, .fetch 0 ['a'], .fetch 0 ['b'], .swap 1 2, .remove 0 0, .reset 2] init = (r >>= fun h => runs [.remove 0 0, .reset 2] h) := by
      rw [← hr]
      simp only [runs, List.foldlM_cons, List.foldlM_nil, bind_assoc, pure_bind]
    rw [e] at this
    have g : r.good = true := by rw [← hr]; decide +kernel
    rw [Res.good_eq Heap.init g] at this
    simp only [Res.bind_ok] at this
    split at this
    · assumption
    · cases this

/-! ### C34 -/

/-- **C34**, swap, at any point of a history of allowed calls, for two nodes none inside the other, not two children of one
    node with the receiver in front: `a` reads as `b` did and the other way round; every other node
    object is untouched, so both stay where they are among the children of their parents; no schema changes its names, so
    they keep their names; nodes and schemas stay in lockstep; nothing is allocated or freed.
    Missing for the full claim: the parent pointers of the exchanged children, which are wrong (`C34_swap_parents_false`),
    and the other order of two children of one node (`C33_swap_siblings_false`). -/
theorem C34_swap_partial {ops : List Op} {U : List Nat} {h : Heap} (H : History [] init ops U h) {a b : Nat} (ha : (h.nodes a).isSome)
    (hb : (h.nodes b).isSome) (hap : Apart h a b) (hnb : NotBefore h a b) :
    ∃ h', swapN h a b = .ok h' ∧ readN h'.nextN h' a = readN h.nextN h b ∧ readN h'.nextN h' b = readN h.nextN h a ∧
      (∀ i, i ≠ a → i ≠ b → h'.nodes i = h.nodes i) ∧
      (∀ i o, h.nodes i = some o → ∃ o', h'.nodes i = some o' ∧ o'.parent = o.parent ∧ o'.owns = o.owns) ∧
      (∀ s, (h'.schemas s).map (·.kind) = (h.schemas s).map (·.kind)) ∧ h'.mem = h.mem ∧ Lockstep h' ∧ Heap.Disjoint h' ∧ Blocks h' U := by
  obtain ⟨F, v⟩ := H.inv Inv.init
  obtain ⟨h', e, ⟨F', v'⟩, r1, r2, r3, r4, r5, r6⟩ := v.swap_read ha hb hap hnb
  exact ⟨h', e, r1, r2, r3, r4, r5, r6, v'.lockstep, v'.disjoint, v'.blocks⟩

/-- **C34**, move: `a` reads as `b` did, `b` is empty and owns nothing. -/
theorem C34_move_partial {ops : List Op} {U : List Nat} {h : Heap} (H : History [] init ops U h) {a b : Nat} (ha : (h.nodes a).isSome)
    (hb : (h.nodes b).isSome) (hap : Apart h a b) (hnb : NotBefore h a b) :
    ∃ h' x, moveN h a b = .ok h' ∧ readN h'.nextN h' a = readN h.nextN h b ∧ readN h'.nextN h' b = .ok (.leaf x {}) ∧ x.alloced = false ∧
      Lockstep h' ∧ Heap.Disjoint h' ∧ Blocks h' U := by
  obtain ⟨F, v⟩ := H.inv Inv.init
  obtain ⟨h', x, e, ⟨F', v'⟩, r1, r2, r3⟩ := v.move_read ha hb hap hnb
  exact ⟨h', x, e, r1, r2, r3, v'.lockstep, v'.disjoint, v'.blocks⟩

/-- the second child of an object exchanged with the first, which is an object -/
example : ∃ h', swapN SyncEx.h1 3 1 = .ok h' ∧ readN h'.nextN h' 3 = readN SyncEx.h1.nextN SyncEx.h1 1 ∧
    readN h'.nextN h' 1 = readN SyncEx.h1.nextN SyncEx.h1 3 := by
  obtain ⟨h', e, r1, r2, _⟩ := C34_swap_partial SyncEx.hist1 (a := 3) (b := 1) (by decide +kernel) (by decide +kernel) SyncEx.swap_allowed1.1
    SyncEx.swap_allowed1.2
  exact ⟨h', e, r1, r2⟩
example : ∃ h' x, moveN SyncEx.h1 3 1 = .ok h' ∧ readN h'.nextN h' 1 = .ok (.leaf x {}) := by
  obtain ⟨h', x, e, _, r2, _⟩ := C34_move_partial SyncEx.hist1 (a := 3) (b := 1) (by decide +kernel) (by decide +kernel) SyncEx.swap_allowed1.1
    SyncEx.swap_allowed1.2
  exact ⟨h', x, e, r2⟩

/-- C34 is false for the parent pointers: `swap` leaves the children of both nodes pointing to their old parent.  Here node 3 gets the
    child 1 of node 0, but the parent of 1 is still 0: `fetch("../z")` on it adds to the other tree, and once node 0 is destroyed it
    uses a deleted node. -/
theorem C34_swap_parents_false : ∃ h, runs [.new, .fetch 0 ['a', '/', 'c'], .new, .swap 0 3] init = .ok h ∧
    (h.nodes 3).map (·.children) = some [1] ∧ (h.nodes 1).map (·.parent) = some (some 0) ∧ ¬ Linked h ∧
    (((Op.run h (.fetch 1 ['.', '.', '/', 'z'])).getD Heap.init).nodes 0).map (·.children) = some [4] := by
  refine ⟨_, Res.good_eq Heap.init (by decide +kernel), by decide +kernel, by decide +kernel, ?_, by decide +kernel⟩
  intro H
  have h1 : (((runs [.new, .fetch 0 ['a', '/', 'c'], .new, .swap 0 3] init).getD init).nodes 3).map (·.children) = some [1] := by decide +kernel
  have h2 : (((runs [.new, .fetch 0 ['a', '/', 'c'], .new, .swap 0 3] init).getD init).nodes 1).map (·.parent) = some (some 0) := by decide +kernel
  generalize ((runs [.new, .fetch 0 ['a', '/', 'c'], .new, .swap 0 3] init).getD init) = g at *
  cases h3 : g.nodes 3 with
  | none => rw [h3] at h1; cases h1
  | some o =>
    cases h4 : g.nodes 1 with
    | none => rw [h4] at h2; cases h2
    | some oc =>
      rw [h3] at h1
      rw [h4] at h2
      simp only [Option.map_some] at h1 h2
      injection h1 with h1
      injection h2 with h2
      have := H.1 3 o 1 oc h3 (by rw [h1]; simp) h4
      rw [h2] at this
      cases this

theorem C34_swap_dangling_false :
    (match runs [.new, .fetch 0 ['a', '/', 'c'], .new, .swap 0 3, .destroy 0, .fetch 1 ['.', '.', '/', 'z']] init with | .ub => true | _ => false) = true := by
  decide +kernel

/-! ### C35 -/

/-- **C35**, ownership, at any point of a history of allowed calls: what a node owns is alive and is owned by no other node and
    not by the user, so nothing can be freed twice and a leaf that reads through the node that owns its memory reads live memory; memory that
    is alive is owned or the user's, so nothing leaks; the user's memory is never freed.
    Missing for the full claim: it is false for schemas whose root is empty (below), and for `add_child` on a list and `swap` of
    two children of one node (`C33_add_child_on_list_false`, `C33_swap_siblings_false`). -/
theorem C35_blocks_partial {ops : List Op} {U : List Nat} {h : Heap} (H : History [] init ops U h) : Blocks h U := by
  obtain ⟨F, v⟩ := H.inv Inv.init
  exact v.blocks

/-- no call that only restructures and frees runs into freed memory or a deleted object (a second `free` would be `ub`) -/
theorem C35_no_double_free_partial {ops : List Op} {U : List Nat} {h : Heap} (H : History [] init ops U h) (op : Op) (ha : op.Allowed U h)
    (hp : op.Plain h) : ∃ h', op.run h = .ok h' := by
  obtain ⟨F, v⟩ := H.inv Inv.init
  exact v.progress op ha hp

/-- `fetch` neither, as long as the parent pointers are right -/
theorem C35_fetch {ops : List Op} {U : List Nat} {h : Heap} (H : History [] init ops U h) (hs : ops.all (fun o => !o.isSwap) = true) {n : Nat}
    (hn : (h.nodes n).isSome) (path : Str) : ∃ r, fetchN h n path = .ok r ∧ ∀ c, r.2 = some c → (r.1.nodes c).isSome := by
  obtain ⟨F, v⟩ := H.inv Inv.init
  rcases Inv.fetch path.length path h F n (Nat.le_refl _) v hn with ⟨r, F', e, _, _, c⟩ | ⟨_, hc⟩
  · exact ⟨r, e, c⟩
  · exact absurd ⟨trivial, hs⟩ hc

/-- setters of values: only the write of the elements itself can fail -/
theorem C35_setters {ops : List Op} {U : List Nat} {h : Heap} (H : History [] init ops U h) {n : Nat} (hn : (h.nodes n).isSome) (d : DataType)
    (hd : 0 ≤ d.spannedBytes) :
    ∃ h1 o d1, initN h n d = .ok h1 ∧ h1.nodes n = some o ∧ dtypeN h1 n = .ok d1 ∧
      ∀ write : Info → DataType → Mem → Res Mem,
        setWith d write h n = (write o.info d1 h1.mem >>= fun m => .ok { h1 with mem := m }) := by
  obtain ⟨F, v⟩ := H.inv Inv.init
  exact v.setter_init hn hd

/-- destroying all roots, in any order, succeeds and leaves no node, no schema and only the memory of the user -/
theorem C35_destroy {ops : List Op} {U : List Nat} {h : Heap} (H : History [] init ops U h) (R : List Nat) (hR : R.Nodup)
    (hroot : ∀ n, n ∈ R ↔ ∃ o, h.nodes n = some o ∧ o.owns = true) :
    ∃ h', R.foldlM (fun g n => Op.run g (.destroy n)) h = .ok h' ∧ (∀ i, h'.nodes i = none) ∧ (∀ i, h'.schemas i = none) ∧
      ∀ b, (h'.blk b).isSome ↔ b ∈ U := by
  obtain ⟨F, v⟩ := H.inv Inv.init
  obtain ⟨h', e, v'⟩ := Inv.deleteAll R h F v hR (fun n => by rw [hroot n, v.roots_iff])
  refine ⟨h', e, fun i => ?_, fun i => ?_, fun b => by simpa [blksL] using v'.allB b⟩
  · by_contra hc
    have := v'.allN i (by simpa [Option.isSome_iff_ne_none] using hc)
    simp [nidsL] at this
  · by_contra hc
    have := v'.allS i (by simpa [Option.isSome_iff_ne_none] using hc)
    simp [sidsL] at this

example : Blocks SyncEx.h1 (SyncEx.walk SyncEx.ops1 [] init).1 := C35_blocks_partial SyncEx.hist1
example : (SyncEx.walk SyncEx.ops1 [] init).1 = [2] ∧ (SyncEx.h1.blk 0).isSome ∧ (SyncEx.h1.blk 1).isNone ∧ (SyncEx.h1.blk 2).isSome ∧
    (SyncEx.h1.nodes 3).map (·.info) = some ⟨some ⟨0, 0⟩, true⟩ := by decide +kernel
example : ∃ h', SyncEx.h1.swapN 3 1 = .ok h' :=
  C35_no_double_free_partial SyncEx.hist1 (.swap 3 1) SyncEx.swap_allowed1 ⟨by decide +kernel, by decide +kernel⟩
/-- both trees destroyed -/
example : ∃ h', [4, 0].foldlM (fun g n => Op.run g (.destroy n)) SyncEx.h1 = .ok h' ∧ ∀ b, (h'.blk b).isSome ↔ b ∈ [2] := by
  obtain ⟨h', e, _, _, hb⟩ := C35_destroy SyncEx.hist1 [4, 0] (by decide) (by
    intro n
    obtain ⟨F, v⟩ := SyncEx.hist1.inv Inv.init
    by_cases hn : n < SyncEx.h1.nextN
    · have key : ∀ n < SyncEx.h1.nextN, (n ∈ [4, 0] ↔ (SyncEx.h1.nodes n).map (·.owns) = some true) := by decide +kernel
      rw [key n hn]
      cases SyncEx.h1.nodes n with
      | none => simp
      | some o => simp
    · rw [v.bounded.nodes n (by omega)]
      have : SyncEx.h1.nextN = 9 := by decide +kernel
      simp only [List.mem_cons, List.not_mem_nil, or_false]
      constructor
      · rintro (rfl | rfl) <;> omega
      · rintro ⟨o, ho, _⟩; cases ho)
  have hU : (SyncEx.walk SyncEx.ops1 [] init).1 = [2] := by decide +kernel
  rw [hU] at hb
  exact ⟨h', e, hb⟩

/-- C35 is false for a schema whose root is an empty leaf: `set(schema)` allocates, and because the type is empty the
    block is not freed with the node. -/
theorem C35_empty_schema_leak_false : ∃ h, runs [.new, .setSchema 0 (.leaf {}), .destroy 0] init = .ok h ∧ h.nodes 0 = none ∧
    (h.blk 0).isSome := by
  refine ⟨_, Res.good_eq Heap.init (by decide +kernel), ?_, by decide +kernel⟩
  have : (((runs [.new, .setSchema 0 (.leaf {}), .destroy 0] init).getD init).nodes 0).isNone = true := by decide +kernel
  simpa using this

/-- and the flag that the node owns its memory stays, so that memory of the user set with `set_external` afterwards is freed by the node. -/
theorem C35_empty_schema_frees_user_false : ∃ h, runs [.new, .setSchema 0 (.leaf {}), .userAlloc 8,
    .setExternalPtr 0 (.ofId .int64 1) (some ⟨1, 0⟩)] init = .ok h ∧ (h.blk 1).isSome ∧
    ((Op.run h (.destroy 0)).getD init).mem.map (·.isSome) = [true, false] := by
  exact ⟨_, Res.good_eq Heap.init (by decide +kernel), by decide +kernel, by decide +kernel⟩

/-! ### C58: the source inside the destination, or around it -/

/-- `n.set(n["a"])` deletes the children of `n` before it reads `a` -/
theorem C58_set_from_child_undefined :
    (runs [.new, .fetch 0 ['a', '/', 'b'], .setScalar 2 .int32 [1, 2, 3, 4]] init).good = true ∧
    (match runs [.new, .fetch 0 ['a', '/', 'b'], .setScalar 2 .int32 [1, 2, 3, 4], .setNode 0 1] init with | .ub => true | _ => false) = true := by
  decide +kernel

/-- `n["a"].set(n)`: `n["a"]` gets children while `n` is read; the copy runs past the children made so far -/
theorem C58_set_from_parent_undefined :
    (runs [.new, .fetch 0 ['a'], .setScalar 1 .int32 [1, 2, 3, 4]] init).good = true ∧
    (match runs [.new, .fetch 0 ['a'], .setScalar 1 .int32 [1, 2, 3, 4], .setNode 1 0] init with | .ub => true | _ => false) = true := by
  decide +kernel

end Conduit
