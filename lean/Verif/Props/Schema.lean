import Verif.Lemmas.SchemaPath
/-
Property theorems C11 - C15: Schema as an ordered map of named children.
Specification: Verif/Spec/Tree.lean (ordered association lists).
-/
namespace Conduit
open Spec RSchema

/-- A schema a client can hold: any node of a tree built from an empty schema by
    any history of calls. -/
def RSchema.Reachable (s : RSchema) : Prop :=
  ∃ ops r a, run RSchema.empty ops = .ok r ∧ getAt r a = some s

theorem reachable_wf {s : RSchema} (h : s.Reachable) : WF s := by
  obtain ⟨ops, r, a, hr, hg⟩ := h
  obtain ⟨r', h1, h2, _⟩ := run_agree ops RSchema.empty WF_empty
  rw [hr] at h1; injection h1 with h1; subst h1
  exact WF_getAt r a s h2 hg

theorem reachable_empty : RSchema.empty.Reachable := ⟨[], _, [], rfl, rfl⟩

/-- The object with children "a", "b", "c" (used in the examples). -/
def abcSchema : RSchema :=
  .object [(chars! "c", 2), (chars! "b", 1), (chars! "a", 0)] [chars! "a", chars! "b", chars! "c"]
    [RSchema.empty, RSchema.empty, RSchema.empty]

theorem abc_reachable : abcSchema.Reachable :=
  ⟨[([], .addChild (chars! "a")), ([], .addChild (chars! "b")), ([], .addChild (chars! "c"))], abcSchema, [],
    rfl, rfl⟩

/-! ### C11 -/

/-- C11: after any history of calls (at any positions of the tree, refused calls
    included) nothing undefined happens and the tree of names and contents is
    the one the ordered-association-list specification reaches. -/
theorem C11_history_refines_ordered_map (ops : List (List Nat × SchemaOp)) :
    ∃ r, run RSchema.empty ops = .ok r ∧ abs r = Tree.run Tree.empty ops := by
  obtain ⟨r, h1, _, h3⟩ := run_agree ops RSchema.empty WF_empty
  exact ⟨r, h1, h3⟩

/-- C11: in every reachable object the names are distinct and by-name access,
    by-index access and name-of-index agree. -/
theorem C11_name_index_agree (m : List (Str × Int)) (o : List Str) (c : List RSchema)
    (h : (RSchema.object m o c).Reachable) :
    let s := RSchema.object m o c
    o.length = s.numberOfChildren ∧ o.Nodup ∧
    (∀ name i, s.childIndex name = .ok i ↔
      0 ≤ i ∧ i < s.numberOfChildren ∧ s.childName i.toNat = name) ∧
    (∀ name, s.hasChild name = true ↔ ∃ i, i < s.numberOfChildren ∧ s.childName i = name) ∧
    (∀ i, i < s.numberOfChildren → ∃ x, s.childAt i = .ok x ∧ s.childByName (s.childName i) = .ok x) := by
  have hw := reachable_wf h
  have hl := hw.1.1
  have hci : ∀ name i, (RSchema.object m o c).childIndex name = .ok i ↔
      0 ≤ i ∧ i < c.length ∧ (RSchema.object m o c).childName i.toNat = name := by
    intro name i
    simp only [childIndex, childName]
    constructor
    · intro hh
      cases hf : mfind name m with
      | none => rw [hf] at hh; cases hh
      | some j =>
        rw [hf] at hh; injection hh with hh; subst hh
        obtain ⟨h0, h1⟩ := (hw.1.2.2 name j).1 hf
        have := (List.getElem?_eq_some_iff.1 h1).1
        exact ⟨h0, by omega, by rw [h1]; rfl⟩
    · rintro ⟨h0, h1, h2⟩
      have : o[i.toNat]? = some name := by
        have hlt : i.toNat < o.length := by omega
        rw [List.getElem?_eq_getElem hlt] at h2 ⊢
        simpa using h2
      rw [(hw.1.2.2 name i).2 ⟨h0, this⟩]
  refine ⟨hl, hw.1.2.1, hci, ?_, ?_⟩
  · intro name
    simp only [hasChild, hw.1.isSome, decide_eq_true_eq, numberOfChildren, childName]
    constructor
    · intro hm
      obtain ⟨i, hi⟩ := List.getElem?_of_mem hm
      have := (List.getElem?_eq_some_iff.1 hi).1
      exact ⟨i, by omega, by rw [hi]; rfl⟩
    · rintro ⟨i, hi, rfl⟩
      have hlt : i < o.length := by omega
      rw [List.getElem?_eq_getElem hlt]
      exact List.getElem_mem _
  · intro i hi
    have hi' : i < c.length := hi
    refine ⟨c[i], ?_, ?_⟩
    · simp [childAt, Res.ofIdx, hi', show ¬ ((i : Int) < 0) by omega]
    · simp only [childByName]
      rw [(hci _ i).2 ⟨by omega, by omega, by rw [Int.toNat_natCast]⟩]
      simp [childAt, Res.ofIdx, hi', show ¬ ((i : Int) < 0) by omega]

-- a concrete, non-trivial state the theorem applies to
example : (RSchema.object [(chars! "c", 2), (chars! "b", 1), (chars! "a", 0)]
    [chars! "a", chars! "b", chars! "c"] [RSchema.empty, RSchema.empty, RSchema.empty]).Reachable :=
  abc_reachable

/-! ### C12 -/

/-- C12: rename succeeds exactly when the old name is a child and the new one is
    not; every child keeps its position and content, and only that name changes. -/
theorem C12_rename_child (s : RSchema) (cur new : Str) (h : s.Reachable) :
    ((∃ s', s.renameChild cur new = .ok s') ↔ (s.hasChild cur = true ∧ s.hasChild new = false)) ∧
    (∀ s', s.renameChild cur new = .ok s' →
      s'.numberOfChildren = s.numberOfChildren ∧
      (∀ i, s'.childAt i = s.childAt i) ∧
      (∀ i, i < s.numberOfChildren →
        s'.childName i = if s.childName i = cur then new else s.childName i) ∧
      s'.childIndex new = s.childIndex cur ∧ s'.hasChild cur = false) ∧
    s.renameChild cur new ≠ .ub := by
  have hw := reachable_wf h
  have ha := renameChild_agree hw cur new
  cases s with
  | leaf d => simp [renameChild, hasChild]
  | list c => simp [renameChild, hasChild]
  | object m o c =>
    have hic := hw.1.isSome cur
    have hin := hw.1.isSome new
    by_cases hc : cur ∈ o
    · by_cases hn : new ∈ o
      · simp [renameChild, hasChild, hic, hin, hc, hn]
      · rw [decide_eq_true hc] at hic
        obtain ⟨i, hi⟩ := Option.isSome_iff_exists.1 hic
        obtain ⟨h0, hio⟩ := (hw.1.2.2 cur i).1 hi
        have hlt := (List.getElem?_eq_some_iff.1 hio).1
        have hren : (RSchema.object m o c).renameChild cur new =
            .ok (.object (mset new i (merase cur m)) (o.set i.toNat new) c) := by
          simp only [renameChild, hasChild, hic, hin, hn, decide_false]
          simp [hi]; omega
        refine ⟨?_, ?_, by rw [hren]; simp⟩
        · rw [hren]; simp [hasChild, hic, hin, hn]
        · intro s' hs'
          rw [hren] at hs'; injection hs' with hs'; subst hs'
          refine ⟨rfl, fun _ => rfl, ?_, ?_, ?_⟩
          · intro j hj
            have hj : j < c.length := hj
            have hl := hw.1.1
            have hjo : j < o.length := by omega
            have hjn : (RSchema.object m o c).childName j = o[j] := by
              simp [childName, List.getElem?_eq_getElem hjo]
            rw [hjn]
            simp only [childName, List.getElem?_set]
            rw [List.getElem?_eq_getElem hjo]
            by_cases hji : i.toNat = j
            · subst hji
              have : o[i.toNat] = cur := by
                rw [List.getElem?_eq_getElem hlt] at hio; simpa using hio
              simp [hlt, this]
            · have : o[j] ≠ cur := by
                intro he
                apply hji
                exact getElem?_inj_nodup hw.1.2.1 hio (by rw [List.getElem?_eq_getElem hjo, he])
              simp [hji, this]
          · simp [childIndex, mfind_mset, hi]
          · have : cur ≠ new := by rintro rfl; exact hn hc
            simp [hasChild, mfind_mset, mfind_merase, this]
    · simp [renameChild, hasChild, hic, hin, hc]

example : ∃ s', abcSchema.renameChild (chars! "b") (chars! "z") = .ok s' :=
  ((C12_rename_child _ _ _ abc_reachable).1).2 ⟨rfl, rfl⟩

/-! ### C13 -/

/-- C13 (by index): remove succeeds exactly for an index in range; the children
    before it stay, those after it move down by one, and names follow. -/
theorem C13_remove_index (s : RSchema) (i : Int) (h : s.Reachable) :
    ((∃ s', s.removeIdx i = .ok s') ↔ (0 ≤ i ∧ i < s.numberOfChildren)) ∧
    (∀ s', s.removeIdx i = .ok s' →
      s'.numberOfChildren + 1 = s.numberOfChildren ∧
      (∀ j : Nat, s'.childAt j = if (j : Int) < i then s.childAt j else s.childAt (j + 1)) ∧
      (∀ j : Nat, s'.childName j = if (j : Int) < i then s.childName j else s.childName (j + 1)) ∧
      (∀ m o c, s = .object m o c → s'.hasChild (s.childName i.toNat) = false ∧
        ∀ (j : Int), 0 ≤ j → j < s.numberOfChildren → j ≠ i →
        s'.childIndex (s.childName j.toNat) = .ok (if j < i then j else j - 1))) ∧
    s.removeIdx i ≠ .ub := by
  have hw := reachable_wf h
  have hres : ∀ c : List RSchema, ∀ j : Nat, ∀ i : Int, 0 ≤ i →
      Res.ofIdx (c.eraseIdx i.toNat) j = if (j : Int) < i then Res.ofIdx c j else Res.ofIdx c (j + 1) := by
    intro c j i h0
    simp only [Res.ofIdx, List.getElem?_eraseIdx]
    by_cases hji : (j : Int) < i
    · have : j < i.toNat := by omega
      simp [hji, this]
    · have : ¬ j < i.toNat := by omega
      simp [hji, this]
  cases s with
  | leaf d =>
    simp [removeIdx, numberOfChildren]
  | list c =>
    by_cases hi : i < 0 ∨ i.toNat ≥ c.length
    · have hr : (RSchema.list c).removeIdx i = .error := by simp only [removeIdx]; rw [if_pos hi]
      rw [hr]
      refine ⟨by simp [numberOfChildren]; omega, by simp, by simp⟩
    · have hr : (RSchema.list c).removeIdx i = .ok (.list (c.eraseIdx i.toNat)) := by
        simp only [removeIdx]; rw [if_neg hi]
      rw [hr]
      refine ⟨by simp [numberOfChildren]; omega, ?_, by simp⟩
      intro s' hs'; injection hs' with hs'; subst hs'
      refine ⟨?_, ?_, ?_, by simp⟩
      · simp only [numberOfChildren]
        rw [List.length_eraseIdx, if_pos (by omega)]; omega
      · intro j
        simp only [childAt]
        have e1 : ¬ ((j : Int) < 0) := by omega
        have e2 : ¬ ((j : Int) + 1 < 0) := by omega
        have e3 : ((j : Int) + 1).toNat = j + 1 := by omega
        rw [if_neg e1, if_neg e1, if_neg e2, Int.toNat_natCast, hres c j i (by omega), e3]
      · intro j; simp [childName]
  | object m o c =>
    have hl := hw.1.1
    by_cases hi : i < 0 ∨ i.toNat ≥ c.length
    · have hr : (RSchema.object m o c).removeIdx i = .error := by simp only [removeIdx]; rw [if_pos hi]
      rw [hr]
      refine ⟨by simp [numberOfChildren]; omega, by simp, by simp⟩
    · have hlt : i.toNat < o.length := by omega
      have hk : o[i.toNat]? = some o[i.toNat] := by simp [hlt]
      have hr : (RSchema.object m o c).removeIdx i =
          .ok (.object (merase o[i.toNat] ((o.drop i.toNat).foldl mdecr m)) (o.eraseIdx i.toNat)
            (c.eraseIdx i.toNat)) := by
        simp only [removeIdx]; rw [if_neg hi, hk]
      have hok := hw.1.removeAt i.toNat _ hk
      rw [hr]
      refine ⟨by simp [numberOfChildren]; omega, ?_, by simp⟩
      intro s' hs'; injection hs' with hs'; subst hs'
      refine ⟨?_, ?_, ?_, ?_⟩
      · simp only [numberOfChildren]
        rw [List.length_eraseIdx, if_pos (by omega)]; omega
      · intro j
        simp only [childAt]
        have e1 : ¬ ((j : Int) < 0) := by omega
        have e2 : ¬ ((j : Int) + 1 < 0) := by omega
        have e3 : ((j : Int) + 1).toNat = j + 1 := by omega
        rw [if_neg e1, if_neg e1, if_neg e2, Int.toNat_natCast, hres c j i (by omega), e3]
      · intro j
        simp only [childName, List.getElem?_eraseIdx]
        by_cases hji : (j : Int) < i
        · rw [if_pos (by omega), if_pos hji]
        · rw [if_neg (by omega), if_neg hji]
      · intro m' o' c' heq
        injection heq with e1 e2 e3; subst e1 e2 e3
        refine ⟨?_, ?_⟩
        · simp [hasChild, childName, hk, mfind_merase]
        · intro j h0 hj hne
          have hj : j < c.length := hj
          have hjo : j.toNat < o.length := by omega
          have hjn : o[j.toNat]? = some o[j.toNat] := by simp [hjo]
          simp only [childIndex, childName, hjn, Option.getD_some]
          have : mfind o[j.toNat] (merase o[i.toNat] ((o.drop i.toNat).foldl mdecr m)) =
              some (if j < i then j else j - 1) := by
            rw [hok.2.2]
            by_cases hji : j < i
            · rw [if_pos hji]
              refine ⟨h0, ?_⟩
              rw [List.getElem?_eraseIdx, if_pos (by omega)]; exact hjn
            · rw [if_neg hji]
              refine ⟨by omega, ?_⟩
              rw [List.getElem?_eraseIdx, if_neg (by omega), ← hjn]
              congr 1; omega
          rw [this]

/-- C13 (by name): `remove_child(name)` is `remove(child_index(name))`, and is
    refused when there is no such child. -/
theorem C13_remove_child_by_name (s : RSchema) (name : Str) (h : s.Reachable) :
    (∀ i, s.hasChild name = true → s.childIndex name = .ok i → s.removeChild name = s.removeIdx i) ∧
    (s.hasChild name = false → s.removeChild name = .error) := by
  have hw := reachable_wf h
  cases s with
  | leaf d => simp [removeChild, hasChild]
  | list c => simp [removeChild, hasChild]
  | object m o c =>
    refine ⟨?_, ?_⟩
    · intro i _ hi
      simp only [childIndex] at hi
      cases hf : mfind name m with
      | none => rw [hf] at hi; cases hi
      | some j =>
        rw [hf] at hi; injection hi with hi; subst hi
        obtain ⟨h0, h1⟩ := (hw.1.2.2 name j).1 hf
        have hlt := (List.getElem?_eq_some_iff.1 h1).1
        have hl := hw.1.1
        simp only [removeChild, removeIdx, hf]
        rw [if_neg (by omega), if_neg (by omega), h1]
    · intro hh
      simp only [hasChild] at hh
      cases hf : mfind name m with
      | none => simp [removeChild, hf]
      | some j => rw [hf] at hh; simp at hh

example : ∃ s', abcSchema.removeIdx 1 = .ok s' :=
  ((C13_remove_index _ 1 abc_reachable).1).2 ⟨by decide, by decide⟩
example : ∃ i, abcSchema.hasChild (chars! "b") = true ∧ abcSchema.childIndex (chars! "b") = .ok i :=
  ⟨1, rfl, rfl⟩

/-! ### C14 -/

/-- C14 for paths of proper names (no empty name, no ".."): after `fetch(p)` on any
    node, `has_path(p)` holds, `fetch_existing(p)` gives the same entry, the entry
    keeps its content (or is new and empty), every other path of names that is
    not a prefix of `p` sees exactly what it saw before, and a second `fetch(p)`
    changes nothing.
    `_partial`: false for paths with an empty name or with "..", see
    `C14_leading_slash_false`, `C14_parent_false`. -/
theorem C14_fetch_plain_partial (s : RSchema) (p : Str) (h : s.Reachable) (hp : Tree.PlainPath p) :
    ∃ s' a x, fetchAt s [] p = .ok (s', a) ∧ getAt s' a = some x ∧
      s'.hasPath p = .ok true ∧ fetchExistingAt s' [] p = .ok a ∧
      (abs s').lookup (Tree.names p) = some (abs x) ∧
      abs x = ((abs s).lookup (Tree.names p)).getD Tree.empty ∧
      (∀ qs, ¬ qs <+: Tree.names p → (abs s').lookup qs = (abs s).lookup qs) ∧
      (∃ s'', fetchAt s' [] p = .ok (s'', a) ∧ abs s'' = abs s') := by
  have hw := reachable_wf h
  have h1 := fetchAt_agree p.length s [] p s (by omega) hw (by simp [getAt])
  obtain ⟨b, h2, h3⟩ := fetchNames_ensure (Tree.names p) (abs s) (abs s) []
    (fun n hn => (hp n hn).2) (by simp [Tree.get])
  rw [h2] at h1
  cases hf : fetchAt s [] p with
  | error => rw [hf] at h1; exact h1.elim
  | ub => rw [hf] at h1; exact h1.elim
  | ok x =>
  rw [hf] at h1
  obtain ⟨s', b'⟩ := x
  obtain ⟨hw', e2, e3, x, e4⟩ := h1
  simp only [List.nil_append, Tree.put] at hw' e2 e3 e4
  subst e3
  -- has_path / fetch_existing
  have hpa := path_agree p.length s' [] p s' (by omega) hw' (by simp [getAt]) hp
  -- the address of `fetch_existing` is the address of `fetch`
  have hsame : ∀ (n : Nat) (r : RSchema) (a : List Nat) (q : Str) (t : RSchema), q.length ≤ n → WF r →
      getAt r a = some t → Tree.PlainPath q → ∀ a', fetchExistingAt r a q = .ok a' →
      fetchAt r a q = .ok (r, a') := by
    intro n
    induction n using Nat.strongRecOn with
    | ind n ih =>
      intro r a q t hq hwr hg hpl a' hfe
      have hwt := WF_getAt r a t hwr hg
      have hnm := names_eq q
      have h1 : (splitPath q).1 ≠ [] ∧ (splitPath q).1 ≠ ['.', '.'] := by
        apply hpl; rw [hnm]; split <;> simp
      rw [fetchExistingAt.eq_def] at hfe
      rw [fetchAt.eq_def]
      simp only [hg, h1.2, false_and, dite_false] at hfe ⊢
      cases t with
      | leaf d => simp at hfe
      | list d => simp at hfe
      | object m o c =>
        simp only [childIndex, initObject] at hfe ⊢
        cases hm : mfind (splitPath q).1 m with
        | none => rw [hm] at hfe; simp at hfe
        | some i =>
          rw [hm] at hfe
          simp only at hfe
          rw [hasPath_name _ (slash_not_mem_curr q), hm]
          simp only [Option.isSome_some, if_true, hm]
          obtain ⟨h0, hio⟩ := (hwt.1.2.2 _ i).1 hm
          rw [if_neg (by omega)] at hfe ⊢
          have hput : putAt r a (.object m o c) = r := by
            clear hfe ih hwt hio h0 hm hpl hnm h1
            induction a generalizing r with
            | nil => simp [getAt] at hg; simp [putAt, hg]
            | cons k a iha =>
              cases r with
              | leaf d => simp [putAt]
              | list cs =>
                simp only [getAt, putAt] at hg ⊢
                cases hk : cs[k]? with
                | none => rfl
                | some y =>
                  simp only [hk] at hg ⊢
                  rw [iha y ((WFs_iff cs).1 hwr y (List.mem_of_getElem? hk)) hg, list_set_self hk]
              | object m' o' cs =>
                simp only [getAt, putAt] at hg ⊢
                cases hk : cs[k]? with
                | none => rfl
                | some y =>
                  simp only [hk] at hg ⊢
                  rw [iha y ((WFs_iff cs).1 hwr.2 y (List.mem_of_getElem? hk)) hg, list_set_self hk]
          rw [hput]
          by_cases hn : (splitPath q).2 = []
          · rw [dif_pos hn] at hfe ⊢
            injection hfe with hfe; rw [hfe]
          · rw [dif_neg hn] at hfe ⊢
            have hlt := split_next_lt hn
            have hpl' : Tree.PlainPath (splitPath q).2 := by
              intro k hk; apply hpl; rw [hnm, if_neg hn]; exact List.mem_cons_of_mem _ hk
            have hlto := (List.getElem?_eq_some_iff.1 hio).1
            have hl := hwt.1.1
            have hgi : getAt r (a ++ [i.toNat]) = some c[i.toNat] := by
              rw [getAt_append, hg]
              simp [getAt, show i.toNat < c.length by omega]
            exact ih (splitPath q).2.length (by omega) r _ _ _ (by omega) hwr hgi hpl' a' hfe
  have hself := lookup_ensure_self (Tree.names p) (abs s)
  rw [← e2] at hself h3
  rcases hpa with ⟨b, y, d1, d2, _, d4, d5, d6⟩ | ⟨_, _, _, d4⟩
  · rw [h3] at d5; injection d5 with d5; subst d5
    rw [d4] at e4; injection e4 with e4; subst e4
    rw [d6] at hself; injection hself with hself
    refine ⟨s', b', y, rfl, d4, d1, d2, d6, hself, ?_, s', ?_, rfl⟩
    · intro qs hq
      rw [e2, lookup_ensure_other _ _ _ hq]
    · exact hsame p.length s' [] p s' (by omega) hw' (by simp [getAt]) hp _ d2
  · rw [hself] at d4; cases d4

-- hypotheses are met: a path of two names on the schema with children a, b, c
example : abcSchema.Reachable ∧ Tree.PlainPath (chars! "b/new") :=
  ⟨abc_reachable, by unfold Tree.PlainPath; decide⟩

/-- C14, nodes inside a tree: `fetch(p)` on the node at address `a` does to that
    node what it does to a free-standing copy, and changes nothing else. -/
theorem C14_fetch_local (r s : RSchema) (a : List Nat) (p : Str) (h : r.Reachable)
    (hg : getAt r a = some s) (hp : Tree.PlainPath p) :
    ∃ r' s' b, fetchAt r a p = .ok (r', a ++ b) ∧ fetchAt s [] p = .ok (s', b) ∧
      abs r' = (abs r).put a (abs s') := by
  have hw := reachable_wf h
  have hws := WF_getAt r a s hw hg
  have hga : (abs r).get a = some (abs s) := by rw [abs_getAt r a hw, hg]; rfl
  have hd : ∀ n ∈ Tree.names p, n ≠ ['.', '.'] := fun n hn => (hp n hn).2
  have h1 := fetchAt_agree p.length r a p s (by omega) hw hg
  have h1' := fetchAt_agree p.length s [] p s (by omega) hws (by simp [getAt])
  obtain ⟨b, h2, h3⟩ := fetchNames_ensure (Tree.names p) (abs r) (abs s) a hd hga
  obtain ⟨b', h2', h3'⟩ := fetchNames_ensure (Tree.names p) (abs s) (abs s) [] hd (by simp [Tree.get])
  rw [h3] at h3'; injection h3' with h3'; subst h3'
  rw [h2] at h1; rw [h2'] at h1'
  cases hf : fetchAt r a p with
  | error => rw [hf] at h1; exact h1.elim
  | ub => rw [hf] at h1; exact h1.elim
  | ok x =>
  cases hf' : fetchAt s [] p with
  | error => rw [hf'] at h1'; exact h1'.elim
  | ub => rw [hf'] at h1'; exact h1'.elim
  | ok y =>
  rw [hf] at h1; rw [hf'] at h1'
  obtain ⟨_, e2, e3, _⟩ := h1
  obtain ⟨_, f2, f3, _⟩ := h1'
  refine ⟨x.1, y.1, b, ?_, ?_, ?_⟩
  · have : x.2 = a ++ b := e3
    rw [← this]
  · have : y.2 = b := by simpa using f3
    rw [← this]
  · rw [e2, f2]; simp [Tree.put]

example : ∃ s, abcSchema.Reachable ∧ getAt abcSchema [1] = some s ∧ Tree.PlainPath (chars! "x/y") :=
  ⟨RSchema.empty, abc_reachable, rfl, by unfold Tree.PlainPath; decide⟩

/-- The full C14 claim is false: after `fetch("/a")` on an empty schema,
    `has_path("/a")` is false (fetch made the path ""/"a", has_path drops the
    leading slash). -/
theorem C14_leading_slash_false : ∃ s' a, fetchAt RSchema.empty [] (chars! "/a") = .ok (s', a) ∧
    s'.hasPath (chars! "/a") = .ok false := by
  refine ⟨.object [([], 0)] [[]] [.object [(['a'], 0)] [['a']] [RSchema.empty]], [0, 0], ?_, ?_⟩
  · have e1 : splitPath ['/', 'a'] = ([], ['a']) := by decide
    have e2 : splitPath ['a'] = (['a'], []) := by decide
    have e3 : splitPath [] = ([], []) := by decide
    simp [fetchAt, getAt, RSchema.empty, initObject, e1, e2, e3, hasPath, pushChild, childIndex, putAt, mset,
      mfind, merase, cullSlash]
  · have e2 : splitPath ['a'] = (['a'], []) := by decide
    simp [hasPath, cullSlash, e2, mfind, List.lookup]

/-- The full C14 claim is false: `fetch("..")` on a child does not give the
    parent; it adds a child with the empty name to the parent and returns it. -/
theorem C14_parent_false : ∃ r', fetchAt abcSchema [0] (chars! "..") = .ok (r', [3]) ∧
    r'.childName 3 = [] ∧ r'.numberOfChildren = 4 := by
  have e1 : splitPath ['.', '.'] = (['.', '.'], []) := by decide
  have e3 : splitPath [] = ([], []) := by decide
  refine ⟨.object [([], 3), (chars! "c", 2), (chars! "b", 1), (chars! "a", 0)]
    [chars! "a", chars! "b", chars! "c", []]
    [.object [] [] [], RSchema.empty, RSchema.empty, RSchema.empty], ?_, rfl, rfl⟩
  simp [fetchAt, getAt, RSchema.empty, initObject, e1, e3, hasPath, pushChild, childIndex, putAt, mset,
      mfind, merase, cullSlash, abcSchema, List.lookup]

/-! ### C15 -/

/-- C15 for paths of proper names: `fetch_existing(p)` (both overloads) succeeds
    exactly when `has_path(p)` is true, gives the entry the names lead to, and is
    refused otherwise.
    `_partial`: false for other paths, see the two theorems below. -/
theorem C15_has_path_fetch_existing_partial (s : RSchema) (p : Str) (h : s.Reachable) (hp : Tree.PlainPath p) :
    (s.hasPath p = .ok true ↔ ∃ t, (abs s).lookup (Tree.names p) = some t) ∧
    (s.hasPath p = .ok true ↔ ∃ a, fetchExistingAt s [] p = .ok a) ∧
    (s.hasPath p = .ok false ↔ fetchExistingAt s [] p = .error) ∧
    fetchExistingConstAt s [] p = fetchExistingAt s [] p ∧
    (∀ a, fetchExistingAt s [] p = .ok a → ∃ x, getAt s a = some x ∧
      (abs s).lookup (Tree.names p) = some (abs x)) := by
  have hw := reachable_wf h
  rcases path_agree p.length s [] p s (by omega) hw (by simp [getAt]) hp with
    ⟨b, x, e1, e2, e3, e4, e5, e6⟩ | ⟨e1, e2, e3, e4⟩
  · simp only [List.nil_append] at e2 e3
    simp [e1, e2, e3, e4, e6]
  · simp [e1, e2, e3, e4]

example : abcSchema.Reachable ∧ Tree.PlainPath (chars! "b") := ⟨abc_reachable, by unfold Tree.PlainPath; decide⟩

/-- C15: for every path whatsoever both calls end without undefined behaviour
    on every schema of a reachable tree. -/
theorem C15_no_undefined (r : RSchema) (h : r.Reachable) (p : Str) :
    (∀ a s, getAt r a = some s → s.hasPath p ≠ .ub ∧ s.hasPath p ≠ .error ∧ fetchExistingAt r a p ≠ .ub ∧
      fetchExistingConstAt r a p ≠ .ub) := by
  have hw := reachable_wf h
  clear h
  have hpar : ∀ a s, getAt r a = some s → ∃ q, getAt r a.dropLast = some q := by
    intro a s hg
    by_cases ha : a = []
    · subst ha; exact ⟨_, hg⟩
    · rw [← List.dropLast_concat_getLast ha, getAt_append] at hg
      cases h2 : getAt r a.dropLast with
      | none => simp [h2] at hg
      | some p => exact ⟨p, rfl⟩
  have hhas : ∀ n (s : RSchema) (p : Str), p.length ≤ n → WF s → s.hasPath p ≠ .ub ∧ s.hasPath p ≠ .error := by
    intro n
    induction n using Nat.strongRecOn with
    | ind n ih =>
      intro s p hp hws
      rw [hasPath.eq_def]
      cases s with
      | leaf d => simp
      | list c => simp
      | object m o c =>
        simp only
        have hcl : (cullSlash p).length ≤ p.length := by
          cases p with
          | nil => simp [cullSlash]
          | cons c r => rw [cullSlash]; split <;> simp
        cases hm : mfind (splitPath (cullSlash p)).1 m with
        | none => simp
        | some i =>
          obtain ⟨h0, hio⟩ := (hws.1.2.2 _ i).1 hm
          have hlt := (List.getElem?_eq_some_iff.1 hio).1
          have hl := hws.1.1
          simp only
          split
          · simp
          · rename_i hn
            have := split_next_lt hn
            rw [if_neg (by omega), List.getElem?_eq_getElem (by omega : i.toNat < c.length)]
            exact ih (splitPath (cullSlash p)).2.length (by omega) _ _ (by omega)
              ((WFs_iff c).1 hws.2 _ (List.getElem_mem _))
  have hfe : ∀ n (p : Str) a s, p.length ≤ n → getAt r a = some s →
      fetchExistingAt r a p ≠ .ub ∧ fetchExistingConstAt r a p ≠ .ub := by
    intro n
    induction n using Nat.strongRecOn with
    | ind n ih =>
      intro p a s hp hg
      have hws := WF_getAt r a s hw hg
      rw [fetchExistingAt.eq_def, fetchExistingConstAt.eq_def]
      simp only [hg]
      cases s with
      | leaf d => simp
      | list c => simp
      | object m o c =>
        simp only [childIndex]
        have hci : ∀ i, mfind (splitPath p).1 m = some i → ¬ i < 0 ∧
            ∃ x, getAt r (a ++ [i.toNat]) = some x := by
          intro i hm
          obtain ⟨h0, hio⟩ := (hws.1.2.2 _ i).1 hm
          have hlt := (List.getElem?_eq_some_iff.1 hio).1
          have hl := hws.1.1
          refine ⟨by omega, c[i.toNat]'(by omega), ?_⟩
          rw [getAt_append, hg]; simp [getAt, show i.toNat < c.length by omega]
        refine ⟨?_, ?_⟩
        · cases hm : mfind (splitPath p).1 m with
          | none => simp
          | some i =>
            obtain ⟨h0, x, hx⟩ := hci i hm
            simp only
            split
            · rename_i hd
              split
              · simp
              · obtain ⟨q, hq⟩ := hpar a _ hg
                have := split_dotdot_lt hd
                exact (ih (splitPath p).2.length (by omega) _ _ q (by omega) hq).1
            · split
              · simp
              · rename_i hn
                have := split_next_lt hn
                exact (ih (splitPath p).2.length (by omega) _ _ x (by omega) hx).1
        · split
          · rename_i hd
            obtain ⟨q, hq⟩ := hpar a _ hg
            have := split_dotdot_lt hd.1
            exact (ih (splitPath p).2.length (by omega) _ _ q (by omega) hq).2
          · cases hm : mfind (splitPath p).1 m with
            | none => simp
            | some i =>
              obtain ⟨h0, x, hx⟩ := hci i hm
              simp only
              rw [if_neg h0]
              split
              · simp
              · rename_i hn
                have := split_next_lt hn
                exact (ih (splitPath p).2.length (by omega) _ _ x (by omega) hx).2
  intro a s hg
  have h1 := hhas p.length s p (by omega) (WF_getAt r a s hw hg)
  have h2 := hfe p.length p a s (by omega) hg
  exact ⟨h1.1, h1.2, h2.1, h2.2⟩

/-- The full C15 claim is false: `has_path("/a")` is true for a schema with child
    "a", but `fetch_existing("/a")` is refused. -/
theorem C15_leading_slash_false : abcSchema.Reachable ∧ abcSchema.hasPath (chars! "/a") = .ok true ∧
    fetchExistingAt abcSchema [] (chars! "/a") = .error := by
  have e1 : splitPath ['/', 'a'] = ([], ['a']) := by decide
  have e2 : splitPath ['a'] = (['a'], []) := by decide
  refine ⟨abc_reachable, ?_, ?_⟩
  · simp [hasPath, cullSlash, e2, abcSchema, mfind, List.lookup]
  · simp [fetchExistingAt, e1, abcSchema, mfind, List.lookup, getAt, childIndex]

/-- Both overloads of `fetch_existing` disagree on "..": on a child the const
    overload goes to the parent, the other one looks for a child named "..". -/
theorem C15_parent_overloads_differ : ∃ r : RSchema, r.Reachable ∧
    fetchExistingConstAt r [0] (chars! "../b") = .ok [1] ∧
    fetchExistingAt r [0] (chars! "../b") = .error := by
  refine ⟨.object [(chars! "b", 1), (chars! "a", 0)] [chars! "a", chars! "b"]
    [.object [(chars! "x", 0)] [chars! "x"] [RSchema.empty], RSchema.empty],
    ⟨[([], .addChild (chars! "a")), ([], .addChild (chars! "b")), ([0], .addChild (chars! "x"))], _, [],
      rfl, rfl⟩, ?_, ?_⟩
  · have e1 : splitPath ['.', '.', '/', 'b'] = (['.', '.'], ['b']) := by decide
    have e2 : splitPath ['b'] = (['b'], []) := by decide
    simp [fetchExistingConstAt, getAt, e1, e2, childIndex, mfind, List.lookup]
  · have e1 : splitPath ['.', '.', '/', 'b'] = (['.', '.'], ['b']) := by decide
    simp [fetchExistingAt, getAt, e1, childIndex, mfind, List.lookup]

end Conduit
