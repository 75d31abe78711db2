import Verif.Lemmas.SchemaRefine
namespace Conduit
open Spec
namespace RSchema

theorem list_set_self {α : Type} {l : List α} {i : Nat} {x : α} (h : l[i]? = some x) : l.set i x = l := by
  apply List.ext_getElem?
  intro j
  rw [List.getElem?_set]
  split
  · rename_i e; subst e
    rw [if_pos (List.getElem?_eq_some_iff.1 h).1, h]
  · rfl

theorem lookup_zip {m o c} (h : WF (.object m o c)) (n : Str) :
    ((o.zip (abss c)).lookup n) = (o.findIdx? (· == n)).bind (fun i => (abss c)[i]?) := by
  have hl : o.length = (abss c).length := by rw [abss_length]; exact h.1.1
  clear h
  generalize abss c = c' at hl
  induction o generalizing c' with
  | nil => simp
  | cons a o ih =>
    cases c' with
    | nil => simp at hl
    | cons t c' =>
      simp only [List.zip_cons_cons, List.lookup_cons, List.findIdx?_cons]
      by_cases hn : n = a
      · subst hn; simp
      · have h1 : (n == a) = false := by simpa using hn
        have h2 : (a == n) = false := by simpa using (fun e => hn (Eq.symm e))
        rw [h1, h2]
        simp only [Bool.false_eq_true, if_false]
        rw [ih c' (by simpa using hl)]
        cases o.findIdx? (· == n) <;> simp

/-- the positions a list of names leads through -/
def addrOf : Tree → List Str → Option (List Nat)
  | _, [] => some []
  | t, n :: ns => match Tree.posOf t.entries n with
    | none => none
    | some i => match t.entries[i]? with
      | none => none
      | some e => (addrOf e.2 ns).map (i :: ·)

/-- no leading slash to cull: the path is its first name followed by the rest -/
theorem cullSlash_plain {p : Str} (h : (splitPath p).1 ≠ []) : cullSlash p = p := by
  cases p with
  | nil => rfl
  | cons x p =>
    rw [cullSlash, if_neg]
    rintro rfl
    apply h
    have : splitPath ('/' :: p) = ([], p) := splitString_append (c := '/') (a := []) (b := p) (by simp)
    rw [this]

/-- on plain paths `has_path`, `fetch_existing` and the specification's lookup agree -/
theorem path_agree (n : Nat) : ∀ (r : RSchema) (a : List Nat) (p : Str) (s : RSchema), p.length ≤ n →
    WF r → getAt r a = some s → Tree.PlainPath p →
    (∃ b x, hasPath s p = .ok true ∧ fetchExistingAt r a p = .ok (a ++ b) ∧
        fetchExistingConstAt r a p = .ok (a ++ b) ∧
        getAt s b = some x ∧ addrOf (abs s) (Tree.names p) = some b ∧
        (abs s).lookup (Tree.names p) = some (abs x)) ∨
    (hasPath s p = .ok false ∧ fetchExistingAt r a p = .error ∧
        fetchExistingConstAt r a p = .error ∧
        (abs s).lookup (Tree.names p) = none) := by
  induction n using Nat.strongRecOn with
  | ind n ih =>
    intro r a p s hp hw hg hpl
    have hws := WF_getAt r a s hw hg
    have hnm := names_eq p
    have h1 : (splitPath p).1 ≠ [] ∧ (splitPath p).1 ≠ ['.', '.'] := by
      apply hpl; rw [hnm]; split <;> simp
    have hcs := cullSlash_plain h1.1
    rw [hasPath.eq_def, fetchExistingAt.eq_def, fetchExistingConstAt.eq_def]
    rw [hnm]
    have hcons : (if (splitPath p).2 = [] then [(splitPath p).1] else
        (splitPath p).1 :: Tree.names (splitPath p).2) =
        (splitPath p).1 :: (if (splitPath p).2 = [] then [] else Tree.names (splitPath p).2) := by
      split <;> rfl
    rw [hcons]
    simp only [hg, hcs, h1.2, false_and, dite_false]
    cases s with
    | leaf d => right; simp [abs, Tree.lookup]
    | list c => right; simp [abs, Tree.lookup]
    | object m o c =>
      simp only [childIndex, abs, Tree.lookup, lookup_zip hws, addrOf, Tree.entries, pos_zip hws]
      have hfi := hws.1.find (splitPath p).1
      cases hx : o.findIdx? (· == (splitPath p).1) with
      | none =>
        right
        rw [hx] at hfi
        simp [hfi]
      | some i =>
        rw [hx] at hfi
        have hi := (List.findIdx?_eq_some_iff_getElem.1 hx).1
        have hic : i < c.length := by have := hws.1.1; omega
        have hci : c[i]? = some c[i] := by simp [hic]
        have hai : (abss c)[i]? = some (abs c[i]) := by rw [map_get, hci]; rfl
        have hgi : getAt r (a ++ [i]) = some c[i] := by
          rw [getAt_append, hg]; simp [getAt, hci]
        simp only [hfi, Option.map_some, Option.bind_some, hai, Int.toNat_natCast, hci]
        have h0 : ¬ ((i : Int) < 0) := by omega
        have hlz : o.length = (abss c).length := by rw [abss_length]; exact hws.1.1
        obtain ⟨k, _, hz⟩ := zip_get hlz hai
        simp only [h0, if_false]
        by_cases hn : (splitPath p).2 = []
        · left
          refine ⟨[i], c[i], ?_⟩
          simp [hn, Tree.lookup, getAt, hci, addrOf, hz]
        · simp only [hn, dite_false, if_false]
          have hlt := split_next_lt hn
          have hpl' : Tree.PlainPath (splitPath p).2 := by
            intro k hk; apply hpl; rw [hnm, if_neg hn]; exact List.mem_cons_of_mem _ hk
          rcases ih (splitPath p).2.length (by omega) r (a ++ [i]) (splitPath p).2 c[i] (by omega) hw hgi hpl' with
            ⟨b, x, e1, e2, e3, e4, e5, e6⟩ | ⟨e1, e2, e3, e4⟩
          · left
            refine ⟨i :: b, x, e1, ?_, ?_, ?_, ?_, e6⟩
            · rw [e2]; simp
            · rw [e3]; simp
            · rw [getAt, hci]; exact e4
            · simp [hz, e5]
          · right
            exact ⟨e1, e2, e3, e4⟩

/-! ### specification-side facts about fetch -/

/-- make the names exist: the tree `fetch` produces -/
def ensure : Tree → List Str → Tree
  | t, [] => t
  | t, n :: ns =>
    match (t.addChild n).entries, Tree.posOf ((t.addChild n).entries) n with
    | es, some i => match es[i]? with
      | some e => .obj (es.set i (e.1, ensure e.2 ns))
      | none => .obj es
    | es, none => .obj es

theorem get_put : ∀ (t : Tree) (a : List Nat) (x y : Tree), t.get a = some y → (t.put a x).get a = some x
  | t, [], x, y, _ => by simp [Tree.put, Tree.get]
  | .leaf _, _ :: _, _, _, h => by simp [Tree.get] at h
  | .obj es, i :: a, x, y, h => by
    rw [Tree.get] at h
    cases hc : es[i]? with
    | none => simp [hc] at h
    | some e =>
      simp only [hc] at h
      rw [Tree.put]; simp only [hc]
      rw [Tree.get, List.getElem?_set_self (List.getElem?_eq_some_iff.1 hc).1]
      exact get_put e.2 a x y h
  | .lst cs, i :: a, x, y, h => by
    rw [Tree.get] at h
    cases hc : cs[i]? with
    | none => simp [hc] at h
    | some e =>
      simp only [hc] at h
      rw [Tree.put]; simp only [hc]
      rw [Tree.get, List.getElem?_set_self (List.getElem?_eq_some_iff.1 hc).1]
      exact get_put e a x y h
termination_by _ a => a.length

theorem get_append : ∀ (t : Tree) (a b : List Nat), t.get (a ++ b) = (t.get a).bind (fun s => s.get b)
  | t, [], b => by simp [Tree.get]
  | .leaf _, _ :: _, _ => by simp [Tree.get]
  | .obj es, i :: a, b => by
    rw [List.cons_append, Tree.get, Tree.get]
    cases hc : es[i]? with
    | none => rfl
    | some ch => exact get_append ch.2 a b
  | .lst c, i :: a, b => by
    rw [List.cons_append, Tree.get, Tree.get]
    cases hc : c[i]? with
    | none => rfl
    | some ch => exact get_append ch a b
termination_by _ a => a.length

theorem put_append : ∀ (t : Tree) (a b : List Nat) (s x : Tree), t.get a = some s →
    t.put (a ++ b) x = t.put a (s.put b x)
  | t, [], b, s, x, h => by simp [Tree.get] at h; subst h; simp [Tree.put]
  | .leaf _, _ :: _, _, _, _, h => by simp [Tree.get] at h
  | .obj es, i :: a, b, s, x, h => by
    rw [Tree.get] at h
    rw [List.cons_append, Tree.put, Tree.put]
    cases hc : es[i]? with
    | none => rfl
    | some ch => simp only [hc] at h; simp only [put_append ch.2 a b s x h]
  | .lst c, i :: a, b, s, x, h => by
    rw [Tree.get] at h
    rw [List.cons_append, Tree.put, Tree.put]
    cases hc : c[i]? with
    | none => rfl
    | some ch => simp only [hc] at h; simp only [put_append ch a b s x h]
termination_by _ a => a.length

theorem put_put : ∀ (t : Tree) (a : List Nat) (x y : Tree), (t.put a x).put a y = t.put a y
  | t, [], x, y => by simp [Tree.put]
  | .leaf _, _ :: _, _, _ => by simp [Tree.put]
  | .obj es, i :: a, x, y => by
    rw [Tree.put, Tree.put]
    cases hc : es[i]? with
    | none => simp only [Tree.put, hc]
    | some e =>
      simp only
      rw [Tree.put, List.getElem?_set_self (List.getElem?_eq_some_iff.1 hc).1]
      simp only [List.set_set, put_put e.2 a x y]
  | .lst cs, i :: a, x, y => by
    rw [Tree.put, Tree.put]
    cases hc : cs[i]? with
    | none => simp only [Tree.put, hc]
    | some e =>
      simp only
      rw [Tree.put, List.getElem?_set_self (List.getElem?_eq_some_iff.1 hc).1]
      simp only [List.set_set, put_put e a x y]
termination_by _ a => a.length

theorem addChild_entries (t : Tree) (n : Str) : t.addChild n = .obj (t.addChild n).entries := by
  unfold Tree.addChild; split <;> rfl

theorem posOf_some {es : List (Str × Tree)} {n : Str} {i : Nat} (h : Tree.posOf es n = some i) :
    ∃ c, es[i]? = some (n, c) ∧ es.lookup n = some c := by
  unfold Tree.posOf at h
  induction es generalizing i with
  | nil => simp at h
  | cons e es ih =>
    obtain ⟨k, c⟩ := e
    simp only [List.findIdx?_cons] at h
    by_cases hk : k = n
    · subst hk
      simp at h; subst h
      exact ⟨c, by simp⟩
    · have h1 : (k == n) = false := by simpa using hk
      have h2 : (n == k) = false := by simpa using (fun e => hk (Eq.symm e))
      simp only [h1, Bool.false_eq_true, if_false, Option.map_eq_some_iff] at h
      obtain ⟨j, hj, rfl⟩ := h
      obtain ⟨c', hc1, hc2⟩ := ih hj
      exact ⟨c', by simpa using hc1, by simp [List.lookup_cons, h2, hc2]⟩

theorem posOf_set_self {es : List (Str × Tree)} {n : Str} {i : Nat} (x : Tree)
    (h : Tree.posOf es n = some i) : Tree.posOf (es.set i (n, x)) n = some i := by
  unfold Tree.posOf at h ⊢
  rw [List.findIdx?_eq_some_iff_getElem] at h ⊢
  obtain ⟨hl1, hl2, hl3⟩ := h
  refine ⟨by simpa using hl1, by simp, ?_⟩
  intro j hj
  have := hl3 j hj
  rw [List.getElem_set_ne (by omega)]
  exact this

theorem lookup_set_self {es : List (Str × Tree)} {n : Str} {i : Nat} (x : Tree)
    (h : Tree.posOf es n = some i) : (es.set i (n, x)).lookup n = some x := by
  have hlt := (List.getElem?_eq_some_iff.1 (posOf_some h).choose_spec.1).1
  obtain ⟨c', hc', hl'⟩ := posOf_some (posOf_set_self x h)
  rw [List.getElem?_set_self hlt] at hc'
  simp at hc'
  rw [hl', hc']

theorem posOf_addChild (t : Tree) (n : Str) :
    ∃ i, Tree.posOf (t.addChild n).entries n = some i := by
  have key : ∀ l : List (Str × Tree), n ∈ l.map (·.1) → ∃ i, Tree.posOf l n = some i := by
    intro l hl
    apply Option.ne_none_iff_exists'.1
    unfold Tree.posOf
    rw [Ne, List.findIdx?_eq_none_iff]
    intro hh
    simp only [List.mem_map] at hl
    obtain ⟨e, he, rfl⟩ := hl
    have := hh e he
    simp at this
  apply key
  unfold Tree.addChild
  split
  · assumption
  · simp [Tree.entries]

theorem fetchNames_ensure : ∀ (ns : List Str) (root t : Tree) (a : List Nat),
    (∀ n ∈ ns, n ≠ ['.', '.']) → root.get a = some t →
    ∃ b, Tree.fetchNames root a ns = some (root.put a (ensure t ns), a ++ b) ∧
      addrOf (ensure t ns) ns = some b
  | [], root, t, a, _, hg => by
    refine ⟨[], ?_, by simp [addrOf]⟩
    have : ∀ (t : Tree) (a : List Nat) (x : Tree), t.get a = some x → t.put a x = t := by
      intro t a
      induction a generalizing t with
      | nil => intro x h; simp [Tree.get] at h; simp [Tree.put, h]
      | cons i a ih =>
        intro x h
        cases t with
        | leaf d => simp [Tree.put]
        | obj es =>
          rw [Tree.get] at h
          rw [Tree.put]
          cases hc : es[i]? with
          | none => rfl
          | some e =>
            simp only [hc] at h
            simp only [ih _ _ h]
            congr 1
            exact list_set_self hc
        | lst es =>
          rw [Tree.get] at h
          rw [Tree.put]
          cases hc : es[i]? with
          | none => rfl
          | some e =>
            simp only [hc] at h
            simp only [ih _ _ h]
            congr 1
            exact list_set_self hc
    simp [Tree.fetchNames, ensure, this root a t hg]
  | n :: ns, root, t, a, hd, hg => by
    obtain ⟨i, hi⟩ := posOf_addChild t n
    obtain ⟨c, hc, hl⟩ := posOf_some hi
    rw [Tree.fetchNames, if_neg (fun h => hd n (by simp) h.1)]
    simp only [Tree.descend, hg, hi]
    have hg1 : (root.put a (t.addChild n)).get (a ++ [i]) = some c := by
      rw [get_append, get_put root a _ t hg]
      rw [addChild_entries]; simp [Tree.get, hc]
    have hens : ensure t (n :: ns) = .obj ((t.addChild n).entries.set i (n, ensure c ns)) := by
      rw [ensure]; simp only [hi, hc]
    obtain ⟨b, h1, h2⟩ := fetchNames_ensure ns (root.put a (t.addChild n)) c (a ++ [i])
      (fun k hk => hd k (List.mem_cons_of_mem _ hk)) hg1
    have hlt := (List.getElem?_eq_some_iff.1 hc).1
    have hp := posOf_set_self (ensure c ns) hi
    refine ⟨i :: b, ?_, ?_⟩
    · rw [h1]
      congr 1
      rw [put_append _ a [i] (t.addChild n) _ (get_put root a _ t hg), put_put, hens]
      simp only [List.append_assoc, List.singleton_append, Prod.mk.injEq, and_true]
      congr 1
      rw [addChild_entries]
      simp only [Tree.put]
      rw [← addChild_entries]
      simp [hc, Tree.put]
    · rw [hens, addrOf]
      simp only [show ∀ es, Tree.entries (.obj es) = es from fun _ => rfl, hp, List.getElem?_set_self hlt, h2, Option.map_some]

theorem lookup_set_ne {es : List (Str × Tree)} {n k : Str} {i : Nat} {c : Tree} (x : Tree)
    (h : es[i]? = some (n, c)) (hk : k ≠ n) : (es.set i (n, x)).lookup k = es.lookup k := by
  induction es generalizing i with
  | nil => simp
  | cons e es ih =>
    cases i with
    | zero =>
      simp at h; subst h
      have h2 : (k == n) = false := by simpa using hk
      simp [List.lookup_cons, h2]
    | succ i =>
      simp at h
      obtain ⟨e1, e2⟩ := e
      simp only [List.set_cons_succ, List.lookup_cons]
      rw [ih h]

theorem lookup_addChild_ne (t : Tree) {n k : Str} (hk : k ≠ n) :
    (t.addChild n).entries.lookup k = t.entries.lookup k := by
  unfold Tree.addChild
  split
  · rfl
  · simp only [Tree.entries]
    have h2 : (k == n) = false := by simpa using hk
    rw [List.lookup_append]
    simp [List.lookup_cons, h2]

theorem lookup_addChild_self (t : Tree) (n : Str) :
    (t.addChild n).entries.lookup n = some ((t.entries.lookup n).getD Tree.empty) := by
  unfold Tree.addChild
  split
  · rename_i h
    have : ∃ c, t.entries.lookup n = some c := by
      apply Option.isSome_iff_exists.1
      rw [List.lookup_isSome_iff]
      simp only [List.mem_map] at h
      obtain ⟨e, he, rfl⟩ := h
      exact ⟨e, he, by simp⟩
    obtain ⟨c, hc⟩ := this
    show t.entries.lookup n = _
    rw [hc]; rfl
  · rename_i h
    have hn : t.entries.lookup n = none := by
      rw [List.lookup_eq_none_iff]
      intro e he
      simp only [List.mem_map, not_exists, not_and] at h
      have := h e he
      simp; exact fun e => this e.symm
    show (t.entries ++ [(n, Tree.empty)]).lookup n = _
    rw [List.lookup_append, hn]
    simp

theorem lookup_entries (t : Tree) (n : Str) (ns : List Str) :
    t.lookup (n :: ns) = (t.entries.lookup n).bind (fun c => c.lookup ns) := by
  cases t with
  | leaf d => simp [Tree.lookup, Tree.entries]
  | lst d => simp [Tree.lookup, Tree.entries]
  | obj es =>
    simp only [Tree.lookup, Tree.entries]
    cases es.lookup n <;> rfl

/-- names that are not on the fetched path see no change -/
theorem lookup_ensure_other : ∀ (ns qs : List Str) (t : Tree), ¬ qs <+: ns →
    (ensure t ns).lookup qs = t.lookup qs
  | [], qs, t, _ => by simp [ensure]
  | n :: ns, [], t, h => by simp at h
  | n :: ns, q :: qs, t, h => by
    obtain ⟨i, hi⟩ := posOf_addChild t n
    obtain ⟨c, hc, hl⟩ := posOf_some hi
    have hens : ensure t (n :: ns) = .obj ((t.addChild n).entries.set i (n, ensure c ns)) := by
      rw [ensure]; simp only [hi, hc]
    rw [hens, lookup_entries, lookup_entries]
    simp only [show ∀ es, Tree.entries (.obj es) = es from fun _ => rfl]
    by_cases hq : q = n
    · subst hq
      rw [lookup_set_self _ hi]
      rw [lookup_addChild_self] at hl
      have hp : ¬ qs <+: ns := by
        intro hh; apply h; simpa using hh
      simp only [Option.bind_some]
      rw [lookup_ensure_other ns qs c hp]
      cases hx : t.entries.lookup q with
      | some c' => rw [hx] at hl; simp at hl; simp [hl]
      | none =>
        rw [hx] at hl; simp at hl; subst hl
        cases qs with
        | nil => simp at hp
        | cons => simp [Tree.empty, Tree.lookup]
    · rw [lookup_set_ne _ hc hq, lookup_addChild_ne t hq]

/-- the fetched entry keeps its content, or is a new empty entry -/
theorem lookup_ensure_self : ∀ (ns : List Str) (t : Tree),
    (ensure t ns).lookup ns = some ((t.lookup ns).getD Tree.empty)
  | [], t => by simp [ensure, Tree.lookup]
  | n :: ns, t => by
    obtain ⟨i, hi⟩ := posOf_addChild t n
    obtain ⟨c, hc, hl⟩ := posOf_some hi
    have hens : ensure t (n :: ns) = .obj ((t.addChild n).entries.set i (n, ensure c ns)) := by
      rw [ensure]; simp only [hi, hc]
    rw [hens, lookup_entries, lookup_entries]
    simp only [show ∀ es, Tree.entries (.obj es) = es from fun _ => rfl]
    rw [lookup_set_self _ hi]
    simp only [Option.bind_some]
    rw [lookup_ensure_self ns c]
    rw [lookup_addChild_self] at hl
    cases hx : t.entries.lookup n with
    | some c' => rw [hx] at hl; simp at hl; simp [hl]
    | none =>
      rw [hx] at hl; simp at hl; subst hl
      cases ns with
      | nil => simp [Tree.lookup]
      | cons => simp [Tree.empty, Tree.lookup]

theorem ensure_of_lookup : ∀ (ns : List Str) (t : Tree), (t.lookup ns).isSome → ensure t ns = t
  | [], t, _ => by simp [ensure]
  | n :: ns, t, h => by
    obtain ⟨i, hi⟩ := posOf_addChild t n
    obtain ⟨c, hc, hl⟩ := posOf_some hi
    have hens : ensure t (n :: ns) = .obj ((t.addChild n).entries.set i (n, ensure c ns)) := by
      rw [ensure]; simp only [hi, hc]
    rw [lookup_entries] at h
    rw [lookup_addChild_self] at hl
    cases hx : t.entries.lookup n with
    | none => rw [hx] at h; simp at h
    | some c' =>
      rw [hx] at hl h; simp at hl h; subst hl
      rw [hens, ensure_of_lookup ns c' h]
      have ht : t = .obj t.entries := by
        cases t <;> simp [Tree.entries] at hx ⊢
      have hadd : (t.addChild n).entries = t.entries := by
        unfold Tree.addChild
        rw [if_pos]; · rfl
        have := List.lookup_isSome_iff (k := n) (l := t.entries)
        rw [hx] at this
        simp at this
        obtain ⟨b, hb⟩ := this
        simp; exact ⟨b, hb⟩
      rw [hadd] at hc ⊢
      rw [ht]
      congr 1
      simp only [Tree.entries]
      exact list_set_self hc

end RSchema
end Conduit
