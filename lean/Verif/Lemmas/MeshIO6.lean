import Verif.Lemmas.MeshIO5
import Verif.Lemmas.JsonParse
/-
The names of files and domains, and the patterns from which they are made (C88).
-/
namespace Conduit.MeshIO
open Conduit.Mesh

/-! ### Numbers in names -/

theorem value_append_digit (s : Str) (c : Char) : value (s ++ [c]) = value s * 10 + (c.toNat - 48) := by simp [value]

theorem value_toDigits (n : Nat) : value (Nat.toDigits 10 n) = n := by
  induction n using Nat.strongRecOn with
  | _ n ih =>
    rw [Nat.toDigits_eq_if (by omega)]
    have hd : ∀ k < 10, (Nat.digitChar k).toNat - 48 = k := by decide
    by_cases h : n < 10
    · rw [if_pos h]
      have := hd n h
      simpa [value] using this
    · rw [if_neg h, value_append_digit, ih (n / 10) (by omega), hd _ (Nat.mod_lt _ (by omega))]
      omega

theorem value_zeros (k : Nat) (s : Str) : value (List.replicate k '0' ++ s) = value s := by
  induction k with
  | zero => rfl
  | succ k ih => rw [List.replicate_succ, List.cons_append]; exact ih

theorem pad6_nat (i : Nat) : pad6 (i : Int) = List.replicate (6 - (Nat.toDigits 10 i).length) '0' ++ Nat.toDigits 10 i := by
  unfold pad6
  rw [if_neg (by omega)]
  rfl

theorem value_pad6 (i : Nat) : value (pad6 (i : Int)) = i := by rw [pad6_nat, value_zeros, value_toDigits]

theorem pad6_inj {i j : Nat} (h : pad6 (i : Int) = pad6 (j : Int)) : i = j := by
  rw [← value_pad6 i, h, value_pad6]

theorem pad6_chars (i : Int) {c : Char} (h : c ∈ pad6 i) : c = '-' ∨ c.isDigit = true := by
  have hd : ∀ {k : Nat} {c : Char}, c ∈ List.replicate k '0' ++ Nat.toDigits 10 i.natAbs → c.isDigit = true := by
    intro k c h
    rcases List.mem_append.1 h with h | h
    · obtain ⟨-, rfl⟩ := List.mem_replicate.1 h; decide
    · exact isDigit_toDigits h
  unfold pad6 at h
  dsimp only at h
  split at h
  · rcases List.mem_cons.1 h with h | h
    · exact .inl h
    · exact .inr (hd h)
  · exact .inr (hd h)

/-- None of the characters that mean something in a pattern. -/
def NoMarks (s : Str) : Prop := ':' ∉ s ∧ '{' ∉ s ∧ '}' ∉ s

theorem NoMarks.append {s t : Str} (hs : NoMarks s) (ht : NoMarks t) : NoMarks (s ++ t) := by
  unfold NoMarks
  simp [hs.1, hs.2.1, hs.2.2, ht.1, ht.2.1, ht.2.2]

theorem NoMarks.cons {c : Char} {t : Str} (hc : c ≠ ':' ∧ c ≠ '{' ∧ c ≠ '}') (ht : NoMarks t) : NoMarks (c :: t) := by
  unfold NoMarks
  simp [hc.1.symm, hc.2.1.symm, hc.2.2.symm, ht.1, ht.2.1, ht.2.2]

theorem noMarks_pad6 (i : Int) : NoMarks (pad6 i) := by
  refine ⟨fun h => ?_, fun h => ?_, fun h => ?_⟩ <;> rcases pad6_chars i h with h | h <;> revert h <;> decide

theorem noSlash_pad6 (i : Int) : '/' ∉ pad6 i := by
  intro h
  rcases pad6_chars i h with h | h <;> revert h <;> decide

theorem domainName_inj {i j : Nat} (h : domainName i = domainName j) : i = j :=
  pad6_inj (List.append_cancel_left h)

theorem fileName_inj {i j : Nat} (h : fileName i = fileName j) : i = j :=
  pad6_inj (List.append_cancel_left h)

theorem good_domainName (i : Nat) : GoodName (domainName i) := by
  refine ⟨by simp [domainName], ?_, fun h => ?_⟩
  · unfold domainName
    rw [List.mem_append]
    rintro (h | h)
    · revert h; decide
    · exact noSlash_pad6 _ h
  · have := congrArg List.head? h
    simp [domainName] at this

theorem noMarks_domainName (i : Nat) : NoMarks (domainName i) :=
  NoMarks.append (by unfold NoMarks; decide) (noMarks_pad6 _)

theorem noMarks_fileName (i : Nat) : NoMarks (fileName i) :=
  NoMarks.append (by unfold NoMarks; decide) (noMarks_pad6 _)

theorem domainName_ne_root (i : Nat) {s : Str} (h : s ∈ rootNames) : domainName i ≠ s := by
  intro e
  have h0 := congrArg List.head? e
  simp only [domainName] at h0
  simp only [rootNames, List.mem_cons, List.not_mem_nil, or_false] at h
  rcases h with rfl | rfl | rfl | rfl | rfl | rfl <;> simp at h0

/-! ### Patterns -/

theorem vformat_lit (args : List (Str × Int)) {lit : Str} (h : '{' ∉ lit ∧ '}' ∉ lit) (rest : Str) :
    vformat args none (lit ++ rest) = (vformat args none rest).map' (lit ++ ·) := by
  induction lit with
  | nil => simp only [List.nil_append]; cases vformat args none rest <;> rfl
  | cons c l ih =>
    simp only [List.mem_cons, not_or] at h
    rw [List.cons_append, vformat, if_neg (Ne.symm h.1.1), if_neg (Ne.symm h.2.1), ih ⟨h.1.2, h.2.2⟩]
    · cases vformat args none rest <;> rfl
    · intro r e; exact absurd e.symm h.1.1
    · intro r e; exact absurd e.symm h.2.1

theorem vformat_end (args : List (Str × Int)) {lit : Str} (h : '{' ∉ lit ∧ '}' ∉ lit) : vformat args none lit = .ok lit := by
  have := vformat_lit args h []
  rw [List.append_nil] at this
  rw [this]
  simp [vformat, Res.map']

theorem vformat_inside (args : List (Str × Int)) {a : Str} (h : '}' ∉ a) (acc rest : Str) :
    vformat args (some acc) (a ++ '}' :: rest) = (field args (a.reverse ++ acc).reverse).bind fun s => (vformat args none rest).map' (s ++ ·) := by
  induction a generalizing acc with
  | nil =>
    rw [List.nil_append, vformat, if_pos rfl]; rfl
  | cons c a ih =>
    simp only [List.mem_cons, not_or] at h
    rw [List.cons_append, vformat, if_neg (Ne.symm h.1), ih h.2]
    simp

theorem vformat_field {args : List (Str × Int)} {name : Str} {v : Int} (hv : args.lookup name = some v) (h0 : ∃ c r, name = c :: r ∧ c ≠ '{')
    (h1 : ':' ∉ name ∧ '}' ∉ name) (rest : Str) :
    vformat args none ('{' :: (name ++ chars! ":06d}") ++ rest) = (vformat args none rest).map' (pad6 v ++ ·) := by
  obtain ⟨c, r, rfl, hc⟩ := h0
  have e : ('{' :: (c :: r ++ chars! ":06d}") ++ rest) = '{' :: ((c :: r ++ chars! ":06d") ++ '}' :: rest) := by simp
  rw [e, vformat, if_pos rfl, vformat_inside]
  · have hf : field args ((c :: r ++ chars! ":06d").reverse ++ []).reverse = .ok (pad6 v) := by
      have hs : splitString (c :: r ++ chars! ":06d") ':' = (c :: r, chars! "06d") := splitString_append h1.1
      unfold field
      simp only [List.append_nil, List.reverse_reverse, hs, hv]
      rw [if_neg (by simp), if_pos trivial]
    rw [hf]; rfl
  · simp only [List.mem_append, not_or]; exact ⟨h1.2, by decide⟩
  · intro r' _ e; injection e with e; exact hc e
  · intro r' e; exact absurd e (by decide)

/-! ### The two parts -/

theorem findSub_colon {a : Str} (h : ':' ∉ a) (b : Str) : findSub (chars! ":/") (a ++ ':' :: '/' :: b) = some a.length := by
  induction a with
  | nil => simp [findSub, List.isPrefixOf]
  | cons c a ih =>
    simp only [List.mem_cons, not_or] at h
    rw [List.cons_append, findSub, if_neg, ih h.2]
    · rfl
    · simp [List.isPrefixOf, h.1]

theorem splitColon_eq {a : Str} (h : ':' ∉ a) (b : Str) : splitColon (a ++ ':' :: '/' :: b) = (a, '/' :: b) := by
  unfold splitColon
  rw [findSub_colon h]
  simp only [Prod.mk.injEq]
  constructor
  · simp
  · rw [if_pos (by simp)]
    simp

theorem tree_root : endSlash ['/'] = ['/'] := by decide

theorem join_root {segs : List Str} : joinPath ['/'] (slash segs) = '/' :: slash segs := by
  unfold joinPath
  rw [if_neg (by simp)]; rfl

theorem tree_domain (i : Nat) : endSlash ('/' :: domainName i) = '/' :: domainName i ++ ['/'] := by
  have h : ('/' :: domainName i).getLast? ≠ some '/' := by
    intro h
    rw [List.getLast?_cons] at h
    have h1 := (good_domainName i).1
    cases hl : (domainName i).getLast? with
    | none => rw [List.getLast?_eq_none_iff] at hl; exact h1 hl
    | some c =>
      rw [hl] at h
      simp at h
      subst h
      exact (good_domainName i).2.1 (List.mem_of_getLast? hl)
  unfold endSlash
  rw [if_pos ⟨by simp, h⟩]

theorem join_domain (i : Nat) {segs : List Str} (h : segs ≠ []) :
    joinPath ('/' :: domainName i ++ ['/']) (slash segs) = '/' :: slash (domainName i :: segs) := by
  unfold joinPath
  rw [if_neg, slash_cons h]
  · simp
  · rintro ⟨-, q, -⟩
    exact q (List.getLast?_concat ..)

/-! ### The partition map -/

theorem countOf_range (n : Nat) : countOf ((List.range (n + 1)).map Int.ofNat) = ((n + 1 : Nat) : Int) := by
  unfold countOf
  have : ((List.range (n + 1)).map Int.ofNat).foldl max (-9223372036854775808) = (n : Int) := by
    induction n with
    | zero => decide
    | succ n ih =>
      rw [List.range_succ, List.map_append, List.foldl_append, ih]
      simp only [List.map_cons, List.map_nil, List.foldl_cons, List.foldl_nil]
      show max (n : Int) ((n + 1 : Nat) : Int) = _
      omega
  rw [this]; omega

theorem domToTree_range (n k i : Nat) (t : List Nat) (hk : i + k = n) (ht : t.length = n) (hi : ∀ j < i, t[j]? = some j) :
    ∃ t', domToTree ((List.range n).map Int.ofNat) i k t = .ok t' ∧ ∀ j < n, t'[j]? = some j := by
  induction k generalizing i t with
  | zero => exact ⟨t, rfl, fun j hj => hi j (by omega)⟩
  | succ k ih =>
    have e : ((List.range n).map Int.ofNat)[i]? = some (i : Int) := by
      rw [List.getElem?_map, List.getElem?_range (by omega)]; rfl
    rw [domToTree, e]
    dsimp only
    rw [if_neg (by omega)]
    refine ih (i + 1) _ (by omega) (by simpa using ht) fun j hj => ?_
    rw [List.getElem?_set]
    by_cases h : i = j
    · subst h; simp; omega
    · simp [h]; exact hi j (by omega)

end Conduit.MeshIO
