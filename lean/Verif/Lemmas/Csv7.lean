import Verif.Spec.Table
import Verif.Lemmas.Csv6
/-
Lemmas about CSV files that are written (C47) and the check of tables (C65).
-/
namespace Conduit
open Spec Node CsvFile Table

namespace Csv

theorem objName_ok {s : Str} (h : '/' ∉ s) : objName s = s := by unfold objName; rw [if_neg h]

theorem kids_snd (c : Node) : (kids c).map (·.2) = (children c).map (·.2) := by
  cases c with
  | leaf x d => rfl
  | obj x es => simp [kids, children]
  | lst x cs => simp [kids, children]

theorem kids_length (c : Node) : (kids c).length = (children c).length := by
  have := congrArg List.length (kids_snd c)
  simpa using this

theorem kids_eq {c : Node} (h : ∀ k ∈ children c, '/' ∉ k.1) : kids c = children c := by
  cases c with
  | leaf x d => rfl
  | obj x es =>
    simp only [kids, children]
    rw [← List.map_id es, List.map_map]
    refine List.map_congr_left fun e he => ?_
    simp only [Function.comp, id]
    rw [objName_ok (h e he)]
  | lst x cs => rfl

/-- the loop over the columns -/
theorem verifyCols_false : ∀ (cs : List Node) (k : Int), (∀ c ∈ cs, isTree c = true → children c ≠ []) → verifyCols cs k false false = .ok false
  | [], _, _ => rfl
  | c :: cs, k, h => by
    have hc := fun e he => h e (List.mem_cons_of_mem _ he)
    rw [verifyCols]
    simp only [Bool.false_eq_true, if_false, Bool.false_and]
    split
    · simp only [Res.bind_ok]
      split
      · exact verifyCols_false cs _ hc
      · exact verifyCols_false cs _ hc
    · split
      · simp only [Res.bind_ok, Bool.false_eq_true, if_false]
        exact verifyCols_false cs _ hc
      · simp only [Res.bind_ok, if_true]
        exact verifyCols_false cs _ hc

/-- what `verify_table_values` accepts of one column, and the number of rows it takes for it -/
def Accepts (c : Node) : Prop :=
  if isTree c then MCArray.verify c.dtype.id ((children c).map (·.2.dtype)) = true else c.dtype.id ≠ .empty

theorem verifyCols_step {c : Node} {cs : List Node} {k : Int} {first : Bool} (hc : isTree c = true → children c ≠ []) :
    (Accepts c → verifyCols (c :: cs) k first true = verifyCols cs (if first then rows c else k) false (decide ((if first then rows c else k) = rows c))) ∧
    (¬ Accepts c → verifyCols (c :: cs) k first true = verifyCols cs k false false) := by
  have hleaf : isTree c = false → rows c = c.dtype.n := by
    intro hf
    unfold rows
    cases c with
    | leaf x d => rfl
    | obj x es => cases hf
    | lst x es => cases hf
  rw [verifyCols]
  simp only
  by_cases ht : isTree c = true
  · have ht' : (c.dtype.id == TypeId.object || c.dtype.id == TypeId.list) = true := ht
    rw [if_pos ht']
    simp only [if_true]
    have hk : (kids c).map (fun e => e.2.dtype) = (children c).map (fun e => e.2.dtype) := by
      have := congrArg (List.map Node.dtype) (kids_snd c)
      simpa [List.map_map, Function.comp_def] using this
    rw [hk]
    have h0 : ∃ e, (kids c)[0]? = some e ∧ e.2.dtype.n = rows c := by
      have h1 := kids_snd c
      have hne := hc ht
      unfold rows
      cases hch : children c with
      | nil => exact absurd hch hne
      | cons a l =>
        rw [hch] at h1
        cases hki : kids c with
        | nil => rw [hki] at h1; cases h1
        | cons b l' =>
          rw [hki] at h1
          simp only [List.map_cons, List.cons.injEq] at h1
          exact ⟨b, rfl, by rw [h1.1]⟩
    obtain ⟨e, he, hn⟩ := h0
    simp only [Res.ofIdx, he, Res.bind_ok, hn]
    unfold Accepts
    rw [if_pos ht]
    constructor
    · intro ha
      rw [ha, if_pos rfl]
      simp only [Bool.true_and]
      rfl
    · intro ha
      rw [if_neg ha]
  · have ht' : ¬ (c.dtype.id == TypeId.object || c.dtype.id == TypeId.list) = true := ht
    rw [if_neg ht']
    unfold Accepts
    rw [if_neg ht]
    have hr := hleaf (by simpa using ht)
    by_cases he : c.dtype.id = .empty
    · rw [if_pos (by simp [he])]
      simp [he]
    · rw [if_neg (by simpa using he)]
      simp only [Res.bind_ok, if_true, Bool.true_and, he, ne_eq, not_false_eq_true, true_implies, not_true, false_implies, and_true, hr]
      rfl

theorem verifyCols_next : ∀ (cs : List Node) (k : Int), (∀ c ∈ cs, isTree c = true → children c ≠ []) →
    ∃ b, verifyCols cs k false true = .ok b ∧ (b = true ↔ ∀ c ∈ cs, Accepts c ∧ rows c = k)
  | [], k, _ => ⟨true, rfl, by simp⟩
  | c :: cs, k, h => by
    have hc := fun e he => h e (List.mem_cons_of_mem _ he)
    obtain ⟨h1, h2⟩ := verifyCols_step (cs := cs) (k := k) (first := false) (h c (by simp))
    by_cases ha : Accepts c
    · rw [h1 ha]
      simp only [Bool.false_eq_true, if_false]
      by_cases he : k = rows c
      · rw [decide_eq_true he]
        obtain ⟨b, e, hb⟩ := verifyCols_next cs k hc
        refine ⟨b, e, ?_⟩
        rw [hb]
        simp only [List.mem_cons, forall_eq_or_imp, ha, he.symm, true_and, and_true]
      · rw [decide_eq_false he, verifyCols_false cs k hc]
        refine ⟨false, rfl, ?_⟩
        constructor
        · intro hh; cases hh
        · intro hh; exact absurd (hh c (by simp)).2.symm he
    · rw [h2 ha, verifyCols_false cs k hc]
      refine ⟨false, rfl, ?_⟩
      constructor
      · intro hh; cases hh
      · intro hh; exact absurd (hh c (by simp)).1 ha

/-- the verdict: every column is accepted, and the numbers of rows taken are the same -/
theorem verifyValues_eq (values : Node) (h : ∀ c ∈ children values, isTree c.2 = true → children c.2 ≠ []) :
    ∃ b, verifyValues values = .ok b ∧ (b = true ↔ isTree values = true ∧ (∀ c ∈ children values, Accepts c.2) ∧
      ∀ c ∈ children values, ∀ d ∈ children values, rows c.2 = rows d.2) := by
  unfold verifyValues
  by_cases ht : isTree values = true
  · have ht' : ¬ (values.dtype.id ≠ .object ∧ values.dtype.id ≠ .list) := by
      unfold isTree at ht
      simp only [Bool.or_eq_true, beq_iff_eq] at ht
      tauto
    rw [if_neg ht', kids_snd]
    have hall : ∀ P : Node → Prop, (∀ c ∈ children values, P c.2) ↔ ∀ c ∈ (children values).map (·.2), P c := by
      intro P
      rw [List.forall_mem_map]
    have hall2 : (∀ c ∈ children values, ∀ d ∈ children values, rows c.2 = rows d.2) ↔
        ∀ c ∈ (children values).map (·.2), ∀ d ∈ (children values).map (·.2), rows c = rows d := by
      simp only [List.forall_mem_map]
    rw [hall Accepts, hall2]
    rw [hall (fun c => isTree c = true → children c ≠ [])] at h
    generalize (children values).map (·.2) = cs at *
    cases cs with
    | nil => exact ⟨true, rfl, by simp [ht]⟩
    | cons c cs =>
      have hc := fun e he => h e (List.mem_cons_of_mem _ he)
      obtain ⟨h1, h2⟩ := verifyCols_step (cs := cs) (k := 0) (first := true) (h c (by simp))
      by_cases ha : Accepts c
      · rw [h1 ha]
        simp only [if_true, decide_true]
        obtain ⟨b, e, hb⟩ := verifyCols_next cs (rows c) hc
        refine ⟨b, e, ?_⟩
        rw [hb]
        simp only [ht, true_and, List.mem_cons, forall_eq_or_imp, ha]
        constructor
        · intro hh
          refine ⟨fun x hx => (hh x hx).1, fun x hx => (hh x hx).2.symm, fun x hx => ⟨(hh x hx).2, fun y hy => (hh x hx).2.trans (hh y hy).2.symm⟩⟩
        · rintro ⟨a1, a2, a3⟩ x hx
          exact ⟨a1 x hx, (a2 x hx).symm⟩
      · rw [h2 ha, verifyCols_false cs 0 hc]
        refine ⟨false, rfl, ?_⟩
        constructor
        · intro hh; cases hh
        · intro hh; exact absurd (hh.2.1 c (by simp)) ha
  · have ht' : values.dtype.id ≠ .object ∧ values.dtype.id ≠ .list := by
      unfold isTree at ht
      simp only [Bool.or_eq_true, beq_iff_eq, not_or] at ht
      exact ht
    rw [if_pos ht']
    exact ⟨false, rfl, by simp [ht]⟩

theorem rowsText_ok {L : Lib} {m : Mem} {values : Node} : ∀ (k row : Nat) (s : Str), rowsText L m values k row = .ok s →
    ∃ ts : List Str, ts.length = k ∧ s = (ts.map (fun t => t ++ ['\n'])).flatten ∧
      ∀ i t, ts[i]? = some t → joinRes ((kids values).map (fun c => colText L m c.2 (row + i))) = .ok t
  | 0, row, s, h => by
    injection h with h
    subst h
    exact ⟨[], rfl, rfl, by simp⟩
  | k + 1, row, s, h => by
    rw [rowsText, Res.bind_eq_ok] at h
    obtain ⟨t, h1, h⟩ := h
    rw [Res.bind_eq_ok] at h
    obtain ⟨r, h2, h⟩ := h
    injection h with h
    subst h
    obtain ⟨ts, h3, h4, h5⟩ := rowsText_ok k (row + 1) r h2
    refine ⟨t :: ts, by simp [h3], by simp [h4], fun i t' hi => ?_⟩
    cases i with
    | zero =>
      injection hi with hi
      subst hi
      exact h1
    | succ i =>
      have := h5 i t' hi
      rw [show row + (i + 1) = row + 1 + i by omega]
      exact this

theorem joinRes_ok : ∀ (l : List (Res Str)) (s : Str), joinRes l = .ok s → ∃ ts : List Str, l = ts.map Res.ok ∧ s = joinSep ts
  | [], s, h => ⟨[], rfl, by injection h with h; exact h.symm⟩
  | [t], s, h => ⟨[s], by rw [joinRes] at h; rw [h]; rfl, rfl⟩
  | t :: u :: rest, s, h => by
    rw [joinRes, Res.bind_eq_ok] at h
    obtain ⟨a, h1, h⟩ := h
    rw [Res.bind_eq_ok] at h
    obtain ⟨b, h2, h⟩ := h
    injection h with h
    subst h
    obtain ⟨ts, h3, h4⟩ := joinRes_ok (u :: rest) b h2
    cases ts with
    | nil => cases h3
    | cons x ts =>
      refine ⟨a :: x :: ts, by rw [h1, h3]; rfl, by rw [h4]; rfl⟩

theorem joinSep_cons (a : Str) {l : List Str} (h : l ≠ []) : joinSep (a :: l) = a ++ ',' :: ' ' :: joinSep l := by
  cases l with
  | nil => exact absurd rfl h
  | cons b l => rfl

theorem joinSep_append : ∀ (a b : List Str), a ≠ [] → b ≠ [] → joinSep (a ++ b) = joinSep a ++ ',' :: ' ' :: joinSep b
  | [], _, h, _ => absurd rfl h
  | [x], b, _, hb => joinSep_cons x hb
  | x :: y :: a, b, _, hb => by
    have := joinSep_append (y :: a) b (by simp) hb
    rw [List.cons_append, joinSep_cons x (by simp), this, joinSep_cons x (by simp)]
    simp

theorem joinSep_flatten : ∀ (ls : List (List Str)), (∀ l ∈ ls, l ≠ []) → joinSep (ls.map joinSep) = joinSep ls.flatten
  | [], _ => rfl
  | [l], _ => by simp [joinSep]
  | l :: k :: ls, h => by
    have ih := joinSep_flatten (k :: ls) (fun x hx => h x (by simp [hx]))
    rw [List.map_cons, joinSep_cons _ (by simp), ih, List.flatten_cons (l := l), joinSep_append _ _ (h l (by simp)) (by
      have := h k (by simp)
      simp [this])]

theorem entries_joinSep : ∀ (a : Str) (l : List Str), ',' ∉ a → (∀ s ∈ l, ',' ∉ s) → entries (joinSep (a :: l)) = a :: l.map (fun s => ' ' :: s)
  | a, [], ha, _ => by
    unfold entries
    exact List.splitOn_eq_singleton ha
  | a, b :: l, ha, hl => by
    rw [joinSep_cons a (by simp), entries_append ha]
    congr 1
    have ih := entries_joinSep b l (hl b (by simp)) (fun s hs => hl s (by simp [hs]))
    cases l with
    | nil =>
      unfold entries
      exact List.splitOn_eq_singleton (by
        have := hl b (by simp)
        simp [joinSep, this])
    | cons c l =>
      have hb : ',' ∉ ' ' :: b := by
        have := hl b (by simp)
        simp [this]
      rw [joinSep_cons b (by simp)] at ih ⊢
      rw [entries_append (hl b (by simp))] at ih
      rw [show ' ' :: (b ++ ',' :: ' ' :: joinSep (c :: l)) = (' ' :: b) ++ ',' :: ' ' :: joinSep (c :: l) from rfl, entries_append hb]
      injection ih with _ ih
      rw [ih]
      rfl

theorem joinSep_not_mem {c : Char} (h1 : c ≠ ',') (h2 : c ≠ ' ') : ∀ (l : List Str), (∀ s ∈ l, c ∉ s) → c ∉ joinSep l
  | [], _ => by simp [joinSep]
  | [a], h => h a (by simp)
  | a :: b :: l, h => by
    rw [joinSep_cons a (by simp)]
    have := joinSep_not_mem h1 h2 (b :: l) (fun s hs => h s (by simp [hs]))
    simp only [List.mem_append, List.mem_cons, not_or]
    exact ⟨h a (by simp), h1, h2, this⟩

/-- lines written one after the other -/
theorem lines_flatten : ∀ (ts : List Str), (∀ t ∈ ts, '\n' ∉ t) → lines ((ts.map (fun t => t ++ ['\n'])).flatten) = ts
  | [], _ => rfl
  | t :: ts, h => by
    rw [List.map_cons, List.flatten_cons, List.append_assoc, List.singleton_append, lines_append (h t (by simp)),
      lines_flatten ts (fun s hs => h s (by simp [hs]))]

theorem trim_ok {s : Str} {a : Char} (h : s.head? = some a) (ha : a ∉ blanks) {b : Char} (h' : s.getLast? = some b) (hb : b ∉ blanks) :
    trimString s blanks = s ∧ trimString (' ' :: s) blanks = s := by
  have h1 : trimString s blanks = s := by
    unfold trimString
    have e1 : s.dropWhile (fun c => blanks.contains c) = s := by
      cases s with
      | nil => cases h
      | cons x s =>
        injection h with h
        subst h
        rw [List.dropWhile_cons_of_neg]
        simpa using ha
    have e2 : s.reverse.dropWhile (fun c => blanks.contains c) = s.reverse := by
      rw [← List.head?_reverse] at h'
      cases hr : s.reverse with
      | nil => rfl
      | cons x r =>
        rw [hr] at h'
        injection h' with h'
        subst h'
        rw [List.dropWhile_cons_of_neg]
        simpa using hb
    simp only [e1, e2, List.reverse_reverse]
  refine ⟨h1, ?_⟩
  have : trimString (' ' :: s) blanks = trimString s blanks := by
    unfold trimString
    rw [List.dropWhile_cons_of_pos (by decide)]
  rw [this, h1]

end Csv
end Conduit
