import Verif.Spec.JsonText
namespace Conduit
open Spec JV

theorem rjString_append (t u : Str) : ∀ s r, rjString t = some (s, r) → rjString (t ++ u) = some (s, r ++ u) := by
  fun_induction rjString t with
  | case1 => simp
  | case2 => simp
  | case3 e cs r h ih =>
    intro s r' hh
    rw [Option.map_eq_some_iff] at hh
    obtain ⟨⟨a, b⟩, h1, h2⟩ := hh
    have := ih _ _ h1
    simp only [Prod.mk.injEq] at h2
    obtain ⟨rfl, rfl⟩ := h2
    rw [List.cons_append, rjString.eq_def]
    simp [h, this]
  | case4 => simp
  | case5 cs h =>
    intro s r hh
    simp at hh; obtain ⟨rfl, rfl⟩ := hh
    rw [List.cons_append, rjString.eq_def]; simp
  | case6 => simp
  | case7 c cs h1 h2 h3 ih =>
    intro s r hh
    rw [Option.map_eq_some_iff] at hh
    obtain ⟨⟨a, b⟩, h1', h2'⟩ := hh
    have := ih _ _ h1'
    simp only [Prod.mk.injEq] at h2'
    obtain ⟨rfl, rfl⟩ := h2'
    rw [List.cons_append, rjString.eq_def]; simp [h1, h2, h3, this]

theorem rjString_body {b s : Str} (h : rjString (b ++ ['"']) = some (s, [])) (rest : Str) :
    rjString (b ++ '"' :: rest) = some (s, rest) := by
  have := rjString_append _ rest _ _ h
  simpa using this

theorem skipWs_ws {w : Str} (h : WS w) {c : Char} (hc : isWs c = false) (r : Str) :
    skipWs (w ++ c :: r) = c :: r := by
  induction w with
  | nil => simp [skipWs, hc]
  | cons d w ih =>
    have h1 := h d (by simp)
    have := ih (fun x hx => h x (by simp [hx]))
    simpa [skipWs, h1] using this

theorem skipWs_all {w : Str} (h : WS w) : skipWs w = [] := by
  induction w with
  | nil => rfl
  | cons d w ih =>
    have h1 := h d (by simp)
    have := ih (fun x hx => h x (by simp [hx]))
    simpa [skipWs, h1] using this

/-- what may follow a number -/
def NumEnd (rest : Str) : Prop := ∀ c r, rest = c :: r → c.isDigit = false ∧ c ≠ '.' ∧ c ≠ 'e' ∧ c ≠ 'E'

theorem takeWhile_digits (ds rest : Str) (h : ∀ c ∈ ds, c.isDigit = true) (hr : NumEnd rest) :
    (ds ++ rest).takeWhile Char.isDigit = ds := by
  induction ds with
  | nil =>
    cases rest with
    | nil => rfl
    | cons c r => simp [(hr c r rfl).1]
  | cons d ds ih =>
    have h1 := h d (by simp)
    have := ih (fun x hx => h x (by simp [hx]))
    simpa [h1] using this

theorem isDigit_toDigits {n : Nat} {c : Char} (h : c ∈ Nat.toDigits 10 n) : c.isDigit = true :=
  Nat.isDigit_of_mem_toDigits (b := 10) (by omega) (by omega) h

theorem digit_head (n : Nat) : ∃ c r, Nat.toDigits 10 n = c :: r ∧ c.isDigit = true ∧ (0 < n → c ≠ '0') := by
  induction n using Nat.strongRecOn with
  | _ n ih =>
    rw [Nat.toDigits_eq_if (by omega)]
    split
    · rename_i h
      refine ⟨_, _, rfl, ?_, ?_⟩
      · rw [Nat.isDigit_digitChar]; simpa using h
      · intro h0; simp; omega
    · obtain ⟨c, r, h1, h2, h3⟩ := ih (n / 10) (by omega)
      exact ⟨c, _, by rw [h1]; rfl, h2, fun _ => h3 (by omega)⟩

theorem intDigits_toDigits (n : Nat) (rest : Str) (hr : NumEnd rest) :
    intDigits (Nat.toDigits 10 n ++ rest) = Nat.toDigits 10 n := by
  obtain ⟨c, r, h1, h2, h3⟩ := digit_head n
  by_cases h0 : n = 0
  · subst h0; rw [Nat.toDigits_zero]; rfl
  · have hne := h3 (by omega)
    have := takeWhile_digits (Nat.toDigits 10 n) rest (fun _ => isDigit_toDigits) hr
    rw [h1] at this ⊢
    unfold intDigits
    split
    · rename_i heq; simp at heq; exact absurd heq.1 hne
    · exact this

theorem fracText_end {rest : Str} (hr : NumEnd rest) : fracText rest = some [] := by
  unfold fracText
  split
  · rename_i r; exact absurd rfl (hr _ _ rfl).2.1
  · rfl

theorem expText_end {rest : Str} (hr : NumEnd rest) : expText rest = some [] := by
  unfold expText
  split
  · rfl
  · have := hr _ _ rfl
    rw [if_neg (by simp [this])]

theorem parseNumber_int (i : Int) (rest : Str) (h1 : -(2 ^ 63) ≤ i) (h2 : i < 2 ^ 64) (hr : NumEnd rest) :
    parseNumber (intText i ++ rest) = some (.int i, rest) := by
  unfold intText
  split
  · rename_i h
    unfold parseNumber
    have hd := intDigits_toDigits i.natAbs rest hr
    have hv : digitsVal (Nat.toDigits 10 i.natAbs) = i.natAbs := Nat.ofDigitChars_ten_toDigits
    have hne : (Nat.toDigits 10 i.natAbs).isEmpty = false := by
      obtain ⟨c, r, h, _⟩ := digit_head i.natAbs; rw [h]; rfl
    have hi : -((i.natAbs : Nat) : Int) = i := by omega
    simp [hd, hne, hv, fracText_end hr, expText_end hr, hi]
    omega
  · rename_i h
    unfold parseNumber
    have hd := intDigits_toDigits i.toNat rest hr
    have hv : digitsVal (Nat.toDigits 10 i.toNat) = i.toNat := Nat.ofDigitChars_ten_toDigits
    obtain ⟨c, r, hc, hc1, _⟩ := digit_head i.toNat
    have hne : (Nat.toDigits 10 i.toNat).isEmpty = false := by rw [hc]; rfl
    have hi : ((i.toNat : Nat) : Int) = i := by omega
    have hneg : ((Nat.toDigits 10 i.toNat ++ rest).head? == some '-') = false := by
      rw [hc]
      simp
      rintro rfl; exact absurd hc1 (by decide)
    simp only [hneg]
    simp [hd, hne, hv, fracText_end hr, expText_end hr, hi]
    omega

theorem intText_head (i : Int) : ∃ c r, intText i = c :: r ∧ (c = '-' ∨ c.isDigit = true) := by
  unfold intText
  split
  · exact ⟨_, _, rfl, .inl rfl⟩
  · obtain ⟨c, r, hc, hc1, _⟩ := digit_head i.toNat
    exact ⟨c, r, hc, .inr hc1⟩

theorem parseValue_num (k : Nat) (c : Char) (r : Str) (h : c = '-' ∨ c.isDigit = true) :
    parseValue (k + 1) (c :: r) = parseNumber (c :: r) := by
  have hc : c ≠ 'n' ∧ c ≠ 't' ∧ c ≠ 'f' ∧ c ≠ '"' ∧ c ≠ '{' ∧ c ≠ '[' := by
    refine ⟨?_, ?_, ?_, ?_, ?_, ?_⟩ <;> (rintro rfl; revert h; decide)
  rw [parseValue] <;> simp [hc]

theorem takeWhile_digits' (ds rest : Str) (h : ∀ c ∈ ds, c.isDigit = true) (hr : ∀ c r, rest = c :: r → c.isDigit = false) :
    (ds ++ rest).takeWhile Char.isDigit = ds := by
  induction ds with
  | nil =>
    cases rest with
    | nil => rfl
    | cons c r => simp [hr c r rfl]
  | cons d ds ih =>
    have h1 := h d (by simp)
    have := ih (fun x hx => h x (by simp [hx]))
    simpa [h1] using this

theorem intDigits_toDigits' (n : Nat) (rest : Str) (hr : ∀ c r, rest = c :: r → c.isDigit = false) :
    intDigits (Nat.toDigits 10 n ++ rest) = Nat.toDigits 10 n := by
  obtain ⟨c, r, h1, h2, h3⟩ := digit_head n
  by_cases h0 : n = 0
  · subst h0; rw [Nat.toDigits_zero]; rfl
  · have hne := h3 (by omega)
    have := takeWhile_digits' (Nat.toDigits 10 n) rest (fun _ => isDigit_toDigits) hr
    rw [h1] at this ⊢
    unfold intDigits
    split
    · rename_i heq; simp at heq; exact absurd heq.1 hne
    · exact this

theorem expText_some {e rest : Str} (hr : NumEnd rest)
    (he : e = [] ∨ ∃ es ds, ds ≠ [] ∧ (∀ c ∈ ds, c.isDigit = true) ∧ (es = ['+'] ∨ es = ['-'] ∨ es = []) ∧ e = 'e' :: (es ++ ds)) :
    expText (e ++ rest) = some e := by
  rcases he with rfl | ⟨es, ds, h1, h2, h3, rfl⟩
  · exact expText_end hr
  · obtain ⟨d, ds', rfl⟩ := List.exists_cons_of_ne_nil h1
    have hd := h2 d (by simp)
    have ht := takeWhile_digits (d :: ds') rest h2 hr
    have hp : d ≠ '+' ∧ d ≠ '-' := by constructor <;> (rintro rfl; revert hd; decide)
    rcases h3 with rfl | rfl | rfl
    · simp only [expText, List.cons_append, List.nil_append]
      simp only [List.cons_append] at ht
      simp [ht]
    · simp only [expText, List.cons_append, List.nil_append]
      simp only [List.cons_append] at ht
      simp [ht]
    · simp only [expText, List.cons_append, List.nil_append]
      simp only [List.cons_append] at ht
      rw [if_pos (by simp)]
      split
      · rename_i hh; simp at hh; exact absurd hh.1 hp.1
      · rename_i hh; simp at hh; exact absurd hh.1 hp.2
      · simp [ht]

theorem fracText_some {f e rest : Str} (hr : NumEnd rest)
    (hf : f = [] ∨ ∃ ds, ds ≠ [] ∧ (∀ c ∈ ds, c.isDigit = true) ∧ f = '.' :: ds)
    (he : e = [] ∨ ∃ es ds, ds ≠ [] ∧ (∀ c ∈ ds, c.isDigit = true) ∧ (es = ['+'] ∨ es = ['-'] ∨ es = []) ∧ e = 'e' :: (es ++ ds)) :
    fracText (f ++ (e ++ rest)) = some f := by
  have hend : ∀ c r, e ++ rest = c :: r → c.isDigit = false := by
    intro c r h
    rcases he with rfl | ⟨es, ds, _, _, _, rfl⟩
    · exact (hr c r h).1
    · simp at h; rw [← h.1]; decide
  rcases hf with rfl | ⟨ds, h1, h2, rfl⟩
  · rcases he with rfl | ⟨es, ds, _, _, _, rfl⟩
    · exact fracText_end hr
    · simp [fracText]
  · have := takeWhile_digits' ds (e ++ rest) h2 hend
    simp only [fracText, List.cons_append]
    rw [this]
    cases ds with
    | nil => exact absurd rfl h1
    | cons d ds => simp

theorem parseNumber_real (t rest : Str) (h : RealText t) (hr : NumEnd rest) :
    parseNumber (t ++ rest) = some (.real t, rest) := by
  obtain ⟨sg, f, e, n, rfl, hs, hf, he, hfe⟩ := h
  have hd : intDigits (Nat.toDigits 10 n ++ (f ++ (e ++ rest))) = Nat.toDigits 10 n := by
    apply intDigits_toDigits'
    intro c r h
    rcases hf with rfl | ⟨ds, _, _, rfl⟩
    · rcases he with rfl | ⟨es, ds, _, _, _, rfl⟩
      · exact (hr c r h).1
      · simp at h; rw [← h.1]; decide
    · simp at h; rw [← h.1]; decide
  obtain ⟨c, r, hc, hc1, _⟩ := digit_head n
  have hne : (Nat.toDigits 10 n).isEmpty = false := by rw [hc]; rfl
  have hee : (f.isEmpty && e.isEmpty) = false := by
    rcases hfe with h | h <;> simp [h]
  have h1 := fracText_some hr hf he
  have h2 := expText_some hr he
  have hlen : ∀ l : Str, (l ++ rest).take ((l ++ rest).length - rest.length) = l := by
    intro l; simp
  have hneg : ((sg ++ (Nat.toDigits 10 n ++ (f ++ (e ++ rest)))).head? == some '-') = !sg.isEmpty := by
    rcases hs with rfl | rfl
    · rw [hc]; simp; rintro rfl; exact absurd hc1 (by decide)
    · simp
  have hs1 : (if (!sg.isEmpty) = true then (sg ++ (Nat.toDigits 10 n ++ (f ++ (e ++ rest)))).drop 1
      else sg ++ (Nat.toDigits 10 n ++ (f ++ (e ++ rest)))) = Nat.toDigits 10 n ++ (f ++ (e ++ rest)) := by
    rcases hs with rfl | rfl <;> simp
  have hl := hlen (sg ++ (Nat.toDigits 10 n ++ (f ++ e)))
  simp only [List.append_assoc] at hl ⊢
  unfold parseNumber
  simp only [hneg, hs1, hd, hne, List.drop_left, h1, h2]
  rw [hee]
  simp only [Bool.false_and, Bool.false_eq_true, if_false, hl]

theorem realText_head {t : Str} (h : RealText t) : ∃ c r, t = c :: r ∧ (c = '-' ∨ c.isDigit = true) := by
  obtain ⟨sg, f, e, n, rfl, hs, _⟩ := h
  obtain ⟨c, r, hc, hc1, _⟩ := digit_head n
  rcases hs with rfl | rfl
  · exact ⟨c, _, by rw [hc]; rfl, .inr hc1⟩
  · exact ⟨_, _, rfl, .inl rfl⟩

/-- the first character of the text of a value -/
theorem rep_head {v : JV} {t : Str} (h : Rep v t) :
    ∃ c r, t = c :: r ∧ isWs c = false ∧ c ≠ '}' ∧ c ≠ ']' := by
  cases v with
  | null => subst h; exact ⟨_, _, rfl, by decide⟩
  | bool b => subst h; cases b <;> exact ⟨_, _, rfl, by decide⟩
  | int i =>
    obtain ⟨_, _, rfl⟩ := h
    obtain ⟨c, r, h1, h2⟩ := intText_head i
    refine ⟨c, r, h1, ?_, ?_, ?_⟩
    · unfold isWs; simp
      refine ⟨⟨⟨?_, ?_⟩, ?_⟩, ?_⟩ <;> (rintro rfl; revert h2; decide)
    · rintro rfl; revert h2; decide
    · rintro rfl; revert h2; decide
  | real u =>
    obtain ⟨rfl, h⟩ := h
    obtain ⟨c, r, h1, h2⟩ := realText_head h
    refine ⟨c, r, h1, ?_, ?_, ?_⟩
    · unfold isWs; simp
      refine ⟨⟨⟨?_, ?_⟩, ?_⟩, ?_⟩ <;> (rintro rfl; revert h2; decide)
    · rintro rfl; revert h2; decide
    · rintro rfl; revert h2; decide
  | str s => obtain ⟨b, _, rfl⟩ := h; exact ⟨_, _, rfl, by decide⟩
  | arr vs => obtain ⟨w, b, _, _, rfl⟩ := h; exact ⟨_, _, rfl, by decide⟩
  | obj ms => obtain ⟨w, b, _, _, rfl⟩ := h; exact ⟨_, _, rfl, by decide⟩

theorem numEnd_ws {w : Str} (hw : WS w) {c : Char} (hc : c.isDigit = false ∧ c ≠ '.' ∧ c ≠ 'e' ∧ c ≠ 'E') (r : Str) :
    NumEnd (w ++ c :: r) := by
  intro d r' h
  cases w with
  | nil => simp at h; rw [← h.1]; exact hc
  | cons x w =>
    simp at h
    have := hw x (by simp)
    rw [h.1] at this
    simp only [isWs, Bool.or_eq_true, beq_iff_eq] at this
    rcases this with ((rfl | rfl) | rfl) | rfl <;> decide

mutual
theorem parse_rep : ∀ (v : JV) (t : Str) (k : Nat) (rest : Str), Rep v t → t.length < k → NumEnd rest →
    parseValue k (t ++ rest) = some (v, rest)
  | .null, t, k, rest, h, hk, hr => by
    subst h; obtain ⟨k, rfl⟩ : ∃ j, k = j + 1 := ⟨k - 1, by omega⟩
    rfl
  | .bool b, t, k, rest, h, hk, hr => by
    subst h; obtain ⟨k, rfl⟩ : ∃ j, k = j + 1 := ⟨k - 1, by omega⟩
    cases b <;> rfl
  | .int i, t, k, rest, h, hk, hr => by
    obtain ⟨h1, h2, rfl⟩ := h
    obtain ⟨k, rfl⟩ : ∃ j, k = j + 1 := ⟨k - 1, by omega⟩
    obtain ⟨c, r, h3, h4⟩ := intText_head i
    have := parseNumber_int i rest h1 h2 hr
    rw [h3] at this ⊢
    rw [List.cons_append, parseValue_num k c _ h4]
    exact this
  | .real u, t, k, rest, h, hk, hr => by
    obtain ⟨rfl, h⟩ := h
    obtain ⟨k, rfl⟩ : ∃ j, k = j + 1 := ⟨k - 1, by omega⟩
    obtain ⟨c, r, h3, h4⟩ := realText_head h
    have := parseNumber_real _ rest h hr
    rw [h3] at this ⊢
    rw [List.cons_append, parseValue_num k c _ h4]
    exact this
  | .str s, t, k, rest, h, hk, hr => by
    obtain ⟨b, hb, rfl⟩ := h
    obtain ⟨k, rfl⟩ : ∃ j, k = j + 1 := ⟨k - 1, by omega⟩
    have := rjString_body hb rest
    simp only [List.cons_append, List.append_assoc, List.nil_append]
    rw [parseValue]
    · rw [this]; rfl
    all_goals simp
  | .arr [], t, k, rest, h, hk, hr => by
    obtain ⟨w, body, hw, hb, rfl⟩ := h
    obtain ⟨k, rfl⟩ : ∃ j, k = j + 1 := ⟨k - 1, by omega⟩
    have hb' : body = [] := hb
    subst hb'
    have := skipWs_ws hw (c := ']') (by decide) rest
    simp only [List.cons_append, List.append_assoc, List.nil_append]
    rw [parseValue]
    · rw [this]; rfl
    all_goals simp
  | .arr (v :: vs), t, k, rest, h, hk, hr => by
    obtain ⟨w, body, hw, hb, rfl⟩ := h
    obtain ⟨k, rfl⟩ : ∃ j, k = j + 1 := ⟨k - 1, by omega⟩
    have hp := parse_repL v vs body k rest hb (by simp at hk; omega)
    obtain ⟨c, r, hc, hc1, hc2, hc3⟩ : ∃ c r, body = c :: r ∧ isWs c = false ∧ c ≠ '}' ∧ c ≠ ']' := by
      obtain ⟨tv, w, hv, _, h⟩ := hb
      obtain ⟨c, r, hc, h1⟩ := rep_head hv
      rcases h with ⟨_, rfl⟩ | ⟨_, w', t', _, _, rfl⟩ <;> (rw [hc]; exact ⟨_, _, rfl, h1⟩)
    subst hc
    have := skipWs_ws hw hc1 (r ++ ']' :: rest)
    simp only [List.cons_append, List.append_assoc, List.nil_append] at hp ⊢
    rw [parseValue]
    · rw [this]
      split
      · rename_i heq; simp at heq; exact absurd heq.1 hc3
      · rw [hp]; rfl
    all_goals simp
  | .obj [], t, k, rest, h, hk, hr => by
    obtain ⟨w, body, hw, hb, rfl⟩ := h
    obtain ⟨k, rfl⟩ : ∃ j, k = j + 1 := ⟨k - 1, by omega⟩
    have hb' : body = [] := hb
    subst hb'
    have := skipWs_ws hw (c := '}') (by decide) rest
    simp only [List.cons_append, List.append_assoc, List.nil_append]
    rw [parseValue]
    · rw [this]; rfl
    all_goals simp
  | .obj ((n, v) :: ms), t, k, rest, h, hk, hr => by
    obtain ⟨w, body, hw, hb, rfl⟩ := h
    obtain ⟨k, rfl⟩ : ∃ j, k = j + 1 := ⟨k - 1, by omega⟩
    have hp := parse_repM n v ms body k rest hb (by simp at hk; omega)
    obtain ⟨r, hc⟩ : ∃ r, body = '"' :: r := by
      obtain ⟨b, w1, w2, tv, w, _, _, _, _, _, h⟩ := hb
      rcases h with ⟨_, rfl⟩ | ⟨_, w', t', _, _, rfl⟩ <;> exact ⟨_, rfl⟩
    subst hc
    have := skipWs_ws hw (c := '"') (by decide) (r ++ '}' :: rest)
    simp only [List.cons_append, List.append_assoc, List.nil_append] at hp ⊢
    rw [parseValue]
    · rw [this]
      split
      · rename_i heq; simp at heq
      · rw [hp]; rfl
    all_goals simp
termination_by _ _ k => k
theorem parse_repL : ∀ (v : JV) (vs : List JV) (t : Str) (k : Nat) (rest : Str), RepL (v :: vs) t →
    t.length + 1 < k → parseElems k (t ++ ']' :: rest) = some (v :: vs, rest)
  | v, [], t, k, rest, h, hk => by
    obtain ⟨k, rfl⟩ : ∃ j, k = j + 1 := ⟨k - 1, by omega⟩
    obtain ⟨tv, w, hv, hw, ⟨_, rfl⟩ | ⟨h, _⟩⟩ := h
    · have hp := parse_rep v tv k (w ++ ']' :: rest) hv (by simp at hk; omega) (numEnd_ws hw (by decide) _)
      rw [List.append_assoc, parseElems, hp]
      simp only [skipWs_ws hw (c := ']') (by decide) rest]
    · exact absurd rfl h
  | v, v' :: vs, t, k, rest, h, hk => by
    obtain ⟨k, rfl⟩ : ∃ j, k = j + 1 := ⟨k - 1, by omega⟩
    obtain ⟨tv, w, hv, hw, ⟨h, _⟩ | ⟨_, w', t', hw', ht', rfl⟩⟩ := h
    · simp at h
    · have hp := parse_rep v tv k (w ++ ',' :: (w' ++ (t' ++ ']' :: rest))) hv (by simp at hk; omega)
        (numEnd_ws hw (by decide) _)
      have hq := parse_repL v' vs t' k rest ht' (by simp at hk; omega)
      obtain ⟨c, r, hc, hc1, _⟩ : ∃ c r, t' = c :: r ∧ isWs c = false ∧ c ≠ '}' ∧ c ≠ ']' := by
        obtain ⟨tv, w, hv, _, h⟩ := ht'
        obtain ⟨c, r, hc, h1⟩ := rep_head hv
        rcases h with ⟨_, rfl⟩ | ⟨_, w', t', _, _, rfl⟩ <;> (rw [hc]; exact ⟨_, _, rfl, h1⟩)
      simp only [List.append_assoc, List.cons_append]
      rw [parseElems, hp]
      simp only [skipWs_ws hw (c := ',') (by decide)]
      have : skipWs (w' ++ (t' ++ ']' :: rest)) = t' ++ ']' :: rest := by
        rw [hc]; exact skipWs_ws hw' hc1 _
      rw [this, hq]; rfl
termination_by _ _ _ k => k
theorem parse_repM : ∀ (n : Str) (v : JV) (ms : List (Str × JV)) (t : Str) (k : Nat) (rest : Str),
    RepM ((n, v) :: ms) t → t.length + 1 < k → parseMembers k (t ++ '}' :: rest) = some ((n, v) :: ms, rest)
  | n, v, [], t, k, rest, h, hk => by
    obtain ⟨k, rfl⟩ : ∃ j, k = j + 1 := ⟨k - 1, by omega⟩
    obtain ⟨b, w1, w2, tv, w, hb, hw1, hw2, hv, hw, ⟨_, rfl⟩ | ⟨h, _⟩⟩ := h
    · have hp := parse_rep v tv k (w ++ '}' :: rest) hv (by simp at hk; omega) (numEnd_ws hw (by decide) _)
      obtain ⟨c, r, hc, hc1, _⟩ := rep_head hv
      simp only [List.append_assoc, List.cons_append]
      rw [parseMembers]
      rw [rjString_body hb]
      simp only [skipWs_ws hw1 (c := ':') (by decide)]
      have : skipWs (w2 ++ (tv ++ (w ++ '}' :: rest))) = tv ++ (w ++ '}' :: rest) := by
        rw [hc]; exact skipWs_ws hw2 hc1 _
      rw [this, hp]
      simp only [skipWs_ws hw (c := '}') (by decide)]
    · exact absurd rfl h
  | n, v, (n', v') :: ms, t, k, rest, h, hk => by
    obtain ⟨k, rfl⟩ : ∃ j, k = j + 1 := ⟨k - 1, by omega⟩
    obtain ⟨b, w1, w2, tv, w, hb, hw1, hw2, hv, hw, ⟨h, _⟩ | ⟨_, w', t', hw', ht', rfl⟩⟩ := h
    · simp at h
    · have hp := parse_rep v tv k (w ++ ',' :: (w' ++ (t' ++ '}' :: rest))) hv (by simp at hk; omega)
        (numEnd_ws hw (by decide) _)
      have hq := parse_repM n' v' ms t' k rest ht' (by simp at hk; omega)
      obtain ⟨c, r, hc, hc1, _⟩ := rep_head hv
      obtain ⟨r', hr'⟩ : ∃ r, t' = '"' :: r := by
        obtain ⟨b, w1, w2, tv, w, _, _, _, _, _, h⟩ := ht'
        rcases h with ⟨_, rfl⟩ | ⟨_, w', t', _, _, rfl⟩ <;> exact ⟨_, rfl⟩
      simp only [List.append_assoc, List.cons_append]
      rw [parseMembers]
      rw [rjString_body hb]
      simp only [skipWs_ws hw1 (c := ':') (by decide)]
      have : skipWs (w2 ++ (tv ++ (w ++ ',' :: (w' ++ (t' ++ '}' :: rest))))) =
          tv ++ (w ++ ',' :: (w' ++ (t' ++ '}' :: rest))) := by
        rw [hc]; exact skipWs_ws hw2 hc1 _
      rw [this, hp]
      simp only [skipWs_ws hw (c := ',') (by decide)]
      have : skipWs (w' ++ (t' ++ '}' :: rest)) = t' ++ '}' :: rest := by
        rw [hr']; exact skipWs_ws hw' (c := '"') (by decide) _
      rw [this, hq]; rfl
termination_by _ _ _ _ k => k
end

/-- A document: the text of a value with white space around it, and no NUL. -/
theorem parseDoc_rep {v : JV} {t w w' : Str} (h : Rep v t) (hw : WS w) (hw' : WS w') (h0 : '\x00' ∉ w ++ t ++ w') :
    parseDoc (w ++ t ++ w') = some v := by
  unfold parseDoc
  have : (w ++ t ++ w').takeWhile (· ≠ '\x00') = w ++ t ++ w' := by
    generalize w ++ t ++ w' = s at h0
    induction s with
    | nil => rfl
    | cons c s ih => simp at h0; rw [List.takeWhile_cons_of_pos (by simpa using fun h => h0.1 h.symm)]; rw [ih h0.2]
  simp only [this]
  obtain ⟨c, r, hc, hc1, _⟩ := rep_head h
  have h1 : skipWs (w ++ t ++ w') = t ++ w' := by
    rw [hc, List.append_assoc]; exact skipWs_ws hw hc1 _
  have h2 : NumEnd w' := by
    intro c r hc
    have := hw' c (by simp [hc])
    simp only [isWs, Bool.or_eq_true, beq_iff_eq] at this
    rcases this with ((rfl | rfl) | rfl) | rfl <;> decide
  rw [h1, parse_rep v t _ w' h (by simp; omega) h2]
  simp [skipWs_all hw']

end Conduit
