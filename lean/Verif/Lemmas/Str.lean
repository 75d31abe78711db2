import Verif.Model.Str
import Verif.Model.JsonStr
namespace Conduit

theorem find_none {c : Char} {s : Str} (h : c ∉ s) : find c s = none := by
  unfold find; rw [List.findIdx?_eq_none_iff]; intro x hx; simp; rintro rfl; exact h hx

theorem find_append {c : Char} {a b : Str} (h : c ∉ a) : find c (a ++ c :: b) = some a.length := by
  induction a with
  | nil => simp [find, List.findIdx?_cons]
  | cons x a ih =>
    have hx : x ≠ c := by rintro rfl; exact h (by simp)
    have ha : c ∉ a := fun hc => h (by simp [hc])
    have := ih ha
    simp only [find, List.cons_append, List.findIdx?_cons] at this ⊢
    rw [if_neg (by simpa using hx), this]; simp

theorem exists_first {c : Char} {s : Str} (h : c ∈ s) : ∃ a b, s = a ++ c :: b ∧ c ∉ a := by
  induction s with
  | nil => simp at h
  | cons x s ih =>
    by_cases hx : x = c
    · exact ⟨[], s, by simp [hx], by simp⟩
    · have : c ∈ s := by
        rcases List.mem_cons.mp h with h | h
        · exact absurd h.symm hx
        · exact h
      obtain ⟨a, b, rfl, ha⟩ := ih this
      exact ⟨x :: a, b, by simp, by simp [ha]; exact fun h => hx h.symm⟩

theorem exists_last {c : Char} {s : Str} (h : c ∈ s) : ∃ a b, s = a ++ c :: b ∧ c ∉ b := by
  obtain ⟨a, b, hab, ha⟩ := exists_first (c := c) (s := s.reverse) (by simpa using h)
  refine ⟨b.reverse, a.reverse, ?_, by simpa using ha⟩
  have := congrArg List.reverse hab
  simpa using this

theorem splitString_append {c : Char} {a b : Str} (h : c ∉ a) :
    splitString (a ++ c :: b) c = (a, b) := by
  unfold splitString
  rw [find_append h]
  by_cases hb : b = []
  · subst hb; simp
  · have : b.length ≠ 0 := by simpa using hb
    simp [hb]

theorem splitString_not_mem {c : Char} {s : Str} (h : c ∉ s) : splitString s c = (s, []) := by
  unfold splitString; rw [find_none h]

theorem rfind_append {c : Char} {a b : Str} (h : c ∉ b) : rfind c (a ++ c :: b) = some a.length := by
  unfold rfind
  have := find_append (c := c) (a := b.reverse) (b := a.reverse) (by simpa using h)
  unfold find at this
  simp only [List.reverse_append, List.reverse_cons, List.append_assoc, List.singleton_append]
  rw [this]; simp

theorem rsplitString_append {c : Char} {a b : Str} (h : c ∉ b) :
    rsplitString (a ++ c :: b) c = (b, a) := by
  unfold rsplitString
  rw [rfind_append h]
  by_cases hb : b = []
  · subst hb; simp
  · have : b.length ≠ 0 := by simpa using hb
    simp [hb]

theorem rsplitString_not_mem {c : Char} {s : Str} (h : c ∉ s) : rsplitString s c = (s, []) := by
  unfold rsplitString rfind
  have := find_none (c := c) (s := s.reverse) (by simpa using h)
  unfold find at this; rw [this]; rfl

/-! ### escape / unescape -/

theorem escape_cons (c : Char) (s : Str) : escape (c :: s) = escapeChar c ++ escape s := rfl
theorem escape_nil : escape [] = [] := rfl

/-- the seven escaped characters and their codes, or an ordinary character -/
theorem escapeChar_cases (c : Char) :
    (∃ v, escapeChar c = ['\\', v] ∧ unescapeCode v = some c ∧ rjEscape v = some c) ∨
    (escapeChar c = [c] ∧ c ≠ '"' ∧ c ≠ '\\' ∧ c ≠ '\n' ∧ c ≠ '\t' ∧ c ≠ '\x08' ∧ c ≠ '\x0c' ∧ c ≠ '\r') := by
  unfold escapeChar
  by_cases h : c = '"'; · subst h; left; exact ⟨'"', by decide, by decide, by decide⟩
  by_cases h : c = '\\'; · subst h; left; exact ⟨'\\', by decide, by decide, by decide⟩
  by_cases h : c = '\n'; · subst h; left; exact ⟨'n', by decide, by decide, by decide⟩
  by_cases h : c = '\t'; · subst h; left; exact ⟨'t', by decide, by decide, by decide⟩
  by_cases h : c = '\x08'; · subst h; left; exact ⟨'b', by decide, by decide, by decide⟩
  by_cases h : c = '\x0c'; · subst h; left; exact ⟨'f', by decide, by decide, by decide⟩
  by_cases h : c = '\r'; · subst h; left; exact ⟨'r', by decide, by decide, by decide⟩
  right; simp [*]

theorem unescape_cons_ordinary {c : Char} (h : c ≠ '\\') (s : Str) :
    unescape (c :: s) = c :: unescape s := by
  cases s with
  | nil => simp [unescape]
  | cons v rest => rw [unescape]; simp [h]

theorem unescape_escape (s : Str) : unescape (escape s) = s := by
  induction s with
  | nil => simp [escape, unescape]
  | cons c s ih =>
    rw [escape_cons]
    rcases escapeChar_cases c with ⟨v, hv, hc, _⟩ | ⟨hv, _, h, _⟩
    · rw [hv]
      show unescape ('\\' :: v :: escape s) = _
      rw [unescape]; simp [hc, ih]
    · rw [hv]
      show unescape (c :: escape s) = _
      rw [unescape_cons_ordinary h, ih]

theorem unescape_length_le (s : Str) : (unescape s).length ≤ s.length := by
  fun_induction unescape s with
  | case1 => simp
  | case2 => simp
  | case3 v rest r hr ih => simp; omega
  | case4 v rest hr ih => simpa using ih
  | case5 c v rest h ih => simpa using ih

theorem unescape_eq_self_iff (s : Str) : unescape s = s ↔ '\\' ∉ s.dropLast := by
  fun_induction unescape s with
  | case1 => simp
  | case2 => simp
  | case3 v rest r hr ih =>
    simp only [List.dropLast_cons_cons, List.mem_cons, true_or, not_true, iff_false]
    intro h
    have := congrArg List.length h
    have h2 := unescape_length_le rest
    simp at this; omega
  | case4 v rest hr ih =>
    simp only [List.dropLast_cons_cons, List.mem_cons, true_or, not_true, iff_false]
    intro h
    have : v = '\\' := by simpa using (List.cons.inj h).1
    subst this
    simp [unescapeCode] at hr
  | case5 c v rest h ih =>
    simp only [List.dropLast_cons_cons, List.mem_cons, List.cons.injEq, true_and, ih]
    constructor
    · intro h1 h2; rcases h2 with h2 | h2
      · exact h h2.symm
      · exact h1 (by simpa using h2)
    · intro h1 h2; exact h1 (Or.inr h2)

/-! ### rapidjson string literal -/

theorem rjString_escape (s rest : Str)
    (h : ∀ c ∈ s, 0x20 ≤ c.toNat ∨ c ∈ ['\n', '\t', '\x08', '\x0c', '\r']) :
    rjString (escape s ++ '"' :: rest) = some (s, rest) := by
  induction s with
  | nil => rw [escape_nil, List.nil_append, rjString.eq_def]; simp
  | cons c s ih =>
    rw [escape_cons]
    have ih := ih (fun x hx => h x (by simp [hx]))
    rcases escapeChar_cases c with ⟨v, hv, _, hc⟩ | ⟨hv, hq, hb, h1, h2, h3, h4, h5⟩
    · rw [hv]
      show rjString ('\\' :: v :: (escape s ++ '"' :: rest)) = _
      rw [rjString]; simp [hc, ih]
    · rw [hv]
      show rjString (c :: (escape s ++ '"' :: rest)) = _
      have : ¬ c.toNat < 0x20 := by
        have := h c (by simp); simp [h1, h2, h3, h4, h5] at this; omega
      rw [rjString.eq_def]; simp [hb, hq, ih, this]

theorem rjString_ctrl (s rest : Str) (c : Char) (hc : c ∈ s) (hlt : c.toNat < 0x20)
    (hn : c ∉ ['\n', '\t', '\x08', '\x0c', '\r']) :
    rjString (escape s ++ '"' :: rest) = none := by
  induction s with
  | nil => simp at hc
  | cons d s ih =>
    rw [escape_cons]
    rcases escapeChar_cases d with ⟨v, hv, _, hd⟩ | ⟨hv, hq, hb, h1, h2, h3, h4, h5⟩
    · rw [hv]
      show rjString ('\\' :: v :: (escape s ++ '"' :: rest)) = _
      have hcs : c ∈ s := by
        rcases List.mem_cons.mp hc with h | h
        · subst h; exfalso
          simp only [List.mem_cons, List.not_mem_nil, or_false, not_or] at hn
          have : escapeChar c = [c] := by
            unfold escapeChar
            have hq : c ≠ '"' := by rintro rfl; revert hlt; decide
            have hb : c ≠ '\\' := by rintro rfl; revert hlt; decide
            simp [hn, hq, hb]
          rw [this] at hv; simp at hv
        · exact h
      rw [rjString]; simp [hd, ih hcs]
    · rw [hv]
      show rjString (d :: (escape s ++ '"' :: rest)) = _
      rw [rjString.eq_def]; simp only [hb, if_false, hq]
      rcases List.mem_cons.mp hc with h | h
      · subst h; simp [hlt]
      · simp [ih h]

end Conduit
