import Verif.Props.Str
import Verif.Lemmas.JsonParse
import Verif.Spec.SchemaJson
namespace Conduit
open Spec

/-- Text made of string literals and of characters that are no letters; such a text is
    left alone by `json_sanitize` and holds no NUL. -/
inductive Plain : Str → Prop
  | nil : Plain []
  | sym (c : Char) (t : Str) : c ≠ '"' → c ≠ '/' → c ≠ '\\' → c ≠ '\x00' → checkWordChar c = false →
      Plain t → Plain (c :: t)
  | lit (b t : Str) : ValidBody b → b.getLast? ≠ some '\\' → '\x00' ∉ b → Plain t → Plain ('"' :: (b ++ '"' :: t))

theorem Plain.append {s t : Str} (hs : Plain s) (ht : Plain t) : Plain (s ++ t) := by
  induction hs with
  | nil => exact ht
  | sym c s h1 h2 h3 h4 h5 _ ih => exact .sym c _ h1 h2 h3 h4 h5 ih
  | lit b s h1 h2 h3 _ ih =>
    have := Plain.lit b _ h1 h2 h3 ih
    simpa using this

theorem Plain.no_nul {s : Str} (hs : Plain s) : '\x00' ∉ s := by
  induction hs with
  | nil => simp
  | sym c s h1 h2 h3 h4 h5 _ ih => simp [ih]; exact fun h => h4 h.symm
  | lit b s h1 h2 h3 _ ih => simp [ih, h3]

theorem Plain.pieces {s : Str} (hs : Plain s) :
    ∃ ps, render ps = s ∧ (∀ p ∈ ps, p.standard = true) ∧ (∀ prev, prev ≠ none → DocOK prev ps) := by
  induction hs with
  | nil => exact ⟨[], rfl, by simp, fun _ _ => trivial⟩
  | sym c s h1 h2 h3 h4 h5 _ ih =>
    obtain ⟨ps, h, hs, hd⟩ := ih
    refine ⟨.sym c :: ps, by simpa [render, Piece.text] using h, by simpa [Piece.standard] using hs, ?_⟩
    intro prev hp
    exact ⟨h1, h2, h3, by simp [h5], hd _ (by simp)⟩
  | lit b s h1 h2 h3 _ ih =>
    obtain ⟨ps, h, hs, hd⟩ := ih
    refine ⟨.lit b :: ps, by rw [← h]; simp [render, Piece.text], by simpa [Piece.standard] using hs, ?_⟩
    intro prev hp
    exact ⟨hp, h1, h2, hd _ (by simp)⟩

theorem Plain.sanitize {s : Str} (hs : Plain s) (hq : s.head? ≠ some '"') : jsonSanitize s = s := by
  cases hs with
  | nil => rfl
  | sym c s h1 h2 h3 h4 h5 hs =>
    obtain ⟨ps, h, hst, hd⟩ := hs.pieces
    have := C04_sanitize_identity_partial (.sym c :: ps) ⟨h1, h2, h3, by simp [h5], hd _ (by simp)⟩
      (by simpa [Piece.standard] using hst)
    simpa [render, Piece.text, ← h] using this
  | lit => simp at hq

theorem clean_rj {n : Str} (h : CleanName n) : rjString (n ++ ['"']) = some (n, []) := by
  induction n with
  | nil => decide
  | cons c n ih =>
    obtain ⟨h1, h2, h3⟩ := h c (by simp)
    have := ih (fun x hx => h x (by simp [hx]))
    rw [List.cons_append, rjString.eq_def]
    simp [h1, h2, this]
    exact h3

theorem plain_lit {n t : Str} (h : CleanName n) (ht : Plain t) : Plain ('"' :: (n ++ '"' :: t)) := by
  refine .lit n t ⟨n, clean_rj h⟩ ?_ ?_ ht
  · intro hl
    have := List.mem_of_getLast? hl
    exact (h _ this).2.1 rfl
  · intro hl
    have := (h _ hl).2.2
    revert this; decide

theorem plain_ws {w : Str} (h : WS w) : Plain w := by
  induction w with
  | nil => exact .nil
  | cons c w ih =>
    have hc := h c (by simp)
    have := ih (fun x hx => h x (by simp [hx]))
    simp only [JV.isWs, Bool.or_eq_true, beq_iff_eq] at hc
    rcases hc with ((rfl | rfl) | rfl) | rfl <;>
      exact .sym _ _ (by decide) (by decide) (by decide) (by decide) (by decide) this

theorem plain_digits {w : Str} (h : ∀ c ∈ w, c.isDigit = true) : Plain w := by
  induction w with
  | nil => exact .nil
  | cons c w ih =>
    have hc := h c (by simp)
    refine .sym _ _ ?_ ?_ ?_ ?_ ?_ (ih (fun x hx => h x (by simp [hx])))
    iterate 4 (rintro rfl; exact absurd hc (by decide))
    simp [Char.isDigit] at hc
    simp [checkWordChar]
    have h9 : c.toNat ≤ 57 := by simpa [UInt32.le_iff_toNat_le] using hc.2
    have : ∀ d : Char, 57 < d.toNat → ¬ d ≤ c := by
      intro d hd h
      have : d.toNat ≤ c.toNat := h
      omega
    refine ⟨⟨?_, ?_⟩, ?_⟩
    · intro h; exact absurd h (this 'A' (by decide))
    · intro h; exact absurd h (this 'a' (by decide))
    · rintro rfl; revert h9; decide

theorem plain_int (i : Int) : Plain (intText i) := by
  unfold intText
  split
  · exact .sym _ _ (by decide) (by decide) (by decide) (by decide) (by decide)
      (plain_digits fun _ => isDigit_toDigits)
  · exact plain_digits fun _ => isDigit_toDigits

end Conduit
