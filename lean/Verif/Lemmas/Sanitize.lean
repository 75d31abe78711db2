import Verif.Lemmas.Str
import Verif.Spec.Json
namespace Conduit
open Spec

theorem segments_cons (sep : Char) (s : Str) : ∃ y ys, segments sep s = y :: ys := by
  cases s with
  | nil => exact ⟨[], [], rfl⟩
  | cons c cs => unfold segments; split <;> exact ⟨_, _, rfl⟩

/-- every quote of the body is directly preceded by a backslash, and the last
    character is not a backslash -/
def QuotesEscaped : Char → Str → Prop
  | prev, [] => prev ≠ '\\'
  | prev, c :: cs => (c = '"' → prev = '\\') ∧ QuotesEscaped c cs

theorem quotesEscaped_of_valid_aux (n : Nat) : ∀ (b v : Str), b.length ≤ n →
    rjString (b ++ ['"']) = some (v, []) → ∀ prev : Char,
    (prev :: b).getLast? ≠ some '\\' → prev ≠ '\\' → QuotesEscaped prev b := by
  induction n with
  | zero =>
    intro b v hn _ prev _ hp
    have : b = [] := by simpa using hn
    subst this; exact hp
  | succ n ih =>
  intro b v hn h prev hl hp
  match b, hn, h, hl with
  | [], _, _, _ => exact hp
  | c :: cs, hn, h, hl =>
    simp only [List.length_cons] at hn
    by_cases hc : c = '\\'
    · subst hc
      match cs, hn, h, hl with
      | [], _, _, hl => simp at hl
      | e :: cs', hn, h, hl =>
        simp only [List.length_cons] at hn
        rw [List.cons_append, List.cons_append, rjString.eq_def] at h
        simp only [if_true] at h
        cases he : rjEscape e with
        | none => simp [he] at h
        | some r =>
          simp only [he] at h
          cases hr : rjString (cs' ++ ['"']) with
          | none => rw [hr] at h; simp at h
          | some pr =>
            rw [hr] at h; simp at h
            obtain ⟨h1, h2⟩ := h
            refine ⟨by simp, by simp, ?_⟩
            have hv : rjString (cs' ++ ['"']) = some (pr.1, []) := by rw [hr, ← h2]
            match cs', hn, hv, hl with
            | [], _, _, hl =>
              show e ≠ '\\'
              simpa using hl
            | d :: ds, hn, hv, hl =>
              by_cases hee : e = '\\'
              · subst hee
                have := ih (d :: ds) pr.1 (by omega) hv '"' (by simpa using hl) (by decide)
                refine ⟨fun _ => rfl, this.2⟩
              · exact ih (d :: ds) pr.1 (by omega) hv e (by simpa using hl) hee
    · have hq : c ≠ '"' := by
        rintro rfl
        rw [List.cons_append, rjString.eq_def] at h
        simp at h
      refine ⟨fun h => absurd h hq, ?_⟩
      rw [List.cons_append, rjString.eq_def] at h
      simp only [hc, hq, if_false] at h
      by_cases hlt : c.toNat < 0x20
      · simp [hlt] at h
      · rw [if_neg hlt] at h
        cases hr : rjString (cs ++ ['"']) with
        | none => rw [hr] at h; simp at h
        | some pr =>
          rw [hr] at h; simp at h
          have hv : rjString (cs ++ ['"']) = some (pr.1, []) := by rw [hr, ← h.2]
          exact ih cs pr.1 (by omega) hv c (by simpa using hl) hc

theorem quotesEscaped_of_valid (b v : Str) (h : rjString (b ++ ['"']) = some (v, []))
    (prev : Char) (hl : (prev :: b).getLast? ≠ some '\\') (hp : prev ≠ '\\' ) : QuotesEscaped prev b :=
  quotesEscaped_of_valid_aux b.length b v (Nat.le_refl _) h prev hl hp

theorem sanLoop_string (b rest res : Str) (prev : Char) (h : QuotesEscaped prev b) :
    sanLoop { res := res, inString := true } (some prev) (b ++ '"' :: rest)
      = sanLoop { res := res ++ b ++ ['"'] } (some '"') rest := by
  induction b generalizing res prev with
  | nil =>
    have hp : prev ≠ '\\' := h
    simp [sanLoop, sanStep, hp, checkWordChar]
  | cons c cs ih =>
    obtain ⟨h1, h2⟩ := h
    simp only [List.cons_append, sanLoop]
    have : sanStep { res := res, inString := true } (some prev) c ((cs ++ '"' :: rest).head?)
        = { res := res ++ [c], inString := true } := by
      unfold sanStep
      by_cases hc : c = '"'
      · subst hc; simp [h1 rfl]
      · simp [hc]
    rw [this, ih _ _ h2]; simp

theorem sanLoop_lit (b rest res : Str) (prev : Char) (hp : prev ≠ '\\') (h : QuotesEscaped '"' b) :
    sanLoop { res := res } (some prev) ('"' :: b ++ '"' :: rest)
      = sanLoop { res := res ++ ('"' :: b ++ ['"']) } (some '"') rest := by
  simp only [List.cons_append, sanLoop]
  have : sanStep { res := res } (some prev) '"' ((b ++ '"' :: rest).head?)
      = { res := res ++ ['"'], inString := true } := by
    simp [sanStep, hp]
  rw [this, sanLoop_string _ _ _ _ h]; simp

theorem sanLoop_sym (c : Char) (rest res : Str) (prev : Option Char)
    (h1 : c ≠ '"') (h2 : c ≠ '/')
    (h4 : checkWordChar c = true → ∃ p, prev = some p ∧ (checkNumChar p = true ∨ p = '.')) :
    sanLoop { res := res } prev (c :: rest) = sanLoop { res := res ++ [c] } (some c) rest := by
  simp only [sanLoop]
  congr 1
  unfold sanStep
  by_cases hw : checkWordChar c = true
  · obtain ⟨p, rfl, hp⟩ := h4 hw
    rcases hp with hp | hp <;> simp [h1, h2, hw, hp]
  · simp [h1, h2, hw]

theorem sanLoop_kw (w : Str) (c : Char) (rest res : Str) (prev : Char)
    (hw : w ∈ ["true".toList, "false".toList, "null".toList])
    (hp1 : checkNumChar prev = false) (hp2 : prev ≠ '.')
    (h1 : c ≠ '"') (h2 : c ≠ '/') (h3 : checkWordChar c = false) (h4 : checkNumChar c = false) :
    sanLoop { res := res } (some prev) (w ++ c :: rest)
      = sanLoop { res := res ++ w ++ [c] } (some c) rest := by
  simp only [List.mem_cons, List.not_mem_nil, or_false] at hw
  have w1 : checkWordChar 't' = true := by decide
  have w2 : checkWordChar 'r' = true := by decide
  have w3 : checkWordChar 'u' = true := by decide
  have w4 : checkWordChar 'e' = true := by decide
  have w5 : checkWordChar 'f' = true := by decide
  have w6 : checkWordChar 'a' = true := by decide
  have w7 : checkWordChar 'l' = true := by decide
  have w8 : checkWordChar 's' = true := by decide
  have w9 : checkWordChar 'n' = true := by decide
  rcases hw with rfl | rfl | rfl <;>
    simp [sanLoop, sanStep, hp1, hp2, h1, h2, h3, h4, w1, w2, w3, w4, w5, w6, w7, w8, w9]

theorem word_ne {c : Char} (h : checkWordChar c = true ∨ checkNumChar c = true) : c ≠ '"' ∧ c ≠ '/' := by
  constructor
  · rintro rfl; revert h; decide
  · rintro rfl; revert h; decide

theorem sanLoop_inId (as : Str) (c : Char) (rest res cur : Str) (prev : Option Char)
    (ha : ∀ b ∈ as, checkWordChar b = true ∨ checkNumChar b = true)
    (hcur : cur ++ as ∉ ["true".toList, "false".toList, "null".toList])
    (h1 : c ≠ '"') (h2 : c ≠ '/') (h3 : checkWordChar c = false) (h4 : checkNumChar c = false) :
    sanLoop { res := res, inId := true, curId := cur } prev (as ++ c :: rest)
      = sanLoop { res := res ++ ('"' :: (cur ++ as) ++ ['"']) ++ [c] } (some c) rest := by
  induction as generalizing cur prev with
  | nil =>
    simp only [List.append_nil, List.mem_cons, List.not_mem_nil, or_false, not_or] at hcur
    simp [sanLoop, sanStep, h1, h2, h3, h4]
    rw [if_neg (by simpa using hcur)]
    simp
  | cons a as ih =>
    have hb := ha a (by simp)
    obtain ⟨n1, n2⟩ := word_ne hb
    simp only [List.cons_append, sanLoop]
    have hs : sanStep { res := res, inId := true, curId := cur } prev a ((as ++ c :: rest).head?)
        = { res := res, inId := true, curId := cur ++ [a] } := by
      have : (checkWordChar a || checkNumChar a) = true := by simpa using hb
      simp [sanStep, n1, n2, this]
    rw [hs, ih _ _ (fun b hb => ha b (by simp [hb])) (by simpa using hcur)]
    simp

theorem sanLoop_ident (a : Char) (as : Str) (c : Char) (rest res : Str) (prev : Char)
    (hw : a :: as ∉ ["true".toList, "false".toList, "null".toList])
    (hwa : checkWordChar a = true) (ha : ∀ b ∈ as, checkWordChar b = true ∨ checkNumChar b = true)
    (hp1 : checkNumChar prev = false) (hp2 : prev ≠ '.')
    (h1 : c ≠ '"') (h2 : c ≠ '/') (h3 : checkWordChar c = false) (h4 : checkNumChar c = false) :
    sanLoop { res := res } (some prev) (a :: as ++ c :: rest)
      = sanLoop { res := res ++ ('"' :: (a :: as) ++ ['"']) ++ [c] } (some c) rest := by
  obtain ⟨n1, n2⟩ := word_ne (Or.inl hwa)
  simp only [List.cons_append, sanLoop]
  have hs : sanStep { res := res } (some prev) a ((as ++ c :: rest).head?)
      = { res := res, inId := true, curId := [a] } := by
    simp [sanStep, n1, n2, hwa, hp1, hp2]
  rw [hs, sanLoop_inId as c rest res [a] _ ha (by simpa using hw) h1 h2 h3 h4]
  simp

theorem sanLoop_inComment (t rest res : Str) (prev : Option Char) (h1 : '"' ∉ t) (h2 : '\n' ∉ t) :
    sanLoop { res := res, inComment := true } prev (t ++ '\n' :: rest)
      = sanLoop { res := res } (some '\n') rest := by
  induction t generalizing prev with
  | nil => simp [sanLoop, sanStep]
  | cons a t ih =>
    simp only [List.mem_cons, not_or] at h1 h2
    simp only [List.cons_append, sanLoop]
    have hs : sanStep { res := res, inComment := true } prev a ((t ++ '\n' :: rest).head?)
        = { res := res, inComment := true } := by
      simp [sanStep, Ne.symm h1.1]
      exact fun h => h2.1 h.symm
    rw [hs, ih _ h1.2 h2.2]

theorem sanLoop_comment (t rest res : Str) (prev : Option Char) (h1 : '"' ∉ t) (h2 : '\n' ∉ t) :
    sanLoop { res := res } prev ('/' :: '/' :: t ++ '\n' :: rest) = sanLoop { res := res } (some '\n') rest := by
  simp only [List.cons_append]
  rw [sanLoop]
  have hs : sanStep { res := res } prev '/' (('/' :: (t ++ '\n' :: rest)).head?)
      = { res := res, inComment := true } := by
    simp [sanStep]
  rw [hs]
  exact sanLoop_inComment ('/' :: t) rest res _ (by simpa using h1) (by simpa using h2)

theorem sanLoop_doc (ps : List Piece) (prev : Option Char) (res : Str)
    (hp : prev ≠ some '\\') (h : DocOK prev ps) :
    (sanLoop { res := res } prev (render ps)).res = res ++ renderJson ps := by
  match ps with
  | [] => simp [render, renderJson, sanLoop]
  | .lit b :: ps =>
    obtain ⟨h1, ⟨v, hv⟩, h3, h4⟩ := h
    have hq : QuotesEscaped '"' b := by
      apply quotesEscaped_of_valid b v hv
      · cases b with
        | nil => decide
        | cons x xs => simpa using h3
      · decide
    cases prev with
    | none => exact absurd rfl h1
    | some p =>
      have : render (.lit b :: ps) = '"' :: b ++ '"' :: render ps := by simp [render, Piece.text]
      rw [this, sanLoop_lit _ _ _ _ (by simpa using hp) hq, sanLoop_doc ps _ _ (by decide) h4]
      simp [renderJson, Piece.json, Piece.text]
  | .sym c :: ps =>
    obtain ⟨h1, h2, h3, h4, h5⟩ := h
    have : render (.sym c :: ps) = c :: render ps := by simp [render, Piece.text]
    rw [this, sanLoop_sym _ _ _ _ h1 h2 h4, sanLoop_doc ps _ _ (by simpa using h3) h5]
    simp [renderJson, Piece.json, Piece.text]
  | .kw w :: ps =>
    obtain ⟨h1, ⟨p, rfl, hp1, hp2⟩, ⟨c, ps', rfl, hc1, hc2⟩, h5⟩ := h
    obtain ⟨g1, g2, g3, g4, g5⟩ := h5
    have : render (.kw w :: .sym c :: ps') = w ++ c :: render ps' := by simp [render, Piece.text]
    rw [this, sanLoop_kw _ _ _ _ _ h1 hp1 hp2 g1 g2 hc1 hc2, sanLoop_doc ps' _ _ (by simpa using g3) g5]
    simp [renderJson, Piece.json, Piece.text]
  | .ident w :: ps =>
    obtain ⟨h1, ⟨a, as, rfl, ha1, ha2⟩, ⟨p, rfl, hp1, hp2⟩, ⟨c, ps', rfl, hc1, hc2⟩, h5⟩ := h
    obtain ⟨g1, g2, g3, g4, g5⟩ := h5
    have : render (.ident (a :: as) :: .sym c :: ps') = a :: as ++ c :: render ps' := by simp [render, Piece.text]
    rw [this, sanLoop_ident _ _ _ _ _ _ h1 ha1 ha2 hp1 hp2 g1 g2 hc1 hc2, sanLoop_doc ps' _ _ (by simpa using g3) g5]
    simp [renderJson, Piece.json, Piece.text]
  | .comment t :: ps =>
    obtain ⟨h1, h2, h3⟩ := h
    have : render (.comment t :: ps) = '/' :: '/' :: t ++ '\n' :: render ps := by simp [render, Piece.text]
    rw [this, sanLoop_comment _ _ _ _ h1 h2, sanLoop_doc ps _ _ (by decide) h3]
    simp [renderJson, Piece.json]
termination_by ps.length

end Conduit
