import Verif.Lemmas.SchemaJson
/-
`json_sanitize` leaves every JSON text alone that is an object or an array and in which no
string ends with a backslash.
-/
namespace Conduit
open Spec

/-- a literal whose text ends with a backslash has a value that does -/
theorem body_last : ∀ (k : Nat) (b s : Str), b.length ≤ k → rjString (b ++ ['"']) = some (s, []) →
    b.getLast? = some '\\' → s.getLast? = some '\\'
  | 0, b, s, hk, h, hl => by
    have : b = [] := List.length_eq_zero_iff.1 (by omega)
    subst this; simp at hl
  | k + 1, [], s, _, h, hl => by simp at hl
  | k + 1, c :: cs, s, hk, h, hl => by
    rw [List.cons_append, rjString.eq_def] at h
    simp only at h
    split at h
    · rename_i hc
      cases cs with
      | nil => simp [rjEscape, rjString] at h
      | cons e cs =>
        simp only [List.cons_append] at h
        split at h
        · rename_i r hr
          obtain ⟨p, hp, he⟩ := Option.map_eq_some_iff.1 h
          obtain ⟨s', r'⟩ := p
          simp only [Prod.mk.injEq] at he
          obtain ⟨rfl, rfl⟩ := he
          cases cs with
          | nil =>
            simp at hl
            subst hl
            have : r = '\\' := by simpa [rjEscape] using hr.symm
            subst this
            have : s' = [] := by simpa [rjString] using hp.symm
            subst this; rfl
          | cons x cs =>
            have := body_last k (x :: cs) s' (by simp at hk ⊢; omega) hp (by simpa using hl)
            cases s' with
            | nil => simp at this
            | cons y s' => simpa using this
        · cases h
    · rename_i hc
      split at h
      · rename_i hq
        subst hq
        simp at h
      · split at h
        · cases h
        · obtain ⟨p, hp, he⟩ := Option.map_eq_some_iff.1 h
          obtain ⟨s', r'⟩ := p
          simp only [Prod.mk.injEq] at he
          obtain ⟨rfl, rfl⟩ := he
          cases cs with
          | nil => simp at hl; exact absurd hl hc
          | cons x cs =>
            have := body_last k (x :: cs) s' (by simp at hk ⊢; omega) hp (by simpa using hl)
            cases s' with
            | nil => simp at this
            | cons y s' => simpa using this

/-- a literal holds no NUL -/
theorem body_nul : ∀ (k : Nat) (b s r : Str), b.length ≤ k → rjString (b ++ ['"']) = some (s, r) → r = [] → '\x00' ∉ b
  | 0, b, s, r, hk, h, hr => by
    have : b = [] := List.length_eq_zero_iff.1 (by omega)
    subst this; simp
  | k + 1, [], s, r, _, h, hr => by simp
  | k + 1, c :: cs, s, r, hk, h, hr => by
    subst hr
    rw [List.cons_append, rjString.eq_def] at h
    simp only at h
    split at h
    · rename_i hc
      cases cs with
      | nil => simp [rjEscape, rjString] at h
      | cons e cs =>
        simp only [List.cons_append] at h
        split at h
        · rename_i r hr
          obtain ⟨p, hp, he⟩ := Option.map_eq_some_iff.1 h
          obtain ⟨s', r'⟩ := p
          simp only [Prod.mk.injEq] at he
          obtain ⟨rfl, rfl⟩ := he
          have := body_nul k cs s' [] (by simp at hk; omega) hp rfl
          have he : '\x00' ≠ e := by rintro rfl; simp [rjEscape] at hr
          simp [hc, this, he]
        · cases h
    · rename_i hc
      split at h
      · rename_i hq
        simp at h
      · split at h
        · cases h
        · rename_i hlt
          obtain ⟨p, hp, he⟩ := Option.map_eq_some_iff.1 h
          obtain ⟨s', r'⟩ := p
          simp only [Prod.mk.injEq] at he
          obtain ⟨rfl, rfl⟩ := he
          have := body_nul k cs s' [] (by simp at hk; omega) hp rfl
          have he : '\x00' ≠ c := by rintro rfl; exact hlt (by decide)
          simp [this, he]

/-- pieces that may follow anything -/
structure Tail (r : Str) (ps : List Piece) : Prop where
  text : render ps = r
  std : ∀ p ∈ ps, p.standard = true
  ok : ∀ q, DocOK (some q) ps

/-- the first piece is a separator -/
def Sep (ps : List Piece) : Prop := ∃ c ps', ps = .sym c :: ps' ∧ checkWordChar c = false ∧ checkNumChar c = false

/-- a character that is no letter and neither quote, slash nor backslash -/
def Dull (c : Char) : Prop := c ≠ '"' ∧ c ≠ '/' ∧ c ≠ '\\' ∧ checkWordChar c = false

theorem Tail.nil : Tail [] [] := ⟨rfl, by simp, fun _ => trivial⟩

theorem Tail.sym {r : Str} {ps : List Piece} (c : Char) (hc : Dull c) (h : Tail r ps) : Tail (c :: r) (.sym c :: ps) := by
  obtain ⟨h1, h2, h3, h4⟩ := hc
  refine ⟨by simpa [render, Piece.text] using h.text, by simpa [Piece.standard] using h.std, fun q => ?_⟩
  exact ⟨h1, h2, h3, by simp [h4], h.ok c⟩

theorem Tail.lit {r : Str} {ps : List Piece} (b : Str) (hv : ValidBody b) (hl : b.getLast? ≠ some '\\') (h : Tail r ps) :
    Tail ('"' :: (b ++ '"' :: r)) (.lit b :: ps) := by
  refine ⟨by rw [← h.text]; simp [render, Piece.text], by simpa [Piece.standard] using h.std, fun q => ?_⟩
  exact ⟨by simp, hv, hl, h.ok '"'⟩

theorem ws_dull {c : Char} (h : JV.isWs c = true) : Dull c ∧ checkNumChar c = false ∧ c ≠ '.' := by
  simp only [JV.isWs, Bool.or_eq_true, beq_iff_eq] at h
  rcases h with ((rfl | rfl) | rfl) | rfl <;> (unfold Dull; decide)

theorem Tail.ws {w r : Str} {ps : List Piece} (hw : WS w) (h : Tail r ps) (hs : Sep ps) :
    ∃ ps', Tail (w ++ r) ps' ∧ Sep ps' := by
  induction w with
  | nil => exact ⟨ps, h, hs⟩
  | cons c w ih =>
    obtain ⟨ps', h1, h2⟩ := ih (fun x hx => hw x (by simp [hx]))
    obtain ⟨d1, d2, d3⟩ := ws_dull (hw c (by simp))
    exact ⟨_, h1.sym c d1, c, ps', rfl, d1.2.2.2, d2⟩

theorem Tail.ws' {w r : Str} {ps : List Piece} (hw : WS w) (h : Tail r ps) : ∃ ps', Tail (w ++ r) ps' := by
  induction w with
  | nil => exact ⟨ps, h⟩
  | cons c w ih =>
    obtain ⟨ps', h1⟩ := ih (fun x hx => hw x (by simp [hx]))
    exact ⟨_, h1.sym c (ws_dull (hw c (by simp))).1⟩

theorem digit_dull {c : Char} (hc : c.isDigit = true) : Dull c ∧ checkNumChar c = true := by
  simp [Char.isDigit] at hc
  have h0 : 48 ≤ c.toNat := by simpa [UInt32.le_iff_toNat_le] using hc.1
  have h9 : c.toNat ≤ 57 := by simpa [UInt32.le_iff_toNat_le] using hc.2
  have : ∀ d : Char, 57 < d.toNat → ¬ d ≤ c := by
    intro d hd h
    have : d.toNat ≤ c.toNat := h
    omega
  refine ⟨⟨?_, ?_, ?_, ?_⟩, ?_⟩
  · rintro rfl; revert h0; decide
  · rintro rfl; revert h0; decide
  · rintro rfl; revert h9; decide
  · simp [checkWordChar]
    refine ⟨⟨?_, ?_⟩, ?_⟩
    · intro h; exact absurd h (this 'A' (by decide))
    · intro h; exact absurd h (this 'a' (by decide))
    · rintro rfl; revert h9; decide
  · simp only [checkNumChar, Bool.and_eq_true, decide_eq_true_eq]
    exact ⟨h0, h9⟩

theorem Tail.digits {w r : Str} {ps : List Piece} (hw : ∀ c ∈ w, c.isDigit = true) (h : Tail r ps) :
    ∃ ps', Tail (w ++ r) ps' := by
  induction w with
  | nil => exact ⟨ps, h⟩
  | cons c w ih =>
    obtain ⟨ps', h1⟩ := ih (fun x hx => hw x (by simp [hx]))
    exact ⟨_, h1.sym c (digit_dull (hw c (by simp))).1⟩

/-- digits before an exponent -/
theorem Tail.mant {e r : Str} {pe : List Piece} (he : ∃ c e', e = c :: e' ∧ c = 'e' ∧
      ∃ ps, Tail (e' ++ r) ps ∧ pe = .sym 'e' :: ps) :
    ∀ {w : Str}, w ≠ [] → (∀ c ∈ w, c.isDigit = true) → ∃ ps', Tail (w ++ (e ++ r)) ps'
  | [], hw, _ => absurd rfl hw
  | [c], _, hd => by
    obtain ⟨_, e', rfl, rfl, ps, h1, rfl⟩ := he
    obtain ⟨d1, d2⟩ := digit_dull (hd c (by simp))
    obtain ⟨h2, h3, h4, h5⟩ := d1
    refine ⟨.sym c :: .sym 'e' :: ps, by rw [← List.append_assoc]; simp only [render, List.flatMap_cons, Piece.text, List.singleton_append]; simpa [render] using h1.text,
      by simpa [Piece.standard] using h1.std, fun q => ?_⟩
    exact ⟨h2, h3, h4, by simp [h5], by decide, by decide, by decide, fun _ => ⟨c, rfl, .inl d2⟩, h1.ok 'e'⟩
  | c :: c' :: w, _, hd => by
    obtain ⟨ps, h⟩ := Tail.mant he (w := c' :: w) (by simp) (fun x hx => hd x (by simp [hx]))
    exact ⟨_, h.sym c (digit_dull (hd c (by simp))).1⟩

theorem Tail.int (i : Int) {r : Str} {ps : List Piece} (h : Tail r ps) : ∃ ps', Tail (intText i ++ r) ps' := by
  unfold intText
  split
  · obtain ⟨ps', h1⟩ := h.digits (w := Nat.toDigits 10 i.natAbs) (fun _ => isDigit_toDigits)
    exact ⟨_, h1.sym '-' (by unfold Dull; decide)⟩
  · exact h.digits (fun _ => isDigit_toDigits)

theorem toDigits_ne (n : Nat) : Nat.toDigits 10 n ≠ [] := by
  obtain ⟨c, r, h, _⟩ := digit_head n
  rw [h]; simp

theorem Tail.real {t : Str} (ht : RealText t) {r : Str} {ps : List Piece} (h : Tail r ps) : ∃ ps', Tail (t ++ r) ps' := by
  obtain ⟨sg, f, e, n, rfl, hsg, hf, he, -⟩ := ht
  have key : ∀ {u : Str}, (∃ ps', Tail (u ++ r) ps') → ∃ ps', Tail ((sg ++ u) ++ r) ps' := by
    rintro u ⟨ps', h'⟩
    rcases hsg with rfl | rfl
    · exact ⟨ps', h'⟩
    · exact ⟨_, h'.sym '-' (by unfold Dull; decide)⟩
  refine key ?_
  rcases he with rfl | ⟨es, ds, hne, hds, hes, rfl⟩
  · rcases hf with rfl | ⟨fs, hne, hfs, rfl⟩
    · simpa using h.digits (w := Nat.toDigits 10 n) (fun _ => isDigit_toDigits)
    · obtain ⟨ps1, h1⟩ := h.digits hfs
      have h2 := h1.sym '.' (by unfold Dull; decide)
      simpa using h2.digits (w := Nat.toDigits 10 n) (fun _ => isDigit_toDigits)
  · obtain ⟨ps1, h1⟩ := h.digits hds
    have h2 : ∃ ps', Tail ((es ++ ds) ++ r) ps' := by
      rcases hes with rfl | rfl | rfl
      · exact ⟨_, h1.sym '+' (by unfold Dull; decide)⟩
      · exact ⟨_, h1.sym '-' (by unfold Dull; decide)⟩
      · exact ⟨ps1, h1⟩
    obtain ⟨ps2, h2⟩ := h2
    have hE : ∃ c e', ('e' :: (es ++ ds)) = c :: e' ∧ c = 'e' ∧ ∃ ps, Tail (e' ++ r) ps ∧ (Piece.sym 'e' :: ps2) = .sym 'e' :: ps :=
      ⟨'e', es ++ ds, rfl, rfl, ps2, h2, rfl⟩
    rcases hf with rfl | ⟨fs, hne', hfs, rfl⟩
    · have := Tail.mant hE (toDigits_ne n) (fun _ => isDigit_toDigits)
      simpa using this
    · obtain ⟨ps3, h3⟩ := Tail.mant hE hne' hfs
      have h4 := h3.sym '.' (by unfold Dull; decide)
      simpa using h4.digits (w := Nat.toDigits 10 n) (fun _ => isDigit_toDigits)

/-- a keyword between separators -/
theorem sane_kw {w : Str} (hw : w ∈ ["true".toList, "false".toList, "null".toList]) {r : Str} {ps : List Piece} (h : Tail r ps)
    (hs : Sep ps) {p : Char} (hp : checkNumChar p = false ∧ p ≠ '.') :
    render (.kw w :: ps) = w ++ r ∧ (∀ x ∈ Piece.kw w :: ps, x.standard = true) ∧ DocOK (some p) (.kw w :: ps) := by
  refine ⟨by rw [← h.text]; simp [render, Piece.text], by simpa [Piece.standard] using h.std, hw, ⟨p, rfl, hp⟩, ?_, h.ok 'e'⟩
  obtain ⟨c, ps', h1, h2, h3⟩ := hs
  exact ⟨c, ps', h1, h2, h3⟩

/-- the text after a character that is neither a digit nor a dot -/
structure From (p : Char) (r : Str) (ps : List Piece) : Prop where
  text : render ps = r
  std : ∀ p ∈ ps, p.standard = true
  ok : DocOK (some p) ps

theorem Tail.from {r : Str} {ps : List Piece} (h : Tail r ps) (p : Char) : From p r ps := ⟨h.text, h.std, h.ok p⟩

theorem From.sym {p c : Char} {r : Str} {ps : List Piece} (h : From c r ps) (hc : Dull c) : From p (c :: r) (.sym c :: ps) := by
  obtain ⟨h1, h2, h3, h4⟩ := hc
  refine ⟨by simpa [render, Piece.text] using h.text, by simpa [Piece.standard] using h.std, ?_⟩
  exact ⟨h1, h2, h3, by simp [h4], h.ok⟩

/-- a text that is fine after any character but a digit or a dot -/
def Mid (r : Str) : Prop := ∀ p, checkNumChar p = false → p ≠ '.' → ∃ ps, From p r ps

theorem Mid.sym {c : Char} {r : Str} (h : Mid r) (hc : Dull c) (hn : checkNumChar c = false) (hd : c ≠ '.') :
    ∃ ps, Tail (c :: r) (.sym c :: ps) := by
  obtain ⟨ps, hp⟩ := h c hn hd
  refine ⟨ps, ?_⟩
  have h0 := hp.sym (p := ' ') hc
  refine ⟨h0.text, h0.std, fun q => ?_⟩
  obtain ⟨h1, h2, h3, h4⟩ := hc
  exact ⟨h1, h2, h3, by simp [h4], hp.ok⟩

theorem Tail.mid {r : Str} {ps : List Piece} (h : Tail r ps) : Mid r := fun p _ _ => ⟨ps, h.from p⟩

theorem Mid.ws {w r : Str} (h : Mid r) (hw : WS w) : Mid (w ++ r) := by
  induction w with
  | nil => exact h
  | cons c w ih =>
    obtain ⟨d1, d2, d3⟩ := ws_dull (hw c (by simp))
    obtain ⟨ps, hp⟩ := (ih (fun x hx => hw x (by simp [hx]))).sym d1 d2 d3
    exact hp.mid

mutual
theorem sane_rep : ∀ (v : JV) (t : Str), Rep v t → Tame v → ∀ r ps, Tail r ps → (Container v ∨ Sep ps) → Mid (t ++ r)
  | .null, t, h, _, r, ps, hr, hs => by
    rw [Rep] at h; subst h
    intro p hp hd
    have := sane_kw (w := chars! "null") (by decide) hr (hs.resolve_left id) ⟨hp, hd⟩
    exact ⟨_, this.1, this.2.1, this.2.2⟩
  | .bool b, t, h, _, r, ps, hr, hs => by
    rw [Rep] at h; subst h
    intro p hp hd
    have hs' : Sep ps := hs.resolve_left id
    cases b
    · have := sane_kw (w := chars! "false") (by decide) hr hs' ⟨hp, hd⟩
      exact ⟨_, this.1, this.2.1, this.2.2⟩
    · have := sane_kw (w := chars! "true") (by decide) hr hs' ⟨hp, hd⟩
      exact ⟨_, this.1, this.2.1, this.2.2⟩
  | .int i, t, h, _, r, ps, hr, hs => by
    rw [Rep] at h
    obtain ⟨-, -, rfl⟩ := h
    obtain ⟨ps', h'⟩ := hr.int i
    exact h'.mid
  | .real u, t, h, _, r, ps, hr, hs => by
    rw [Rep] at h
    obtain ⟨rfl, hu⟩ := h
    obtain ⟨ps', h'⟩ := hr.real hu
    exact h'.mid
  | .str s, t, h, ht, r, ps, hr, hs => by
    rw [Rep] at h
    obtain ⟨b, hb, rfl⟩ := h
    have hl : b.getLast? ≠ some '\\' := fun hl => ht (body_last _ b s (Nat.le_refl _) hb hl)
    have := (hr.lit b ⟨s, hb⟩ hl).mid
    simpa using this
  | .arr vs, t, h, ht, r, ps, hr, hs => by
    rw [Rep] at h
    obtain ⟨w, body, hw, hb, rfl⟩ := h
    have h0 := hr.sym ']' (by unfold Dull; decide)
    have hm := sane_repL vs body hb ht (']' :: r) _ h0 ⟨']', ps, rfl, by decide, by decide⟩
    obtain ⟨ps', hp⟩ := (hm.ws hw).sym (c := '[') (by unfold Dull; decide) (by decide) (by decide)
    have := hp.mid
    simpa using this
  | .obj ms, t, h, ht, r, ps, hr, hs => by
    rw [Rep] at h
    obtain ⟨w, body, hw, hb, rfl⟩ := h
    have h0 := hr.sym '}' (by unfold Dull; decide)
    have hm := sane_repM ms body hb ht ('}' :: r) _ h0 ⟨'}', ps, rfl, by decide, by decide⟩
    obtain ⟨ps', hp⟩ := (hm.ws hw).sym (c := '{') (by unfold Dull; decide) (by decide) (by decide)
    have := hp.mid
    simpa using this
theorem sane_repL : ∀ (vs : List JV) (t : Str), RepL vs t → TameL vs → ∀ r ps, Tail r ps → Sep ps → Mid (t ++ r)
  | [], t, h, _, r, ps, hr, hs => by
    rw [RepL] at h; subst h
    exact hr.mid
  | v :: vs, t, h, ht, r, ps, hr, hs => by
    rw [RepL] at h
    obtain ⟨tv, w, hv, hw, h⟩ := h
    rcases h with ⟨-, rfl⟩ | ⟨-, w', t', hw', hl, rfl⟩
    · obtain ⟨ps', h1, h2⟩ := hr.ws hw hs
      have := sane_rep v tv hv ht.1 _ _ h1 (.inr h2)
      simpa using this
    · have hm := (sane_repL vs t' hl ht.2 r ps hr hs).ws hw'
      obtain ⟨ps1, h1⟩ := hm.sym (c := ',') (by unfold Dull; decide) (by decide) (by decide)
      obtain ⟨ps', h2, h3⟩ := h1.ws hw ⟨',', _, rfl, by decide, by decide⟩
      have := sane_rep v tv hv ht.1 _ _ h2 (.inr h3)
      simpa using this
theorem sane_repM : ∀ (ms : List (Str × JV)) (t : Str), RepM ms t → TameM ms → ∀ r ps, Tail r ps → Sep ps → Mid (t ++ r)
  | [], t, h, _, r, ps, hr, hs => by
    rw [RepM] at h; subst h
    exact hr.mid
  | (n, v) :: ms, t, h, ht, r, ps, hr, hs => by
    rw [RepM] at h
    obtain ⟨b, w1, w2, tv, w, hb, hw1, hw2, hv, hw, h⟩ := h
    have hl : b.getLast? ≠ some '\\' := fun hl => ht.1 (body_last _ b n (Nat.le_refl _) hb hl)
    have key : ∀ u, Mid u → Mid ('"' :: (b ++ '"' :: (w1 ++ ':' :: (w2 ++ u)))) := by
      intro u hu
      obtain ⟨ps1, h1⟩ := (hu.ws hw2).sym (c := ':') (by unfold Dull; decide) (by decide) (by decide)
      obtain ⟨ps2, h2⟩ := h1.ws' hw1
      exact (h2.lit b ⟨n, hb⟩ hl).mid
    rcases h with ⟨-, rfl⟩ | ⟨-, w', t', hw', hl, rfl⟩
    · obtain ⟨ps', h1, h2⟩ := hr.ws hw hs
      have := key _ (sane_rep v tv hv ht.2.1 _ _ h1 (.inr h2))
      simpa using this
    · have hm := (sane_repM ms t' hl ht.2.2 r ps hr hs).ws hw'
      obtain ⟨ps1, h1⟩ := hm.sym (c := ',') (by unfold Dull; decide) (by decide) (by decide)
      obtain ⟨ps', h2, h3⟩ := h1.ws hw ⟨',', _, rfl, by decide, by decide⟩
      have := key _ (sane_rep v tv hv ht.2.1 _ _ h2 (.inr h3))
      simpa using this
end

/-- `json_sanitize` on the text of an object or an array -/
theorem sanitize_rep {v : JV} {t w w' : Str} (h : Rep v t) (ht : Tame v) (hc : Container v) (hw : WS w) (hw' : WS w') :
    jsonSanitize (w ++ (t ++ w')) = w ++ (t ++ w') := by
  obtain ⟨ps0, h0⟩ := Tail.nil.ws' hw'
  rw [List.append_nil] at h0
  have hm := (sane_rep v t h ht w' ps0 h0 (.inl hc)).ws hw
  -- the first character is white space or a bracket
  have hd : ∃ c r, w ++ (t ++ w') = c :: r ∧ Dull c := by
    cases w with
    | cons c w => exact ⟨c, _, rfl, (ws_dull (hw c (by simp))).1⟩
    | nil =>
      cases v with
      | arr vs =>
        rw [Rep] at h
        obtain ⟨w, body, _, _, rfl⟩ := h
        exact ⟨'[', _, rfl, by unfold Dull; decide⟩
      | obj ms =>
        rw [Rep] at h
        obtain ⟨w, body, _, _, rfl⟩ := h
        exact ⟨'{', _, rfl, by unfold Dull; decide⟩
      | _ => exact absurd hc id
  obtain ⟨c, r, he, hcd⟩ := hd
  obtain ⟨ps, hp⟩ := hm ' ' (by decide) (by decide)
  rw [he] at hp ⊢
  -- the first piece is that character
  cases ps with
  | nil => have := hp.text; simp [render] at this
  | cons q ps =>
    have h1 := hp.text
    have h2 := hp.std q (by simp)
    have h3 := hp.ok
    cases q with
    | sym c' =>
      have hc' : c' = c := by simpa [render, Piece.text] using (List.cons.inj (by simpa [render, Piece.text] using h1)).1
      subst hc'
      have := C04_sanitize_identity_partial (.sym c' :: ps) ⟨h3.1, h3.2.1, h3.2.2.1, by simp [hcd.2.2.2], h3.2.2.2.2⟩ hp.std
      rw [h1] at this
      exact this
    | lit b =>
      have : '"' = c := (List.cons.inj (by simpa [render, Piece.text] using h1)).1
      exact absurd this.symm hcd.1
    | kw w =>
      have hk := h3.1
      simp only [List.mem_cons, List.not_mem_nil, or_false] at hk
      have hw : checkWordChar c = true := by
        rcases hk with rfl | rfl | rfl
        · have : 't' = c := (List.cons.inj (by simpa [render, Piece.text] using h1)).1
          subst this; decide
        · have : 'f' = c := (List.cons.inj (by simpa [render, Piece.text] using h1)).1
          subst this; decide
        · have : 'n' = c := (List.cons.inj (by simpa [render, Piece.text] using h1)).1
          subst this; decide
      rw [hcd.2.2.2] at hw; cases hw
    | ident => simp [Piece.standard] at h2
    | comment => simp [Piece.standard] at h2

theorem ws_nul {w : Str} (h : WS w) : '\x00' ∉ w := by
  intro hm
  exact absurd (h _ hm) (by decide)

theorem digits_nul {w : Str} (h : ∀ c ∈ w, c.isDigit = true) : '\x00' ∉ w := by
  intro hm
  exact absurd (h _ hm) (by decide)

theorem intText_nul (i : Int) : '\x00' ∉ intText i := by
  unfold intText
  split
  · simp only [List.mem_cons, not_or]
    exact ⟨by decide, digits_nul (fun _ => isDigit_toDigits)⟩
  · exact digits_nul (fun _ => isDigit_toDigits)

mutual
theorem rep_nul : ∀ (v : JV) (t : Str), Rep v t → '\x00' ∉ t
  | .null, t, h => by rw [Rep] at h; subst h; decide
  | .bool b, t, h => by rw [Rep] at h; subst h; cases b <;> decide
  | .int i, t, h => by
    rw [Rep] at h
    obtain ⟨-, -, rfl⟩ := h
    exact intText_nul i
  | .real u, t, h => by
    rw [Rep] at h
    obtain ⟨rfl, sg, f, e, n, rfl, hsg, hf, he, -⟩ := h
    simp only [List.mem_append, not_or]
    refine ⟨?_, digits_nul (fun _ => isDigit_toDigits), ?_, ?_⟩
    · rcases hsg with rfl | rfl <;> decide
    · rcases hf with rfl | ⟨ds, -, hd, rfl⟩
      · decide
      · simp only [List.mem_cons, not_or]; exact ⟨by decide, digits_nul hd⟩
    · rcases he with rfl | ⟨es, ds, -, hd, hes, rfl⟩
      · decide
      · simp only [List.mem_cons, List.mem_append, not_or]
        refine ⟨by decide, ?_, digits_nul hd⟩
        rcases hes with rfl | rfl | rfl <;> decide
  | .str s, t, h => by
    rw [Rep] at h
    obtain ⟨b, hb, rfl⟩ := h
    have := body_nul _ b s [] (Nat.le_refl _) hb rfl
    simp [this]
  | .arr vs, t, h => by
    rw [Rep] at h
    obtain ⟨w, body, hw, hb, rfl⟩ := h
    simp [ws_nul hw, rep_nulL vs body hb]
  | .obj ms, t, h => by
    rw [Rep] at h
    obtain ⟨w, body, hw, hb, rfl⟩ := h
    simp [ws_nul hw, rep_nulM ms body hb]
theorem rep_nulL : ∀ (vs : List JV) (t : Str), RepL vs t → '\x00' ∉ t
  | [], t, h => by rw [RepL] at h; subst h; simp
  | v :: vs, t, h => by
    rw [RepL] at h
    obtain ⟨tv, w, hv, hw, h⟩ := h
    rcases h with ⟨-, rfl⟩ | ⟨-, w', t', hw', hl, rfl⟩
    · simp [rep_nul v tv hv, ws_nul hw]
    · simp [rep_nul v tv hv, ws_nul hw, ws_nul hw', rep_nulL vs t' hl]
theorem rep_nulM : ∀ (ms : List (Str × JV)) (t : Str), RepM ms t → '\x00' ∉ t
  | [], t, h => by rw [RepM] at h; subst h; simp
  | (n, v) :: ms, t, h => by
    rw [RepM] at h
    obtain ⟨b, w1, w2, tv, w, hb, hw1, hw2, hv, hw, h⟩ := h
    have := body_nul _ b n [] (Nat.le_refl _) hb rfl
    rcases h with ⟨-, rfl⟩ | ⟨-, w', t', hw', hl, rfl⟩
    · simp [rep_nul v tv hv, ws_nul hw, ws_nul hw1, ws_nul hw2, this]
    · simp [rep_nul v tv hv, ws_nul hw, ws_nul hw1, ws_nul hw2, this, ws_nul hw', rep_nulM ms t' hl]
end

/-- a document is read as the value it is a text of -/
theorem parse_sane {v : JV} {t w w' : Str} (h : Rep v t) (ht : Tame v) (hc : Container v) (hw : WS w) (hw' : WS w') :
    JV.parseDoc (jsonSanitize (w ++ (t ++ w'))) = some v := by
  rw [sanitize_rep h ht hc hw hw', ← List.append_assoc]
  exact parseDoc_rep h hw hw' (by simp [ws_nul hw, ws_nul hw', rep_nul v t h])

end Conduit
