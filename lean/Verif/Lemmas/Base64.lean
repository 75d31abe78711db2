import Verif.Model.Base64
namespace Conduit.Base64

macro "bits8" : tactic => `(tactic| (
  apply UInt8.toBitVec_inj.1
  apply BitVec.eq_of_getLsbD_eq
  intro i hi
  have h8 : i = 0 ∨ i = 1 ∨ i = 2 ∨ i = 3 ∨ i = 4 ∨ i = 5 ∨ i = 6 ∨ i = 7 := by omega
  rcases h8 with h | h | h | h | h | h | h | h <;> subst h <;> simp))


theorem dec1 (a b : UInt8) : ((((a &&& 0xfc) >>> 2) &&& 0x3f) <<< 2 ||| ((((a &&& 3) <<< 4 ||| ((b &&& 0xf0) >>> 4)) &&& 0x30) >>> 4)) = a := by
  bits8

theorem dec1' (a : UInt8) : ((((a &&& 0xfc) >>> 2) &&& 0x3f) <<< 2 ||| ((((a &&& 3) <<< 4) &&& 0x30) >>> 4)) = a := by
  bits8

theorem dec2 (a b c : UInt8) :
   ((((a &&& 3) <<< 4 ||| ((b &&& 0xf0) >>> 4)) &&& 0x0f) <<< 4 |||
    ((((b &&& 0x0f) <<< 2 ||| ((c &&& 0xc0) >>> 6)) &&& 0x3c) >>> 2)) = b := by
  bits8

theorem dec2' (a b : UInt8) :
   ((((a &&& 3) <<< 4 ||| ((b &&& 0xf0) >>> 4)) &&& 0x0f) <<< 4 |||
    ((((b &&& 0x0f) <<< 2) &&& 0x3c) >>> 2)) = b := by
  bits8

theorem dec3 (b c : UInt8) :
   ((((b &&& 0x0f) <<< 2 ||| ((c &&& 0xc0) >>> 6)) &&& 0x03) <<< 6 ||| (((c &&& 0x3f) >>> 0) &&& 0x3f)) = c := by
  bits8

theorem lt64_of_bits (x : UInt8) (h : x &&& 0xc0 = 0) : x.toNat < 64 := by
  have h1 : x.toNat &&& 192 = 0 := by
    have := congrArg UInt8.toNat h; simpa using this
  have hx : x.toNat < 256 := x.toNat_lt
  generalize x.toNat = n at *
  have : ∀ n : Fin 256, n.val &&& 192 = 0 → n.val < 64 := by decide +kernel
  exact this ⟨n, hx⟩ h1

theorem sextet_table : ∀ v : Fin 64, decodeValue (encodeValue (UInt8.ofNat v.val)) = (v.val : Int) := by
  decide +kernel

theorem decodeValue_encodeValue (x : UInt8) (h : x &&& 0xc0 = 0) :
    decodeValue (encodeValue x) = (x.toNat : Int) := by
  have hlt := lt64_of_bits x h
  have := sextet_table ⟨x.toNat, hlt⟩
  simpa using this

theorem decLoop_enc (s : Dec) (x : UInt8) (h : x &&& 0xc0 = 0) (rest : List UInt8) :
    decLoop s (encodeValue x :: rest) = decLoop (decPut s x) rest := by
  rw [decLoop]
  simp only [decodeValue_encodeValue x h]
  rw [if_neg (by omega)]
  simp

theorem decLoop_pad (s : Dec) (rest : List UInt8) : decLoop s (61 :: rest) = decLoop s rest := by
  rw [decLoop]
  have : decodeValue 61 = -2 := by decide
  simp [this]

theorem s1 (a : UInt8) : ((a &&& 0xfc) >>> 2) &&& 0xc0 = 0 := by bits8
theorem s2 (a b : UInt8) : ((a &&& 0x03) <<< 4 ||| ((b &&& 0xf0) >>> 4)) &&& 0xc0 = 0 := by bits8
theorem s2' (a : UInt8) : ((a &&& 0x03) <<< 4) &&& 0xc0 = 0 := by bits8
theorem s3 (b c : UInt8) : ((b &&& 0x0f) <<< 2 ||| ((c &&& 0xc0) >>> 6)) &&& 0xc0 = 0 := by bits8
theorem s3' (b : UInt8) : ((b &&& 0x0f) <<< 2) &&& 0xc0 = 0 := by bits8
theorem s4 (c : UInt8) : ((c &&& 0x3f) >>> 0) &&& 0xc0 = 0 := by bits8

/-- decoding the encoding of `bs` from a group boundary appends `bs` -/
theorem decode_encBlock (n : Nat) : ∀ (bs : List UInt8), bs.length ≤ n → ∀ (s : Dec), s.step = .a →
    (decLoop s ((encBlock .stepA bs).1 ++ encEnd (encBlock .stepA bs).2)).out = s.out ++ bs := by
  induction n with
  | zero =>
    intro bs h s _
    have : bs = [] := by simpa using h
    subst this; simp [encBlock, encEnd, decLoop]
  | succ n ih =>
    intro bs h s hs
    match bs with
    | [] => simp [encBlock, encEnd, decLoop]
    | [a] =>
      simp only [encBlock, encEnd, List.cons_append, List.nil_append]
      rw [decLoop_enc _ _ (s1 a), decLoop_enc _ _ (s2' a), decLoop_pad, decLoop_pad]
      simp only [decLoop, decPut, hs]
      rw [dec1' a]
    | [a, b] =>
      simp only [encBlock, encEnd, List.cons_append, List.nil_append]
      rw [decLoop_enc _ _ (s1 a), decLoop_enc _ _ (s2 a b), decLoop_enc _ _ (s3' b), decLoop_pad]
      simp only [decLoop, decPut, hs]
      rw [dec1 a b, dec2' a b]; simp
    | a :: b :: c :: rest =>
      simp only [encBlock, List.cons_append]
      rw [decLoop_enc _ _ (s1 a), decLoop_enc _ _ (s2 a b), decLoop_enc _ _ (s3 b c), decLoop_enc _ _ (s4 c)]
      rw [ih rest (by simp at h; omega) _ (by simp [decPut, hs])]
      simp only [decPut, hs]
      rw [dec1 a b, dec2 a b c, dec3 b c]; simp

theorem encBlock_length (n : Nat) : ∀ (bs : List UInt8), bs.length ≤ n →
    ((encBlock .stepA bs).1 ++ encEnd (encBlock .stepA bs).2).length = 4 * ((bs.length + 2) / 3) := by
  induction n with
  | zero =>
    intro bs h
    have : bs = [] := by simpa using h
    subst this; simp [encBlock, encEnd]
  | succ n ih =>
    intro bs h
    match bs with
    | [] => simp [encBlock, encEnd]
    | [a] => simp [encBlock, encEnd]
    | [a, b] => simp [encBlock, encEnd]
    | a :: b :: c :: rest =>
      have := ih rest (by simp at h; omega)
      simp only [encBlock, List.cons_append, List.length_cons]
      rw [this]; omega

/-- number of characters of the text that are base64 letters -/
def letters (src : List UInt8) : Nat := (src.filter (fun c => decide (0 ≤ decodeValue c))).length

/-- decoder state after `k` letters -/
def RankInv (s : Dec) (k : Nat) : Prop :=
  s.step = (if k % 4 = 0 then .a else if k % 4 = 1 then .b else if k % 4 = 2 then .c else .d) ∧
  s.out.length = 3 * (k / 4) + (k % 4 - 1) ∧
  s.extent = max 1 (3 * (k / 4) + k % 4)

theorem rank_put (s : Dec) (k : Nat) (f : UInt8) (h : RankInv s k) : RankInv (decPut s f) (k + 1) := by
  obtain ⟨h1, h2, h3⟩ := h
  have hk : k % 4 = 0 ∨ k % 4 = 1 ∨ k % 4 = 2 ∨ k % 4 = 3 := by omega
  unfold RankInv
  rcases hk with h | h | h | h
  · have e1 : (k + 1) % 4 = 1 := by omega
    have e2 : (k + 1) / 4 = k / 4 := by omega
    rw [h] at h1 h2 h3
    simp [decPut, h1, h2, h3, e1, e2] <;> omega
  · have e1 : (k + 1) % 4 = 2 := by omega
    have e2 : (k + 1) / 4 = k / 4 := by omega
    rw [h] at h1 h2 h3
    simp [decPut, h1, h2, h3, e1, e2] <;> omega
  · have e1 : (k + 1) % 4 = 3 := by omega
    have e2 : (k + 1) / 4 = k / 4 := by omega
    rw [h] at h1 h2 h3
    simp [decPut, h1, h2, h3, e1, e2] <;> omega
  · have e1 : (k + 1) % 4 = 0 := by omega
    have e2 : (k + 1) / 4 = k / 4 + 1 := by omega
    rw [h] at h1 h2 h3
    simp [decPut, h1, h2, h3, e1, e2] <;> omega

theorem rank_loop (src : List UInt8) : ∀ (s : Dec) (k : Nat), RankInv s k →
    RankInv (decLoop s src) (k + letters src) := by
  induction src with
  | nil => intro s k h; simpa [decLoop, letters] using h
  | cons c cs ih =>
    intro s k h
    rw [decLoop]
    by_cases hv : decodeValue c < 0
    · have : letters (c :: cs) = letters cs := by
        unfold letters; rw [List.filter_cons_of_neg (by simp; omega)]
      simp only [hv, if_true, this]; exact ih s k h
    · have : letters (c :: cs) = letters cs + 1 := by
        unfold letters; rw [List.filter_cons_of_pos (by simp; omega)]; simp
      simp only [hv, if_false, this]
      have := ih _ _ (rank_put s k (UInt8.ofNat (decodeValue c).toNat) h)
      rwa [show k + (letters cs + 1) = k + 1 + letters cs by omega]

theorem rank_decode (src : List UInt8) : RankInv (decode src) (letters src) := by
  have := rank_loop src {} 0 (by simp [RankInv])
  simpa [decode] using this

theorem letters_le (src : List UInt8) : letters src ≤ src.length := List.length_filter_le _ _

end Conduit.Base64
