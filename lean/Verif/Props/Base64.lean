import Verif.Lemmas.Base64
/-
Property theorems C05 (base64 round trip) and C06 (buffer sizes).
-/
namespace Conduit.Base64

/-! ## C05 -/

/-- C05: decoding the encoded text gives the bytes back, for every byte
    sequence that `base64_encode` accepts (`(int)` cast of the size). -/
theorem C05_roundtrip (bs : List UInt8) (h : bs.length < 2 ^ 31) :
    ∃ text, encode bs = some text ∧ (decode text).out = bs := by
  have h1 : bs.length % 2 ^ 32 = bs.length := Nat.mod_eq_of_lt (by omega)
  refine ⟨_, by simp only [encode, h1]; rw [if_neg (by omega), List.take_length], ?_⟩
  simpa [decode] using decode_encBlock bs.length bs (Nat.le_refl _) {} rfl

example : encode [77, 97, 110, 0, 255] = some [84, 87, 70, 117, 65, 80, 56, 61] ∧
    (decode [84, 87, 70, 117, 65, 80, 56, 61]).out = [77, 97, 110, 0, 255] := by decide +kernel

/-- C05: the encoded text is made of complete groups of four letters. -/
theorem C05_length (bs text : List UInt8) (hb : bs.length < 2 ^ 31) (h : encode bs = some text) :
    text.length = 4 * ((bs.length + 2) / 3) := by
  have h1 : bs.length % 2 ^ 32 = bs.length := Nat.mod_eq_of_lt (by omega)
  simp only [encode, h1] at h
  rw [if_neg (by omega), List.take_length] at h
  simp only [Option.some.injEq] at h
  rw [← h]; exact encBlock_length bs.length bs (Nat.le_refl _)

/-- C05: inputs of 2 GiB are outside the supported range: the size cast gives
    a negative length (undefined behaviour). -/
theorem C05_large_false (bs : List UInt8) (h1 : 2 ^ 31 ≤ bs.length) (h2 : bs.length < 2 ^ 32) :
    encode bs = none := by
  have h3 : bs.length % 2 ^ 32 = bs.length := Nat.mod_eq_of_lt h2
  simp only [encode, h3, if_pos h1]

/-! ## C06 -/

/-- C06: `base64_encode` writes its text and the closing NUL inside the buffer
    promised by `base64_encode_buffer_size`. -/
theorem C06_encode_in_bounds (bs text : List UInt8) (hb : bs.length < 2 ^ 31)
    (h : encode bs = some text) : text.length + 1 ≤ encodeBufferSize bs.length := by
  rw [C05_length bs text hb h]; unfold encodeBufferSize; omega

example : ([1, 2, 3, 4] : List UInt8).length < 2 ^ 31 := by decide

/-- C06: exact extent of the decoder's writes on any text, well formed or not:
    `k` base64 letters touch `max 1 (3*(k/4) + k%4)` bytes of the buffer. -/
theorem C06_decode_extent (src : List UInt8) :
    (decode src).extent = max 1 (3 * (letters src / 4) + letters src % 4) :=
  (rank_decode src).2.2

/-- C06 is false of the decoder: three letters overrun the promised buffer. -/
theorem C06_decode_false :
    ¬ ∀ src : List UInt8, (decode src).extent ≤ decodeBufferSize src.length := by
  intro h
  have := h [81, 85, 74]  -- "QUJ"
  revert this; decide +kernel

/-- C06 (partial): for any text whose length is a multiple of four, whatever its
    characters, the decoder stays inside `base64_decode_buffer_size`. -/
theorem C06_decode_in_bounds_partial (src : List UInt8) (h : src.length % 4 = 0) :
    (decode src).extent ≤ decodeBufferSize src.length := by
  rw [C06_decode_extent]
  have := letters_le src
  unfold decodeBufferSize; omega

example : ([65, 0, 61, 255] : List UInt8).length % 4 = 0 := by decide

/-- C06: in general the overrun is at most two bytes. -/
theorem C06_decode_overrun_le_two (src : List UInt8) :
    (decode src).extent ≤ decodeBufferSize src.length + 2 := by
  rw [C06_decode_extent]
  have := letters_le src
  unfold decodeBufferSize; omega

/-- C06: exactly which texts overrun. -/
theorem C06_decode_overrun_iff (src : List UInt8) :
    decodeBufferSize src.length < (decode src).extent ↔
      letters src / 4 = src.length / 4 ∧ 2 ≤ letters src % 4 := by
  rw [C06_decode_extent]
  have := letters_le src
  unfold decodeBufferSize; omega

/-- C05/C06 together: conduit's own encoded text decodes inside the promised
    buffer, and that buffer holds at least the original bytes. -/
theorem C06_own_text_in_bounds (bs text : List UInt8) (hb : bs.length < 2 ^ 31)
    (h : encode bs = some text) :
    (decode text).extent ≤ decodeBufferSize text.length ∧
    bs.length ≤ decodeBufferSize text.length := by
  have hl := C05_length bs text hb h
  refine ⟨C06_decode_in_bounds_partial text (by omega), ?_⟩
  rw [hl]; unfold decodeBufferSize; omega

end Conduit.Base64
