/-
Model of conduit's base64 wrappers and the builtin libb64 coder.
Sources: /repo/src/libs/conduit/conduit_utils.cpp (1264-1319),
/repo/src/thirdparty_builtin/libb64-1.2.1/src/cencode.cpp and cdecode.cpp.
A `char` is a `UInt8`; the shifts and masks below never overflow 8 bits.
-/
namespace Conduit.Base64

/-- cencode.cpp:21, the 64 letters. -/
def alphabet : List UInt8 :=
  "ABCDEFGHIJKLMNOPQRSTUVWXYZabcdefghijklmnopqrstuvwxyz0123456789+/".toList.map (fun c => UInt8.ofNat c.toNat)

/-- cencode.cpp:19-24 `base64_encode_value`. Every caller passes 0..63; a value
    above 63 gives '='. -/
def encodeValue (v : UInt8) : UInt8 := (alphabet[v.toNat]?).getD 61

/-- cencode.h: `base64_encodestep`, with the pending bits (`result`). -/
inductive EncSt where
  | stepA | stepB (result : UInt8) | stepC (result : UInt8)

/-- cencode.cpp:26-90 `base64_encode_block`: the fall-through `switch` as three
    mutually recursive positions.  Returns the characters written and the
    state saved for `base64_encode_blockend`. -/
def encBlock : EncSt → List UInt8 → List UInt8 × EncSt
  | .stepA, [] => ([], .stepA)
  | .stepA, f :: rest =>
      let r := encBlock (.stepB ((f &&& 0x03) <<< 4)) rest
      (encodeValue ((f &&& 0xfc) >>> 2) :: r.1, r.2)
  | .stepB res, [] => ([], .stepB res)
  | .stepB res, f :: rest =>
      let r := encBlock (.stepC ((f &&& 0x0f) <<< 2)) rest
      (encodeValue (res ||| ((f &&& 0xf0) >>> 4)) :: r.1, r.2)
  | .stepC res, [] => ([], .stepC res)
  | .stepC res, f :: rest =>
      let r := encBlock .stepA rest
      (encodeValue (res ||| ((f &&& 0xc0) >>> 6)) :: encodeValue ((f &&& 0x3f) >>> 0) :: r.1, r.2)

/-- cencode.cpp:92-113 `base64_encode_blockend`, without the final newline,
    which conduit overwrites with NUL (conduit_utils.cpp:1286). -/
def encEnd : EncSt → List UInt8
  | .stepA => []
  | .stepB res => [encodeValue res, 61, 61]
  | .stepC res => [encodeValue res, 61]

/-- conduit_utils.cpp:1265-1287 `base64_encode`: the text written, without the
    closing NUL (which is one more byte written).  `none`: the cast
    `(int)src_nbytes` gives a negative length, so the end pointer lies before
    the start and the loop runs out of the input (undefined behaviour); a size
    of 2^32 or more is silently reduced modulo 2^32. -/
def encode (src : List UInt8) : Option (List UInt8) :=
  let n := src.length % 2 ^ 32
  if n ≥ 2 ^ 31 then none
  else
    let r := encBlock .stepA (src.take n)
    some (r.1 ++ encEnd r.2)

/-- conduit_utils.cpp:1290-1294. -/
def encodeBufferSize (n : Nat) : Nat := (4 * n) / 3 + 4 + 1

/-- conduit_utils.cpp:1297-1301. -/
def decodeBufferSize (n : Nat) : Nat := (n / 4) * 3 + 1

/-- cdecode.cpp:22, entries for the characters 43 ('+') .. 122 ('z'). -/
def decoding : List Int := [62,-1,-1,-1,63,52,53,54,55,56,57,58,59,60,61,-1,-1,-1,-2,-1,-1,-1,
  0,1,2,3,4,5,6,7,8,9,10,11,12,13,14,15,16,17,18,19,20,21,22,23,24,25,-1,-1,-1,-1,-1,-1,
  26,27,28,29,30,31,32,33,34,35,36,37,38,39,40,41,42,43,44,45,46,47,48,49,50,51]

/-- cdecode.cpp:20-27 `base64_decode_value`; `value_in -= 43` wraps in a signed
    8-bit char. -/
def decodeValue (c : UInt8) : Int :=
  let v := (c - 43).toInt8.toInt
  if v < 0 ∨ v ≥ decoding.length then -1 else (decoding[v.toNat]?).getD (-1)

inductive DecStep where
  | a | b | c | d
deriving DecidableEq

/-- State of cdecode.cpp:35-102: position in the fall-through switch, bytes
    completed before `plainchar`, the byte at `plainchar`, and one past the
    highest index of the output buffer written so far. -/
structure Dec where
  step : DecStep := .a
  out : List UInt8 := []
  cell : UInt8 := 0
  extent : Nat := 1          -- line 41 writes `*plainchar` before looking at the input
deriving DecidableEq

/-- One accepted character of cdecode.cpp:47-97. -/
def decPut (s : Dec) (f : UInt8) : Dec :=
  match s.step with
  | .a => { step := .b, out := s.out, cell := (f &&& 0x3f) <<< 2,
            extent := max s.extent (s.out.length + 1) }
  | .b => { step := .c, out := s.out ++ [s.cell ||| ((f &&& 0x30) >>> 4)], cell := (f &&& 0x0f) <<< 4,
            extent := max s.extent (s.out.length + 2) }
  | .c => { step := .d, out := s.out ++ [s.cell ||| ((f &&& 0x3c) >>> 2)], cell := (f &&& 0x03) <<< 6,
            extent := max s.extent (s.out.length + 2) }
  | .d => { step := .a, out := s.out ++ [s.cell ||| (f &&& 0x3f)], cell := 0, extent := s.extent }

/-- The loop of cdecode.cpp:43-99: characters whose value is negative are skipped. -/
def decLoop (s : Dec) : List UInt8 → Dec
  | [] => s
  | c :: cs =>
    let v := decodeValue c
    if v < 0 then decLoop s cs else decLoop (decPut s (UInt8.ofNat v.toNat)) cs

/-- conduit_utils.cpp:1305-1319 `base64_decode` (for inputs shorter than 2^31). -/
def decode (src : List UInt8) : Dec := decLoop {} src

end Conduit.Base64
