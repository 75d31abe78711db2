/-
The 64 bit hash of a list of numbers.
Source: /repo/src/libs/conduit/conduit_utils.cpp
-/
namespace Conduit.Hash

/-- The number of values of a `uint32`. -/
def word : Nat := 4294967296

/-- conduit_utils.cpp:1947-1951, 1957-1963: one byte; sums wrap around at 32 bits. -/
def mix (h b : Nat) : Nat :=
  let h := (h + b) % word
  let h := (h + (h <<< 10) % word) % word
  h ^^^ (h >>> 6)

/-- conduit_utils.cpp:1965-1971: the last steps. -/
def finish (h : Nat) : Nat :=
  let h := (h + (h <<< 3) % word) % word
  let h := h ^^^ (h >>> 11)
  (h + (h <<< 15) % word) % word

/-- The eight bytes of an `index_t`.  Simplification: a little endian platform. -/
def bytes8 (v : Int) : List Nat := (List.range 8).map fun i => (v.emod 18446744073709551616).toNat / 256 ^ i % 256

/-- conduit_utils.cpp:1938-1975 `hash_uint8`: the bytes forwards and backwards, after those of their number. -/
def hashBytes (data : List Nat) : Nat :=
  let start := (bytes8 data.length).foldl mix 0
  finish (data.foldl mix start) * word + finish (data.reverse.foldl mix start)

/-- conduit_utils.cpp:2005-2010 `hash(const index_t *, unsigned int)`. -/
def hashIds (ids : List Int) : Nat := hashBytes (ids.flatMap bytes8)

end Conduit.Hash
